import Verif.Lemmas.ResponseAssemble
import Verif.Model.ResponseProjected

/-!
# Lemmas for projected linear response
-/

namespace SQ

theorem ketbra_apply (a b x : Fock ℝ) : ketbra a b x = inner b x • a := rfl

theorem ketbra_adjoint (a b : Fock ℝ) : IsAdjoint (ketbra a b) (ketbra b a) := by
  intro x y
  rw [ketbra_apply, ketbra_apply, inner_smul_left, inner_smul_right, inner_comm x b]
  ring

theorem projOp_adjoint (Ψ : Fock ℝ) (T : FOp ℝ) :
    IsAdjoint (projOp Ψ T) (ketbra Ψ (T Ψ) - expv Ψ T • 1) := by
  refine (ketbra_adjoint _ _).sub (IsAdjoint.smul _ ?_)
  intro x y
  rfl

theorem comm_scalar_left (A B : FOp ℝ) (c : ℝ) : comm (A - c • 1) B = comm A B := by
  unfold comm
  rw [sub_mul, mul_sub, smul_mul_assoc, mul_smul_comm, one_mul, mul_one]
  abel

theorem comm_scalar_right (A B : FOp ℝ) (c : ℝ) : comm A (B - c • 1) = comm A B := by
  unfold comm
  rw [sub_mul, mul_sub, smul_mul_assoc, mul_smul_comm, one_mul, mul_one]
  abel

theorem dcomm_scalar_left (A H B : FOp ℝ) (c : ℝ) : dcomm (A - c • 1) H B = dcomm A H B := by
  unfold dcomm
  rw [comm_scalar_left, comm_scalar_left]

theorem dcomm_scalar_right (A H B : FOp ℝ) (c : ℝ) : dcomm A H (B - c • 1) = dcomm A H B := by
  unfold dcomm
  rw [comm_scalar_right, comm_scalar_right]

section
variable {tiny big : ℝ → Bool} {th : Threads} {W : RespWf}

theorem projGrad_ok (ht : ExactTiny tiny) (hW : W.Proper) (hE : W.energy = expv W.state W.ham)
    (hth : th.Fair W.ci.idx2det.length) {H00 : Vec ℝ}
    (h0 : IsH00 W H00) {G : Dict ℝ} (hG : ActOp W.ci G) :
    ∃ v : ℝ × ℝ, projGrad tiny th W H00 G = .ok v ∧
      v.1 = expv W.state (comm W.ham (projOp W.state (sumOp G))) ∧
      v.2 = expv W.state (comm W.ham (projOp W.state (sumOp G))) := by
  have hs := hW.space
  have hH := ham_adjoint hW
  obtain ⟨Gk, a1, a2⟩ := W.prop_act (th := th) ht hs hth hG W.c
  have e1 : inner (emb W.ci H00) (emb W.ci Gk) = inner W.state (W.ham (sumOp G W.state)) := by
    rw [inner_comm, h0, a2, inner_comm, hH]; rfl
  have e2 : inner (emb W.ci W.c) (emb W.ci Gk) = inner W.state (sumOp G W.state) := by rw [a2]; rfl
  have e3 : expv W.state (comm W.ham (projOp W.state (sumOp G))) =
      inner W.state (W.ham (sumOp G W.state)) - W.energy * inner W.state (sumOp G W.state) := by
    unfold projOp
    rw [comm_scalar_right, expv_comm, ketbra_apply, ketbra_apply, hW.norm, one_smul, inner_smul_right, hE]
    rfl
  refine ⟨_, by
    unfold projGrad
    simp only [a1, W.ev_nil hs, ok_bind]
    rfl, ?_, ?_⟩
  · dsimp only
    rw [e1, e2, e3]
  · dsimp only
    rw [inner_comm (emb W.ci Gk) (emb W.ci H00), inner_comm (emb W.ci Gk) (emb W.ci W.c), e1, e2, e3]

/-- The entries of the block of the active operators. -/
theorem projAct_ok (ht : ExactTiny tiny) (hW : W.Proper) (hE : W.energy = expv W.state W.ham)
    (hth : th.Fair W.ci.idx2det.length) {H0 : Dict ℝ} (hH0 : GenOp W.ci H0)
    (hH : ∀ x y, ActiveState W.ci.nI W.ci.nA x → ActiveState W.ci.nI W.ci.nA y →
      inner x (sumOp H0 y) = inner x (W.ham y)) {HA : Dict ℝ} (hHA : GenOp W.ci HA)
    (hA : ∀ x y, ActiveState W.ci.nI W.ci.nA x → ActiveState W.ci.nI W.ci.nA y →
      inner x (sumOp HA y) = inner x (W.ham y)) {GJ : Dict ℝ} (hJ : ActOp W.ci GJ) :
    ∃ k, projActPre tiny th W H0 GJ = .ok k ∧ ∀ GI, ActOp W.ci GI →
      ∃ v : ℝ × ℝ × ℝ, projAct tiny th W H0 HA k GJ GI = .ok v ∧
        ∀ B, IsAdjoint (projOp W.state (sumOp GJ)) B → ∀ A, IsAdjoint (projOp W.state (sumOp GI)) A →
          v.1 = expv W.state (dcomm A W.ham (projOp W.state (sumOp GJ))) ∧
          v.2.1 = expv W.state (dcomm A W.ham B) ∧
          v.2.2 = expv W.state (comm A (projOp W.state (sumOp GJ))) := by
  have hs := hW.space
  have hHa := ham_adjoint hW
  have hact := emb_active W.ci
  have aW : ActiveState W.ci.nI W.ci.nA W.state := hact _
  obtain ⟨GJk, f1, f2⟩ := W.prop_act (th := th) ht hs hth hJ W.c
  obtain ⟨HGJ, e1, e2⟩ := W.prop_gen (th := th) ht hs hth hH0 GJk
  replace e2 : ∀ bra, inner (emb W.ci bra) (emb W.ci HGJ)
      = inner (emb W.ci bra) (W.ham (sumOp GJ W.state)) := fun bra => by
    rw [e2, f2, hH _ _ (hact _) (active_sumOp hJ.2 (hact _))]; rfl
  obtain ⟨H00, p1, p2⟩ := W.prop_gen (th := th) ht hs hth hH0 W.c
  have h0 : IsH00 W H00 := fun bra => by
    rw [p2, hH _ _ (hact _) (hact _)]; rfl
  refine ⟨(GJk, HGJ), by
    unfold projActPre
    simp only [f1, e1, ok_bind]
    rfl, fun GI hI => ?_⟩
  obtain ⟨GIk, h1, h2⟩ := W.prop_act (th := th) ht hs hth hI W.c
  obtain ⟨Id, i1, i2, i3⟩ := hI.dagger ht
  obtain ⟨Jd, j1, j2, j3⟩ := hJ.dagger ht
  have two : ∀ {T : Dict ℝ} {T' : FOp ℝ}, ActOp W.ci T → IsAdjoint (sumOp T) T' → 
      W.ev tiny th W.c [.op T, .op H0] W.c = .ok (inner W.state (sumOp T (W.ham W.state))) := by
    intro T T' hT hTd
    obtain ⟨Td, -, k2, k3⟩ := hT.dagger ht
    obtain ⟨w, w1, w2⟩ := W.prop_act (th := th) ht hs hth hT H00
    obtain ⟨u, -, u2⟩ := W.prop_act (th := th) ht hs hth k2 W.c
    have : W.prop tiny th [.op T, .op H0] W.c = .ok w := by
      unfold RespWf.prop at p1 w1 ⊢
      rw [propagate_two _ _ _ _ _ _ p1, w1]
    unfold RespWf.ev expectationValue
    unfold RespWf.prop at this
    rw [this]
    have e : dot W.ci.idx2det.length W.c w = inner W.state (sumOp T (W.ham W.state)) := by
      rw [dot_emb hs, w2, ← k3.symm, ← u2, h0, u2, k3.symm]
      rfl
    rw [← e]
    rfl
  refine ⟨_, by
    unfold projAct
    simp only [h1, i1, j1, W.ev_nil hs, W.ev_op ht hs hth i2.gen, W.ev_op ht hs hth j2.gen,
      W.ev_op ht hs hth hHA, two i2 i3.symm, two j2 j3.symm, ok_bind]
    rfl, fun B hB A hAd => ?_⟩
  obtain rfl := hB.unique (projOp_adjoint _ _)
  obtain rfl := hAd.unique (projOp_adjoint _ _)
  have r1 : inner (emb W.ci GIk) (emb W.ci HGJ) = inner (sumOp GI W.state) (W.ham (sumOp GJ W.state)) := by
    rw [e2, h2]; rfl
  have r2 : inner (emb W.ci GIk) (emb W.ci W.c) = inner (sumOp GI W.state) W.state := by rw [h2]; rfl
  have r3 : inner (emb W.ci W.c) (emb W.ci GJk) = inner (sumOp GJ W.state) W.state := by
    rw [f2, inner_comm]; rfl
  have r4 : inner (emb W.ci GIk) (emb W.ci GJk) = inner (sumOp GI W.state) (sumOp GJ W.state) := by
    rw [h2, f2]; rfl
  have r6 : inner (emb W.ci W.c) (emb W.ci HGJ) = inner (sumOp GJ W.state) (W.ham W.state) := by
    rw [e2, ← hHa, inner_comm]; rfl
  have r8 : inner (emb W.ci GIk) (sumOp HA (emb W.ci W.c)) = inner (sumOp GI W.state) (W.ham W.state) := by
    rw [hA _ _ (hact _) (hact _), h2]; rfl
  have r9 : inner W.state (sumOp Id (W.ham W.state)) = inner (sumOp GI W.state) (W.ham W.state) := by rw [i3]
  have r10 : inner W.state (sumOp Jd (W.ham W.state)) = inner (sumOp GJ W.state) (W.ham W.state) := by rw [j3]
  have r11 : inner (emb W.ci W.c) (sumOp Jd (emb W.ci W.c)) = inner (sumOp GJ W.state) W.state := by
    rw [← j3]; rfl
  have r12 : inner (emb W.ci W.c) (sumOp Id (emb W.ci W.c)) = inner (sumOp GI W.state) W.state := by
    rw [← i3]; rfl
  have r13 : inner (emb W.ci GJk) (emb W.ci W.c) = inner (sumOp GJ W.state) W.state := by rw [f2]; rfl
  have x1 : inner W.state (W.ham W.state) = W.energy := hE.symm
  have x2 : inner W.state (sumOp GJ W.state) = inner (sumOp GJ W.state) W.state := inner_comm _ _
  have x3 : inner W.state (W.ham (sumOp GJ W.state)) = inner (sumOp GJ W.state) (W.ham W.state) := by
    rw [← hHa, inner_comm]
  rw [dcomm_scalar_left, dcomm_scalar_left, comm_scalar_left]
  unfold projOp
  rw [dcomm_scalar_right, dcomm_scalar_right, comm_scalar_right]
  simp only [expv_dcomm, expv_comm, ketbra_apply, map_smul, inner_smul_right, hW.norm, one_smul, one_mul, mul_one]
  rw [r1, r2, r3, r4, r6, r8, r9, r10, r11, r12, r13, x1, x2, x3]
  refine ⟨?_, ?_, ?_⟩
  · ring
  · ring
  · ring

/-- The entries of the mixed blocks. -/
theorem projMixed_ok (ht : ExactTiny tiny) (hW : W.Proper) (hth : th.Fair W.ci.idx2det.length)
    {H1 : Dict ℝ} (hH1 : GenOp W.ci H1)
    (hH : ∀ x y, ActiveState W.ci.nI W.ci.nA x → NearState W.ci.nI W.ci.nA y →
      inner x (sumOp H1 y) = inner x (W.ham y) ∧ inner y (sumOp H1 x) = inner y (W.ham x))
    {k : ℕ × ℕ} {q : Dict ℝ} (hq : GenOp W.ci q)
    (eq : sumOp q = qOp k.2 k.1) :
    ∃ κ, naiveMixedPre tiny th W H1 q = .ok κ ∧ 
      (∀ bra, inner (emb W.ci bra) (emb W.ci κ.1) = inner (emb W.ci bra) (W.ham (qOp k.2 k.1 W.state))) ∧
      (∀ bra, inner (emb W.ci bra) (emb W.ci κ.2) = inner (emb W.ci bra) (qOp k.1 k.2 (W.ham W.state))) ∧
      ∀ GI, ActOp W.ci GI → ∃ v : ℝ × ℝ, projMixed tiny th W κ GI = .ok v ∧
        v.1 = inner (sumOp GI W.state) (W.ham (qOp k.2 k.1 W.state)) ∧
        v.2 = -1 / 2 * inner (sumOp GI W.state) (qOp k.1 k.2 (W.ham W.state)) := by
  have hs := hW.space
  have hact := emb_active W.ci
  obtain ⟨Hq, a1, a2, a3⟩ := hH1.mul ht hq
  obtain ⟨Hqk, b1, b2⟩ := W.prop_gen (th := th) ht hs hth a2 W.c
  obtain ⟨qd, c1, c2, c3⟩ := hq.dagger ht
  obtain ⟨qdH, d1, d2, d3⟩ := c2.mul ht hH1
  obtain ⟨qdHk, e1, e2⟩ := W.prop_gen (th := th) ht hs hth d2 W.c
  have eqd : sumOp qd = qOp k.1 k.2 := c3.unique (by rw [eq]; exact qOp_adjoint _ _)
  have hadj := qOp_adjoint k.2 k.1
  rw [a3, eq] at b2
  rw [d3, eqd] at e2
  replace b2 : ∀ bra, inner (emb W.ci bra) (emb W.ci Hqk) = inner (emb W.ci bra) (W.ham (qOp k.2 k.1 W.state)) :=
    fun bra => by rw [b2, Module.End.mul_apply, (hH _ _ (hact _) (near_qOp (hact _) _ _)).1]; rfl
  replace e2 : ∀ bra, inner (emb W.ci bra) (emb W.ci qdHk) = inner (emb W.ci bra) (qOp k.1 k.2 (W.ham W.state)) :=
    fun bra => by
      rw [e2, Module.End.mul_apply, ← hadj, ← hadj, (hH _ _ (hact _) (near_qOp (hact _) _ _)).2]; rfl
  refine ⟨(Hqk, qdHk), by
    unfold naiveMixedPre
    simp only [a1, b1, c1, d1, e1, ok_bind]
    rfl, b2, e2, fun GI hI => ?_⟩
  obtain ⟨Gk, f1, f2⟩ := W.prop_act (th := th) ht hs hth hI W.c
  refine ⟨_, by
    unfold projMixed
    simp only [f1, W.ev_nil hs, ok_bind]
    rfl, ?_, ?_⟩
  · dsimp only; rw [b2, f2]; rfl
  · dsimp only; rw [e2, f2]; rfl

end

end SQ
