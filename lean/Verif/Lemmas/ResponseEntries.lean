import Verif.Lemmas.ResponseOps
import Verif.Lemmas.ResponseLoop
import Verif.Props.Density

/-!
# Lemmas for the response matrices: the single entries
-/

namespace SQ

theorem expv_mean (Ψ : Fock ℝ) (T : FOp ℝ) : expv Ψ T = mean [Ψ] T := (mean_single Ψ T).symm

theorem expv_adjoint (Ψ : Fock ℝ) {S T : FOp ℝ} (h : IsAdjoint S T) : expv Ψ S = expv Ψ T := by
  rw [expv_mean, expv_mean, mean_adjoint _ h]

theorem IsAdjoint.comm {A A' B B' : FOp ℝ} (h : IsAdjoint A A') (k : IsAdjoint B B') :
    IsAdjoint (comm A B) (comm B' A') := (h.mul k).sub (k.mul h)

theorem dcomm_swap (A H B : FOp ℝ) : dcomm A H B = dcomm B H A := by
  unfold dcomm SQ.comm
  congr 1
  noncomm_ring

theorem dcomm_adjoint {A A' B B' H : FOp ℝ} (h : IsAdjoint A A') (k : IsAdjoint B B') (hH : IsAdjoint H H) :
    IsAdjoint (dcomm A H B) (dcomm B' H A') := by
  rw [dcomm, dcomm]
  refine IsAdjoint.smul _ ?_
  rw [add_comm (comm B' _)]
  exact (h.comm (hH.comm k)).add ((h.comm hH).comm k)

theorem expv_comm (Ψ : Fock ℝ) (A B : FOp ℝ) :
    expv Ψ (comm A B) = inner Ψ (A (B Ψ)) - inner Ψ (B (A Ψ)) := by
  simp only [expv, comm, LinearMap.sub_apply, Module.End.mul_apply, inner_sub_right]

theorem expv_dcomm (Ψ : Fock ℝ) (A H B : FOp ℝ) :
    expv Ψ (dcomm A H B) = inner Ψ (A (H (B Ψ))) + inner Ψ (B (H (A Ψ)))
      - 1 / 2 * inner Ψ (A (B (H Ψ))) - 1 / 2 * inner Ψ (H (B (A Ψ)))
      - 1 / 2 * inner Ψ (B (A (H Ψ))) - 1 / 2 * inner Ψ (H (A (B Ψ))) := by
  simp only [expv, dcomm, comm, LinearMap.sub_apply, LinearMap.add_apply, LinearMap.smul_apply,
    Module.End.mul_apply, inner_sub_right, inner_add_right, inner_smul_right, map_sub]
  ring

/-- The operator lowers an active state to zero: `E_mn` of a non-redundant pair `m` below `n`. -/
theorem qOp_kills {nI nA : ℕ} {x : Fock ℝ} (hx : ActiveState nI nA x) {k : ℕ × ℕ} (hk : NonRedundant nI nA k) :
    qOp k.1 k.2 x = 0 := by
  unfold qOp
  rw [LinearMap.smul_apply]
  rcases hk with ⟨h1, h2⟩ | ⟨-, -, h2⟩
  · rw [E_filled hx h1, delta, if_neg (by omega)]; simp
  · rw [E_empty hx h2, smul_zero]

theorem qOp_adjoint (m n : ℕ) : IsAdjoint (qOp m n) (qOp n m) := (adjoint_E m n).smul _

theorem near_smul {nI nA : ℕ} {x : Fock ℝ} (c : ℝ) (hx : NearState nI nA x) : NearState nI nA (c • x) := by
  intro S h
  rw [coeff_smul] at h
  exact hx S (right_ne_zero_of_mul h)

theorem near_qOp {nI nA : ℕ} {x : Fock ℝ} (hx : ActiveState nI nA x) (m n : ℕ) :
    NearState nI nA (qOp m n x) := near_smul _ (near_E hx m n)

theorem ham_adjoint {W : RespWf} (hW : W.Proper) : IsAdjoint W.ham W.ham :=
  C11_hermitian W.h W.g W.numOrbs (fun p q _ _ => hW.ints.one p q) (fun p q r s _ _ _ _ => hW.ints.real p q r s)

section
variable {tiny big : ℝ → Bool} {th : Threads} {W : RespWf}

theorem RespWf.ev_nil (hs : AnsatzSpace W.ci W.ci.nA) (a b : Vec ℝ) :
    W.ev tiny th a [] b = .ok (inner (emb W.ci a) (emb W.ci b)) := by
  unfold RespWf.ev expectationValue propagateState
  rw [if_pos (by rfl), ← dot_emb hs]
  rfl

theorem RespWf.prop_act (ht : ExactTiny tiny) (hs : AnsatzSpace W.ci W.ci.nA) (hth : th.Fair W.ci.idx2det.length)
    {A : Dict ℝ} (hA : ActOp W.ci A) (v : Vec ℝ) :
    ∃ w, W.prop tiny th [.op A] v = .ok w ∧ emb W.ci w = sumOp A (emb W.ci v) := applyAct ht hs hth W.U hA v

theorem RespWf.prop_gen (ht : ExactTiny tiny) (hs : AnsatzSpace W.ci W.ci.nA) (hth : th.Fair W.ci.idx2det.length)
    {A : Dict ℝ} (hA : GenOp W.ci A) (v : Vec ℝ) :
    ∃ w, W.prop tiny th [.op A] v = .ok w ∧
      ∀ bra, inner (emb W.ci bra) (emb W.ci w) = inner (emb W.ci bra) (sumOp A (emb W.ci v)) :=
  applyGen ht hs hth W.U hA v

theorem propagate_two (ci : CIInfo) (U : Bool → Vec ℝ → Res (Vec ℝ)) (a b : StateOp ℝ) (v w : Vec ℝ) 
    (h : propagateState tiny th ci U true false [b] v = .ok w) :
    propagateState tiny th ci U true false [a, b] v = propagateState tiny th ci U true false [a] w := by
  unfold propagateState at h ⊢
  rw [if_neg (by simp)] at h ⊢
  rw [if_neg (by simp)]
  simp only [List.reverse_cons, List.reverse_nil, List.nil_append, List.singleton_append, List.foldlM_cons,
    List.foldlM_nil] at h ⊢
  cases e : propStep tiny th ci U true false v b with
  | error e' => rw [e] at h; exact absurd h (by intro h'; cases h')
  | ok w' =>
    rw [e] at h
    obtain rfl : w' = w := Except.ok.inj h
    rfl

theorem RespWf.prop_gen_act (ht : ExactTiny tiny) (hs : AnsatzSpace W.ci W.ci.nA)
    (hth : th.Fair W.ci.idx2det.length) {H A : Dict ℝ} (hH : GenOp W.ci H) (hA : ActOp W.ci A) (v : Vec ℝ) :
    ∃ w, W.prop tiny th [.op H, .op A] v = .ok w ∧
      ∀ bra, inner (emb W.ci bra) (emb W.ci w) = inner (emb W.ci bra) (sumOp H (sumOp A (emb W.ci v))) := by
  obtain ⟨x, h1, h2⟩ := W.prop_act (th := th) ht hs hth hA v
  obtain ⟨w, h3, h4⟩ := W.prop_gen (th := th) ht hs hth hH x
  refine ⟨w, ?_, fun bra => by rw [h4, h2]⟩
  unfold RespWf.prop at h1 h3 ⊢
  rw [propagate_two _ _ _ _ _ _ h1, h3]

theorem RespWf.ev_op (ht : ExactTiny tiny) (hs : AnsatzSpace W.ci W.ci.nA) (hth : th.Fair W.ci.idx2det.length)
    {A : Dict ℝ} (hA : GenOp W.ci A) (a b : Vec ℝ) :
    W.ev tiny th a [.op A] b = .ok (inner (emb W.ci a) (sumOp A (emb W.ci b))) := by
  obtain ⟨w, h1, h2⟩ := W.prop_gen (th := th) ht hs hth hA b
  unfold RespWf.ev expectationValue
  unfold RespWf.prop at h1
  rw [h1, ← h2, ← dot_emb hs]
  rfl

/-- `H|0⟩` as seen from the space. -/
def IsH00 (W : RespWf) (v : Vec ℝ) : Prop :=
  ∀ bra, inner (emb W.ci bra) (emb W.ci v) = inner (emb W.ci bra) (W.ham W.state)

theorem naiveGrad_ok (ht : ExactTiny tiny) (hW : W.Proper) (hth : th.Fair W.ci.idx2det.length) {H00 : Vec ℝ}
    (h0 : IsH00 W H00) {G : Dict ℝ} (hG : ActOp W.ci G) :
    ∃ v : ℝ × ℝ, naiveGrad tiny th W H00 G = .ok v ∧ v.1 = expv W.state (comm W.ham (sumOp G)) ∧
      v.2 = expv W.state (comm W.ham (sumOp G)) := by
  have hs := hW.space
  have hH := ham_adjoint hW
  obtain ⟨Gk, a1, a2⟩ := W.prop_act (th := th) ht hs hth hG W.c
  obtain ⟨Gd, b1, b2, b3⟩ := hG.dagger ht
  obtain ⟨Gdk, c1, c2⟩ := W.prop_act (th := th) ht hs hth b2 W.c
  have e1 : inner (emb W.ci H00) (emb W.ci Gk) = inner W.state (W.ham (sumOp G W.state)) := by
    rw [inner_comm, h0, a2, inner_comm, hH]; rfl
  have e2 : inner (emb W.ci Gdk) (emb W.ci H00) = inner W.state (sumOp G (W.ham W.state)) := by
    rw [h0, c2, b3.symm]; rfl
  refine ⟨_, by
    unfold naiveGrad
    simp only [a1, b1, c1, W.ev_nil hs, ok_bind]
    rfl, ?_, ?_⟩
  · dsimp only
    rw [e1, e2, expv_comm]
  · dsimp only
    rw [inner_comm (emb W.ci Gk), e1, inner_comm (emb W.ci H00), e2, expv_comm]

/-- The entries of the block of the active operators. -/
theorem naiveAct_ok (ht : ExactTiny tiny) (hW : W.Proper) (hth : th.Fair W.ci.idx2det.length) {H00 : Vec ℝ}
    (h0 : IsH00 W H00) {H0 : Dict ℝ} (hH0 : GenOp W.ci H0)
    (hH : ∀ x y, ActiveState W.ci.nI W.ci.nA x → ActiveState W.ci.nI W.ci.nA y →
      inner x (sumOp H0 y) = inner x (W.ham y)) {GJ : Dict ℝ} (hJ : ActOp W.ci GJ) :
    ∃ k, naiveActPre tiny th W H0 H00 GJ = .ok k ∧ ∀ GI, ActOp W.ci GI →
      (∀ GJd, IsAdjoint (sumOp GJ) GJd → ∀ GId, IsAdjoint (sumOp GI) GId → GJd * GId = GId * GJd) →
      ∃ v : ℝ × ℝ × ℝ, naiveAct tiny th W H00 k GI = .ok v ∧
        ∀ GJd, IsAdjoint (sumOp GJ) GJd → ∀ GId, IsAdjoint (sumOp GI) GId →
          v.1 = expv W.state (dcomm GId W.ham (sumOp GJ)) ∧ v.2.1 = expv W.state (dcomm GId W.ham GJd) ∧
          v.2.2 = expv W.state (comm GId (sumOp GJ)) := by
  have hs := hW.space
  have hHa := ham_adjoint hW
  obtain ⟨GJH, a1, a2⟩ := W.prop_act (th := th) ht hs hth hJ H00
  obtain ⟨Jd, b1, b2, b3⟩ := hJ.dagger ht
  obtain ⟨GJdH, c1, c2⟩ := W.prop_act (th := th) ht hs hth b2 H00
  obtain ⟨HGJd, d1, d2⟩ := W.prop_gen_act (th := th) ht hs hth hH0 b2 W.c
  obtain ⟨HGJ, e1, e2⟩ := W.prop_gen_act (th := th) ht hs hth hH0 hJ W.c
  obtain ⟨GJk, f1, f2⟩ := W.prop_act (th := th) ht hs hth hJ W.c
  obtain ⟨GJdk, g1, g2⟩ := W.prop_act (th := th) ht hs hth b2 W.c
  have hact := emb_active W.ci
  replace d2 : ∀ bra, inner (emb W.ci bra) (emb W.ci HGJd)
      = inner (emb W.ci bra) (W.ham (sumOp Jd W.state)) := fun bra => by
    rw [d2, hH _ _ (hact _) (active_sumOp b2.2 (hact _))]; rfl
  replace e2 : ∀ bra, inner (emb W.ci bra) (emb W.ci HGJ)
      = inner (emb W.ci bra) (W.ham (sumOp GJ W.state)) := fun bra => by
    rw [e2, hH _ _ (hact _) (active_sumOp hJ.2 (hact _))]; rfl
  refine ⟨⟨GJH, GJdH, HGJd, HGJ, GJk, GJdk⟩, by
    unfold naiveActPre
    simp only [a1, b1, c1, d1, e1, f1, g1, ok_bind]
    rfl, fun GI hI hcomm => ?_⟩
  obtain ⟨GIk, h1, h2⟩ := W.prop_act (th := th) ht hs hth hI W.c
  obtain ⟨Id, i1, i2, i3⟩ := hI.dagger ht
  obtain ⟨GIdk, j1, j2⟩ := W.prop_act (th := th) ht hs hth i2 W.c
  -- operators on |H00⟩ are moved to the other side
  have mv : ∀ {T : Dict ℝ} {Td : FOp ℝ} (hT : ActOp W.ci T), IsAdjoint (sumOp T) Td → ∀ bra,
      inner (emb W.ci bra) (Td (emb W.ci H00)) = inner (emb W.ci bra) (Td (W.ham W.state)) := by
    intro T Td hT ha bra
    obtain ⟨w, -, hw⟩ := W.prop_act (th := th) ht hs hth hT bra
    rw [← ha, ← ha, ← hw, h0]
  refine ⟨_, by
    unfold naiveAct
    simp only [h1, i1, j1, W.ev_nil hs, W.ev_op ht hs hth i2.gen, ok_bind]
    rfl, fun GJd hJd GId hId => ?_⟩
  obtain rfl : GJd = sumOp Jd := hJd.unique b3
  obtain rfl : GId = sumOp Id := hId.unique i3
  have t1 : inner (emb W.ci GIk) (emb W.ci HGJ) = inner W.state (sumOp Id (W.ham (sumOp GJ W.state))) := by
    rw [e2, h2, hId]; rfl
  have t2 : inner (emb W.ci HGJd) (emb W.ci GIdk) = inner W.state (sumOp GJ (W.ham (sumOp Id W.state))) := by
    rw [inner_comm, d2, j2, ← hHa, ← hJd.symm, inner_comm]; rfl
  have t3 : inner (emb W.ci GIk) (emb W.ci GJH) = inner W.state (sumOp Id (sumOp GJ (W.ham W.state))) := by
    rw [a2, mv b2 hJd.symm, h2, hId]; rfl
  have t4 : inner (emb W.ci GJdH) (emb W.ci GIdk) = inner W.state (W.ham (sumOp GJ (sumOp Id W.state))) := by
    rw [inner_comm, c2, mv hJ hJd, j2, ← hJd, ← hHa, inner_comm]; rfl
  have t5 : inner (emb W.ci GJdk) (sumOp Id (emb W.ci H00)) = inner W.state (sumOp GJ (sumOp Id (W.ham W.state))) := by
    rw [mv hI hId, g2, hJd.symm]; rfl
  have t6 : inner (emb W.ci H00) (sumOp Id (emb W.ci GJk)) = inner W.state (W.ham (sumOp Id (sumOp GJ W.state))) := by
    obtain ⟨w, -, hw⟩ := W.prop_act (th := th) ht hs hth i2 GJk
    rw [← hw, inner_comm, h0, hw, f2, ← hHa, inner_comm]; rfl
  have u1 : inner (emb W.ci GIk) (emb W.ci HGJd) = inner W.state (sumOp Id (W.ham (sumOp Jd W.state))) := by
    rw [d2, h2, hId]; rfl
  have u2 : inner (emb W.ci GIk) (emb W.ci GJdH) = inner W.state (sumOp Id (sumOp Jd (W.ham W.state))) := by
    rw [c2, mv hJ hJd, h2, hId]; rfl
  have u3 : inner (emb W.ci GJH) (emb W.ci GIdk) = inner W.state (W.ham (sumOp Jd (sumOp Id W.state))) := by
    rw [inner_comm, a2, mv b2 hJd.symm, j2, ← hJd.symm, ← hHa, inner_comm]; rfl
  have u4 : inner (emb W.ci HGJ) (emb W.ci GIdk) = inner W.state (sumOp Jd (W.ham (sumOp Id W.state))) := by
    rw [inner_comm, e2, j2, ← hHa, ← hJd, inner_comm]; rfl
  have hc := hcomm _ hJd _ hId
  have hc' : ∀ x, sumOp Jd (sumOp Id x) = sumOp Id (sumOp Jd x) := fun x => by
    rw [← Module.End.mul_apply, hc]; rfl
  refine ⟨?_, ?_, ?_⟩
  · dsimp only
    rw [t1, t2, t3, t4, t5, t6, expv_dcomm]
  · dsimp only
    rw [u1, u2, u3, u4, expv_dcomm, hc' W.state, hc' (W.ham W.state)]
    ring
  · dsimp only
    rw [h2, f2, g2, j2, expv_comm, hId, hJd.symm]
    rfl

/-- The entries of the mixed blocks. -/
theorem naiveMixed_ok (ht : ExactTiny tiny) (hW : W.Proper) (hth : th.Fair W.ci.idx2det.length)
    {H1 : Dict ℝ} (hH1 : GenOp W.ci H1)
    (hH : ∀ x y, ActiveState W.ci.nI W.ci.nA x → NearState W.ci.nI W.ci.nA y →
      inner x (sumOp H1 y) = inner x (W.ham y) ∧ inner y (sumOp H1 x) = inner y (W.ham x))
    {k : ℕ × ℕ} (hk : NonRedundant W.ci.nI W.ci.nA k) {q : Dict ℝ} (hq : GenOp W.ci q)
    (eq : sumOp q = qOp k.2 k.1) :
    ∃ κ, naiveMixedPre tiny th W H1 q = .ok κ ∧ ∀ GI, ActOp W.ci GI →
      ∃ v : ℝ × ℝ, naiveMixed tiny th W H1 κ q GI = .ok v ∧ ∀ GId, IsAdjoint (sumOp GI) GId →
        v.1 = expv W.state (dcomm GId W.ham (qOp k.2 k.1)) ∧
        v.2 = expv W.state (dcomm GId W.ham (qOp k.1 k.2)) := by
  have hs := hW.space
  have hHa := ham_adjoint hW
  have hact := emb_active W.ci
  obtain ⟨Hq, a1, a2, a3⟩ := hH1.mul ht hq
  obtain ⟨Hqk, b1, b2⟩ := W.prop_gen (th := th) ht hs hth a2 W.c
  obtain ⟨qd, c1, c2, c3⟩ := hq.dagger ht
  obtain ⟨qdH, d1, d2, d3⟩ := c2.mul ht hH1
  obtain ⟨qdHk, e1, e2⟩ := W.prop_gen (th := th) ht hs hth d2 W.c
  have eqd : sumOp qd = qOp k.1 k.2 := c3.unique (by rw [eq]; exact qOp_adjoint _ _)
  have hadj := qOp_adjoint k.2 k.1
  rw [a3, eq] at b2
  rw [d3, eqd] at e2
  replace b2 : ∀ bra, inner (emb W.ci bra) (emb W.ci Hqk) = inner (emb W.ci bra) (W.ham (qOp k.2 k.1 W.state)) :=
    fun bra => by rw [b2, Module.End.mul_apply, (hH _ _ (hact _) (near_qOp (hact _) _ _)).1]; rfl
  replace e2 : ∀ bra, inner (emb W.ci bra) (emb W.ci qdHk) = inner (emb W.ci bra) (qOp k.1 k.2 (W.ham W.state)) :=
    fun bra => by
      rw [e2, Module.End.mul_apply, ← hadj, ← hadj, (hH _ _ (hact _) (near_qOp (hact _) _ _)).2]; rfl
  refine ⟨(Hqk, qdHk), by
    unfold naiveMixedPre
    simp only [a1, b1, c1, d1, e1, ok_bind]
    rfl, fun GI hI => ?_⟩
  obtain ⟨Gk, f1, f2⟩ := W.prop_act (th := th) ht hs hth hI W.c
  obtain ⟨Id, i1, i2, i3⟩ := hI.dagger ht
  obtain ⟨Gdk, j1, j2⟩ := W.prop_act (th := th) ht hs hth i2 W.c
  obtain ⟨HGd, l1, l2, l3⟩ := hH1.mul ht i2.gen
  obtain ⟨HGdq, m1, m2, m3⟩ := l2.mul ht hq
  obtain ⟨qdGd, n1, n2, n3⟩ := c2.mul ht i2.gen
  obtain ⟨qdGdH, o1, o2, o3⟩ := n2.mul ht hH1
  refine ⟨_, by
    unfold naiveMixed
    simp only [f1, i1, j1, l1, m1, c1, n1, o1, W.ev_nil hs, W.ev_op ht hs hth m2, W.ev_op ht hs hth o2, ok_bind]
    rfl, fun GId hId => ?_⟩
  obtain rfl : GId = sumOp Id := hId.unique i3
  have kill : ∀ x, ActiveState W.ci.nI W.ci.nA x → qOp k.1 k.2 x = 0 := fun x hx => qOp_kills hx hk
  have aI : ActiveState W.ci.nI W.ci.nA (sumOp GI W.state) := active_sumOp hI.2 (hact _)
  have aId : ActiveState W.ci.nI W.ci.nA (sumOp Id W.state) := active_sumOp i2.2 (hact _)
  have aW : ActiveState W.ci.nI W.ci.nA W.state := hact _
  have t1 : inner (emb W.ci Gk) (emb W.ci Hqk) = inner W.state (sumOp Id (W.ham (qOp k.2 k.1 W.state))) := by
    rw [b2, f2, hId]; rfl
  have t2 : inner (emb W.ci qdHk) (emb W.ci Gdk) = inner W.state (W.ham (qOp k.2 k.1 (sumOp Id W.state))) := by
    rw [inner_comm, e2, j2, ← hadj, ← hHa, inner_comm]; rfl
  have t3 : inner (emb W.ci W.c) (sumOp HGdq (emb W.ci W.c))
      = inner W.state (W.ham (sumOp Id (qOp k.2 k.1 W.state))) := by
    rw [m3, l3, eq, Module.End.mul_apply, Module.End.mul_apply,
      (hH _ _ (hact _) (near_sumOp i2.2 (near_qOp (hact _) _ _))).1]; rfl
  have u1 : inner (emb W.ci Hqk) (emb W.ci Gdk) = inner W.state (qOp k.1 k.2 (W.ham (sumOp Id W.state))) := by
    rw [inner_comm, b2, j2, ← hHa, ← hadj, inner_comm]; rfl
  have u2 : inner (emb W.ci Gk) (emb W.ci qdHk) = inner W.state (sumOp Id (qOp k.1 k.2 (W.ham W.state))) := by
    rw [e2, f2, hId]; rfl
  have u3 : inner (emb W.ci W.c) (sumOp qdGdH (emb W.ci W.c))
      = inner W.state (qOp k.1 k.2 (sumOp Id (W.ham W.state))) := by
    rw [o3, n3, eqd, Module.End.mul_apply, Module.End.mul_apply, ← hadj, ← hId,
      (hH _ _ (hact _) (near_sumOp hI.2 (near_qOp (hact _) _ _))).2, hId, hadj]; rfl
  refine ⟨?_, ?_⟩
  · dsimp only
    have z1 : inner W.state (qOp k.2 k.1 (W.ham (sumOp Id W.state))) = 0 := by
      rw [← hadj.symm, kill _ aW, inner_zero_left]
    have z2 : inner W.state (sumOp Id (qOp k.2 k.1 (W.ham W.state))) = 0 := by
      rw [← hId, ← hadj.symm, kill _ aI, inner_zero_left]
    have z3 : inner W.state (qOp k.2 k.1 (sumOp Id (W.ham W.state))) = 0 := by
      rw [← hadj.symm, kill _ aW, inner_zero_left]
    rw [t1, t2, t3, expv_dcomm, z1, z2, z3]
    ring
  · dsimp only
    rw [u1, u2, u3, expv_dcomm, kill _ aW, kill _ aId]
    simp only [map_zero, inner_zero_right]
    ring

end

end SQ
