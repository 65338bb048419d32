import Verif.Spec.QuantumResponse
import Verif.Lemmas.ResponseProjected
import Verif.Lemmas.ExtendedEntries
import Verif.Lemmas.ResponseTransfer

/-!
# Lemmas for linear response with a quantum computer: the single entries
-/

namespace SQ

section
variable {tiny big : ℝ → Bool} {ci : CIInfo}

theorem GenOp.add {A B : Dict ℝ} (hA : GenOp ci A) (hB : GenOp ci B) : GenOp ci (fadd tiny A B) :=
  ⟨hA.1.add hB.1, hA.2.fadd hB.2⟩

theorem GenOp.sub {A B : Dict ℝ} (hA : GenOp ci A) (hB : GenOp ci B) : GenOp ci (fsub tiny A B) :=
  ⟨hA.1.sub hB.1, hA.2.fsub hB.2⟩

theorem GenOp.rmul {A : Dict ℝ} (hA : GenOp ci A) (c : ℝ) : GenOp ci (frmul c A) :=
  ⟨hA.1.rmul c, hA.2.frmul c⟩

theorem GenOp.mul3 (ht : ExactTiny tiny) {A B C : Dict ℝ} (hA : GenOp ci A) (hB : GenOp ci B) (hC : GenOp ci C) :
    ∃ d, SQ.mul3 tiny A B C = .ok d ∧ GenOp ci d ∧ sumOp d = sumOp A * sumOp B * sumOp C := by
  obtain ⟨d, h1, h2, h3⟩ := hA.mul ht hB
  obtain ⟨e, k1, k2, k3⟩ := h2.mul ht hC
  exact ⟨e, by unfold SQ.mul3; rw [h1, ok_bind, k1], k2, by rw [k3, h3]⟩

theorem GenOp.commutator (ht : ExactTiny tiny) {A B : Dict ℝ} (hA : GenOp ci A) (hB : GenOp ci B) :
    ∃ d, commutatorOp tiny A B = .ok d ∧ GenOp ci d ∧ sumOp d = comm (sumOp A) (sumOp B) := by
  obtain ⟨d, h1, h2, h3⟩ := hA.mul ht hB
  obtain ⟨e, k1, k2, k3⟩ := hB.mul ht hA
  exact ⟨_, by unfold commutatorOp; rw [h1, ok_bind, k1]; rfl, h2.sub k2, by rw [sumOp_fsub ht, h3, k3]; rfl⟩

theorem GenOp.doubleComm (ht : ExactTiny tiny) {A B C : Dict ℝ} (hA : GenOp ci A) (hB : GenOp ci B)
    (hC : GenOp ci C) : ∃ d, doubleCommutator tiny A B C = .ok d ∧ GenOp ci d ∧
      sumOp d = comm (sumOp A) (comm (sumOp B) (sumOp C)) := by
  obtain ⟨d1, a1, a2, a3⟩ := hA.mul3 ht hB hC
  obtain ⟨d2, b1, b2, b3⟩ := hA.mul3 ht hC hB
  obtain ⟨d3, c1, c2, c3⟩ := hB.mul3 ht hC hA
  obtain ⟨d4, e1, e2, e3⟩ := hC.mul3 ht hB hA
  refine ⟨_, by unfold doubleCommutator; rw [a1, ok_bind, b1, ok_bind, c1, ok_bind, e1]; rfl,
    ((a2.sub b2).sub c2).add e2, ?_⟩
  rw [sumOp_fadd ht, sumOp_fsub ht, sumOp_fsub ht, a3, b3, c3, e3]
  unfold comm
  noncomm_ring

theorem GenOp.doubleCommSym (ht : ExactTiny tiny) {A B C : Dict ℝ} (hA : GenOp ci A) (hB : GenOp ci B)
    (hC : GenOp ci C) : ∃ d, doubleCommutatorSym tiny A B C = .ok d ∧ GenOp ci d ∧
      sumOp d = dcomm (sumOp A) (sumOp B) (sumOp C) := by
  obtain ⟨d1, a1, a2, a3⟩ := hA.mul3 ht hB hC
  obtain ⟨d2, b1, b2, b3⟩ := hC.mul3 ht hB hA
  obtain ⟨d3, c1, c2, c3⟩ := hA.mul3 ht hC hB
  obtain ⟨d4, e1, e2, e3⟩ := hB.mul3 ht hC hA
  obtain ⟨d5, f1, f2, f3⟩ := hC.mul3 ht hA hB
  obtain ⟨d6, g1, g2, g3⟩ := hB.mul3 ht hA hC
  refine ⟨_, by
    unfold doubleCommutatorSym
    rw [a1, ok_bind, b1, ok_bind, c1, ok_bind, e1, ok_bind, f1, ok_bind, g1]; rfl,
    (a2.add b2).sub ((((c2.add e2).add f2).add g2).rmul _), ?_⟩
  rw [sumOp_fsub ht, sumOp_fadd ht, sumOp_frmul, sumOp_fadd ht, sumOp_fadd ht, sumOp_fadd ht, a3, b3, c3, e3, f3, g3]
  unfold dcomm comm
  rw [show sumOp A * (sumOp B * sumOp C - sumOp C * sumOp B) - (sumOp B * sumOp C - sumOp C * sumOp B) * sumOp A
      + ((sumOp A * sumOp B - sumOp B * sumOp A) * sumOp C - sumOp C * (sumOp A * sumOp B - sumOp B * sumOp A))
      = (2 : ℝ) • (sumOp A * sumOp B * sumOp C + sumOp C * sumOp B * sumOp A)
        - (sumOp A * sumOp C * sumOp B + sumOp B * sumOp C * sumOp A + sumOp C * sumOp A * sumOp B
          + sumOp B * sumOp A * sumOp C) by rw [two_smul]; noncomm_ring, smul_sub, smul_smul]
  norm_num

end

section
variable {tiny big : ℝ → Bool} {W : RespWf} {qev : Dict ℝ → Res ℝ}

/-- A folded operator on an exact interface: the expectation value in all orbitals. -/
theorem qexp_emb {ci : CIInfo} {c : Vec ℝ} (hq : ExactQuantum ci c qev) {A : Dict ℝ} (hA : GenOp ci A) :
    qexp qev ci A = .ok (inner (emb ci c) (sumOp A (emb ci c))) := by
  obtain ⟨f1, f2⟩ := getFolded_inv hA.1 hA.2
  unfold qexp
  rw [hq _ f1 fun kv hk o ho => (f2 kv hk).1 o ho]
  unfold expv
  rw [getFolded_sem _ _ _ A hA.1.ord hA.1.bal (fun kv hk o ho => (hA.2 kv hk).1 o ho) (below_stateOf ci c)
    (below_stateOf ci c)]
  rfl

theorem qexp_ok (hq : ExactQuantum W.ci W.c qev) {A : Dict ℝ} (hA : GenOp W.ci A) :
    qexp qev W.ci A = .ok (inner W.state (sumOp A W.state)) := qexp_emb hq hA

theorem qGradQ_ok (ht : ExactTiny tiny) (hq : ExactQuantum W.ci W.c qev) {H1 q : Dict ℝ} (h1 : GenOp W.ci H1)
    (h2 : GenOp W.ci q) : ∃ v, qGradQ tiny qev W H1 q = .ok v := by
  obtain ⟨a, a1, a2, -⟩ := h1.mul ht h2
  obtain ⟨d, d1, d2, -⟩ := h2.dagger ht
  obtain ⟨b, b1, b2, -⟩ := d2.mul ht h1
  exact ⟨_, by unfold qGradQ; simp only [a1, d1, b1, ok_bind, qexp_ok hq a2, qexp_ok hq b2]; rfl⟩

theorem qGradG_ok (ht : ExactTiny tiny) (hq : ExactQuantum W.ci W.c qev) {H0 G : Dict ℝ} (h1 : GenOp W.ci H0)
    (h2 : GenOp W.ci G) : ∃ v, qGradG tiny qev W H0 G = .ok v := by
  obtain ⟨a, a1, a2, -⟩ := h1.commutator ht h2
  obtain ⟨d, d1, d2, -⟩ := h2.dagger ht
  obtain ⟨b, b1, b2, -⟩ := d2.commutator ht h1
  exact ⟨_, by unfold qGradG; simp only [a1, d1, b1, ok_bind, qexp_ok hq a2, qexp_ok hq b2]; rfl⟩

/-- The entries for two orbital rotations. -/
theorem qOrb_ok (ht : ExactTiny tiny) (hW : W.Proper) (hq : ExactQuantum W.ci W.c qev) {H2 : Dict ℝ} (hH2 : GenOp W.ci H2)
    (hH : ∀ x y, NearState W.ci.nI W.ci.nA x → NearState W.ci.nI W.ci.nA y → inner x (sumOp H2 y) = inner x (W.ham y))
    (hany : ∀ y, ActiveState W.ci.nI W.ci.nA y → ∀ x, inner x (sumOp H2 y) = inner x (W.ham y))
    {k l : ℕ × ℕ} (hk : NonRedundant W.ci.nI W.ci.nA k) (hl : NonRedundant W.ci.nI W.ci.nA l) {qJ qI : Dict ℝ}
    (hJ : GenOp W.ci qJ) (eJ : sumOp qJ = qOp k.2 k.1) (hI : GenOp W.ci qI) (eI : sumOp qI = qOp l.2 l.1) :
    qOrb tiny qev W H2 qJ qI = .ok
      (expv W.state (comm (qOp l.1 l.2) (comm W.ham (qOp k.2 k.1))),
       expv W.state (comm (qOp l.1 l.2) (comm W.ham (qOp k.1 k.2))),
       expv W.state (comm (qOp l.1 l.2) (qOp k.2 k.1))) := by
  have hact := emb_active W.ci
  have aW : ActiveState W.ci.nI W.ci.nA W.state := hact _
  have nk := fun x hx => qOp_kills (x := x) hx hk
  have nl := fun x hx => qOp_kills (x := x) hx hl
  obtain ⟨qId, a1, a2, a3⟩ := hI.dagger ht
  obtain ⟨qJd, b1, b2, b3⟩ := hJ.dagger ht
  have eId : sumOp qId = qOp l.1 l.2 := a3.unique (by rw [eI]; exact qOp_adjoint _ _)
  have eJd : sumOp qJd = qOp k.1 k.2 := b3.unique (by rw [eJ]; exact qOp_adjoint _ _)
  obtain ⟨c, c1, c2, c3⟩ := a2.mul3 ht hH2 hJ
  obtain ⟨d, d1, d2, d3⟩ := a2.mul3 ht hJ hH2
  obtain ⟨e, e1, e2, e3⟩ := a2.mul3 ht b2 hH2
  obtain ⟨f, f1, f2, f3⟩ := a2.mul ht hJ
  have t1 : inner W.state (sumOp c W.state) = inner W.state (qOp l.1 l.2 (W.ham (qOp k.2 k.1 W.state))) := by
    rw [c3, eId, eJ, Module.End.mul_apply, Module.End.mul_apply, ← qOp_adjoint l.2 l.1,
      hH _ _ (near_qOp aW _ _) (near_qOp aW _ _), qOp_adjoint l.2 l.1]
  have t2 : inner W.state (sumOp d W.state) = inner W.state (qOp l.1 l.2 (qOp k.2 k.1 (W.ham W.state))) := by
    rw [d3, eId, eJ, Module.End.mul_apply, Module.End.mul_apply, ← qOp_adjoint l.2 l.1, ← qOp_adjoint k.1 k.2,
      hany _ aW, qOp_adjoint k.1 k.2, qOp_adjoint l.2 l.1]
  have t3 : inner W.state (sumOp e W.state) = inner W.state (qOp l.1 l.2 (qOp k.1 k.2 (W.ham W.state))) := by
    rw [e3, eId, eJd, Module.End.mul_apply, Module.End.mul_apply, ← qOp_adjoint l.2 l.1, ← qOp_adjoint k.2 k.1,
      hany _ aW, qOp_adjoint k.2 k.1, qOp_adjoint l.2 l.1]
  have t4 : inner W.state (sumOp f W.state) = inner W.state (qOp l.1 l.2 (qOp k.2 k.1 W.state)) := by
    rw [f3, eId, eJ, Module.End.mul_apply]
  unfold qOrb
  simp only [a1, b1, c1, d1, e1, f1, ok_bind, qexp_ok hq c2, qexp_ok hq d2, qexp_ok hq e2, qexp_ok hq f2, t1, t2, t3, t4]
  simp only [expv, comm, LinearMap.sub_apply, Module.End.mul_apply, inner_sub_right, map_sub, nk _ aW, nl _ aW, map_zero,
    inner_zero_right, sub_zero, zero_sub, sub_self]
  simp only [map_neg, inner_neg_right]
  rfl

/-- The entries of the mixed blocks of the naive class. -/
theorem qnMixed_ok (ht : ExactTiny tiny) (hW : W.Proper) (hq : ExactQuantum W.ci W.c qev)
    {H1 : Dict ℝ} (hH1 : GenOp W.ci H1)
    (hH : ∀ x y, ActiveState W.ci.nI W.ci.nA x → NearState W.ci.nI W.ci.nA y →
      inner x (sumOp H1 y) = inner x (W.ham y) ∧ inner y (sumOp H1 x) = inner y (W.ham x))
    {k : ℕ × ℕ} (hk : NonRedundant W.ci.nI W.ci.nA k) {q : Dict ℝ} (hqg : GenOp W.ci q)
    (eq : sumOp q = qOp k.2 k.1) {GI : Dict ℝ} (hI : ActOp W.ci GI) :
    ∃ v : ℝ × ℝ, qnMixed tiny qev W H1 q GI = .ok v ∧ ∀ GId, IsAdjoint (sumOp GI) GId →
        v.1 = expv W.state (dcomm GId W.ham (qOp k.2 k.1)) ∧
        v.2 = expv W.state (dcomm GId W.ham (qOp k.1 k.2)) := by
  have hHa := ham_adjoint hW
  have hact := emb_active W.ci
  have aW : ActiveState W.ci.nI W.ci.nA W.state := hact _
  have hadj := qOp_adjoint k.2 k.1
  have kill : ∀ x, ActiveState W.ci.nI W.ci.nA x → qOp k.1 k.2 x = 0 := fun x hx => qOp_kills hx hk
  obtain ⟨Id, i1, i2, i3⟩ := hI.dagger ht
  obtain ⟨qd, c1, c2, c3⟩ := hqg.dagger ht
  have eqd : sumOp qd = qOp k.1 k.2 := c3.unique (by rw [eq]; exact hadj)
  have aI : ActiveState W.ci.nI W.ci.nA (sumOp GI W.state) := active_sumOp hI.2 aW
  have aId : ActiveState W.ci.nI W.ci.nA (sumOp Id W.state) := active_sumOp i2.2 aW
  obtain ⟨x1, p1, p2, p3⟩ := i2.gen.mul3 ht hH1 hqg
  obtain ⟨x2, q1, q2, q3⟩ := hH1.mul3 ht hqg i2.gen
  obtain ⟨x3, r1, r2, r3⟩ := hH1.mul3 ht i2.gen hqg
  obtain ⟨y1, s1, s2, s3⟩ := c2.mul3 ht hH1 i2.gen
  obtain ⟨y2, u1, u2, u3⟩ := i2.gen.mul3 ht c2 hH1
  obtain ⟨y3, w1, w2, w3⟩ := c2.mul3 ht i2.gen hH1
  have t1 : inner W.state (sumOp x1 W.state) = inner W.state (sumOp Id (W.ham (qOp k.2 k.1 W.state))) := by
    rw [p3, eq, Module.End.mul_apply, Module.End.mul_apply, ← i3, (hH _ _ aI (near_qOp aW _ _)).1, i3]
  have t2 : inner W.state (sumOp x2 W.state) = inner W.state (W.ham (qOp k.2 k.1 (sumOp Id W.state))) := by
    rw [q3, eq, Module.End.mul_apply, Module.End.mul_apply, (hH _ _ aW (near_qOp aId _ _)).1]
  have t3 : inner W.state (sumOp x3 W.state) = inner W.state (W.ham (sumOp Id (qOp k.2 k.1 W.state))) := by
    rw [r3, eq, Module.End.mul_apply, Module.End.mul_apply, (hH _ _ aW (near_sumOp i2.2 (near_qOp aW _ _))).1]
  have v1 : inner W.state (sumOp y1 W.state) = inner W.state (qOp k.1 k.2 (W.ham (sumOp Id W.state))) := by
    rw [s3, eqd, Module.End.mul_apply, Module.End.mul_apply, ← hadj, (hH _ _ aId (near_qOp aW _ _)).2, hadj]
  have v2 : inner W.state (sumOp y2 W.state) = inner W.state (sumOp Id (qOp k.1 k.2 (W.ham W.state))) := by
    rw [u3, eqd, Module.End.mul_apply, Module.End.mul_apply, ← i3, ← hadj, (hH _ _ aW (near_qOp aI _ _)).2, hadj, i3]
  have v3 : inner W.state (sumOp y3 W.state) = inner W.state (qOp k.1 k.2 (sumOp Id (W.ham W.state))) := by
    rw [w3, eqd, Module.End.mul_apply, Module.End.mul_apply, ← hadj, ← i3,
      (hH _ _ aW (near_sumOp hI.2 (near_qOp aW _ _))).2, i3, hadj]
  refine ⟨_, by
    unfold qnMixed
    simp only [i1, c1, p1, q1, r1, s1, u1, w1, qexp_ok hq p2, qexp_ok hq q2, qexp_ok hq r2, qexp_ok hq s2,
      qexp_ok hq u2, qexp_ok hq w2, ok_bind]
    rfl, fun GId hId => ?_⟩
  obtain rfl : GId = sumOp Id := hId.unique i3
  refine ⟨?_, ?_⟩
  · dsimp only
    have z1 : ∀ x, inner W.state (qOp k.2 k.1 x) = 0 := fun x => by
      rw [← hadj.symm, kill _ aW, inner_zero_left]
    have z2 : inner W.state (sumOp Id (qOp k.2 k.1 (W.ham W.state))) = 0 := by
      rw [← hId, ← hadj.symm, kill _ aI, inner_zero_left]
    rw [t1, t2, t3, expv_dcomm, z1, z2, z1]
    ring
  · dsimp only
    rw [v1, v2, v3, expv_dcomm, kill _ aW, kill _ aId]
    simp only [map_zero, inner_zero_right]
    ring

/-- The entries for two active operators of the naive class. -/
theorem qnAct_ok (ht : ExactTiny tiny) (hW : W.Proper) (hq : ExactQuantum W.ci W.c qev) {H0 : Dict ℝ} (hH0 : GenOp W.ci H0)
    (hH : ∀ x y, ActiveState W.ci.nI W.ci.nA x → ActiveState W.ci.nI W.ci.nA y →
      inner x (sumOp H0 y) = inner x (W.ham y)) {GJ GI : Dict ℝ} (hJ : ActOp W.ci GJ) (hI : ActOp W.ci GI)
    (hcomm : ∀ GJd, IsAdjoint (sumOp GJ) GJd → ∀ GId, IsAdjoint (sumOp GI) GId → GJd * GId = GId * GJd) :
    ∃ v : ℝ × ℝ × ℝ, qnAct tiny qev W H0 GJ GI = .ok v ∧
      ∀ GJd, IsAdjoint (sumOp GJ) GJd → ∀ GId, IsAdjoint (sumOp GI) GId →
        v.1 = expv W.state (dcomm GId W.ham (sumOp GJ)) ∧ v.2.1 = expv W.state (dcomm GId W.ham GJd) ∧
        v.2.2 = expv W.state (comm GId (sumOp GJ)) := by
  have hact := emb_active W.ci
  have aW : ActiveState W.ci.nI W.ci.nA W.state := hact _
  obtain ⟨Id, i1, i2, i3⟩ := hI.dagger ht
  obtain ⟨Jd, j1, j2, j3⟩ := hJ.dagger ht
  obtain ⟨a, a1, a2, a3⟩ := i2.gen.doubleCommSym ht hH0 hJ.gen
  obtain ⟨b, b1, b2, b3⟩ := i2.gen.doubleComm ht hH0 j2.gen
  obtain ⟨s, s1, s2, s3⟩ := i2.gen.commutator ht hJ.gen
  refine ⟨_, by
    unfold qnAct
    simp only [i1, j1, a1, b1, s1, qexp_ok hq a2, qexp_ok hq b2, qexp_ok hq s2, ok_bind]
    rfl, fun GJd hJd GId hId => ?_⟩
  obtain rfl : GId = sumOp Id := hId.unique i3
  obtain rfl : GJd = sumOp Jd := hJd.unique j3
  have act : ∀ {T : Dict ℝ}, ActOp W.ci T → ActiveState W.ci.nI W.ci.nA (sumOp T W.state) :=
    fun hT => active_sumOp hT.2 aW
  have act2 : ∀ {T S : Dict ℝ}, ActOp W.ci T → ActOp W.ci S →
      ActiveState W.ci.nI W.ci.nA (sumOp T (sumOp S W.state)) := fun hT hS => active_sumOp hT.2 (act hS)
  -- the three places of the Hamiltonian
  have mid : ∀ {T T' S : Dict ℝ}, ActOp W.ci T' → ActOp W.ci S → IsAdjoint (sumOp T') (sumOp T) →
      inner W.state (sumOp T (sumOp H0 (sumOp S W.state))) = inner W.state (sumOp T (W.ham (sumOp S W.state))) := by
    intro T T' S hT hS ha
    rw [← ha, ← ha, hH _ _ (act hT) (act hS)]
  have right : ∀ {T T' S S' : Dict ℝ}, ActOp W.ci T' → ActOp W.ci S' → IsAdjoint (sumOp T') (sumOp T) →
      IsAdjoint (sumOp S') (sumOp S) →
      inner W.state (sumOp T (sumOp S (sumOp H0 W.state))) = inner W.state (sumOp T (sumOp S (W.ham W.state))) := by
    intro T T' S S' hT hS ha hb
    rw [← ha, ← ha, ← hb, ← hb, hH _ _ (active_sumOp hS.2 (act hT)) aW]
  have left : ∀ {T S : Dict ℝ}, ActOp W.ci T → ActOp W.ci S →
      inner W.state (sumOp H0 (sumOp T (sumOp S W.state))) = inner W.state (W.ham (sumOp T (sumOp S W.state))) := by
    intro T S hT hS
    exact hH _ _ aW (act2 hT hS)
  have hc := hcomm _ hJd _ hId
  have hc' : ∀ x, sumOp Jd (sumOp Id x) = sumOp Id (sumOp Jd x) := fun x => by
    rw [← Module.End.mul_apply, hc]; rfl
  refine ⟨?_, ?_, ?_⟩
  · dsimp only
    rw [a3]
    show expv W.state (dcomm (sumOp Id) (sumOp H0) (sumOp GJ)) = _
    rw [expv_dcomm, expv_dcomm, mid hI hJ i3, mid j2 i2 j3.symm, right hI j2 i3 j3.symm, right j2 hI j3.symm i3,
      left hJ i2, left i2 hJ]
  · dsimp only
    rw [b3]
    have e : inner W.state (comm (sumOp Id) (comm (sumOp H0) (sumOp Jd)) W.state) =
        inner W.state (sumOp Id (sumOp H0 (sumOp Jd W.state))) - inner W.state (sumOp Id (sumOp Jd (sumOp H0 W.state)))
        - inner W.state (sumOp H0 (sumOp Jd (sumOp Id W.state)))
        + inner W.state (sumOp Jd (sumOp H0 (sumOp Id W.state))) := by
      simp only [comm, LinearMap.sub_apply, Module.End.mul_apply, map_sub, inner_sub_right]
      ring
    rw [e, expv_dcomm, mid hI j2 i3, mid hJ i2 j3, right hI hJ i3 j3, left j2 i2, hc' W.state, hc' (W.ham W.state)]
    ring
  · dsimp only
    rw [s3]
    rfl

/-- `_G_exp` and `_HG_exp`. -/
theorem qpExp_ok (ht : ExactTiny tiny) (hq : ExactQuantum W.ci W.c qev) {H0 : Dict ℝ} (hH0 : GenOp W.ci H0)
    (hH : ∀ x y, ActiveState W.ci.nI W.ci.nA x → ActiveState W.ci.nI W.ci.nA y →
      inner x (sumOp H0 y) = inner x (W.ham y)) {G : Dict ℝ} (hG : ActOp W.ci G) :
    qpExp tiny qev W H0 G = .ok (inner W.state (sumOp G W.state), inner W.state (W.ham (sumOp G W.state))) := by
  have aW : ActiveState W.ci.nI W.ci.nA W.state := emb_active W.ci _
  obtain ⟨a, a1, a2, a3⟩ := hH0.mul ht hG.gen
  unfold qpExp
  simp only [qexp_ok hq hG.gen, a1, ok_bind, qexp_ok hq a2]
  rw [a3, Module.End.mul_apply, hH _ _ aW (active_sumOp hG.2 aW)]
  rfl

/-- The entries for two active operators of the projected classes. -/
theorem qpAct_ok (ht : ExactTiny tiny) (hW : W.Proper) (hE : W.energy = expv W.state W.ham) (hq : ExactQuantum W.ci W.c qev)
    {H0 : Dict ℝ} (hH0 : GenOp W.ci H0)
    (hH : ∀ x y, ActiveState W.ci.nI W.ci.nA x → ActiveState W.ci.nI W.ci.nA y →
      inner x (sumOp H0 y) = inner x (W.ham y)) {E : List (ℝ × ℝ)} {GJ GI : Dict ℝ × ℕ} (hJ : ActOp W.ci GJ.1)
    (hI : ActOp W.ci GI.1)
    (eJ : E[GJ.2]? = some (inner W.state (sumOp GJ.1 W.state), inner W.state (W.ham (sumOp GJ.1 W.state))))
    (eI : E[GI.2]? = some (inner W.state (sumOp GI.1 W.state), inner W.state (W.ham (sumOp GI.1 W.state)))) :
    ∃ v : ℝ × ℝ × ℝ, qpAct tiny qev W H0 E GJ GI = .ok v ∧
      ∀ B, IsAdjoint (projOp W.state (sumOp GJ.1)) B → ∀ A, IsAdjoint (projOp W.state (sumOp GI.1)) A →
        v.1 = expv W.state (dcomm A W.ham (projOp W.state (sumOp GJ.1))) ∧
        v.2.1 = expv W.state (dcomm A W.ham B) ∧
        v.2.2 = expv W.state (comm A (projOp W.state (sumOp GJ.1))) := by
  have hHa := ham_adjoint hW
  have aW : ActiveState W.ci.nI W.ci.nA W.state := emb_active W.ci _
  obtain ⟨Id, i1, i2, i3⟩ := hI.dagger ht
  obtain ⟨a, a1, a2, a3⟩ := i2.gen.mul3 ht hH0 hJ.gen
  obtain ⟨s, s1, s2, s3⟩ := i2.gen.mul ht hJ.gen
  have t1 : inner W.state (sumOp a W.state) = inner (sumOp GI.1 W.state) (W.ham (sumOp GJ.1 W.state)) := by
    rw [a3, Module.End.mul_apply, Module.End.mul_apply, ← i3, hH _ _ (active_sumOp hI.2 aW) (active_sumOp hJ.2 aW)]
  have t2 : inner W.state (sumOp s W.state) = inner (sumOp GI.1 W.state) (sumOp GJ.1 W.state) := by
    rw [s3, Module.End.mul_apply, ← i3]
  refine ⟨_, by
    unfold qpAct qpAt
    simp only [i1, a1, s1, ok_bind, qexp_ok hq a2, qexp_ok hq s2, eJ, eI, t1, t2]
    rfl, fun B hB A hAd => ?_⟩
  obtain rfl := hB.unique (projOp_adjoint _ _)
  obtain rfl := hAd.unique (projOp_adjoint _ _)
  have x1 : inner W.state (W.ham W.state) = W.energy := hE.symm
  have x2 : inner W.state (sumOp GJ.1 W.state) = inner (sumOp GJ.1 W.state) W.state := inner_comm _ _
  have x3 : ∀ T : Dict ℝ, inner W.state (W.ham (sumOp T W.state)) = inner (sumOp T W.state) (W.ham W.state) := by
    intro T
    rw [← hHa, inner_comm]
  have x4 : inner W.state (sumOp GI.1 W.state) = inner (sumOp GI.1 W.state) W.state := inner_comm _ _
  rw [dcomm_scalar_left, dcomm_scalar_left, comm_scalar_left]
  unfold projOp
  rw [dcomm_scalar_right, dcomm_scalar_right, comm_scalar_right]
  simp only [expv_dcomm, expv_comm, ketbra_apply, map_smul, inner_smul_right, hW.norm, one_smul, one_mul, mul_one]
  rw [x1, x2, x3, x3, x4]
  refine ⟨?_, ?_, ?_⟩
  · ring
  · ring
  · ring

/-- The entries of the mixed blocks of the projected class. -/
theorem qpMixed_ok (ht : ExactTiny tiny) (hq : ExactQuantum W.ci W.c qev) {H1 : Dict ℝ} (hH1 : GenOp W.ci H1)
    (hH : ∀ x y, ActiveState W.ci.nI W.ci.nA x → NearState W.ci.nI W.ci.nA y →
      inner x (sumOp H1 y) = inner x (W.ham y) ∧ inner y (sumOp H1 x) = inner y (W.ham x))
    {k : ℕ × ℕ} {q : Dict ℝ} (hqg : GenOp W.ci q) (eq : sumOp q = qOp k.2 k.1) {GI : Dict ℝ} (hI : ActOp W.ci GI) :
    qpMixed tiny qev W H1 q GI = .ok
      (inner (sumOp GI W.state) (W.ham (qOp k.2 k.1 W.state)),
       -1 / 2 * inner (sumOp GI W.state) (qOp k.1 k.2 (W.ham W.state))) ∧
    qaMixed tiny qev W H1 q GI = .ok (inner (sumOp GI W.state) (W.ham (qOp k.2 k.1 W.state))) := by
  have aW : ActiveState W.ci.nI W.ci.nA W.state := emb_active W.ci _
  have hadj := qOp_adjoint k.2 k.1
  obtain ⟨Id, i1, i2, i3⟩ := hI.dagger ht
  obtain ⟨qd, c1, c2, c3⟩ := hqg.dagger ht
  have eqd : sumOp qd = qOp k.1 k.2 := c3.unique (by rw [eq]; exact hadj)
  have aI : ActiveState W.ci.nI W.ci.nA (sumOp GI W.state) := active_sumOp hI.2 aW
  obtain ⟨x1, p1, p2, p3⟩ := i2.gen.mul3 ht hH1 hqg
  obtain ⟨y2, u1, u2, u3⟩ := i2.gen.mul3 ht c2 hH1
  have t1 : inner W.state (sumOp x1 W.state) = inner (sumOp GI W.state) (W.ham (qOp k.2 k.1 W.state)) := by
    rw [p3, eq, Module.End.mul_apply, Module.End.mul_apply, ← i3, (hH _ _ aI (near_qOp aW _ _)).1]
  have v2 : inner W.state (sumOp y2 W.state) = inner (sumOp GI W.state) (qOp k.1 k.2 (W.ham W.state)) := by
    rw [u3, eqd, Module.End.mul_apply, Module.End.mul_apply, ← i3, ← hadj, (hH _ _ aW (near_qOp aI _ _)).2, hadj]
  refine ⟨?_, ?_⟩
  · unfold qpMixed
    simp only [i1, c1, p1, u1, qexp_ok hq p2, qexp_ok hq u2, ok_bind, t1, v2]
    rfl
  · unfold qaMixed
    simp only [i1, p1, qexp_ok hq p2, ok_bind, t1]

/-- The entries for two orbital rotations of the all-projected class. -/
theorem qaOrb_ok (ht : ExactTiny tiny) (hq : ExactQuantum W.ci W.c qev) {H2 : Dict ℝ} (hH2 : GenOp W.ci H2)
    (hH : ∀ x y, NearState W.ci.nI W.ci.nA x → NearState W.ci.nI W.ci.nA y → inner x (sumOp H2 y) = inner x (W.ham y))
    {k l : ℕ × ℕ} {qJ qI : Dict ℝ}
    (hJ : GenOp W.ci qJ) (eJ : sumOp qJ = qOp k.2 k.1) (hI : GenOp W.ci qI) (eI : sumOp qI = qOp l.2 l.1) :
    qaOrb tiny qev W H2 qJ qI = .ok
      (inner (qOp l.2 l.1 W.state) (W.ham (qOp k.2 k.1 W.state))
        - inner (qOp l.2 l.1 W.state) (qOp k.2 k.1 W.state) * W.energy,
       inner (qOp l.2 l.1 W.state) (qOp k.2 k.1 W.state)) := by
  have aW : ActiveState W.ci.nI W.ci.nA W.state := emb_active W.ci _
  obtain ⟨qId, a1, a2, a3⟩ := hI.dagger ht
  obtain ⟨c, c1, c2, c3⟩ := a2.mul3 ht hH2 hJ
  obtain ⟨f, f1, f2, f3⟩ := a2.mul ht hJ
  have t1 : inner W.state (sumOp c W.state) = inner (qOp l.2 l.1 W.state) (W.ham (qOp k.2 k.1 W.state)) := by
    rw [c3, eJ, Module.End.mul_apply, Module.End.mul_apply, ← a3, eI, hH _ _ (near_qOp aW _ _) (near_qOp aW _ _)]
  have t4 : inner W.state (sumOp f W.state) = inner (qOp l.2 l.1 W.state) (qOp k.2 k.1 W.state) := by
    rw [f3, eJ, Module.End.mul_apply, ← a3, eI]
  unfold qaOrb
  simp only [a1, c1, f1, ok_bind, qexp_ok hq c2, qexp_ok hq f2, t1, t4]
  rfl

/-- The orbital-orbital blocks with and without density matrices. -/
theorem qOrbBlocks_ok (ht : ExactTiny tiny) (hb : ExactBig big) (hW : W.Proper) (hq : ExactQuantum W.ci W.c qev)
    {Q : List (Dict ℝ)} (fQ : List.Forall₂ (fun k q => GenOp W.ci q ∧ sumOp q = qOp k.2 k.1) W.kappa Q)
    (doRdm : Bool) :
    ∃ M, qOrbBlocks tiny big qev W doRdm Q LRMats.zero = .ok M ∧ (∀ i j, M.Delta i j = 0) ∧
      (∀ i j, W.kappa.length ≤ i ∨ W.kappa.length ≤ j → M.Sigma i j = 0) ∧
      ∀ i j k l, W.kappa[i]? = some k → W.kappa[j]? = some l →
        M.Sigma i j = expv W.state (comm (qOp k.1 k.2) (qOp l.2 l.1)) ∧
        (doRdm = true ∨ j ≤ i → M.A i j = expv W.state (comm (qOp k.1 k.2) (comm W.ham (qOp l.2 l.1))) ∧
          M.B i j = expv W.state (comm (qOp k.1 k.2) (comm W.ham (qOp l.1 l.2)))) ∧
        (doRdm = false → M.A j i = M.A i j ∧ M.B j i = M.B i j) := by
  have lenQ : Q.length = W.kappa.length := fQ.length_eq.symm
  unfold qOrbBlocks
  by_cases h : Q.length ≠ 0 ∧ doRdm = false
  · rw [if_pos h]
    obtain ⟨H2, h2, h2g, h2s⟩ := ham2_gen ht hb W.h W.g W.ci
    have h2a := fun y hy x => ham2_any ht hb W.h W.g W.ci h2 (y := y) hy x
    let N := W.kappa.map fun k => qOp k.2 k.1
    have atN : ∀ {i : ℕ} {k : ℕ × ℕ}, W.kappa[i]? = some k → opAt N i = qOp k.2 k.1 ∧ adj (opAt N i) = qOp k.1 k.2 := by
      intro i k hk
      have e : opAt N i = qOp k.2 k.1 := opAt_of (by simp only [N]; rw [List.getElem?_map, hk]; rfl)
      exact ⟨e, by rw [e]; exact adj_eq (qOp_adjoint _ _)⟩
    let vA : ℕ → ℕ → ℝ := fun r c => expv W.state (comm (adj (opAt N r)) (comm W.ham (opAt N c)))
    let vB : ℕ → ℕ → ℝ := fun r c => expv W.state (comm (adj (opAt N r)) (comm W.ham (adj (opAt N c))))
    have hadj : ∀ T ∈ N, ∃ T', IsAdjoint T T' := by
      intro T hT
      obtain ⟨k, -, rfl⟩ := List.mem_map.1 hT
      exact ⟨_, qOp_adjoint _ _⟩
    have qrel : ∀ {i : ℕ} {q : Dict ℝ}, Q[i]? = some q → ∃ k, W.kappa[i]? = some k ∧ GenOp W.ci q ∧
        sumOp q = qOp k.2 k.1 := by
      intro i q hq
      obtain ⟨k, hk⟩ : ∃ k, W.kappa[i]? = some k := ⟨_, List.getElem?_eq_getElem (by
        have := (List.getElem?_eq_some_iff.1 hq).1
        omega)⟩
      have hRq := (List.forall₂_iff_get.1 fQ).2 i (List.getElem?_eq_some_iff.1 hk).1 (List.getElem?_eq_some_iff.1 hq).1
      rw [List.get_eq_getElem, List.get_eq_getElem, (List.getElem?_eq_some_iff.1 hk).2,
        (List.getElem?_eq_some_iff.1 hq).2] at hRq
      exact ⟨k, hk, hRq⟩
    obtain ⟨M, m1, mD, m2⟩ := act_loop (G := Q) 0 (pre := fun q => pure q)
      (entry := fun _ x y => qOrb tiny qev W H2 x.1 y.1)
      (fA := fun r c => vA (max r c) (min r c)) (fB := fun r c => vB (max r c) (min r c)) (fS := FS W N)
      (fun r c => by rw [max_comm, min_comm]) (fun r c => by rw [max_comm, min_comm])
      (FS_symm (W := W) (X := N) hadj) (by
        intro x hx
        refine ⟨x.1, rfl, fun y hy => ?_⟩
        obtain ⟨k, hk, gk, ek⟩ := qrel (zipIdx_get hx)
        obtain ⟨l, hl, gl, el⟩ := qrel (zipIdx_drop_get hy)
        have hle : x.2 ≤ y.2 := by
          have := (List.mem_zipIdx_iff_le_and_getElem?_sub.1 (show (y.1, y.2) ∈ _ from hy)).1
          omega
        obtain ⟨k1, k2⟩ := atN hk
        obtain ⟨l1, l2⟩ := atN hl
        refine ⟨_, qOrb_ok ht hW hq h2g h2s h2a (hW.kappa k (List.mem_of_getElem? hk)).1
          (hW.kappa l (List.mem_of_getElem? hl)).1 gk ek gl el, ?_, ?_, ?_⟩
        · dsimp only [vA]
          rw [max_eq_left (by omega), min_eq_right (by omega), Nat.add_zero, Nat.add_zero, l2, k1]
        · dsimp only [vB]
          rw [max_eq_left (by omega), min_eq_right (by omega), Nat.add_zero, Nat.add_zero, l2, k2]
        · unfold FS
          rw [Nat.add_zero, Nat.add_zero, l2, k1]) LRMats.zero
    refine ⟨M, by unfold qOrbLoop; rw [h2, ok_bind]; exact m1, fun i j => by rw [mD]; rfl, fun i j hij => ?_,
      fun i j k l hk hl => ?_⟩
    · rw [((m2 i j).2 (by omega)).2.2]; rfl
    · have li : i < Q.length := by rw [lenQ]; exact (List.getElem?_eq_some_iff.1 hk).1
      have lj : j < Q.length := by rw [lenQ]; exact (List.getElem?_eq_some_iff.1 hl).1
      obtain ⟨k1, k2⟩ := atN hk
      obtain ⟨l1, l2⟩ := atN hl
      obtain ⟨b1, b2, b3⟩ := (m2 i j).1 (by omega)
      obtain ⟨c1, c2, -⟩ := (m2 j i).1 (by omega)
      refine ⟨by rw [b3]; unfold FS; rw [k2, l1], fun hor => ?_, fun _ => ?_⟩
      · have hle : j ≤ i := hor.resolve_left (by rw [h.2]; simp)
        rw [b1, b2, max_eq_left hle, min_eq_right hle]
        dsimp only [vA, vB]
        rw [k2, l2, l1]
        exact ⟨rfl, rfl⟩
      · rw [b1, b2, c1, c2, max_comm, min_comm]
        exact ⟨rfl, rfl⟩
  · rw [if_neg h]
    refine ⟨_, rfl, fun i j => by rw [lrOrbBlocks_delta]; rfl, fun i j hij => ?_, fun i j k l hk hl => ?_⟩
    · rw [lrOrbBlocks_sigma hW (by omega)]; rfl
    · obtain ⟨o1, o2, o3⟩ := lrOrbBlocks_eq hW lenQ LRMats.zero hk hl
      have li : i < Q.length := by rw [lenQ]; exact (List.getElem?_eq_some_iff.1 hk).1
      exact ⟨o3, fun _ => ⟨o1, o2⟩, fun hd => absurd ⟨by omega, hd⟩ h⟩

end

end SQ
