import Verif.Spec.ResponseDipole
import Verif.Lemmas.ResponseTransfer
import Verif.Lemmas.ResponseMats
import Verif.Lemmas.ResponseProjected
import Verif.Lemmas.ResponseBlocks
import Verif.Props.LinearResponse
import Verif.Props.Density

/-!
# Lemmas: norms and transition dipole moments of response vectors
-/

namespace SQ

open Matrix

theorem expv_add (Ψ : Fock ℝ) (S T : FOp ℝ) : expv Ψ (S + T) = expv Ψ S + expv Ψ T := by
  unfold expv; rw [LinearMap.add_apply, inner_add_right]

theorem expv_smul (Ψ : Fock ℝ) (c : ℝ) (T : FOp ℝ) : expv Ψ (c • T) = c * expv Ψ T := by
  unfold expv; rw [LinearMap.smul_apply, inner_smul_right]

theorem expv_neg (Ψ : Fock ℝ) (T : FOp ℝ) : expv Ψ (-T) = - expv Ψ T := by
  rw [← neg_one_smul ℝ T, expv_smul, neg_one_mul]

theorem comm_zero_left (T : FOp ℝ) : comm 0 T = 0 := by unfold comm; rw [zero_mul, mul_zero, sub_zero]

theorem comm_neg_swap (S T : FOp ℝ) : comm S T = - comm T S := by unfold comm; rw [neg_sub]

theorem expv_zero (Ψ : Fock ℝ) : expv Ψ 0 = 0 := by
  unfold expv; rw [LinearMap.zero_apply, inner_zero_right]

theorem expv_comm_sum_left {ι : Type*} (Ψ : Fock ℝ) (s : Finset ι) (f : ι → FOp ℝ) (T : FOp ℝ) :
    expv Ψ (comm (∑ i ∈ s, f i) T) = ∑ i ∈ s, expv Ψ (comm (f i) T) := by
  classical
  induction s using Finset.induction with
  | empty => rw [Finset.sum_empty, Finset.sum_empty, comm_zero_left, expv_zero]
  | insert i s h ih => rw [Finset.sum_insert h, Finset.sum_insert h, comm_add_left, expv_add, ih]

theorem expv_comm_sum_right {ι : Type*} (Ψ : Fock ℝ) (s : Finset ι) (f : ι → FOp ℝ) (T : FOp ℝ) :
    expv Ψ (comm T (∑ i ∈ s, f i)) = ∑ i ∈ s, expv Ψ (comm T (f i)) := by
  rw [comm_neg_swap, expv_neg, expv_comm_sum_left, ← Finset.sum_neg_distrib]
  refine Finset.sum_congr rfl fun i _ => ?_
  rw [comm_neg_swap T, expv_neg]

/-- `⟨[O†, O]⟩` in terms of the metric. -/
theorem comm_norm {ι : Type*} (Ψ : Fock ℝ) (s : Finset ι) (A B : ι → FOp ℝ) (h : ∀ i ∈ s, IsAdjoint (A i) (B i))
    (hD : ∀ i ∈ s, ∀ j ∈ s, expv Ψ (comm (B i) (B j)) = 0) (Z Y : ι → ℝ) :
    expv Ψ (comm (∑ i ∈ s, (Y i • A i + Z i • B i)) (∑ i ∈ s, (Z i • A i + Y i • B i))) =
      ∑ i ∈ s, ∑ j ∈ s, expv Ψ (comm (B i) (A j)) * (Z i * Z j - Y i * Y j) := by
  rw [expv_comm_sum_left]
  refine Finset.sum_congr rfl fun i hi => ?_
  rw [expv_comm_sum_right]
  refine Finset.sum_congr rfl fun j hj => ?_
  have e1 : expv Ψ (comm (A i) (A j)) = 0 := by
    rw [expv_adjoint _ ((h i hi).comm (h j hj)), hD j hj i hi]
  have e2 : expv Ψ (comm (A i) (B j)) = - expv Ψ (comm (B i) (A j)) := by
    rw [comm_neg_swap, expv_neg, expv_adjoint _ ((h j hj).symm.comm (h i hi))]
  simp only [comm_add_left, comm_add_right, comm_smul_left, comm_smul_right, expv_add, expv_smul, e1, e2,
    hD i hi j hj]
  ring

theorem forall2_at {X Xd : List (FOp ℝ)} (h : List.Forall₂ IsAdjoint X Xd) (i : ℕ) :
    IsAdjoint (X[i]?.getD 0) (Xd[i]?.getD 0) := by
  induction h generalizing i with
  | nil => simpa using isAdjoint_zero
  | cons h _ ih => cases i with
    | zero => simpa using h
    | succ i => simpa using ih i

theorem excOp_adjoint {X Xd : List (FOp ℝ)} (h : List.Forall₂ IsAdjoint X Xd) (Z Y : ℕ → ℝ) :
    IsAdjoint (excOp X Xd Z Y) (excOp X Xd Y Z) := by
  unfold excOp
  generalize Finset.range X.length = s
  induction s using Finset.induction with
  | empty => simpa using isAdjoint_zero
  | insert i s hi ih =>
    rw [Finset.sum_insert hi, Finset.sum_insert hi]
    refine IsAdjoint.add ?_ ih
    rw [add_comm (Y i • _)]
    exact ((forall2_at h i).smul _).add ((forall2_at h i).symm.smul _)

theorem rowAt_lo {s : ℕ} (v : Fin (s + s) → ℝ) (i : Fin s) : rowAt v i = v (Fin.castAdd s i) := by
  unfold rowAt; rw [dif_pos (by omega)]; rfl

theorem rowAt_hi {s : ℕ} (v : Fin (s + s) → ℝ) (i : Fin s) : rowAt v (i + s) = v (Fin.natAdd s i) := by
  unfold rowAt; rw [dif_pos (by omega)]
  congr 1
  apply Fin.ext
  simp [add_comm]

/-- The metric norm of a vector is `⟨[O†, O]⟩`. -/
theorem vec_norm {Ψ : Fock ℝ} {X Xd : List (FOp ℝ)} {s : ℕ} (hl : X.length = s) (hX : List.Forall₂ IsAdjoint X Xd)
    {Sg : RMat s} (hS : ∀ i j : Fin s, Sg i j = expv Ψ (comm (Xd[(i : ℕ)]?.getD 0) (X[(j : ℕ)]?.getD 0)))
    (hD : ∀ i j : Fin s, expv Ψ (comm (Xd[(i : ℕ)]?.getD 0) (Xd[(j : ℕ)]?.getD 0)) = 0) (v : Fin (s + s) → ℝ)
    {O : FOp ℝ} (hO : IsAdjoint (vecOp X Xd v) O) :
    v ⬝ᵥ (lrMetric Sg 0 *ᵥ v) = expv Ψ (comm O (vecOp X Xd v)) := by
  have eO : O = excOp X Xd (fun i => rowAt v (i + X.length)) (rowAt v) := hO.unique (excOp_adjoint hX _ _)
  rw [eO]
  unfold vecOp excOp
  rw [hl, Finset.sum_range, Finset.sum_range, comm_norm Ψ _ (fun i : Fin s => X[(i : ℕ)]?.getD 0)
    (fun i : Fin s => Xd[(i : ℕ)]?.getD 0) (fun i _ => forall2_at hX i) (fun i _ j _ => hD i j)
    (fun i : Fin s => rowAt v i) (fun i : Fin s => rowAt v (i + s))]
  have hq : v ⬝ᵥ (lrMetric Sg 0 *ᵥ v) = ∑ i, ∑ j, lrMetric Sg 0 i j * (v i * v j) := by
    simp only [dotProduct, Matrix.mulVec, Finset.mul_sum]
    exact Finset.sum_congr rfl fun _ _ => Finset.sum_congr rfl fun _ _ => by ring
  rw [hq, Fin.sum_univ_add]
  simp only [Fin.sum_univ_add (fun j => lrMetric Sg 0 _ j * _)]
  unfold lrMetric
  simp only [blockMat_ll, blockMat_lr, blockMat_rl, blockMat_rr, Matrix.neg_apply, Matrix.zero_apply, neg_zero,
    zero_mul, Finset.sum_const_zero, add_zero, zero_add]
  rw [← Finset.sum_add_distrib]
  refine Finset.sum_congr rfl fun i _ => ?_
  rw [← Finset.sum_add_distrib]
  refine Finset.sum_congr rfl fun j _ => ?_
  rw [hS, rowAt_lo, rowAt_lo, rowAt_hi, rowAt_hi]
  ring

/-! ### the orbital part -/

theorem zipIdx_range_sum {α : Type} (l : List α) (f : α → ℕ → ℝ) (F : ℕ → ℝ)
    (h : ∀ i a, l[i]? = some a → f a i = F i) :
    (l.zipIdx.map fun k => f k.1 k.2).sum = ∑ i ∈ Finset.range l.length, F i := by
  induction l using List.reverseRecOn with
  | nil => rfl
  | append_singleton l a ih =>
    rw [List.zipIdx_append, List.map_append, List.sum_append, ih (fun i b hb => h i b (by
      rw [List.getElem?_append_left (List.getElem?_eq_some_iff.1 hb).1]; exact hb)), List.length_append,
      List.length_singleton, Finset.sum_range_succ, ← h l.length a (by simp)]
    simp

/-- The adjoints of the orbital rotations. -/
noncomputable def qAdj (W : RespWf) : List (FOp ℝ) := W.kappa.map fun k => qOp k.1 k.2

theorem oneOp_adjoint {x : Mat ℝ} (hx : ∀ p q, x p q = x q p) (n : ℕ) : IsAdjoint (oneOp x n) (oneOp x n) := by
  have := C11_hermitian x (fun _ _ _ _ => (0 : ℝ)) n (fun p q _ _ => hx p q) (fun _ _ _ _ _ _ _ _ => rfl)
  have e : (twoOp (fun _ _ _ _ => (0 : ℝ)) n : FOp ℝ) = 0 := by
    unfold twoOp; simp
  rw [e, smul_zero, add_zero] at this
  exact this

variable {tiny big : ℝ → Bool} {th : Threads} {W : RespWf}

theorem dipQ_ok (hW : W.Proper) {x : Mat ℝ} (hx : ∀ p q, x p q = x q p) {q nexc m : ℕ} (hq : q = W.kappa.length)
    (hm : q + nexc ≤ m) (v : Fin m → ℝ) :
    dipQ W q nexc x v = .ok (∑ i ∈ Finset.range q,
      (rowAt v i * expv W.state (comm ((W.kappa.map fun k => qOp k.2 k.1)[i]?.getD 0) (oneOp x W.numOrbs))
        + rowAt v (i + nexc) * expv W.state (comm ((qAdj W)[i]?.getD 0) (oneOp x W.numOrbs)))) := by
  unfold dipQ
  split
  · rw [if_neg (by omega)]
    congr 1
    rw [C33_property (nV := W.ci.nV) (proper_reference hW) hW.rdm.one hx (fun k hk => by
      have := hW.kappa k hk
      have h2 := this.2
      unfold RespWf.numOrbs at h2
      rcases this.1 with h | h <;> exact ⟨by omega, h2⟩)]
    unfold respOp
    rw [comm_listsum_left, mean_listsum, hq]
    refine zipIdx_range_sum W.kappa (fun a i => mean [W.state] (comm (rowAt v i • qOp a.2 a.1
      + rowAt v (i + nexc) • qOp a.1 a.2) (oneOp x (W.ci.nI + W.ci.nA + W.ci.nV)))) _ fun i a ha => ?_
    unfold qAdj
    rw [List.getElem?_map, List.getElem?_map, ha]
    simp only [Option.map_some, Option.getD_some]
    rw [← expv_mean, comm_add_left, expv_add, comm_smul_left, comm_smul_left, expv_smul, expv_smul]
    rfl
  · have : q = 0 := by omega
    subst this
    rfl

/-! ### the active part -/

theorem foldlM_fin {g : ℕ} {f : ℝ → Fin g → Res ℝ} {val : Fin g → ℝ} (h : ∀ i s, f s i = .ok (s + val i)) (s : ℝ) :
    (List.finRange g).foldlM f s = .ok (s + ∑ i, val i) := by
  have : ∀ (l : List (Fin g)) (s : ℝ), l.foldlM f s = .ok (s + (l.map val).sum) := by
    intro l
    induction l with
    | nil => intro s; rw [List.map_nil, List.sum_nil, add_zero]; rfl
    | cons i l ih =>
      intro s
      rw [List.foldlM_cons, h i s, ok_bind, ih, List.map_cons, List.sum_cons, add_assoc]
  rw [this, Fin.sum_univ_def]

/-- The dipole operator between active states. -/
theorem dip_ops (ht : ExactTiny tiny) (hb : ExactBig big) {x : Mat ℝ} (hx : ∀ p q, x p q = x q p) :
    ∃ d d', oneElec0i0a tiny big x W.ci.nI W.ci.nA = .ok d ∧ fdagger tiny d = .ok d' ∧ GenOp W.ci d ∧ GenOp W.ci d' ∧
      (∀ y z, ActiveState W.ci.nI W.ci.nA y → ActiveState W.ci.nI W.ci.nA z →
        inner y (sumOp d z) = inner y (oneOp x W.numOrbs z)) ∧
      (∀ y z, ActiveState W.ci.nI W.ci.nA y → ActiveState W.ci.nI W.ci.nA z →
        inner y (sumOp d' z) = inner y (oneOp x W.numOrbs z)) := by
  obtain ⟨d, h1, h2, h3⟩ := one0_gen ht hb x W.ci
  obtain ⟨d', k1, k2, k3⟩ := h2.dagger ht
  refine ⟨d, d', h1, k1, h2, k2, h3, fun y z hy hz => ?_⟩
  rw [← k3 y z, inner_comm, h3 z y hz hy, ← oneOp_adjoint hx, inner_comm]
  rfl

/-- `⟨[T, μ]⟩` of a transfer operator. -/
theorem expv_comm_adj {Ψ : Fock ℝ} {T Td M : FOp ℝ} (hT : IsAdjoint T Td) (hM : IsAdjoint M M) :
    expv Ψ (comm Td M) = - expv Ψ (comm T M) := by
  rw [comm_neg_swap, expv_neg, expv_adjoint _ (hM.comm hT.symm)]

theorem naiveTransfer_ok (ht : ExactTiny tiny) {q : ℕ} {G : List (Dict ℝ)} (hG : ∀ d ∈ G, ActOp W.ci d)
    (v : Fin ((q + G.length) + (q + G.length)) → ℝ) :
    ∃ T, naiveTransfer tiny G v = .ok T ∧ ActOp W.ci T ∧ ∀ B : Fin G.length → FOp ℝ,
      (∀ i, IsAdjoint (sumOp G[i]) (B i)) → sumOp T = ∑ i, (zg v i • B i + yg v i • sumOp G[i]) := by
  have : ∀ (l : List (Fin G.length)) (T : Dict ℝ), ActOp W.ci T → ∃ T', l.foldlM (fun T i => do
      let gd ← fdagger tiny G[i]
      pure (fadd tiny T (fadd tiny (frmul (zg v i) gd) (frmul (yg v i) G[i])))) T = .ok T' ∧ ActOp W.ci T' ∧
      ∀ B : Fin G.length → FOp ℝ, (∀ i, IsAdjoint (sumOp G[i]) (B i)) →
        sumOp T' = sumOp T + (l.map fun i => (zg v i • B i + yg v i • sumOp G[i])).sum := by
    intro l
    induction l with
    | nil => intro T hT; exact ⟨T, rfl, hT, fun B _ => by simp⟩
    | cons i l ih =>
      intro T hT
      have hi := hG G[i] (List.getElem_mem _)
      obtain ⟨gd, d1, d2, d3⟩ := hi.dagger ht
      have e : ∀ (c : ℝ) (A : Dict ℝ), frmul c A = fscale A c := fun _ _ => rfl
      obtain ⟨T', t1, t2, t3⟩ := ih (fadd tiny T (fadd tiny (frmul (zg v i) gd) (frmul (yg v i) G[i])))
        ⟨hT.1.add ((d2.1.scale _).add (hi.1.scale _)), hT.2.fadd ((d2.2.frmul _).fadd (hi.2.frmul _))⟩
      refine ⟨T', ?_, t2, fun B hB => ?_⟩
      · rw [List.foldlM_cons, d1]
        exact t1
      · rw [t3 B hB, sumOp_fadd ht, sumOp_fadd ht, e, e, sumOp_fscale, sumOp_fscale, d3.unique (hB i), List.map_cons,
          List.sum_cons, add_assoc]
  obtain ⟨T, t1, t2, t3⟩ := this (List.finRange G.length) [] ⟨⟨by simp [WF], by simp, by simp⟩, keys_nil⟩
  refine ⟨T, t1, t2, fun B hB => ?_⟩
  rw [t3 B hB, Fin.sum_univ_def]
  simp

/-- The naive class: one component for one state. -/
theorem naiveDip_ok (ht : ExactTiny tiny) (hb : ExactBig big) (hW : W.Proper) (hth : th.Fair W.ci.idx2det.length)
    {x : Mat ℝ} (hx : ∀ p q, x p q = x q p) {q nexc : ℕ} {G : List (Dict ℝ)} (hG : ∀ d ∈ G, ActOp W.ci d) :
    ∃ k, naiveDipPre tiny big th W x = .ok k ∧ ∀ (v : Fin ((q + G.length) + (q + G.length)) → ℝ) (qp : ℝ),
      dipQ W q nexc x v = .ok qp → ∀ B : Fin G.length → FOp ℝ, (∀ i, IsAdjoint (sumOp G[i]) (B i)) →
      naiveDip tiny th W G nexc v x k = .ok (qp + ∑ i : Fin G.length,
        (zg v i * expv W.state (comm (sumOp G[i]) (oneOp x W.numOrbs))
          + yg v i * expv W.state (comm (B i) (oneOp x W.numOrbs)))) := by
  have hs := hW.space
  have hact := emb_active W.ci
  have hM := oneOp_adjoint hx W.numOrbs
  obtain ⟨d, d', a1, a2, a3, a4, a5, a6⟩ := dip_ops (W := W) ht hb hx
  obtain ⟨k, k1, k2⟩ := W.prop_gen (th := th) ht hs hth a3 W.c
  obtain ⟨kd, l1, l2⟩ := W.prop_gen (th := th) ht hs hth a4 W.c
  refine ⟨(k, kd), by unfold naiveDipPre; simp only [a1, k1, a2, l1, ok_bind]; rfl, fun v qp hqp B hB => ?_⟩
  obtain ⟨T, t1, t2, t3⟩ := naiveTransfer_ok (tiny := tiny) ht hG v
  obtain ⟨Td, d1, d2, d3⟩ := t2.dagger ht
  obtain ⟨Tk, m1, m2⟩ := W.prop_act (th := th) ht hs hth t2 W.c
  obtain ⟨Tdk, n1, n2⟩ := W.prop_act (th := th) ht hs hth d2 W.c
  unfold naiveDip
  simp only [t1, hqp, m1, d1, n1, W.ev_nil hs, ok_bind]
  refine congrArg Except.ok ?_
  have e1 : inner (emb W.ci kd) (emb W.ci Tk) = inner W.state (oneOp x W.numOrbs (sumOp T W.state)) := by
    rw [inner_comm, l2, a6 _ _ (hact _) (hact _), ← hM, inner_comm, m2]
    rfl
  have e2 : inner (emb W.ci Tdk) (emb W.ci k) = inner W.state (sumOp T (oneOp x W.numOrbs W.state)) := by
    rw [k2, a5 _ _ (hact _) (hact _), n2, d3.symm]
    rfl
  rw [e1, e2, ← expv_comm, comm_neg_swap, expv_neg, t3 B hB, expv_comm_sum_left, ← Finset.sum_neg_distrib]
  congr 1
  refine Finset.sum_congr rfl fun i _ => ?_
  rw [comm_add_left, expv_add, comm_smul_left, comm_smul_left, expv_smul, expv_smul, expv_comm_adj (hB i) hM]
  ring

/-- The projected class. -/
theorem projDip_ok (ht : ExactTiny tiny) (hb : ExactBig big) (hW : W.Proper) (hth : th.Fair W.ci.idx2det.length)
    {x : Mat ℝ} (hx : ∀ p q, x p q = x q p) {q nexc : ℕ} {G : List (Dict ℝ)} (hG : ∀ d ∈ G, ActOp W.ci d) :
    ∃ k, projDipPre tiny big th W x = .ok k ∧ ∀ (v : Fin ((q + G.length) + (q + G.length)) → ℝ) (qp : ℝ),
      dipQ W q nexc x v = .ok qp → ∀ B : Fin G.length → FOp ℝ, (∀ i, IsAdjoint (projOp W.state (sumOp G[i])) (B i)) →
      projDip tiny th W G nexc v x k = .ok (qp + ∑ i : Fin G.length,
        (zg v i * expv W.state (comm (projOp W.state (sumOp G[i])) (oneOp x W.numOrbs))
          + yg v i * expv W.state (comm (B i) (oneOp x W.numOrbs)))) := by
  have hs := hW.space
  have hact := emb_active W.ci
  have hM := oneOp_adjoint hx W.numOrbs
  obtain ⟨d, d', a1, a2, a3, a4, a5, a6⟩ := dip_ops (W := W) ht hb hx
  obtain ⟨k, k1, k2⟩ := W.prop_gen (th := th) ht hs hth a3 W.c
  refine ⟨(k, inner (emb W.ci W.c) (emb W.ci k)), by
    unfold projDipPre; simp only [a1, k1, W.ev_nil hs, ok_bind]; rfl, fun v qp hqp B hB => ?_⟩
  unfold projDip
  rw [hqp]
  simp only [ok_bind]
  rw [foldlM_fin (val := fun i => zg v i * expv W.state (comm (projOp W.state (sumOp G[i])) (oneOp x W.numOrbs))
    + yg v i * expv W.state (comm (B i) (oneOp x W.numOrbs))), ok_bind, zero_add]
  · rfl
  intro i s
  have hi := hG G[i] (List.getElem_mem _)
  obtain ⟨Gk, m1, m2⟩ := W.prop_act (th := th) ht hs hth hi W.c
  simp only [m1, W.ev_nil hs, ok_bind]
  refine congrArg Except.ok ?_
  have e0 : emb W.ci W.c = W.state := rfl
  rw [expv_comm_adj (hB i) hM, k2, k2, a5 _ _ (hact _) (hact _), a5 _ _ (hact _) (hact _), m2, e0, expv_comm]
  unfold projOp
  simp only [LinearMap.sub_apply, LinearMap.smul_apply, Module.End.one_apply, ketbra_apply, map_sub, map_smul,
    inner_sub_right, inner_smul_right, hW.norm]
  rw [hM.symm (sumOp G[i] W.state) W.state |>.symm.trans (inner_comm _ _)]
  unfold expv
  ring

theorem aprojDip_ok (ht : ExactTiny tiny) (hb : ExactBig big) (hW : W.Proper) (hth : th.Fair W.ci.idx2det.length)
    {x : Mat ℝ} (hx : ∀ p q, x p q = x q p) {q nexc : ℕ} {G : List (Dict ℝ)} (hG : ∀ d ∈ G, ActOp W.ci d) :
    ∃ k, naiveDipPre tiny big th W x = .ok k ∧ ∀ (v : Fin ((q + G.length) + (q + G.length)) → ℝ) (qp : ℝ),
      dipQ W q nexc x v = .ok qp → ∀ B : Fin G.length → FOp ℝ, (∀ i, IsAdjoint (projOp W.state (sumOp G[i])) (B i)) →
      aprojDip tiny th W G nexc v x k = .ok (qp + ∑ i : Fin G.length,
        (zg v i * expv W.state (comm (projOp W.state (sumOp G[i])) (oneOp x W.numOrbs))
          + yg v i * expv W.state (comm (B i) (oneOp x W.numOrbs)))) := by
  have hs := hW.space
  have hact := emb_active W.ci
  have hM := oneOp_adjoint hx W.numOrbs
  obtain ⟨d, d', a1, a2, a3, a4, a5, a6⟩ := dip_ops (W := W) ht hb hx
  obtain ⟨k, k1, k2⟩ := W.prop_gen (th := th) ht hs hth a3 W.c
  obtain ⟨kd, l1, l2⟩ := W.prop_gen (th := th) ht hs hth a4 W.c
  refine ⟨(k, kd), by unfold naiveDipPre; simp only [a1, k1, a2, l1, ok_bind]; rfl, fun v qp hqp B hB => ?_⟩
  unfold aprojDip
  rw [hqp]
  simp only [ok_bind]
  rw [foldlM_fin (val := fun i => zg v i * expv W.state (comm (projOp W.state (sumOp G[i])) (oneOp x W.numOrbs))
    + yg v i * expv W.state (comm (B i) (oneOp x W.numOrbs))), ok_bind, zero_add]
  · rfl
  intro i s
  have hi := hG G[i] (List.getElem_mem _)
  obtain ⟨Gk, m1, m2⟩ := W.prop_act (th := th) ht hs hth hi W.c
  simp only [m1, W.ev_nil hs, ok_bind]
  refine congrArg Except.ok ?_
  have e0 : emb W.ci W.c = W.state := rfl
  rw [inner_comm (emb W.ci kd), l2, a6 _ _ (hact _) (hact _), expv_comm_adj (hB i) hM, k2, k2,
    a5 _ _ (hact _) (hact _), a5 _ _ (hact _) (hact _), m2, e0, expv_comm]
  unfold projOp
  simp only [LinearMap.sub_apply, LinearMap.smul_apply, Module.End.one_apply, ketbra_apply, map_sub, map_smul,
    inner_sub_right, inner_smul_right, hW.norm]
  rw [hM.symm (sumOp G[i] W.state) W.state |>.symm.trans (inner_comm _ _), inner_comm (sumOp G[i] W.state) W.state]
  unfold expv
  ring

/-- The state-transfer classes. -/
theorem stDip_ok {U Ud : FOp ℝ} (ht : ExactTiny tiny) (hb : ExactBig big) (hW : W.Proper)
    (hth : th.Fair W.ci.idx2det.length) (hR : W.Rotates U Ud) {x : Mat ℝ} (hx : ∀ p q, x p q = x q p) {q nexc : ℕ}
    {G : List (Dict ℝ)} (hG : ∀ d ∈ G, ActOp W.ci d) (h0 : ∀ d ∈ G, inner W.state (W.moved U (sumOp d)) = 0) :
    ∃ k, stDipPre tiny big th W x = .ok k ∧ ∀ (v : Fin ((q + G.length) + (q + G.length)) → ℝ) (qp : ℝ),
      dipQ W q nexc x v = .ok qp → ∀ B : Fin G.length → FOp ℝ,
      (∀ i, IsAdjoint (ketbra (W.moved U (sumOp G[i])) W.state) (B i)) →
      stDip tiny th W G nexc v x k = .ok (qp + ∑ i : Fin G.length,
        (zg v i * expv W.state (comm (ketbra (W.moved U (sumOp G[i])) W.state) (oneOp x W.numOrbs))
          + yg v i * expv W.state (comm (B i) (oneOp x W.numOrbs)))) := by
  have hs := hW.space
  have hact := emb_active W.ci
  have hM := oneOp_adjoint hx W.numOrbs
  obtain ⟨d, d', a1, a2, a3, a4, a5, a6⟩ := dip_ops (W := W) ht hb hx
  obtain ⟨k, k1, k2⟩ := W.prop_Ud_gen (th := th) ht hs hth hR a3 W.c
  obtain ⟨kd, l1, l2⟩ := W.prop_Ud_gen (th := th) ht hs hth hR a4 W.c
  refine ⟨(kd, k), by unfold stDipPre; simp only [a1, k1, a2, l1, ok_bind]; rfl, fun v qp hqp B hB => ?_⟩
  unfold stDip
  rw [hqp]
  simp only [ok_bind]
  rw [foldlM_fin (val := fun i => zg v i * expv W.state (comm (ketbra (W.moved U (sumOp G[i])) W.state)
    (oneOp x W.numOrbs)) + yg v i * expv W.state (comm (B i) (oneOp x W.numOrbs))), ok_bind, zero_add]
  · rfl
  intro i s
  have mi := List.getElem_mem (l := G) i.2
  have hi := hG G[i] mi
  obtain ⟨g, w, m1, -, -, m4, m5⟩ := moved_vec (th := th) ht hs hth hR hi
  simp only [m1, W.ev_nil hs, ok_bind]
  refine congrArg Except.ok ?_
  have aw : ActiveState W.ci.nI W.ci.nA (W.moved U (sumOp G[i])) := m4 ▸ hact w
  have z := h0 G[i] mi
  rw [expv_comm_adj (hB i) hM, inner_comm (emb W.ci kd), k2, l2, m5, a5 _ _ aw (hact _), a6 _ _ aw (hact _), expv_comm]
  simp only [ketbra_apply, map_smul, inner_smul_right, z, hW.norm]
  rw [← hM (W.moved U (sumOp G[i])), inner_comm]
  have e0 : emb W.ci W.c = W.state := rfl
  rw [e0]
  ring

/-! ### assembly -/

theorem zg_row {q g : ℕ} (v : Fin ((q + g) + (q + g)) → ℝ) (i : Fin g) : zg v i = rowAt v (q + i) :=
  (rowAt_lo v (Fin.natAdd q i)).symm

theorem yg_row {q g : ℕ} (v : Fin ((q + g) + (q + g)) → ℝ) (i : Fin g) : yg v i = rowAt v (q + i + (q + g)) :=
  (rowAt_hi v (Fin.natAdd q i)).symm

/-- Orbital part and active part are the whole commutator. -/
theorem dip_total {Ψ : Fock ℝ} {X Xd : List (FOp ℝ)} {q g : ℕ} (hl : X.length = q + g)
    (v : Fin ((q + g) + (q + g)) → ℝ) (M : FOp ℝ) :
    (∑ i ∈ Finset.range q, (rowAt v i * expv Ψ (comm (X[i]?.getD 0) M)
        + rowAt v (i + (q + g)) * expv Ψ (comm (Xd[i]?.getD 0) M)))
      + ∑ i : Fin g, (zg v i * expv Ψ (comm (X[q + (i : ℕ)]?.getD 0) M)
        + yg v i * expv Ψ (comm (Xd[q + (i : ℕ)]?.getD 0) M)) = expv Ψ (comm (vecOp X Xd v) M) := by
  unfold vecOp excOp
  rw [expv_comm_sum_left, hl, Finset.sum_range_add]
  congr 1
  · refine Finset.sum_congr rfl fun i _ => ?_
    rw [comm_add_left, expv_add, comm_smul_left, comm_smul_left, expv_smul, expv_smul]
  · rw [Finset.sum_range]
    refine Finset.sum_congr rfl fun i _ => ?_
    rw [comm_add_left, expv_add, comm_smul_left, comm_smul_left, expv_smul, expv_smul, zg_row, yg_row]

/-- `normedVector` with the metric of a response class. -/
theorem normed_ok {Ψ : Fock ℝ} {X Xd : List (FOp ℝ)} {q g : ℕ} (hl : X.length = q + g)
    (hX : List.Forall₂ IsAdjoint X Xd) {M : LRMats} (hB : BlockMetric q M)
    (hS : ∀ i j Xi Xid Xj Xjd, X[i]? = some Xi → X[j]? = some Xj → IsAdjoint Xi Xid → IsAdjoint Xj Xjd →
      M.Sigma i j = expv Ψ (comm Xid Xj) ∧ M.Delta i j = expv Ψ (comm Xid Xjd))
    (u : Fin ((q + g) + (q + g)) → ℝ) :
    let v := normedVector (lrMetric (LRMats.arr (q + g) M.Sigma) (LRMats.arr (q + g) M.Delta)) u
    (∃ a : ℝ, 0 ≤ a ∧ v = a • u) ∧
    (∀ O, IsAdjoint (vecOp X Xd u) O → expv Ψ (comm O (vecOp X Xd u)) < 1e-10 → v = 0) ∧
    ∀ O, IsAdjoint (vecOp X Xd u) O → 1e-10 ≤ expv Ψ (comm O (vecOp X Xd u)) →
      ∀ P, IsAdjoint (vecOp X Xd v) P → expv Ψ (comm P (vecOp X Xd v)) = 1 := by
  intro v
  have eD : LRMats.arr (q + g) M.Delta = 0 := by
    funext i j; exact hB.1 i j
  have hv : v = normedVector (lrMetric (LRMats.arr (q + g) M.Sigma) 0) u := by
    show normedVector _ u = _
    rw [eD]
  have get : ∀ i : Fin (q + g), ∃ T, X[(i : ℕ)]? = some T := fun i => ⟨_, List.getElem?_eq_getElem (by omega)⟩
  have hS' : ∀ i j : Fin (q + g), LRMats.arr (q + g) M.Sigma i j =
      expv Ψ (comm (Xd[(i : ℕ)]?.getD 0) (X[(j : ℕ)]?.getD 0)) ∧
      expv Ψ (comm (Xd[(i : ℕ)]?.getD 0) (Xd[(j : ℕ)]?.getD 0)) = 0 := by
    intro i j
    obtain ⟨Ti, hi⟩ := get i
    obtain ⟨Tj, hj⟩ := get j
    have ai := forall2_at hX i
    have aj := forall2_at hX j
    rw [hi] at ai
    rw [hj] at aj
    obtain ⟨h1, h2⟩ := hS i j Ti _ Tj _ hi hj ai aj
    refine ⟨?_, by rw [← h2]; exact hB.1 i j⟩
    rw [hj]
    exact h1
  obtain ⟨n1, n2, n3⟩ := C67_norm (LRMats.arr (q + g) M.Sigma) (fun i j => hB.2 _ _ (.inl ⟨i.2, by simp⟩))
    (fun i j => hB.2 _ _ (.inr ⟨by simp, j.2⟩)) u
  have vn : ∀ (w : Fin ((q + g) + (q + g)) → ℝ) O, IsAdjoint (vecOp X Xd w) O →
      w ⬝ᵥ (lrMetric (LRMats.arr (q + g) M.Sigma) 0 *ᵥ w) = expv Ψ (comm O (vecOp X Xd w)) :=
    fun w O hO => vec_norm hl hX (fun i j => (hS' i j).1) (fun i j => (hS' i j).2) w hO
  refine ⟨?_, fun O hO h => ?_, fun O hO h P hP => ?_⟩
  · rw [hv]
    unfold normedVector
    split
    · exact ⟨0, le_rfl, by simp⟩
    · rename_i hge
      refine ⟨(1 / stateNorm (lrMetric (LRMats.arr (q + g) M.Sigma) 0) u) ^ (0.5 : ℝ), ?_, ?_⟩
      · refine Real.rpow_nonneg ?_ _
        have : (0 : ℝ) < 1e-10 := by norm_num
        have := not_lt.1 hge
        positivity
      · funext i
        rw [Pi.smul_apply, smul_eq_mul, mul_comm]
  · rw [hv]
    exact n3 (by rw [vn u O hO]; exact h)
  · rw [← vn v P hP, hv]
    exact n2 (by rw [vn u O hO]; exact h)

theorem forall2_get {α β : Type} {l : List α} {L : List β} {V : α → β → Prop}
    (h : List.Forall₂ V l L) {i : ℕ} {a : α} (ha : l[i]? = some a) : ∃ b, L[i]? = some b ∧ V a b := by
  induction h generalizing i with
  | nil => simp at ha
  | cons h _ ih => cases i with
    | zero => simp at ha; subst ha; exact ⟨_, rfl, h⟩
    | succ i => simpa using ih (by simpa using ha)

/-- The rows, from the entries. -/
theorem dipRows_ok {κ σ : Type} {mu : Fin 3 → Mat ℝ} {pre : Mat ℝ → Res κ} {states : List σ}
    {entry : σ → Mat ℝ → κ → Res ℝ} {F : σ → Fin 3 → ℝ}
    (h : ∀ c, ∃ k, pre (mu c) = .ok k ∧ ∀ s ∈ states, entry s (mu c) k = .ok (F s c)) :
    dipRows mu pre states entry = .ok (states.map F) := by
  obtain ⟨kx, x1, x2⟩ := h 0
  obtain ⟨ky, y1, y2⟩ := h 1
  obtain ⟨kz, z1, z2⟩ := h 2
  unfold dipRows
  simp only [x1, y1, z1, ok_bind]
  have : ∀ l : List σ, (∀ s ∈ l, s ∈ states) → (l.mapM fun s => do
      let x ← entry s (mu 0) kx
      let y ← entry s (mu 1) ky
      let z ← entry s (mu 2) kz
      pure ![x, y, z]) = Except.ok (l.map F) := by
    intro l
    induction l with
    | nil => intro _; rfl
    | cons s l ih =>
      intro hl
      have m := hl s (by simp)
      rw [List.mapM_cons, x2 s m, y2 s m, z2 s m, ih fun t ht => hl t (by simp [ht])]
      refine congrArg Except.ok ?_
      rw [List.map_cons]
      congr 1
      funext c
      fin_cases c <;> rfl
  exact this states fun _ h => h

end SQ
