import Verif.Spec.StateAverage
import Verif.Lemmas.LinearResponse

/-! # Eigenvalues and eigenvectors of symmetric matrices -/

namespace SQ

open Matrix

variable {eig : EigLib} {m : ℕ} {M : RMat m}

/-- Eigenvalues and eigenvectors as the code keeps them. -/
noncomputable def sortedPairs (eig : EigLib) (M : RMat m) : List (ℂ × (Fin m → ℂ)) :=
  (eig m M).mergeSort fun a b => complexLe a.1 b.1

theorem eig_real (he : EigOK eig) (hM : M.IsSymm) {p : ℂ × (Fin m → ℂ)} (hp : p ∈ eig m M) : p.1.im = 0 := by
  obtain ⟨h1, h2, -⟩ := he.solves m M hM p hp
  set S := ∑ i, (starRingEnd ℂ) (p.2 i) * (toC M *ᵥ p.2) i with hS
  have e1 : S = p.1 := by
    rw [hS, h1]
    have : ∀ i, (starRingEnd ℂ) (p.2 i) * (p.1 • p.2) i = p.1 * ((‖p.2 i‖ ^ 2 : ℝ) : ℂ) := by
      intro i
      rw [Pi.smul_apply, smul_eq_mul, mul_left_comm, ← Complex.normSq_eq_norm_sq, Complex.normSq_eq_conj_mul_self]
    rw [Finset.sum_congr rfl fun i _ => this i, ← Finset.mul_sum, ← Complex.ofReal_sum, h2, Complex.ofReal_one, mul_one]
  have e2 : (starRingEnd ℂ) S = S := by
    rw [hS, map_sum]
    simp only [map_mul, Complex.conj_conj, mulVec, dotProduct, map_sum, toC, Matrix.map_apply, Complex.conj_ofReal,
      Finset.mul_sum]
    rw [Finset.sum_comm]
    refine Finset.sum_congr rfl fun i _ => Finset.sum_congr rfl fun j _ => ?_
    rw [show M j i = M i j from hM.apply i j]
    ring
  rw [e1] at e2
  exact Complex.conj_eq_iff_im.1 e2

theorem eig_pair (he : EigOK eig) (hM : M.IsSymm) {p : ℂ × (Fin m → ℂ)} (hp : p ∈ eig m M) :
    (M *ᵥ fun i => (p.2 i).re) = p.1.re • (fun i => (p.2 i).re) ∧ ∑ i, (p.2 i).re ^ 2 = 1 := by
  obtain ⟨h1, h2, h3⟩ := he.solves m M hM p hp
  have hr := eig_real he hM hp
  have hv := h3 hr
  refine ⟨?_, ?_⟩
  · funext i
    have := congrArg Complex.re (congrFun h1 i)
    simp only [mulVec, dotProduct, toC, Matrix.map_apply, Complex.re_sum, Pi.smul_apply,
      smul_eq_mul, Complex.mul_re, hr, zero_mul, sub_zero, Complex.coe_algebraMap, Complex.ofReal_re,
      Complex.ofReal_im] at this
    simpa only [mulVec, dotProduct, Pi.smul_apply, smul_eq_mul] using this
  · rw [← h2]
    refine Finset.sum_congr rfl fun i _ => ?_
    rw [← Complex.normSq_eq_norm_sq, Complex.normSq_apply, hv i]
    ring

theorem complexLe_total (a b : ℂ × (Fin m → ℂ)) : (complexLe a.1 b.1 || complexLe b.1 a.1) = true := by
  unfold complexLe
  simp only [Bool.or_eq_true, decide_eq_true_eq]
  rcases lt_trichotomy a.1.re b.1.re with h | h | h
  · exact Or.inl (Or.inl h)
  · rcases le_total a.1.im b.1.im with k | k
    · exact Or.inl (Or.inr ⟨h, k⟩)
    · exact Or.inr (Or.inr ⟨h.symm, k⟩)
  · exact Or.inr (Or.inl h)

theorem complexLe_trans (a b c : ℂ × (Fin m → ℂ)) (h1 : complexLe a.1 b.1 = true) (h2 : complexLe b.1 c.1 = true) :
    complexLe a.1 c.1 = true := by
  unfold complexLe at *
  simp only [decide_eq_true_eq] at *
  rcases h1 with h1 | ⟨h1, k1⟩ <;> rcases h2 with h2 | ⟨h2, k2⟩
  · exact Or.inl (h1.trans h2)
  · exact Or.inl (by rw [← h2]; exact h1)
  · exact Or.inl (by rw [h1]; exact h2)
  · exact Or.inr ⟨h1.trans h2, k1.trans k2⟩

theorem sortedPairs_perm : (sortedPairs eig M).Perm (eig m M) := List.mergeSort_perm _ _

theorem sortedPairs_ascending : ((sortedPairs eig M).map fun p => p.1.re).Pairwise (· ≤ ·) := by
  rw [List.pairwise_map]
  refine (List.pairwise_mergeSort (le := fun a b : ℂ × (Fin m → ℂ) => complexLe a.1 b.1) complexLe_trans complexLe_total
    (eig m M)).imp ?_
  intro a b h
  unfold complexLe at h
  simp only [decide_eq_true_eq] at h
  rcases h with h | ⟨h, -⟩
  · exact h.le
  · exact h.le

theorem eig_roots (he : EigOK eig) (hM : M.IsSymm) : (toC M).charpoly.roots = ((eig m M).map Prod.fst : List ℂ) := by
  have hp : (toC M).charpoly =
      ((((eig m M).map Prod.fst : List ℂ) : Multiset ℂ).map fun w => Polynomial.X - Polynomial.C w).prod := by
    refine Polynomial.funext fun x => ?_
    rw [Matrix.eval_charpoly, Polynomial.eval_multiset_prod, Multiset.map_map]
    have hneg : Matrix.scalar (Fin m) x - toC M = -(toC M - x • 1) := by
      rw [neg_sub]
      congr 1
      ext i j
      by_cases hij : i = j
      · subst hij; simp
      · simp [hij]
    rw [hneg, Matrix.det_neg, he.counted m M hM x, Fintype.card_fin]
    rw [show (-1 : ℂ) ^ m = (-1) ^ (eig m M).length by rw [he.number m M hM]]
    induction eig m M with
    | nil => simp
    | cons a l ih =>
      simp only [List.length_cons, List.map_cons, List.prod_cons, pow_succ] at *
      rw [← Multiset.cons_coe, Multiset.map_cons, Multiset.prod_cons, ← ih]
      simp
      ring
  rw [hp, Polynomial.roots_multiset_prod_X_sub_C]

theorem eig_trace (he : EigOK eig) (hM : M.IsSymm) : ((sortedPairs eig M).map fun p => p.1.re).sum = M.trace := by
  have h1 := Matrix.trace_eq_sum_roots_charpoly (A := toC M)
  rw [eig_roots he hM, Multiset.sum_coe] at h1
  rw [(sortedPairs_perm.map fun p => p.1.re).sum_eq]
  have h2 : (toC M).trace = ((M.trace : ℝ) : ℂ) := by
    simp [Matrix.trace, toC]
  rw [h2] at h1
  have h3 := congrArg Complex.re h1
  rw [Complex.ofReal_re] at h3
  rw [h3]
  clear h1 h2 h3
  induction eig m M with
  | nil => simp
  | cons a l ih => simpa using ih

theorem eig_lowest (he : EigOK eig) (hM : M.IsSymm) {e : ℝ} (hh : ((sortedPairs eig M).map fun p => p.1.re).head? = some e)
    (a : Fin m → ℝ) : e * ∑ i, a i * a i ≤ ∑ i, a i * (M *ᵥ a) i := by
  have hle : ∀ p ∈ eig m M, e ≤ p.1.re := by
    intro p hp
    have hmem := sortedPairs_perm (eig := eig) (M := M) |>.mem_iff.2 hp
    have := sortedPairs_ascending (eig := eig) (M := M)
    have hm : p.1.re ∈ (sortedPairs eig M).map fun p => p.1.re := List.mem_map_of_mem hmem
    generalize (sortedPairs eig M).map (fun p => p.1.re) = l at *
    cases l with
    | nil => simp at hh
    | cons x l =>
      simp only [List.head?_cons, Option.some.injEq] at hh
      subst hh
      rcases List.mem_cons.1 hm with h | h
      · exact h.ge
      · exact (List.pairwise_cons.1 this).1 _ h
  have hH : (M - e • (1 : RMat m)).IsHermitian := by
    rw [Matrix.IsHermitian, Matrix.conjTranspose_eq_transpose_of_trivial, Matrix.transpose_sub, Matrix.transpose_smul,
      Matrix.transpose_one, hM.eq]
  have hP : (M - e • (1 : RMat m)).PosSemidef := by
    rw [hH.posSemidef_iff_eigenvalues_nonneg]
    intro i
    set μ := hH.eigenvalues i with hμ
    have h1 := hH.mulVec_eigenvectorBasis i
    set v : Fin m → ℝ := (hH.eigenvectorBasis i).ofLp with hv
    have hv0 : v ≠ 0 := by
      intro h0
      have hn := hH.eigenvectorBasis.orthonormal.1 i
      have : hH.eigenvectorBasis i = 0 := by
        ext k
        exact congrFun h0 k
      rw [this, norm_zero] at hn
      exact zero_ne_one hn
    have h2 : M *ᵥ v = (e + μ) • v := by
      rw [Matrix.sub_mulVec, Matrix.smul_mulVec, Matrix.one_mulVec, sub_eq_iff_eq_add] at h1
      rw [h1, add_smul, add_comm]
    have h3 : (toC M - ((e + μ : ℝ) : ℂ) • (1 : Matrix (Fin m) (Fin m) ℂ)).det = 0 := by
      refine Matrix.exists_mulVec_eq_zero_iff.1 ⟨fun i => (v i : ℂ), ?_, ?_⟩
      · intro h
        apply hv0
        funext i
        have := congrFun h i
        simpa using this
      · rw [Matrix.sub_mulVec, Matrix.smul_mulVec, Matrix.one_mulVec, sub_eq_zero]
        funext i
        have := congrFun h2 i
        simp only [mulVec, dotProduct, toC, Matrix.map_apply, Pi.smul_apply, smul_eq_mul] at this ⊢
        exact_mod_cast this
    rw [he.counted m M hM] at h3
    obtain ⟨p, hp, h4⟩ := List.mem_map.1 (List.prod_eq_zero_iff.1 h3)
    have h5 := hle p hp
    rw [sub_eq_zero] at h4
    rw [h4, Complex.ofReal_re] at h5
    show 0 ≤ μ
    linarith
  have := hP.dotProduct_mulVec_nonneg a
  simp only [star_trivial, Matrix.sub_mulVec, Matrix.smul_mulVec, Matrix.one_mulVec, dotProduct_sub, dotProduct_smul] at this
  simp only [dotProduct, smul_eq_mul] at this
  linarith

/-- The assumptions on the eigenvalue routine can be met. -/
theorem exists_eigOK : ∃ eig : EigLib, EigOK eig := by
  classical
  have hex : ∀ (m : ℕ) (M : RMat m), ∃ l : List (ℂ × (Fin m → ℂ)), M.IsSymm → l.length = m ∧
      (∀ p ∈ l, toC M *ᵥ p.2 = p.1 • p.2 ∧ ∑ i, ‖p.2 i‖ ^ 2 = 1 ∧ (p.1.im = 0 → ∀ i, (p.2 i).im = 0)) ∧
      ∀ x : ℂ, (toC M - x • 1).det = (l.map fun p => p.1 - x).prod := by
    intro m M
    by_cases hM : M.IsSymm
    swap
    · exact ⟨[], fun h => absurd h hM⟩
    have hH : M.IsHermitian := by
      rw [Matrix.IsHermitian, Matrix.conjTranspose_eq_transpose_of_trivial, hM.eq]
    refine ⟨(List.finRange m).map fun i => ((hH.eigenvalues i : ℂ), fun k => (((hH.eigenvectorBasis i).ofLp k : ℝ) : ℂ)),
      fun _ => ⟨by simp, ?_, ?_⟩⟩
    · intro p hp
      obtain ⟨i, -, rfl⟩ := List.mem_map.1 hp
      refine ⟨?_, ?_, fun _ k => Complex.ofReal_im _⟩
      · funext k
        have := congrFun (hH.mulVec_eigenvectorBasis i) k
        simp only [mulVec, dotProduct, toC, Matrix.map_apply, Pi.smul_apply, smul_eq_mul] at this ⊢
        exact_mod_cast this
      · have hn := hH.eigenvectorBasis.orthonormal.1 i
        have h2 := EuclideanSpace.norm_sq_eq (hH.eigenvectorBasis i)
        rw [hn, one_pow] at h2
        rw [h2]
        exact Finset.sum_congr rfl fun k _ => by rw [Complex.norm_real]
    · intro x
      have h1 : (toC M).charpoly = M.charpoly.map Complex.ofRealHom := (Matrix.charpoly_map M Complex.ofRealHom).symm ▸ rfl
      have hneg : toC M - x • 1 = -(Matrix.scalar (Fin m) x - toC M) := by
        rw [neg_sub]
        congr 1
        ext i j
        by_cases hij : i = j
        · subst hij; simp
        · simp [hij]
      rw [hneg, Matrix.det_neg, ← Matrix.eval_charpoly, h1, hH.charpoly_eq, Polynomial.map_prod, Polynomial.eval_prod,
        List.map_map, ← Fin.prod_univ_def, ← Finset.card_univ, ← Finset.prod_const, ← Finset.prod_mul_distrib]
      refine Finset.prod_congr rfl fun i _ => ?_
      simp
  choose eig h using hex
  exact ⟨eig, fun m M hM => (h m M hM).1, fun m M hM => (h m M hM).2.1, fun m M hM => (h m M hM).2.2⟩

end SQ
