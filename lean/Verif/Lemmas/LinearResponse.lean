import Mathlib.Analysis.Matrix.PosDef
import Mathlib.Analysis.Complex.Polynomial.Basic
import Mathlib.LinearAlgebra.Matrix.Charpoly.Basic
import Mathlib.LinearAlgebra.Matrix.Charpoly.Eigs
import Mathlib.LinearAlgebra.Matrix.ToLinearEquiv
import Mathlib.LinearAlgebra.Matrix.NonsingularInverse
import Mathlib.Logic.Equiv.Fin.Basic
import Mathlib.Data.Real.StarOrdered
import Verif.Spec.LinearResponse

/-!
# Lemmas: the response equations
-/

namespace SQ

open Matrix

variable {s : ℕ}

theorem blockMat_ll (a b c d : RMat s) (i j : Fin s) : blockMat a b c d (Fin.castAdd s i) (Fin.castAdd s j) = a i j := by
  simp only [blockMat, Fin.addCases_left, Fin.addCases_right]

theorem blockMat_lr (a b c d : RMat s) (i j : Fin s) : blockMat a b c d (Fin.castAdd s i) (Fin.natAdd s j) = b i j := by
  simp only [blockMat, Fin.addCases_left, Fin.addCases_right]

theorem blockMat_rl (a b c d : RMat s) (i j : Fin s) : blockMat a b c d (Fin.natAdd s i) (Fin.castAdd s j) = c i j := by
  simp only [blockMat, Fin.addCases_left, Fin.addCases_right]

theorem blockMat_rr (a b c d : RMat s) (i j : Fin s) : blockMat a b c d (Fin.natAdd s i) (Fin.natAdd s j) = d i j := by
  simp only [blockMat, Fin.addCases_left, Fin.addCases_right]

theorem hessian_flip (A B : RMat s) (i j : Fin (s + s)) :
    lrHessian A B (finAddFlip i) (finAddFlip j) = lrHessian A B i j := by
  unfold lrHessian
  refine Fin.addCases (fun i => ?_) (fun i => ?_) i <;> refine Fin.addCases (fun j => ?_) (fun j => ?_) j <;>
    simp only [finAddFlip_apply_castAdd, finAddFlip_apply_natAdd, blockMat_ll, blockMat_lr, blockMat_rl,
      blockMat_rr]

theorem metric_flip (Sg Dl : RMat s) (i j : Fin (s + s)) :
    lrMetric Sg Dl (finAddFlip i) (finAddFlip j) = -lrMetric Sg Dl i j := by
  unfold lrMetric
  refine Fin.addCases (fun i => ?_) (fun i => ?_) i <;> refine Fin.addCases (fun j => ?_) (fun j => ?_) j <;>
    simp only [finAddFlip_apply_castAdd, finAddFlip_apply_natAdd, blockMat_ll, blockMat_lr, blockMat_rl,
      blockMat_rr, Matrix.neg_apply, neg_neg]

theorem swapHalves_eq {R : Type*} (v : Fin (s + s) → R) : swapHalves v = fun i => v (finAddFlip i) := by
  funext i
  refine Fin.addCases (fun i => ?_) (fun i => ?_) i <;>
    simp only [swapHalves, Fin.addCases_left, Fin.addCases_right, finAddFlip_apply_castAdd, finAddFlip_apply_natAdd]

/-- The characteristic polynomial is even. -/
theorem det_even (A B Sg Dl : RMat s) (x : ℂ) :
    (toC (lrHessian A B) - x • toC (lrMetric Sg Dl)).det =
    (toC (lrHessian A B) - (-x) • toC (lrMetric Sg Dl)).det := by
  rw [← Matrix.det_submatrix_equiv_self (finAddFlip : Fin (s + s) ≃ Fin (s + s))
    (toC (lrHessian A B) - x • toC (lrMetric Sg Dl))]
  congr 1
  ext i j
  simp only [Matrix.submatrix_apply, Matrix.sub_apply, Matrix.smul_apply, toC, Matrix.map_apply, hessian_flip,
    metric_flip, smul_eq_mul, Complex.ofReal_neg]
  ring

/-- Two products of linear factors agree only for equal roots. -/
theorem roots_eq_of_prod (l₁ l₂ : Multiset ℂ) (h : ∀ x : ℂ, (l₁.map fun w => x - w).prod = (l₂.map fun w => x - w).prod) :
    l₁ = l₂ := by
  have hp : (l₁.map fun w => Polynomial.X - Polynomial.C w).prod =
      (l₂.map fun w => Polynomial.X - Polynomial.C w).prod := by
    refine Polynomial.funext fun x => ?_
    rw [Polynomial.eval_multiset_prod, Polynomial.eval_multiset_prod, Multiset.map_map, Multiset.map_map]
    simpa using h x
  have := congrArg Polynomial.roots hp
  rwa [Polynomial.roots_multiset_prod_X_sub_C, Polynomial.roots_multiset_prod_X_sub_C] at this

/-- The roots are symmetric about zero, with multiplicities. -/
theorem roots_symmetric {lib : LRLib} (hl : LRLibOK lib) (A B Sg Dl : RMat s) (hS : (lrMetric Sg Dl).det ≠ 0) :
    (((lib.eig (s + s) (lrHessian A B) (lrMetric Sg Dl)).map Prod.fst : List ℂ) : Multiset ℂ).map (fun w => -w) =
    (((lib.eig (s + s) (lrHessian A B) (lrMetric Sg Dl)).map Prod.fst : List ℂ) : Multiset ℂ) := by
  set L := lib.eig (s + s) (lrHessian A B) (lrMetric Sg Dl) with hL
  have hdet : (toC (lrMetric Sg Dl)).det ≠ 0 := by
    have : (toC (lrMetric Sg Dl)).det = ((lrMetric Sg Dl).det : ℂ) := by
      have := RingHom.map_det Complex.ofRealHom (lrMetric Sg Dl)
      exact this.symm
    rw [this]
    exact_mod_cast hS
  have hlen : L.length = s + s := hl.number _ _ _ hS
  have hsign : ∀ (f : ℂ × (Fin (s + s) → ℂ) → ℂ), (L.map fun p => -(f p)).prod = (L.map f).prod := by
    intro f
    have : ∀ l : List (ℂ × (Fin (s + s) → ℂ)), (l.map fun p => -(f p)).prod = (-1) ^ l.length * (l.map f).prod := by
      intro l
      induction l with
      | nil => simp
      | cons a l ih => simp only [List.map_cons, List.prod_cons, ih, List.length_cons, pow_succ]; ring
    rw [this, hlen, Even.neg_one_pow ⟨s, rfl⟩, one_mul]
  have heven : ∀ x : ℂ, (L.map fun p => p.1 - x).prod = (L.map fun p => p.1 - -x).prod := by
    intro x
    have h1 := hl.counted _ (lrHessian A B) _ hS x
    have h2 := hl.counted _ (lrHessian A B) _ hS (-x)
    rw [det_even, h2] at h1
    exact (mul_left_cancel₀ hdet h1).symm
  refine roots_eq_of_prod _ _ fun x => ?_
  rw [Multiset.map_map, Multiset.map_coe, Multiset.map_coe, Multiset.prod_coe, Multiset.prod_coe, List.map_map,
    List.map_map]
  calc (L.map (((fun w => x - w) ∘ fun w => -w) ∘ Prod.fst)).prod = (L.map fun p => p.1 - -x).prod := by
        congr 1
        refine List.map_congr_left fun p _ => ?_
        simp only [Function.comp]; ring
    _ = (L.map fun p => p.1 - x).prod := (heven x).symm
    _ = (L.map ((fun w => x - w) ∘ Prod.fst)).prod := by
        rw [← hsign fun p => p.1 - x]
        congr 1
        refine List.map_congr_left fun p _ => ?_
        simp only [Function.comp]; ring

/-- The quadratic form. -/
def quad {m : ℕ} (M : RMat m) (v : Fin m → ℝ) : ℝ := v ⬝ᵥ (M *ᵥ v)

theorem toC_mulVec_re {m : ℕ} (M : RMat m) (v : Fin m → ℂ) (i : Fin m) :
    ((toC M *ᵥ v) i).re = (M *ᵥ fun j => (v j).re) i := by
  simp [toC, Matrix.mulVec, dotProduct]

theorem toC_mulVec_im {m : ℕ} (M : RMat m) (v : Fin m → ℂ) (i : Fin m) :
    ((toC M *ᵥ v) i).im = (M *ᵥ fun j => (v j).im) i := by
  simp [toC, Matrix.mulVec, dotProduct]

theorem symm_form {m : ℕ} {M : RMat m} (hM : M.IsSymm) (u v : Fin m → ℝ) : u ⬝ᵥ (M *ᵥ v) = v ⬝ᵥ (M *ᵥ u) := by
  rw [Matrix.dotProduct_mulVec, ← Matrix.mulVec_transpose, hM.eq, dotProduct_comm]

/-- With a positive definite Hessian and a symmetric metric every root is real, and the sign of the root is the
sign of the metric norm of its vector. -/
theorem root_real {m : ℕ} {M S : RMat m} (hM : M.PosDef) (hS : S.IsSymm) {w : ℂ} {v : Fin m → ℂ} (hv : v ≠ 0)
    (h : toC M *ᵥ v = w • (toC S *ᵥ v)) : w.im = 0 ∧ w.re ≠ 0 := by
  set a : Fin m → ℝ := fun j => (v j).re with ha
  set b : Fin m → ℝ := fun j => (v j).im with hb
  have hMs : M.IsSymm := by
    have := hM.isHermitian
    rwa [Matrix.IsHermitian, Matrix.conjTranspose_eq_transpose_of_trivial] at this
  have hre : ∀ i, (M *ᵥ a) i = w.re * (S *ᵥ a) i - w.im * (S *ᵥ b) i := by
    intro i
    have := congrArg Complex.re (congrFun h i)
    rwa [toC_mulVec_re, Pi.smul_apply, smul_eq_mul, Complex.mul_re, toC_mulVec_re, toC_mulVec_im] at this
  have him : ∀ i, (M *ᵥ b) i = w.re * (S *ᵥ b) i + w.im * (S *ᵥ a) i := by
    intro i
    have := congrArg Complex.im (congrFun h i)
    rwa [toC_mulVec_im, Pi.smul_apply, smul_eq_mul, Complex.mul_im, toC_mulVec_re, toC_mulVec_im] at this
  have hre' : M *ᵥ a = w.re • (S *ᵥ a) - w.im • (S *ᵥ b) := by funext i; simpa using hre i
  have him' : M *ᵥ b = w.re • (S *ᵥ b) + w.im • (S *ᵥ a) := by funext i; simpa using him i
  have hpos : 0 < quad M a + quad M b := by
    have hq : ∀ u : Fin m → ℝ, u ≠ 0 → 0 < quad M u := by
      intro u hu
      have := hM.dotProduct_mulVec_pos hu
      simpa [quad] using this
    have hq0 : ∀ u : Fin m → ℝ, 0 ≤ quad M u := by
      intro u
      by_cases hu : u = 0
      · simp [quad, hu]
      · exact (hq u hu).le
    by_cases h0 : a = 0
    · have hbne : b ≠ 0 := by
        intro hb0
        apply hv
        funext j
        exact Complex.ext (congrFun h0 j) (congrFun hb0 j)
      linarith [hq b hbne, hq0 a]
    · linarith [hq a h0, hq0 b]
  have hx1 : quad M a + quad M b = w.re * (quad S a + quad S b) := by
    unfold quad
    rw [hre', him', dotProduct_sub, dotProduct_add, dotProduct_smul, dotProduct_smul, dotProduct_smul,
      dotProduct_smul, symm_form hS a b]
    simp only [smul_eq_mul]; ring
  have hx2 : w.im * (quad S a + quad S b) = 0 := by
    have h1 : b ⬝ᵥ (M *ᵥ a) = a ⬝ᵥ (M *ᵥ b) := symm_form hMs b a
    rw [hre', him', dotProduct_sub, dotProduct_add, dotProduct_smul, dotProduct_smul, dotProduct_smul,
      dotProduct_smul, symm_form hS b a] at h1
    simp only [smul_eq_mul] at h1
    unfold quad
    linarith
  have hr : quad S a + quad S b ≠ 0 := by
    intro h0
    rw [h0, mul_zero] at hx1
    linarith
  refine ⟨(mul_eq_zero.1 hx2).resolve_right hr, ?_⟩
  intro h0
  rw [h0, zero_mul] at hx1
  linarith

/-- In a list sorted by a key that is nowhere zero, with as many negative as positive entries, the lower half is
negative and the upper half positive. -/
theorem sorted_halves {α : Type*} (f : α → ℝ) (l : List α) (s : ℕ) (hs : l.Pairwise fun a b => f a ≤ f b)
    (hneg : l.countP (fun a => decide (f a < 0)) = s) (hpos : l.countP (fun a => decide (0 < f a)) = s)
    (hne : ∀ a ∈ l, f a ≠ 0) : (∀ a ∈ l.take s, f a < 0) ∧ ∀ a ∈ l.drop s, 0 < f a := by
  have hlen : l.length = s + s := by
    have := List.length_eq_countP_add_countP (fun a => decide (f a < 0)) (l := l)
    rw [this, hneg]
    congr 1
    rw [← hpos]
    refine List.countP_congr fun a ha => ?_
    have := hne a ha
    simp only [decide_eq_true_eq]
    constructor
    · intro h; simp at h; exact lt_of_le_of_ne h (Ne.symm this)
    · intro h; simp [h.le]
  have hpd : ∀ a ∈ l.take s, ∀ b ∈ l.drop s, f a ≤ f b := by
    have h := hs
    rw [← List.take_append_drop s l, List.pairwise_append] at h
    exact h.2.2
  have hsplit : ∀ p : α → Bool, l.countP p = (l.take s).countP p + (l.drop s).countP p := by
    intro p
    rw [← List.countP_append, List.take_append_drop]
  have h1 := hsplit (fun a => decide (f a < 0))
  have h2 := hsplit (fun a => decide (0 < f a))
  have lt : (l.take s).length = s := by simp [hlen]
  have ld : (l.drop s).length = s := by simp [hlen]
  by_cases hex : ∃ b ∈ l.drop s, f b < 0
  · obtain ⟨b, hb, hb0⟩ := hex
    have hall : (l.take s).countP (fun a => decide (f a < 0)) = (l.take s).length := by
      rw [List.countP_eq_length]
      intro a ha
      simpa using lt_of_le_of_lt (hpd a ha b hb) hb0
    have : 0 < (l.drop s).countP (fun a => decide (f a < 0)) := List.countP_pos_iff.2 ⟨b, hb, by simpa using hb0⟩
    omega
  · push Not at hex
    have hdp : ∀ a ∈ l.drop s, 0 < f a := fun a ha =>
      lt_of_le_of_ne (hex a ha) (Ne.symm (hne a (List.mem_of_mem_drop ha)))
    refine ⟨fun a ha => ?_, hdp⟩
    have hz : (l.drop s).countP (fun a => decide (f a < 0)) = 0 := by
      rw [List.countP_eq_zero]
      intro b hb
      simpa using hex b hb
    have hall : (l.take s).countP (fun a => decide (f a < 0)) = (l.take s).length := by omega
    rw [List.countP_eq_length] at hall
    simpa using hall a ha

/-- The assumptions on the eigenvalue routines can be met. -/
theorem exists_lrLibOK : ∃ lib : LRLib, LRLibOK lib := by
  classical
  have hex : ∀ (m : ℕ) (M S : RMat m), ∃ l : List (ℂ × (Fin m → ℂ)), S.det ≠ 0 →
      (∀ p ∈ l, p.2 ≠ 0 ∧ toC M *ᵥ p.2 = p.1 • (toC S *ᵥ p.2)) ∧
      (∀ x : ℂ, (toC M - x • toC S).det = (toC S).det * (l.map fun p => p.1 - x).prod) ∧ l.length = m := by
    intro m M S
    by_cases hS : S.det = 0
    · exact ⟨[], fun h => absurd hS h⟩
    have hdet : IsUnit (toC S).det := by
      have : (toC S).det = (S.det : ℂ) := (RingHom.map_det Complex.ofRealHom S).symm
      rw [this, isUnit_iff_ne_zero]
      exact_mod_cast hS
    set K := (toC S)⁻¹ * toC M with hK
    have hSK : toC S * K = toC M := by rw [hK, ← Matrix.mul_assoc, Matrix.mul_nonsing_inv _ hdet, Matrix.one_mul]
    have hvec : ∀ w ∈ K.charpoly.roots, ∃ v : Fin m → ℂ, v ≠ 0 ∧ K *ᵥ v = w • v := by
      intro w hw
      have hroot : (Matrix.scalar (Fin m) w - K).det = 0 := by
        have := Polynomial.isRoot_of_mem_roots hw
        rwa [Polynomial.IsRoot, Matrix.eval_charpoly] at this
      obtain ⟨v, hv, h0⟩ := Matrix.exists_mulVec_eq_zero_iff.2 hroot
      refine ⟨v, hv, ?_⟩
      rw [Matrix.sub_mulVec, sub_eq_zero] at h0
      rw [← h0]
      funext i
      simp [Matrix.scalar_apply, Matrix.mulVec_diagonal]
    set f : ℂ → ℂ × (Fin m → ℂ) := fun w =>
      (w, if h : w ∈ K.charpoly.roots then Classical.choose (hvec w h) else 0) with hf
    refine ⟨K.charpoly.roots.toList.map f, fun _ => ⟨?_, ?_, ?_⟩⟩
    · intro p hp
      obtain ⟨w, hw, rfl⟩ := List.mem_map.1 hp
      rw [Multiset.mem_toList] at hw
      have hc := Classical.choose_spec (hvec w hw)
      simp only [hf, hw, dite_true]
      refine ⟨hc.1, ?_⟩
      rw [← hSK, ← Matrix.mulVec_mulVec, hc.2, Matrix.mulVec_smul]
    · intro x
      have h1 : toC M - x • toC S = toC S * (K - x • 1) := by
        rw [Matrix.mul_sub, hSK, Matrix.mul_smul, Matrix.mul_one]
      rw [h1, Matrix.det_mul]
      congr 1
      have hsp : K.charpoly.Splits := IsAlgClosed.splits _
      have heval := congrArg (Polynomial.eval x) (hsp.eq_prod_roots_of_monic (Matrix.charpoly_monic K))
      rw [Matrix.eval_charpoly, Polynomial.eval_multiset_prod, Multiset.map_map] at heval
      have hcard : K.charpoly.roots.card = m := by
        rw [← hsp.natDegree_eq_card_roots, Matrix.charpoly_natDegree_eq_dim, Fintype.card_fin]
      have hneg : K - x • 1 = -(Matrix.scalar (Fin m) x - K) := by
        rw [neg_sub]
        congr 1
        ext i j
        by_cases hij : i = j
        · subst hij; simp
        · simp [hij]
      rw [hneg, Matrix.det_neg, heval, Fintype.card_fin, List.map_map]
      have hl : ∀ r : Multiset ℂ, (r.toList.map ((fun p => p.1 - x) ∘ f)).prod =
          (r.map fun w => w - x).prod := by
        intro r
        rw [← Multiset.prod_coe, ← Multiset.map_coe, Multiset.coe_toList]
        rfl
      rw [hl]
      have : ∀ r : Multiset ℂ, (-1) ^ r.card * (r.map (Polynomial.eval x ∘ fun a => Polynomial.X - Polynomial.C a)).prod =
          (r.map fun w => w - x).prod := by
        intro r
        induction r using Multiset.induction_on with
        | empty => simp
        | cons a r ih =>
          simp only [Multiset.card_cons, Multiset.map_cons, Multiset.prod_cons, ← ih, pow_succ,
            Function.comp, Polynomial.eval_sub, Polynomial.eval_X, Polynomial.eval_C]
          ring
      rw [← this, hcard]
    · rw [List.length_map, Multiset.length_toList, ← (IsAlgClosed.splits K.charpoly).natDegree_eq_card_roots,
        Matrix.charpoly_natDegree_eq_dim, Fintype.card_fin]
  choose eig heig using hex
  have hev : ∀ (m : ℕ) (M : RMat m), ∃ l : List ℝ, M.IsSymm → ∀ (x : ℝ) (v : Fin m → ℝ), v ≠ 0 → M *ᵥ v = x • v →
      x ∈ l := by
    intro m M
    refine ⟨M.charpoly.roots.toList, fun _ x v hv h => ?_⟩
    rw [Multiset.mem_toList, Polynomial.mem_roots (Matrix.charpoly_monic M).ne_zero, Polynomial.IsRoot,
      Matrix.eval_charpoly]
    refine Matrix.exists_mulVec_eq_zero_iff.1 ⟨v, hv, ?_⟩
    rw [Matrix.sub_mulVec, h]
    funext i
    simp [Matrix.scalar_apply, Matrix.mulVec_diagonal]
  choose ev hev using hev
  exact ⟨⟨ev, eig⟩, hev, fun m M S h => (heig m M S h).1, fun m M S h => (heig m M S h).2.1,
    fun m M S h => (heig m M S h).2.2⟩

end SQ
