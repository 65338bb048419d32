import Mathlib.LinearAlgebra.Matrix.Kronecker
import Mathlib.LinearAlgebra.Matrix.Symmetric
import Mathlib.LinearAlgebra.Matrix.Trace
import Verif.Model.Transforms

/-!
# Property C62: integral transformation is a change of basis
-/

namespace SQ

open Matrix
open scoped Kronecker

variable {m n k : Type*} [Fintype m]

/-- The transform as a matrix product. -/
theorem oneTransform_eq (C : Matrix m n ℝ) (h : Matrix m m ℝ) : oneTransform C h = Cᵀ * h * C := by
  ext i j
  simp only [oneTransform, Matrix.mul_apply, Matrix.transpose_apply, Finset.sum_mul]
  rw [Finset.sum_comm]
  refine Finset.sum_congr rfl fun b _ => Finset.sum_congr rfl fun a _ => by ring

/-- A four-index tensor as a matrix over pairs. -/
def pairMatrix (g : Tensor4 m) : Matrix (m × m) (m × m) ℝ := fun a b => g a.1 a.2 b.1 b.2

theorem twoTransform_eq (C : Matrix m n ℝ) (g : Tensor4 m) (i j p q : n) :
    twoTransform C g i j p q = oneTransform (C ⊗ₖ C) (pairMatrix g) (i, j) (p, q) := by
  simp only [twoTransform, oneTransform, Fintype.sum_prod_type, Matrix.kroneckerMap_apply, pairMatrix]
  refine Finset.sum_congr rfl fun a _ => Finset.sum_congr rfl fun b _ => Finset.sum_congr rfl fun c _ =>
    Finset.sum_congr rfl fun d _ => by ring

theorem oneTransform_compose [Fintype n] (C : Matrix m n ℝ) (D : Matrix n k ℝ) (h : Matrix m m ℝ) :
    oneTransform D (oneTransform C h) = oneTransform (C * D) h := by
  rw [oneTransform_eq, oneTransform_eq, oneTransform_eq]
  simp only [Matrix.transpose_mul, Matrix.mul_assoc]

theorem sum_eq_trace (A B : Matrix m m ℝ) : ∑ i, ∑ j, A i j * B i j = Matrix.trace (A * Bᵀ) := by
  simp [Matrix.trace, Matrix.mul_apply]

/-- **C62, composition.** Transforming with `C` and then with `D` is transforming with `C D`. -/
theorem C62_compose [Fintype n] (C : Matrix m n ℝ) (D : Matrix n k ℝ) (h : Matrix m m ℝ) (g : Tensor4 m) :
    oneTransform D (oneTransform C h) = oneTransform (C * D) h ∧
    twoTransform D (twoTransform C g) = twoTransform (C * D) g := by
  refine ⟨oneTransform_compose C D h, ?_⟩
  funext i j p q
  rw [twoTransform_eq, twoTransform_eq, Matrix.mul_kronecker_mul, ← oneTransform_compose]
  congr 1
  funext a b
  exact (twoTransform_eq C g a.1 a.2 b.1 b.2)

/-- **C62, identity.** Transforming with the unit matrix changes nothing; hence transforming with `C` and then
with a right inverse of it gives the integrals back. -/
theorem C62_identity [DecidableEq m] [Fintype n] (h : Matrix m m ℝ) (g : Tensor4 m) :
    oneTransform (1 : Matrix m m ℝ) h = h ∧ twoTransform (1 : Matrix m m ℝ) g = g ∧
    ∀ (C : Matrix m n ℝ) (D : Matrix n m ℝ), C * D = 1 →
      oneTransform D (oneTransform C h) = h ∧ twoTransform D (twoTransform C g) = g := by
  have h1 : oneTransform (1 : Matrix m m ℝ) h = h := by rw [oneTransform_eq]; simp
  have h2 : twoTransform (1 : Matrix m m ℝ) g = g := by
    funext i j p q
    rw [twoTransform_eq, Matrix.one_kronecker_one, oneTransform_eq]
    simp [pairMatrix]
  refine ⟨h1, h2, fun C D hCD => ?_⟩
  rw [(C62_compose C D h g).1, (C62_compose C D h g).2, hCD]
  exact ⟨h1, h2⟩

/-- **C62, symmetries.** A symmetric one-electron matrix stays symmetric, and each of the permutational
symmetries of the two-electron tensor is kept. -/
theorem C62_symmetry (C : Matrix m n ℝ) (h : Matrix m m ℝ) (g : Tensor4 m) :
    (h.IsSymm → (oneTransform C h).IsSymm) ∧
    ((∀ a b c d, g a b c d = g b a c d) → ∀ i j p q, twoTransform C g i j p q = twoTransform C g j i p q) ∧
    ((∀ a b c d, g a b c d = g a b d c) → ∀ i j p q, twoTransform C g i j p q = twoTransform C g i j q p) ∧
    ((∀ a b c d, g a b c d = g c d a b) → ∀ i j p q, twoTransform C g i j p q = twoTransform C g p q i j) := by
  refine ⟨fun hs => ?_, fun hg i j p q => ?_, fun hg i j p q => ?_, fun hg i j p q => ?_⟩
  · rw [Matrix.IsSymm, oneTransform_eq, Matrix.transpose_mul, Matrix.transpose_mul, hs.eq,
      Matrix.transpose_transpose, Matrix.mul_assoc]
  · unfold twoTransform
    rw [Finset.sum_comm]
    refine Finset.sum_congr rfl fun a _ => Finset.sum_congr rfl fun b _ => Finset.sum_congr rfl fun c _ =>
      Finset.sum_congr rfl fun d _ => ?_
    rw [hg b a c d]; ring
  · unfold twoTransform
    refine Finset.sum_congr rfl fun a _ => Finset.sum_congr rfl fun b _ => ?_
    rw [Finset.sum_comm]
    refine Finset.sum_congr rfl fun c _ => Finset.sum_congr rfl fun d _ => ?_
    rw [hg a b d c]; ring
  · have hsymm : (pairMatrix g).IsSymm := by
      ext a b
      exact (hg a.1 a.2 b.1 b.2).symm
    rw [twoTransform_eq, twoTransform_eq, oneTransform_eq]
    have : ((C ⊗ₖ C)ᵀ * pairMatrix g * (C ⊗ₖ C)).IsSymm := by
      rw [Matrix.IsSymm, Matrix.transpose_mul, Matrix.transpose_mul, hsymm.eq, Matrix.transpose_transpose,
        Matrix.mul_assoc]
    exact (this.apply _ _)

/-- **C62, expectation values do not depend on the basis.** Contracting transformed integrals with densities
is contracting the original integrals with the back-transformed densities, so energies agree. -/
theorem C62_contract [Fintype n] (C : Matrix m n ℝ) (h : Matrix m m ℝ) (D : Matrix n n ℝ) :
    ∑ i, ∑ j, oneTransform C h i j * D i j = ∑ a, ∑ b, h a b * (C * D * Cᵀ) a b := by
  rw [sum_eq_trace, sum_eq_trace, oneTransform_eq, Matrix.transpose_mul, Matrix.transpose_mul, Matrix.transpose_transpose,
    ← Matrix.mul_assoc, Matrix.mul_assoc, Matrix.mul_assoc, Matrix.trace_mul_comm]
  simp only [Matrix.mul_assoc]

/-- Swapping the two orbitals swaps the diagonal. -/
example : oneTransform !![0, 1; 1, 0] !![(1 : ℝ), 2; 2, 5] = !![5, 2; 2, 1] := by
  rw [oneTransform_eq]
  ext i j
  fin_cases i <;> fin_cases j <;> simp [Matrix.mul_apply, Fin.sum_univ_two]

end SQ
