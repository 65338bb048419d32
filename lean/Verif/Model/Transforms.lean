import Mathlib.Data.Matrix.Mul
import Mathlib.Data.Real.Basic

/-!
# Model: integral transformations

slowquant/molecularintegrals/integralfunctions.py lines 186-211. `np.einsum` is its defining sum; the
contraction order given in `optimize` only affects the cost. The coefficient matrix has `m` rows (atomic
orbitals) and `n` columns.
-/

namespace SQ

/-- A four-index tensor. -/
abbrev Tensor4 (m : Type*) := m → m → m → m → ℝ

variable {m n : Type*} [Fintype m]

/-- `one_electron_integral_transform`, lines 186-196: `"ai,bj,ab->ij"`. -/
def oneTransform (C : Matrix m n ℝ) (h : Matrix m m ℝ) : Matrix n n ℝ :=
  fun i j => ∑ a, ∑ b, C a i * C b j * h a b

/-- `two_electron_integral_transform`, lines 199-211: `"ai,bj,ck,dl,abcd->ijkl"`. -/
def twoTransform (C : Matrix m n ℝ) (g : Tensor4 m) : Tensor4 n :=
  fun i j k l => ∑ a, ∑ b, ∑ c, ∑ d, C a i * C b j * C c k * C d l * g a b c d

end SQ
