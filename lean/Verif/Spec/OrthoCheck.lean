import Verif.Model.OrthoCheck

/-! # Orthonormal orbitals -/

namespace SQ

/-- The columns of `C` are orthonormal in the overlap `S` of the atomic orbitals. -/
def OrthonormalOrbitals {n : ℕ} (C S : Matrix (Fin n) (Fin n) ℝ) : Prop :=
  ∀ i j, ∑ a, ∑ b, C a i * S a b * C b j = if i = j then 1 else 0

/-- `x` is the largest deviation of an overlap of two orbitals from the one of orthonormal orbitals. -/
def LargestDeviation {n : ℕ} (C S : Matrix (Fin n) (Fin n) ℝ) (x : ℝ) : Prop :=
  (∀ i j, |∑ a, ∑ b, C a i * S a b * C b j - (if i = j then 1 else 0)| ≤ x) ∧
    ∃ i j, x = |∑ a, ∑ b, C a i * S a b * C b j - (if i = j then 1 else 0)|

end SQ
