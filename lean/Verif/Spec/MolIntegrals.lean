import Verif.Model.MolIntegrals
import Verif.Spec.Integrals

/-!
# Specification: the basis functions of a molecule
-/

namespace SQ

/-- Every shell has functions, and its exponents are positive. -/
def Molecule.PositiveBasis (m : Molecule) : Prop :=
  ∀ s ∈ m.shells, s.angular ≠ [] ∧ ∀ e ∈ s.exponents, 0 < e

/-- The contractions are functions other than zero: exponents of a shell are pairwise different and some coefficient
is not zero. -/
def Molecule.ProperContractions (m : Molecule) : Prop :=
  ∀ s ∈ m.shells, s.exponents.Nodup ∧ s.coefficients.length = s.exponents.length ∧ ∃ c ∈ s.coefficients, c ≠ 0

/-- A Cartesian Gaussian `(x-X)^l (y-Y)^m (z-Z)^n exp(-α |r-R|²)`. -/
noncomputable def cartesianGaussian (R : Fin 3 → ℝ) (α : ℝ) (l : Fin 3 → ℕ) (r : Fin 3 → ℝ) : ℝ :=
  (∏ d, (r d - R d) ^ l d) * Real.exp (-α * ∑ d, (r d - R d) ^ 2)

/-- A Cartesian Gaussian divided by its norm. -/
noncomputable def unitGaussian (R : Fin 3 → ℝ) (α : ℝ) (l : Fin 3 → ℕ) (r : Fin 3 → ℝ) : ℝ :=
  cartesianGaussian R α l r / √(∫ r', cartesianGaussian R α l r' ^ 2)

/-- `a` is the number of function `k` of a shell: the functions of all earlier shells come first. -/
def Numbered (shells : List GShell) (a : ℕ) (s : GShell) (k : Fin s.nbf) : Prop :=
  ∃ i, shells[i]? = some s ∧ a = ((shells.take i).map GShell.nbf).sum + k

end SQ
