import Mathlib.LinearAlgebra.Matrix.PosDef
import Verif.Model.HartreeFock

/-!
# Specification: the numerical library used by Hartree-Fock, and what a density is
-/

namespace SQ

open Matrix

variable {n : ℕ}

/-- What `np.linalg.eigh` and `np.linalg.solve` are documented to do, in exact arithmetic: the eigenvectors are
orthonormal (for any input, as only one triangle is read), they diagonalise a symmetric input with ascending
eigenvalues; a linear system is solved if the matrix is regular and `LinAlgError` (a `ValueError`) is raised if
it is singular. -/
structure LibOK (lib : HFLib n) : Prop where
  orthonormal : ∀ A, (lib.eigh A).2ᵀ * (lib.eigh A).2 = 1
  diagonalises : ∀ A : HFMat n, A.IsSymm → A * (lib.eigh A).2 = (lib.eigh A).2 * Matrix.diagonal (lib.eigh A).1
  ascending : ∀ A : HFMat n, A.IsSymm → Monotone (lib.eigh A).1
  solves : ∀ k B b x, lib.solve k B b = .ok x → B *ᵥ x = b
  regular : ∀ k (B : Matrix (Fin k) (Fin k) ℝ) b, B.det ≠ 0 → ∃ x, lib.solve k B b = .ok x
  singular : ∀ k (B : Matrix (Fin k) (Fin k) ℝ) b, B.det = 0 → lib.solve k B b = .error .valueError

/-- `D` is the one-particle density of `occ` orbitals, each occupied `w` times, orthonormal with respect to the
overlap `S`: it is symmetric, `D S D = w D`, and it holds `w * occ` electrons. -/
structure IsDensity (S D : HFMat n) (w : ℝ) (occ : ℝ) : Prop where
  symm : D.IsSymm
  idem : D * S * D = w • D
  count : Matrix.trace (D * S) = w * occ

/-- The Hartree-Fock energy of a closed-shell density, without nuclear repulsion:
`tr(D h) + 1/2 Σ D_pq (J_pq - 1/2 K_pq)`. -/
noncomputable def rhfEnergy (h : HFMat n) (g : Tensor4 (Fin n)) (D : HFMat n) : ℝ :=
  ∑ p, ∑ q, D p q * h p q + 1 / 2 * ∑ p, ∑ q, D p q *
    (∑ r, ∑ s, g p q r s * D s r - 1 / 2 * ∑ s, ∑ r, g p s q r * D s r)

/-- The Fock matrix of one spin for spin densities `D` (this spin) and `D'` (the other):
`h + J[D + D'] - K[D]`, with exchange among electrons of equal spin only. -/
noncomputable def spinFock (h : HFMat n) (g : Tensor4 (Fin n)) (D D' : HFMat n) : HFMat n := fun p q =>
  h p q + ∑ r, ∑ s, g p q r s * (D s r + D' s r) - ∑ s, ∑ r, g p s q r * D s r

/-- The energy of unrestricted spin densities, without nuclear repulsion: the one-electron energy, half the
repulsion of the total density, less half the exchange within each spin. -/
noncomputable def uhfEnergy (h : HFMat n) (g : Tensor4 (Fin n)) (Da Db : HFMat n) : ℝ :=
  ∑ p, ∑ q, (Da p q + Db p q) * h p q
    + 1 / 2 * ∑ p, ∑ q, (Da p q + Db p q) * ∑ r, ∑ s, g p q r s * (Da s r + Db s r)
    - 1 / 2 * ∑ p, ∑ q, (Da p q * ∑ s, ∑ r, g p s q r * Da s r + Db p q * ∑ s, ∑ r, g p s q r * Db s r)

/-- The permutational symmetry of the two-electron integrals. -/
structure EriSymm (g : Tensor4 (Fin n)) : Prop where
  swap12 : ∀ p q r s, g p q r s = g q p r s
  swap34 : ∀ p q r s, g p q r s = g p q s r
  swapPairs : ∀ p q r s, g p q r s = g r s p q

end SQ
