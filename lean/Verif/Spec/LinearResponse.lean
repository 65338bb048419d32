import Mathlib.LinearAlgebra.Matrix.PosDef
import Mathlib.LinearAlgebra.Matrix.Determinant.Basic
import Mathlib.LinearAlgebra.Matrix.Symmetric
import Verif.Model.LinearResponse

/-!
# Specification: the eigenvalue routines used by linear response
-/

namespace SQ

open Matrix

/-- A real matrix as a complex one. -/
def toC {m : ℕ} (M : RMat m) : Matrix (Fin m) (Fin m) ℂ := M.map (fun x => (x : ℂ))

/-- What the eigenvalue routines are documented to do, in exact arithmetic: for a symmetric matrix the list holds
every eigenvalue; for a generalised problem with regular metric it holds solutions with non-zero vectors, and
the eigenvalues with their multiplicities as roots of the characteristic polynomial. -/
structure LRLibOK (lib : LRLib) : Prop where
  complete : ∀ m (M : RMat m), M.IsSymm → ∀ (l : ℝ) (v : Fin m → ℝ), v ≠ 0 → M *ᵥ v = l • v →
    l ∈ lib.eigvals m M
  solves : ∀ m (M S : RMat m), S.det ≠ 0 → ∀ p ∈ lib.eig m M S, p.2 ≠ 0 ∧
    toC M *ᵥ p.2 = p.1 • (toC S *ᵥ p.2)
  counted : ∀ m (M S : RMat m), S.det ≠ 0 → ∀ x : ℂ,
    (toC M - x • toC S).det = (toC S).det * ((lib.eig m M S).map fun p => p.1 - x).prod
  number : ∀ m (M S : RMat m), S.det ≠ 0 → (lib.eig m M S).length = m

/-- The vector with its two halves exchanged. -/
def swapHalves {R : Type*} {s : ℕ} (v : Fin (s + s) → R) : Fin (s + s) → R := fun i =>
  Fin.addCases (fun i => v (Fin.natAdd s i)) (fun i => v (Fin.castAdd s i)) i

end SQ
