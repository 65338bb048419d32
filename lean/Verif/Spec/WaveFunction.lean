import Verif.Model.Transforms
import Mathlib.Analysis.Normed.Algebra.MatrixExponential

/-!
# Specification: orbitals and parameters of a wave function

The reference has no caches: the orbitals, the two parameter vectors, and whether the ansatz parameters
have been assigned and the orbital parameters are an array, and the energy reported by an optimization.
Assigning orbital parameters `k` rotates the orbitals by `exp(-K)` with `K` the antisymmetric matrix of the
change of the parameters.
-/

namespace SQ

/-- `Σ d_i (E_pq - E_qp)`. -/
def rotGen {n : ℕ} (idx : List (Fin n × Fin n)) (d : List ℝ) : Matrix (Fin n) (Fin n) ℝ :=
  ((idx.zip d).map fun x => x.2 • (Matrix.single x.1.1 x.1.2 1 - Matrix.single x.1.2 x.1.1 1)).sum

/-- Rotations are between different orbitals and listed once. -/
def ValidKappa {n : ℕ} (idx : List (Fin n × Fin n)) : Prop := idx.Nodup ∧ ∀ x ∈ idx, x.1 < x.2

structure WFRef (n : ℕ) where
  orb : Matrix (Fin n) (Fin n) ℝ
  kappa : List ℝ
  thetas : List ℝ
  assigned : Bool
  /-- the orbital parameters were last given as an array -/
  arr : Bool
  /-- the value an optimization reported, if nothing was assigned since -/
  reported : Option ℝ

noncomputable def WFRef.setKappa {n : ℕ} (idx : List (Fin n × Fin n)) (k : List ℝ) (arr : Bool) (r : WFRef n) :
    WFRef n :=
  { r with orb := r.orb * NormedSpace.exp (-rotGen idx (List.zipWith (· - ·) k r.kappa)), kappa := k, arr := arr,
           reported := none }

def WFRef.setThetas {n : ℕ} (t : List ℝ) (r : WFRef n) : WFRef n :=
  { r with thetas := t, assigned := true, reported := none }

end SQ
