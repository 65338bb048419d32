import Verif.Model.Ansatz
import Mathlib.Analysis.Normed.Algebra.MatrixExponential

/-!
# Model of the UCC state
(`slowquant/unitary_coupled_cluster/operator_state_algebra.py:870-896`)

`scipy.sparse.linalg.expm_multiply(A, v, traceA=0.0)` is external; it is modelled as the exact product of
the matrix exponential (Mathlib's) with the vector. `traceA` only steers SciPy's shift and does not
change the exact value.
-/

namespace SQ

/-- The `n × n` array as a matrix. -/
def matOf (n : ℕ) (M : Mat ℝ) : Matrix (Fin n) (Fin n) ℝ := fun i j => M i j

/-- `expm_multiply(A, v)`. -/
noncomputable def expmMultiply (n : ℕ) (A : Matrix (Fin n) (Fin n) ℝ) (v : Vec ℝ) : Vec ℝ := fun i =>
  if h : i < n then (NormedSpace.exp A).mulVec (fun j : Fin n => v j) ⟨i, h⟩ else 0

/-- `construct_ucc_state`, lines 870-896. -/
noncomputable def constructUcc (tiny : ℝ → Bool) (ci : CIInfo) (st : AnsatzStruct) (thetas : List ℝ)
    (dagger : Bool) (state : Vec ℝ) : Res (Vec ℝ) := do
  let T ← uccT tiny ci.offset st thetas
  let Tmat ← buildMatrix ci false T
  let A := matOf ci.idx2det.length Tmat
  if dagger then pure (expmMultiply ci.idx2det.length (-A) state)
  else pure (expmMultiply ci.idx2det.length A state)

end SQ
