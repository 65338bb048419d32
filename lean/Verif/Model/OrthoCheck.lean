import Verif.Model.CircuitCache

/-! # `check_orthonormality`

/repo/slowquant/unitary_coupled_cluster/ups_wavefunction.py 756-768, ucc_wavefunction.py 686-698,
sa_ups_wavefunction.py 481-493 and /repo/slowquant/qiskit_interface/circuit_wavefunction.py 835-847,
sa_circuit_wavefunction.py 435-447. The five methods have the same text; they print a number, which is the
result here. Floats are real numbers. -/

namespace SQ

/-- `np.max` of an array with the given entries; `ValueError` for an array without entries. -/
noncomputable def npMax : List ℝ → Res ℝ
  | [] => .error .valueError
  | x :: l => .ok (l.foldl max x)

/-- The entries of `np.abs(S_ortho - np.identity(len(S_ortho)))`, row by row (lines 766-767). -/
noncomputable def orthoDiffs {n : ℕ} (C S : Matrix (Fin n) (Fin n) ℝ) : List ℝ :=
  (List.finRange n).flatMap fun i => (List.finRange n).map fun j =>
    |oneTransform C S i j - (if i = j then 1 else 0)|

/-- `check_orthonormality` of `WaveFunctionUPS`, `WaveFunctionUCC`, `WaveFunctionSAUPS`: the number printed. -/
noncomputable def WFObj.checkOrthonormality {e : WFEnv} (S : Matrix (Fin e.n) (Fin e.n) ℝ) : WFM e ℝ := do
  let c ← WFObj.readCMo
  match npMax (orthoDiffs c S) with
  | .ok x => pure x
  | .error err => WFM.raise err

/-- `check_orthonormality` of `WaveFunctionCircuit`, `WaveFunctionSACircuit`: the number printed. -/
noncomputable def CircObj.checkOrthonormality {e : CircEnv} (S : Matrix (Fin e.n) (Fin e.n) ℝ) : CircM e ℝ := do
  let c ← CircObj.readCMo
  match npMax (orthoDiffs c S) with
  | .ok x => pure x
  | .error err => CircM.raise err

end SQ
