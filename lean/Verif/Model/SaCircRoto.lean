import Verif.Model.SaCircEnv
import Verif.Model.StatesRoto

/-!
# Model: RotoSolve as the state-averaged circuit wave function runs it

`slowquant/qiskit_interface/sa_circuit_wavefunction.py`: `_calc_energy_optimization` with `return_all_states=True` (841-857),
given to RotoSolve in lines 523-531 and 684-691, with `QI.grad_param_R` and `QI.param_names`.

Simplifications: `_E_opt_old` is not stored by such a call, and `_old_opt_parameters` is `10**20` before the optimization, so
the early return of lines 841-843 is left out; the counting of evaluations is left out.
-/

namespace SQ

variable (D : SaCircData)

/-- `_calc_energy_optimization` with `theta_optimization=True`, `return_all_states=True`, 841-857. -/
noncomputable def SaCircData.runAll (dev : Device (List (Gate (2 * D.norb)))) (θ : List ℝ) (h : Matrix (Fin D.n) (Fin D.n) ℝ)
    (g : Tensor4 (Fin D.n)) : Res (List ℝ) := do
  let H ← hamiltonian0i0a D.tiny D.big (natMat h) (natTen g) D.ci.nI D.ci.nA
  D.states.mapM fun s => D.value dev θ none s (getFolded D.ci.nI D.ci.nA D.ci.nV H) s

/-- What RotoSolve is given, 523-531 and 684-691. -/
noncomputable def SaCircData.statesRoto (dev : Device (List (Gate (2 * D.norb)))) (h : Matrix (Fin D.n) (Fin D.n) ℝ)
    (g : Tensor4 (Fin D.n)) (minimizer : List (List ℝ) → ℕ → ℝ) (maxiter : ℕ) (threshold : ℝ) : StatesRoto where
  f := fun θ => okOr [] (D.runAll dev θ h g)
  minimizer := minimizer
  R := D.R
  names := D.names
  maxiter := maxiter
  threshold := threshold

end SQ
