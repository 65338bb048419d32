import Verif.Model.CircEnv

/-!
# Model: RotoSolve as the circuit wave function runs it

`slowquant/qiskit_interface/circuit_wavefunction.py`: `_calc_energy_optimization` with `theta_optimization=True` (1149-1160),
given to RotoSolve in both drivers (923-960 and 1084-1126) with `QI.grad_param_R` and `QI.param_names`, without an evaluator of
its own.

Simplifications: the counting of evaluations and the variance that is printed are left out.
-/

namespace SQ

variable (D : CircData)

/-- `_calc_energy_optimization` with `theta_optimization=True`, 1149-1160; the integrals are those of the present orbitals. -/
noncomputable def CircData.runTheta (dev : Device (List (Gate (2 * D.norb)))) (θ : List ℝ) (h : Matrix (Fin D.n) (Fin D.n) ℝ)
    (g : Tensor4 (Fin D.n)) : Res ℝ := do
  let H ← hamiltonian0i0a D.tiny D.big (natMat h) (natTen g) D.ci.nI D.ci.nA
  D.value dev θ none (getFolded D.ci.nI D.ci.nA D.ci.nV H)

/-- What RotoSolve is given. -/
noncomputable def CircData.roto (dev : Device (List (Gate (2 * D.norb)))) (h : Matrix (Fin D.n) (Fin D.n) ℝ)
    (g : Tensor4 (Fin D.n)) (minimizer : List ℝ → ℕ → ℝ) (maxiter : ℕ) (threshold : ℝ) : Roto where
  f := fun θ => okOr 0 (D.runTheta dev θ h g)
  fOpt := none
  minimizer := minimizer
  R := D.R
  names := D.names
  maxiter := maxiter
  threshold := threshold

end SQ
