import Verif.Model.Optimizers

/-!
# Model: RotoSolve for an objective that gives the energies of several states

`slowquant/unitary_coupled_cluster/optimizers.py` when the objective returns an array: `RotoSolve.minimize` (215-295),
`get_energy_evals` (298-320), `reconstructed_f` and its derivative for several states (357-367, 475-499). The state-averaged
circuit wave function uses it (`return_all_states=True`, sa_circuit_wavefunction.py 523-531, 684-691 and 853-857).

Simplifications as in Model/Optimizers: the minimization along one parameter is a function of the sampled values; the loops
that bring an angle into the period get a bound on their rounds.
-/

namespace SQ

/-- `np.mean`. -/
noncomputable def npMean (l : List ℝ) : ℝ := l.sum / l.length

/-- `get_energy_evals`, lines 298-320: one array per sampled point. -/
noncomputable def getStateEvals (f : List ℝ → List ℝ) (x : List ℝ) (idx R : ℕ) : Res (List (List ℝ)) :=
  if idx < x.length then .ok ((List.range (2 * R + 1)).map fun j => f (x.set idx (xMu R j)))
  else .error .indexError

/-- `reconstructed_f_derivative`, several states, lines 475-499. -/
noncomputable def reconstructedSAD (evals : List (List ℝ)) (R : ℕ) (x : ℝ) : ℝ :=
  (evals.zipIdx.map fun ei => (ei.1.map fun e => e * kernelD R (x - xMu R ei.2)).sum).sum / evals.length

/-- What `minimize` is given: the energies of the states, and the point the minimization of lines 250-262 ends in. -/
structure StatesRoto where
  f : List ℝ → List ℝ
  minimizer : List (List ℝ) → ℕ → ℝ
  R : List (String × ℕ)
  names : List String
  maxiter : ℕ
  threshold : ℝ

/-- The update of one parameter, lines 238-267. -/
noncomputable def StatesRoto.update (s : StatesRoto) (fuel : ℕ) (x : List ℝ) (i : ℕ) (name : String) : Res (List ℝ) :=
  match s.R.lookup name with
  | none => .error .keyError
  | some R =>
    match getStateEvals s.f x i R with
    | .error e => .error e
    | .ok evals => do
      let y ← wrapAngle fuel (s.minimizer evals R)
      if i < x.length then .ok (x.set i y) else .error .indexError

/-- One sweep, lines 237-267. -/
noncomputable def StatesRoto.sweep (s : StatesRoto) (fuel : ℕ) (x : List ℝ) : Res (List ℝ) :=
  s.names.zipIdx.foldlM (fun x ni => s.update fuel x ni.2 ni.1) x

/-- The loop of lines 236-291: `n` sweeps are left; the value of a point is the mean of the states (lines 269-271). -/
noncomputable def StatesRoto.loop (s : StatesRoto) (fuel : ℕ) : ℕ → List ℝ → ℝ → List ℝ → ℕ → Res RotoResult
  | 0, _, fBest, xBest, _ => .ok ⟨xBest, fBest, false, []⟩
  | n + 1, x, fBest, xBest, fails => do
    let x ← s.sweep fuel x
    let fNew := npMean (s.f x)
    let res ←
      if |fBest - fNew| < s.threshold then .ok ⟨x, fNew, true, []⟩
      else if fNew - fBest > 0 then
        if fails + 1 = 6 then .ok ⟨xBest, fBest, false, []⟩
        else s.loop fuel n x fBest xBest (fails + 1)
      else if fails = 6 then .ok ⟨x, fNew, false, []⟩
      else s.loop fuel n x fNew x fails
    return { res with calls := x :: res.calls }

/-- `RotoSolve.minimize`, lines 215-295. -/
noncomputable def StatesRoto.minimize (s : StatesRoto) (fuel : ℕ) (x0 : List ℝ) : Res RotoResult :=
  s.loop fuel s.maxiter x0 (10 ^ 20) x0 0

end SQ
