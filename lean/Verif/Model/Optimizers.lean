import Verif.Model.Py
import Mathlib.Analysis.SpecialFunctions.Trigonometric.Basic

/-!
# Model: RotoSolve and the parameter-shift gradient

slowquant/unitary_coupled_cluster/optimizers.py and slowquant/qiskit_interface/circuit_wavefunction.py.
Numbers are reals. Not modelled: the SciPy minimizers (`Optimizers.minimize` only passes its arguments on),
printing, timing.
-/

namespace SQ

open Real

/-- `np.sinc`. -/
noncomputable def npSinc (t : ℝ) : ℝ := if t = 0 then 1 else sin (π * t) / (π * t)

/-- `2 * mu / (2 * R + 1) * np.pi` for the `j`-th element `mu` of `range(-R, R + 1)`, line 316. -/
noncomputable def xMu (R j : ℕ) : ℝ := 2 * ((j : ℝ) - R) / (2 * R + 1) * π

/-- `get_energy_evals`, lines 298-319, for an index of `x`. -/
noncomputable def getEnergyEvals (f : List ℝ → ℝ) (x : List ℝ) (idx R : ℕ) : Res (List ℝ) :=
  if idx < x.length then .ok ((List.range (2 * R + 1)).map fun j => f (x.set idx (xMu R j)))
  else .error .indexError

/-- `get_energy_evals_optimized`, lines 370-388. -/
noncomputable def getEnergyEvalsOptimized (f : List ℝ → List ℝ → ℕ → List ℝ) (x : List ℝ) (idx R : ℕ) : List ℝ :=
  f x ((List.range (2 * R + 1)).map (xMu R)) idx

/-- The factor of a sampled value in lines 352-356. -/
noncomputable def kernelF (R : ℕ) (y : ℝ) : ℝ := npSinc ((2 * R + 1) / 2 * y / π) / npSinc (1 / 2 * y / π)

/-- `reconstructed_f` at one point, single state, lines 346-356 (`energy_vals` has `2R+1` elements). -/
noncomputable def reconstructedF (evals : List ℝ) (R : ℕ) (x : ℝ) : ℝ :=
  (evals.zipIdx.map fun ei => ei.1 * kernelF R (x - xMu R ei.2)).sum

/-- `reconstructed_f` at one point, several states, lines 357-367: `energy_vals[i]` has the energies of
the states; the sum is divided by `len(energy_vals)`. -/
noncomputable def reconstructedSA (evals : List (List ℝ)) (R : ℕ) (x : ℝ) : ℝ :=
  (evals.zipIdx.map fun ei => (ei.1.map fun e => e * kernelF R (x - xMu R ei.2)).sum).sum / evals.length

/-- `_sinc_derivative`, lines 391-406. -/
noncomputable def sincDerivative (u : ℝ) : ℝ :=
  if |u| > 1 / 10 ^ 12 then cos (π * u) / u - sin (π * u) / (π * u ^ 2) else 0

/-- The factor of a sampled value in `reconstructed_f_derivative`, lines 452-474. -/
noncomputable def kernelD (R : ℕ) (y : ℝ) : ℝ :=
  let A : ℝ := (2 * R + 1) / 2
  let B : ℝ := 1 / 2
  let u := A * y / π
  let v := B * y / π
  let s1 := npSinc u
  let s2 := npSinc v
  let s1' := sincDerivative u * (A / π)
  let s2' := sincDerivative v * (B / π)
  (s1' * s2 - s1 * s2') / s2 ^ 2

/-- `reconstructed_f_derivative`, lines 409-501, single state. -/
noncomputable def reconstructedD (evals : List ℝ) (R : ℕ) (x : ℝ) : ℝ :=
  (evals.zipIdx.map fun ei => ei.1 * kernelD R (x - xMu R ei.2)).sum

/-! ### RotoSolve -/

/-- `while x < np.pi: x += 2 * np.pi`, lines 264-265, with a bound on the number of rounds. -/
noncomputable def wrapUp : ℕ → ℝ → Res ℝ
  | 0, _ => .error .outOfFuel
  | n + 1, x => if x < π then wrapUp n (x + 2 * π) else .ok x

/-- `while x > np.pi: x -= 2 * np.pi`, lines 266-267. -/
noncomputable def wrapDown : ℕ → ℝ → Res ℝ
  | 0, _ => .error .outOfFuel
  | n + 1, x => if x > π then wrapDown n (x - 2 * π) else .ok x

/-- Lines 264-267. -/
noncomputable def wrapAngle (fuel : ℕ) (x : ℝ) : Res ℝ := do
  let y ← wrapUp fuel x
  wrapDown fuel y

/-- What `minimize` is given: objective, optional evaluator, the point the one-dimensional minimization
of lines 250-262 ends in (from the sampled values and `R`), and the settings. -/
structure Roto where
  f : List ℝ → ℝ
  fOpt : Option (List ℝ → List ℝ → ℕ → List ℝ)
  minimizer : List ℝ → ℕ → ℝ
  R : List (String × ℕ)
  names : List String
  maxiter : ℕ
  threshold : ℝ

/-- The update of one parameter, lines 238-267. -/
noncomputable def Roto.update (s : Roto) (fuel : ℕ) (x : List ℝ) (i : ℕ) (name : String) : Res (List ℝ) := do
  let R ← match s.R.lookup name with
    | none => .error .keyError
    | some R => .ok R
  let evals ← match s.fOpt with
    | some g => .ok (getEnergyEvalsOptimized g x i R)
    | none => getEnergyEvals s.f x i R
  let y ← wrapAngle fuel (s.minimizer evals R)
  if i < x.length then .ok (x.set i y) else .error .indexError

/-- One sweep, lines 237-267. -/
noncomputable def Roto.sweep (s : Roto) (fuel : ℕ) (x : List ℝ) : Res (List ℝ) :=
  s.names.zipIdx.foldlM (fun x ni => s.update fuel x ni.2 ni.1) x

structure RotoResult where
  x : List ℝ
  fn : ℝ
  success : Bool
  /-- the arguments of the callback, once per sweep -/
  calls : List (List ℝ)

/-- The loop of lines 236-291: `n` sweeps are left. -/
noncomputable def Roto.loop (s : Roto) (fuel : ℕ) : ℕ → List ℝ → ℝ → List ℝ → ℕ → Res RotoResult
  | 0, _, fBest, xBest, _ => .ok ⟨xBest, fBest, false, []⟩
  | n + 1, x, fBest, xBest, fails => do
    let x ← s.sweep fuel x
    let fNew := s.f x
    let res ←
      if |fBest - fNew| < s.threshold then .ok ⟨x, fNew, true, []⟩
      else if fNew - fBest > 0 then
        if fails + 1 = 6 then .ok ⟨xBest, fBest, false, []⟩
        else s.loop fuel n x fBest xBest (fails + 1)
      else if fails = 6 then .ok ⟨x, fNew, false, []⟩
      else s.loop fuel n x fNew x fails
    return { res with calls := x :: res.calls }

/-- `RotoSolve.minimize`, lines 215-295. -/
noncomputable def Roto.minimize (s : Roto) (fuel : ℕ) (x0 : List ℝ) : Res RotoResult :=
  s.loop fuel s.maxiter x0 (10 ^ 20) x0 0

/-! ### Parameter shift -/

/-- `(2 * mu - 1) / (2 * R) * np.pi` for the `j`-th element `mu` of `range(1, 2 * R + 1)`,
circuit_wavefunction.py lines 1205 and 1240. -/
noncomputable def xShift (R j : ℕ) : ℝ := (2 * ((j : ℝ) + 1) - 1) / (2 * R) * π

/-- `_get_energy_evals_for_grad`, lines 1214-1243. -/
noncomputable def gradEvals (E : List ℝ → ℝ) (params : List ℝ) (idx R : ℕ) : Res (List ℝ) :=
  match params[idx]? with
  | none => .error .indexError
  | some shift => .ok ((List.range (2 * R)).map fun j => E (params.set idx (xShift R j + shift)))

/-- Lines 1203-1206: an element of the gradient. -/
noncomputable def shiftGradient (evals : List ℝ) (R : ℕ) : ℝ :=
  (evals.zipIdx.map fun ei => ei.1 * (-1) ^ ei.2 / (4 * R * sin (1 / 2 * xShift R ei.2) ^ 2)).sum

end SQ
