import Verif.Model.FromUps
import Verif.Model.LinearResponse

/-!
# Model: the states given to a state-averaged UPS wave function

`WaveFunctionSAUPS.__init__` (unitary_coupled_cluster/sa_ups_wavefunction.py:40-289). Simplifications: as in
Model/FromUps.lean; coefficients are real and the comparisons with `10**-10` are exact.
-/

namespace SQ

/-- The loop over the determinants of one state, lines 223-235: the coefficient is assigned, not added. -/
def saRow (ci : CIInfo) (nso : ℕ) (s : List ℝ × List (List Char)) : Res (Vec ℝ) :=
  if s.1.length ≠ s.2.length then .error .valueError
  else (s.1.zip s.2).foldlM (fun v cd =>
    if cd.2.length ≠ nso then .error .valueError
    else do
      let k ← detInt cd.2
      match ci.find k with
      | none => .error .keyError
      | some i => .ok (Function.update v i cd.1)) 0

/-- The test of one pair of rows, lines 237-245. -/
noncomputable def saBad (n : ℕ) (M : Mat ℝ) (i j : ℕ) : Bool :=
  if i = j then decide (1 / 10 ^ 10 < |1 - dot n (M i) (M j)|) else decide (1 / 10 ^ 10 < |dot n (M i) (M j)|)

/-- `csf_coeffs` from `states = (coeffs, dets)`, lines 219-245. -/
noncomputable def saCsf (ci : CIInfo) (nso : ℕ) (coeffs : List (List ℝ)) (dets : List (List (List Char))) : Res (Mat ℝ) := do
  let rows ← (coeffs.zip dets).mapM (saRow ci nso)
  let M : Mat ℝ := fun i => rows.getD i 0
  if (List.range coeffs.length).any fun i => (List.range coeffs.length).any fun j => saBad ci.idx2det.length M i j then
    .error .valueError
  else .ok M

/-- The layout, lines 246-288. -/
noncomputable def saLayout (name : String) (L : OrbLists) (o : Options) : Res UpsStruct × Options :=
  if name ∈ ["tups", "qnp"] then
    if o.flag "do_pp" ≠ 0 then (.error .valueError, o)
    else
      let o := if name = "tups" then o.put "do_tups" 1 else if name = "qnp" then o.put "do_qnp" 1 else o
      (builtLayout (createTiled L.numOrbs o {}), o)
  else if name ∈ ["fucc", "ksafupccgsd", "safuccsd"] then
    let o := if name = "ksafupccgsd" then (o.put "SAGS" 1).put "GpD" 1
      else if name = "safuccsd" then (o.put "SAS" 1).put "SAD" 1
      else o
    let o := o.defaultLayers
    (builtLayout (createFucc L o {}), o)
  else if name = "ksasdsfupccgsd" then
    let o := (o.put "GpD" 1).defaultLayers
    (builtLayout (createSds L o {}), o)
  else (.error .valueError, o)

/-- `WaveFunctionSAUPS.__init__`: `csf_coeffs`, `ci_info` and the object (`ansatz` in lower case). -/
noncomputable def saObject {α : Type} (numOrbs numElec : ℕ) (cas : List ℕ) (mo : ℕ → α) (coeffs : List (List ℝ))
    (dets : List (List (List Char))) (name : String) (o : Options) (inc : Bool) : Res (Mat ℝ × CIInfo × UpsObj α) := do
  let s ← upsSpaces numOrbs numElec cas
  let ci ← getIndexing s.numInactiveOrbs s.numActiveOrbs s.numVirtualOrbs (s.numActiveElec / 2 : ℕ) (s.numActiveElec / 2 : ℕ)
  let M ← saCsf ci s.activeSpin.length coeffs dets
  match saLayout name s.lists o with
  | (.error e, _) => .error e
  | (.ok layout, o') =>
    .ok (M, ci, ⟨.sa (coeffs.zip dets), numOrbs, numElec, s, inc, none, layout, o', mo, List.replicate layout.nParams 0⟩)

end SQ
