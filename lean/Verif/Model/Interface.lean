import Verif.Model.Cliques
import Mathlib.Data.Real.Basic

/-!
# Model: settings and saved measurements of `QuantumInterface`

slowquant/qiskit_interface/interface.py. The device is a function of the evaluation it is used in, the
settings of the run and the measured label. A read-out matrix is represented by the number of the
evaluation in which it was built and the flags in force then; when building it raises, it counts as built (the same
error is raised again when it is used). Not modelled: prints, counters, transpilation, rebuilding the circuit,
custom matrices (`circuit_M`) and loading of saved data.
-/

namespace SQ

/-- What a run of the device is given. -/
structure RunSetting (C : Type) where
  params : List ℝ
  perRun : Option ℕ
  runs : ℕ
  circuit : C

/-- Device and mitigation: `measure run setting head` and `mitigate matrix flags circuit head raw`. -/
structure Device (C : Type) where
  measure : ℕ → RunSetting C → List Char → Distr
  mitigate : ℕ × ℕ → ℕ → C → List Char → Distr → Res Distr

/-- Attributes of the interface. `shots = none`: the attribute does not exist yet. `saver` has for each
determinant integer the option and the cliques of a `Clique`. -/
structure QI where
  samplerV2 : Bool
  maxShots : ℕ
  shots : Option (Option ℕ)
  multipl : ℕ
  numParams : ℕ
  params : List ℝ
  saver : List (ℕ × (ℕ × List CliqueHead))
  minv : Option (ℕ × ℕ)
  flags : Flags
  run : ℕ

/-- `shots` setter, lines 553-596. `math.floor(a / b)` is taken as the integer quotient; it raises for
`b = 0`, after the other attributes are set. -/
def QI.setShots (q : QI) (shots : Option ℕ) : Res Unit × QI :=
  let q := { q with multipl := 1, saver := [], minv := none }
  let s := match shots with
    | none => if q.samplerV2 then some 10000 else none
    | some s => some s
  let q := { q with shots := some s }
  match s with
  | none => (.ok (), q)
  | some n =>
    if n > q.maxShots then
      if q.maxShots = 0 then (.error .zeroDivision, q)
      else
        let k := n / q.maxShots
        if n % q.maxShots ≠ 0 then (.ok (), { q with multipl := k, shots := some (some (k * q.maxShots)) })
        else (.ok (), { q with multipl := k })
    else (.ok (), q)

/-- `max_shots_per_run` setter, lines 607-620. -/
def QI.setMax (q : QI) (m : ℕ) : Res Unit × QI :=
  let q := { q with maxShots := m }
  match q.shots with
  | none => (.ok (), q)
  | some s => q.setShots s

/-- `parameters` setter, lines 430-448. -/
noncomputable def QI.setParams (q : QI) (p : List ℝ) : Res Unit × QI :=
  if p.length ≠ q.numParams then (.error .valueError, q)
  else
    let q := if q.params ≠ p then { q with saver := [] } else q
    (.ok (), { q with params := p })

/-- `interface.parameters[i] = x`: the getter (lines 421-428) hands out the stored list itself, so the
assignment changes it without going through the setter. -/
def QI.writeParam (q : QI) (i : ℕ) (x : ℝ) : QI := { q with params := q.params.set i x }

/-- `update_mitigation_flags`, line 286. -/
def QI.setFlags (q : QI) (kw : List (String × FlagVal)) : Res Unit × QI :=
  ((q.flags.update kw).1, { q with flags := (q.flags.update kw).2 })

/-- `redo_M_mitigation`, lines 413-419. -/
def QI.redoM (q : QI) : Res Unit × QI := (.ok (), { q with minv := some (q.run, q.flags.toInt), run := q.run + 1 })

/-- The constructor, lines 101-131, and the first parameters from `construct_circuit`, lines 282-284. -/
def QI.init (samplerV2 : Bool) (maxShots : ℕ) (shots : Option ℕ) (flags : Flags) (numParams : ℕ) : Res QI :=
  let q : QI := ⟨samplerV2, 0, none, 0, numParams, List.replicate numParams 0, [], none, flags, 0⟩
  let q := (q.setMax maxShots).2
  match q.setShots shots with
  | (.error e, _) => .error e
  | (.ok (), q) => .ok { q with minv := none, saver := [] }

/-- Shots of one run, lines 1353-1356. -/
def QI.perRun (q : QI) : Option ℕ := if q.multipl > 1 then some q.maxShots else q.shots.getD none

/-- What `_one_call_sampler_distributions` gives the device, lines 1353-1431. -/
def QI.setting {C : Type} (q : QI) (c : C) : RunSetting C := ⟨q.params, q.perRun, q.multipl, c⟩

/-- Lines 1040-1047: add the labels, measure and save what is missing. -/
noncomputable def measureStep (dev : List Char → Distr) (cs : List CliqueHead) (paulis : List (List Char)) :
    Res Unit × List CliqueHead :=
  match addPaulis cs paulis with
  | (.error e, cs) => (.error e, cs)
  | (.ok heads, cs) => if heads ≠ [] then updateDistr cs heads (heads.map dev) 0 else (.ok (), cs)

/-- `get_empty_heads_distr`, util.py lines 520-540. -/
def emptyHeadsDistr (m : ℕ) : List CliqueHead → Res (List (List Char × Distr))
  | [] => .ok []
  | c :: cs => do
    let e ← c.data.isEmpty m
    if e then do
      let raw ← c.data.get 0
      let r ← emptyHeadsDistr m cs
      return (c.head, raw) :: r
    else emptyHeadsDistr m cs

/-- Lines 1049-1065: mitigate what is missing and save it. -/
noncomputable def mitigateStep (mit : List Char → Distr → Res Distr) (m : ℕ) (cs : List CliqueHead) :
    Res Unit × List CliqueHead :=
  match emptyHeadsDistr m cs with
  | .error e => (.error e, cs)
  | .ok l =>
    if l = [] then (.ok (), cs)
    else match l.mapM fun hd => mit hd.1 hd.2 with
      | .error e => (.error e, cs)
      | .ok ds => updateDistr cs (l.map Prod.fst) ds m

/-- Lines 1068-1074: the value from the saved distributions. -/
noncomputable def valueFrom (cs : List CliqueHead) (m : ℕ) (obs : List (List Char × ℝ)) : Res ℝ :=
  obs.foldlM (fun values pc => do
    let d ← getDistr pc.1 m cs
    let result ← d.foldlM (fun r kv => do
      let s ← getBitstringSign pc.1 kv.1
      return r + kv.2 * (s : ℝ)) 0
    return values + result * pc.2) 0

/-- The entry of the saver that is used, lines 1027-1038. -/
def QI.entry (q : QI) (key opt : ℕ) : List CliqueHead :=
  match q.saver.lookup key with
  | none => []
  | some (o, cs) => if o ≠ opt then [] else cs

/-- `_sampler_quantum_expectation_value`, lines 978-1080, for the determinant integer `key` and
`csfs_option` `opt`; `obs` are the labels with the real parts of their coefficients. -/
noncomputable def QI.evaluate {C : Type} (dev : Device C) (circ : ℕ → ℕ → C) (q : QI) (key opt : ℕ)
    (obs : List (List Char × ℝ)) : Res ℝ × QI :=
  let put (q : QI) (cs : List CliqueHead) : QI := { q with saver := dictPut q.saver key (opt, cs), run := q.run + 1 }
  let c := circ key opt
  match measureStep (dev.measure q.run (q.setting c)) (q.entry key opt) (obs.map Prod.fst) with
  | (.error e, cs) => (.error e, put q cs)
  | (.ok (), cs) =>
    if q.flags.isEnabled then
      let m := q.flags.toInt
      let q := if q.flags.mMit.truthy && (match emptyHeadsDistr m cs with | .ok (_ :: _) => true | _ => false) then { q with minv := some (q.minv.getD (q.run, m)) } else q
      match mitigateStep (dev.mitigate (q.minv.getD (q.run, m)) m c) m cs with
      | (.error e, cs) => (.error e, put q cs)
      | (.ok (), cs) => (valueFrom cs m obs, put q cs)
    else (valueFrom cs 0 obs, put q cs)

/-- Calls on an interface. -/
inductive QIOp
  | shots (s : Option ℕ)
  | max (m : ℕ)
  | params (p : List ℝ)
  | flags (kw : List (String × FlagVal))
  | redoM
  | evaluate (key opt : ℕ) (obs : List (List Char × ℝ))

noncomputable def QIOp.run {C : Type} (dev : Device C) (circ : ℕ → ℕ → C) (q : QI) : QIOp → QI
  | .shots s => (q.setShots s).2
  | .max m => (q.setMax m).2
  | .params p => (q.setParams p).2
  | .flags kw => (q.setFlags kw).2
  | .redoM => q.redoM.2
  | .evaluate key opt obs => (q.evaluate dev circ key opt obs).2

end SQ
