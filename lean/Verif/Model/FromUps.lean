import Verif.Model.AnsatzChoice
import Verif.Model.Sampler

/-!
# Model: circuit wave functions made from UPS wave functions

`circuit_wavefunction_from_ups` (qiskit_interface/circuit_wavefunction_from_ups.py:16-87) with the parts it uses:
`WaveFunctionUPS.__init__` (unitary_coupled_cluster/ups_wavefunction.py:58-314), `WaveFunctionCircuit.__init__`
(qiskit_interface/circuit_wavefunction.py:54-246), `WaveFunctionSACircuit.__init__`
(qiskit_interface/sa_circuit_wavefunction.py:55-214) and `construct_circuit` for a layout
(qiskit_interface/interface.py:134-284).

Simplifications: the mapper is Jordan-Wigner; the columns of the orbital coefficients are values of any type; of the
integral generator only the numbers of orbitals and electrons are kept; a parametrised circuit is the function from
values of the parameters to gates; `HartreeFock` does not raise (it does for more electrons of a spin than orbitals).
Not modelled: prints, the settings of the sampler (Model/Interface.lean, Model/Sampler.lean).
-/

namespace SQ

/-- The lists handed to the `create_` methods and to `construct_circuit`. -/
def Spaces.lists (s : Spaces) : OrbLists :=
  ⟨s.activeOccShifted, s.activeUnoccShifted, s.activeOccSpinShifted, s.activeUnoccSpinShifted, s.numActiveOrbs⟩

/-- The class of the object that is converted, with `_states` for the state-averaged class. -/
inductive ObjKind
  | ups
  | sa (states : List (List ℝ × List (List Char)))
  | other

/-- The attributes of a UPS wave function that are read, and the options as the constructor leaves them. `pp` is `_pp`,
`none` if there is no such attribute. -/
structure UpsObj (α : Type) where
  kind : ObjKind
  numOrbs : ℕ
  numElec : ℕ
  spaces : Spaces
  includeActive : Bool
  pp : Option Bool
  layout : UpsStruct
  options : Options
  cMo : ℕ → α
  thetas : List ℝ

/-- `WaveFunctionUPS.__init__`: `csf_coeffs`, `ci_info` and the object (`ansatz` in lower case). -/
noncomputable def upsObject {α : Type} (numOrbs numElec : ℕ) (cas : List ℕ) (mo : ℕ → α) (name : String) (o : Options)
    (inc : Bool) : Res (Vec ℝ × CIInfo × UpsObj α) := do
  let s ← upsSpaces numOrbs numElec cas
  let ci ← getIndexing s.numInactiveOrbs s.numActiveOrbs s.numVirtualOrbs (s.numActiveElec / 2 : ℕ) (s.numActiveElec / 2 : ℕ)
  let hf := hfDet s.activeSpin.length s.numActiveElec
  let pp := decide (name = "tups" ∧ o.flag "do_pp" ≠ 0)
  let det ← (if pp then ppDet s.activeSpin.length s.numActiveElec else .ok hf : Res (List Bool))
  let cMo ← (if pp then ppColumns s.numInactiveOrbs hf det mo else .ok mo : Res (ℕ → α))
  let csf ← reference ci det
  match upsLayout name s.lists o with
  | (.error e, _) => .error e
  | (.ok layout, o') =>
    .ok (csf, ci, ⟨.ups, numOrbs, numElec, s, inc, some pp, layout, o', cMo, List.replicate layout.nParams 0⟩)

/-- A circuit wave function: spaces and rotations, orbitals, what the interface holds of the circuit (`num_elec`,
`state_circuit`, ansatz circuit, `grad_param_R`, `param_names`, `_parameters`), and `states` of the state-averaged class. -/
structure CircWf (α : Type) where
  spaces : Spaces
  kappa : KappaLists
  cMo : ℕ → α
  numElec : ℕ × ℕ
  state : List (Gate (2 * spaces.numActiveOrbs))
  ansatz : List ℝ → List (PGate (2 * spaces.numActiveOrbs))
  R : List (String × ℕ)
  names : List String
  params : List ℝ
  states : Option (List (List ℝ × List (List Char)))

/-- The gates of a layout for given values of the parameters. -/
noncomputable def layoutGates (norb : ℕ) (s : UpsStruct) (p : List ℝ) : List (PGate (2 * norb)) :=
  match upslayout2circuit norb s.types s.indices (fun k => p.getD k 0) with
  | .error _ => []
  | .ok c => c.1

/-- `state_circuit`, interface.py, lines 164-203. -/
def startCircuit (norb : ℕ) (numElec : ℕ × ℕ) (o : Options) : Res (List (Gate (2 * norb))) :=
  if o.flag "do_pp" ≠ 0 then do
    let det ← ppDet (2 * norb) (numElec.1 + numElec.2)
    determinantReference (det.map fun b => if b then '1' else '0') norb .jordanWigner
  else .ok (hfCircuit norb numElec)

/-- The end of both constructors of circuit wave functions, with `construct_circuit` on a fresh interface:
interface.py, lines 156-284. -/
noncomputable def buildCircuit {α : Type} (s : Spaces) (k : KappaLists) (cMo : ℕ → α) (numElec : ℕ × ℕ) (o : Options)
    (layout : UpsStruct) (states : Option (List (List ℝ × List (List Char)))) : Res (CircWf α) := do
  let state ← startCircuit s.numActiveOrbs numElec o
  let c ← upslayout2circuit s.numActiveOrbs layout.types layout.indices (fun _ => 0)
  let x ← checkParameters c.2 (c.2.map Prod.fst)
  return ⟨s, k, cMo, numElec, state, layoutGates s.numActiveOrbs layout, x.1, x.2, List.replicate x.2.length 0, states⟩

/-- The spaces of the circuit classes: as in the UPS classes, but `num_active_elec = cas[0]`, which has to be even
(circuit_wavefunction.py, lines 75-78). -/
def circuitSpaces (numOrbs numElec cas0 cas1 : ℕ) : Res Spaces :=
  if cas0 % 2 ≠ 0 then .error .valueError
  else .ok { mkSpaces numOrbs numElec cas0 cas1 with numActiveElec := cas0 }

/-- `WaveFunctionCircuit.__init__` for an interface with a layout as ansatz. -/
noncomputable def circuitObject {α : Type} (numOrbs numElec cas0 cas1 : ℕ) (mo : ℕ → α) (layout : UpsStruct) (o : Options)
    (inc force : Bool) : Res (CircWf α) := do
  let s ← circuitSpaces numOrbs numElec cas0 cas1
  let cMo ← (if o.flag "do_pp" ≠ 0 ∧ force = false then do
      let det ← ppDet s.activeSpin.length cas0
      ppColumns s.numInactiveOrbs (hfDet s.activeSpin.length cas0) det mo
    else .ok mo : Res (ℕ → α))
  buildCircuit s (kappaLists s numOrbs inc) cMo (cas0 / 2, cas0 / 2) o layout none

/-- `WaveFunctionSACircuit.__init__` for an interface with a layout as ansatz. -/
noncomputable def saCircuitObject {α : Type} (numOrbs numElec cas0 cas1 : ℕ) (mo : ℕ → α)
    (states : List (List ℝ × List (List Char))) (layout : UpsStruct) (o : Options) (inc : Bool) : Res (CircWf α) := do
  let s ← circuitSpaces numOrbs numElec cas0 cas1
  if o.flag "do_pp" ≠ 0 then .error .valueError
  else buildCircuit s (kappaLists s numOrbs inc) mo (cas0 / 2, cas0 / 2) o layout (some states)

/-- `wf.thetas = t`: `parameters` of the interface, interface.py, lines 431-448. -/
def CircWf.setThetas {α : Type} (c : CircWf α) (t : List ℝ) : Res (CircWf α) :=
  if t.length ≠ c.names.length then .error .valueError else .ok { c with params := t }

/-- `circuit_wavefunction_from_ups`, lines 47-87. -/
noncomputable def circuitFromUps {α : Type} (w : UpsObj α) : Res (CircWf α) := do
  let o : Options := if w.pp = some true then [("do_pp", 1)] else []
  match w.kind with
  | .ups =>
    let c ← circuitObject w.numOrbs w.numElec w.spaces.numActiveElec w.spaces.numActiveOrbs w.cMo w.layout o w.includeActive true
    c.setThetas w.thetas
  | .sa states =>
    let c ← saCircuitObject w.numOrbs w.numElec w.spaces.numActiveElec w.spaces.numActiveOrbs w.cMo states w.layout o
      w.includeActive
    c.setThetas w.thetas
  | .other => .error .typeError

end SQ
