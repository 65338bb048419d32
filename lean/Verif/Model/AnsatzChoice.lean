import Verif.Model.Structures
import Verif.Model.OrbitalSpaces
import Verif.Model.Determinants
import Verif.Model.Circuits

/-!
# Model: choice of the ansatz by name

`WaveFunctionUPS.__init__` (unitary_coupled_cluster/ups_wavefunction.py:217-314), `QuantumInterface.__init__` and
`construct_circuit` (qiskit_interface/interface.py:83-103, 134-284) and `WaveFunctionUCC.__init__`
(unitary_coupled_cluster/ucc_wavefunction.py:211-231). Names are given in lower case (`ansatz.lower()`); option
dictionaries as in Model/Structures.lean. The dictionary is the one the caller handed over and is changed in place, so
its final value is part of the result. Not modelled: ansatz given as circuit or structure, prints, the list of
coefficients of the reference (only the determinant that gets weight 1), the molecular orbital coefficients.
-/

namespace SQ

/-- `ansatz_options[k] = v`. -/
def Options.put : Options → String → ℤ → Options
  | [], k, v => [(k, v)]
  | (k', v') :: t, k, v => if k' = k then (k, v) :: t else (k', v') :: Options.put t k v

/-- `if "n_layers" not in ansatz_options.keys(): ansatz_options["n_layers"] = 1`. -/
def Options.defaultLayers (o : Options) : Options :=
  if (o.lookup "n_layers").isNone then o.put "n_layers" 1 else o

/-- The structure after a method that may have raised. -/
def builtLayout (r : Res Unit × UpsStruct) : Res UpsStruct :=
  match r.1 with
  | .error e => .error e
  | .ok () => .ok r.2

/-- ups_wavefunction.py, lines 265-313. -/
noncomputable def upsLayout (name : String) (L : OrbLists) (o : Options) : Res UpsStruct × Options :=
  if name ∈ ["tups", "qnp"] then
    let o := if name = "tups" then o.put "do_tups" 1 else if name = "qnp" then o.put "do_qnp" 1 else o
    (builtLayout (createTiled L.numOrbs o {}), o)
  else if name ∈ ["fucc", "fuccsd", "ksafupccgsd", "fuccpd", "safuccsd"] then
    let o := if name = "fuccsd" then (o.put "S" 1).put "D" 1
      else if name = "ksafupccgsd" then (o.put "SAGS" 1).put "GpD" 1
      else if name = "fuccspd" then o.put "pD" 1
      else if name = "safuccspd" then (o.put "SAS" 1).put "SAD" 1
      else o
    let o := o.defaultLayers
    (builtLayout (createFucc L o {}), o)
  else if name ∈ ["sdsfuccsd", "ksasdsfupccgsd"] then
    let o := if name = "sdsfuccsd" then o.put "D" 1 else if name = "ksasdsfupccgsd" then o.put "GpD" 1 else o
    let o := o.defaultLayers
    (builtLayout (createSds L o {}), o)
  else (.error .valueError, o)

/-- ups_wavefunction.py, lines 217-313: reference determinant and layout. -/
noncomputable def upsInit (name : String) (L : OrbLists) (numElec : ℕ) (o : Options) :
    Res (List Bool × UpsStruct) × Options :=
  match (if name = "tups" ∧ o.flag "do_pp" ≠ 0 then ppDet (2 * L.numOrbs) numElec
    else .ok (hfDet (2 * L.numOrbs) numElec)) with
  | .error e => (.error e, o)
  | .ok det =>
    match upsLayout name L o with
    | (.error e, o') => (.error e, o')
    | (.ok s, o') => (.ok (det, s), o')

/-- interface.py, lines 211-262. -/
noncomputable def circuitLayout (name : String) (L : OrbLists) (o : Options) : Res UpsStruct × Options :=
  if name ∈ ["fucc", "fuccpd", "fuccd", "fuccsd", "ksafupccgsd"] then
    let o := if name = "fuccpd" then o.put "pD" 1
      else if name = "fuccd" then o.put "D" 1
      else if name = "fuccsd" then (o.put "S" 1).put "D" 1
      else if name = "ksafupccgsd" then (o.put "SAGS" 1).put "GpD" 1
      else o
    let o := o.defaultLayers
    (builtLayout (createFucc L o {}), o)
  else if name = "hf" then
    if o.length ≠ 0 then (.error .valueError, o) else (.ok {}, o)
  else if name ∈ ["tups", "qnp"] then
    let o := if name = "tups" then o.put "do_tups" 1 else if name = "qnp" then o.put "do_qnp" 1 else o
    (builtLayout (createTiled L.numOrbs o {}), o)
  else if name ∈ ["sdsfuccsd", "ksasdsfupccgsd"] then
    let o := if name = "sdsfuccsd" then o.put "D" 1 else if name = "ksasdsfupccgsd" then o.put "GpD" 1 else o
    let o := o.defaultLayers
    (builtLayout (createSds L o {}), o)
  else (.error .valueError, o)

/-- The names of interface.py, lines 85-96. -/
def allowedAnsatz : List String :=
  ["fuccpd", "fuccd", "tups", "fuccsd", "qnp", "ksafupccgsd", "sdsfuccsd", "ksasdsfupccgsd", "fucc", "hf"]

/-- interface.py, lines 97-102 and 164-262: check of the name, reference determinant and layout. -/
noncomputable def circuitInit (mapper : Mapper) (name : String) (L : OrbLists) (numElec : ℕ × ℕ) (o : Options) :
    Res (List Bool × UpsStruct) × Options :=
  if name ∉ allowedAnsatz then (.error .valueError, o)
  else match (if o.flag "do_pp" ≠ 0 then
      if mapper ≠ .jordanWigner then .error .valueError else ppDet (2 * L.numOrbs) (numElec.1 + numElec.2)
    else .ok (hfDet (2 * L.numOrbs) (numElec.1 + numElec.2))) with
  | .error e => (.error e, o)
  | .ok det =>
    match circuitLayout name L o with
    | (.error e, o') => (.error e, o')
    | (.ok s, o') => (.ok (det, s), o')

/-- The names of the parameters of a circuit: Qiskit sorts parameters by name. -/
def circuitParameters (names : List String) : List String :=
  (names.map String.toList).mergeSort (fun a b => decide (a ≤ b)) |>.map String.ofList

/-- interface.py, lines 266-280: `grad_param_R` and `param_names`, for a circuit that has the parameters `names`. -/
def checkParameters (R : List (String × ℕ)) (names : List String) : Res (List (String × ℕ) × List String) :=
  let ps := circuitParameters names
  let R := if R.length = 0 then ps.foldl (fun d p => dictSet d p 2) R else R
  if R.length ≠ ps.length then .error .valueError
  else if ps.any fun p => (R.lookup p).isNone then .error .valueError
  else .ok (R, ps)

/-- ucc_wavefunction.py, lines 211-231, for the characters of `excitations.lower()`. -/
noncomputable def uccLayout (exc : List Char) (L : OrbLists) : UccStruct :=
  let s : UccStruct := {}
  let s := if 's' ∈ exc then s.addSaSingles L.occ L.unocc else s
  let s := if 'd' ∈ exc then s.addSaDoubles L.occ L.unocc else s
  let s := if 't' ∈ exc then s.addTriples L.occSpin L.unoccSpin else s
  let s := if 'q' ∈ exc then s.addQuadruples L.occSpin L.unoccSpin else s
  let s := if '5' ∈ exc then s.addQuintuples L.occSpin L.unoccSpin else s
  if '6' ∈ exc then s.addSextuples L.occSpin L.unoccSpin else s

end SQ
