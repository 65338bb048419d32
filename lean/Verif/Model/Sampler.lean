import Verif.Model.Interface
import Verif.Model.Determinants
import Verif.Model.FermionicText

/-!
# Model: expectation values on the interface, from operators to numbers

slowquant/qiskit_interface/interface.py, for a sampler without transpilation (`ISA` off). A circuit that is run is an
initial circuit followed by the ansatz circuit, which stays the same for the life of the interface, so it is represented
by the initial circuit. The mapper is a function from the terms of an operator in Qiskit's text form to labels with
complex coefficients. Not modelled: prints, counters, fresh evaluation of operators given as `SparsePauliOp`, custom matrices
(`circuit_M`), and parameter lists of a wrong length handed over as `custom_parameters`.
-/

namespace SQ

/-- Attributes of the interface that do not change while it is used: device, `mapper` (class and function),
`num_elec`, `state_circuit`, `_save_paulis` and `_do_cliques`. -/
structure Bench (norb : ℕ) where
  dev : Device (List (Gate (2 * norb)))
  mapper : Mapper
  map : SDict ℝ → Res (List (List Char × ℂ))
  numElec : ℕ × ℕ
  state : List (Gate (2 * norb))
  save : Bool
  cliques : Bool

/-- `op_to_qbit`, lines 642-656. -/
def opToQbit (map : SDict ℝ → Res (List (List Char × ℂ))) (norb : ℕ) (op : Dict ℝ) : Res (List (List Char × ℂ)) := do
  let form ← getQiskitForm norb op
  map form

/-- Labels with the real parts of the coefficients: of the sum of `result * coeff` over the labels the real part is
returned (lines 1068-1080 and 1136-1167), and the results are real. -/
def realParts (obs : List (List Char × ℂ)) : List (List Char × ℝ) := obs.map fun pc => (pc.1, pc.2.re)

/-- `int(det, 2)`, line 1019: `ValueError` for an empty string or another character (`int` also accepts underscores
and surrounding white space, which are in no determinant). -/
def detInt (det : List Char) : Res ℕ :=
  if det = [] then .error .valueError
  else det.foldlM (fun r c =>
    if c = '0' then .ok (2 * r) else if c = '1' then .ok (2 * r + 1) else .error .valueError) 0

/-- The default `det`, lines 1014-1018. -/
def defaultDet (norb : ℕ) (numElec : ℕ × ℕ) : List Char :=
  List.replicate (numElec.1 + numElec.2) '1' ++ List.replicate (2 * norb - (numElec.1 + numElec.2)) '0'

/-- Calls on an interface: they may raise and change it. -/
abbrev QM (α : Type) := ExceptT PyErr (StateM QI) α

variable {norb : ℕ}

/-- `_sampler_quantum_expectation_value`, lines 978-1080, with `run_circuit = c`. -/
noncomputable def evSaved (B : Bench norb) (det : List Char) (c : List (Gate (2 * norb))) (opt : ℕ) (op : Dict ℝ) :
    QM ℝ := fun q =>
  match detInt det with
  | .error e => (.error e, q)
  | .ok key =>
    match opToQbit B.map norb op with
    | .error e => (.error e, q)
    | .ok obs => q.evaluate B.dev (fun _ _ => c) key opt (realParts obs)

/-- `_sampler_quantum_expectation_value` with a `SparsePauliOp` (lines 1026-1027), given by its labels and the real parts
of its coefficients. -/
noncomputable def evLabels (B : Bench norb) (det : List Char) (c : List (Gate (2 * norb))) (opt : ℕ)
    (obs : List (List Char × ℝ)) : QM ℝ := fun q =>
  match detInt det with
  | .error e => (.error e, q)
  | .ok key => q.evaluate B.dev (fun _ _ => c) key opt obs

/-- Lines 1126-1131 and 1145-1150: mitigation of fresh measurements. -/
noncomputable def mitigateFresh (B : Bench norb) (q : QI) (c : List (Gate (2 * norb))) (heads : List (List Char))
    (ds : List Distr) : Res (List Distr) × QI :=
  if q.flags.isEnabled then
    let q' := if q.flags.mMit.truthy then { q with minv := some (q.minv.getD (q.run, q.flags.toInt)) } else q
    ((heads.zip ds).mapM fun hd => B.dev.mitigate (q'.minv.getD (q.run, q.flags.toInt)) q.flags.toInt c hd.1 hd.2, q')
  else (.ok ds, q)

/-- `_sampler_quantum_expectation_value_nosave`, lines 1082-1167. -/
noncomputable def evFresh (B : Bench norb) (params : List ℝ) (c : List (Gate (2 * norb))) (op : Dict ℝ) : QM ℝ := fun q =>
  match opToQbit B.map norb op with
  | .error e => (.error e, q)
  | .ok obs =>
    let paulis := obs.map Prod.fst
    let measure := B.dev.measure q.run { q.setting c with params := params }
    if B.cliques then
      match addPaulis [] paulis with
      | (.error e, _) => (.error e, q)
      | (.ok heads, cs) =>
        match mitigateFresh B q c heads (heads.map measure) with
        | (.error e, q) => (.error e, { q with run := q.run + 1 })
        | (.ok ds, q) =>
          match updateDistr cs heads ds 0 with
          | (.error e, _) => (.error e, { q with run := q.run + 1 })
          | (.ok (), cs) => (valueFrom cs 0 (realParts obs), { q with run := q.run + 1 })
    else
      match mitigateFresh B q c paulis (paulis.map measure) with
      | (.error e, q) => (.error e, { q with run := q.run + 1 })
      | (.ok ds, q) =>
        (((realParts obs).zip ds).foldlM (fun values x => do
          let result ← x.2.foldlM (fun r kv => do
            let s ← getBitstringSign x.1.1 kv.1
            return r + kv.2 * (s : ℝ)) 0
          return values + result * x.1.2) 0, { q with run := q.run + 1 })

/-- The choice between saved and fresh measurements, lines 697-712 and, in
`quantum_expectation_value_csfs`, 793-797, 831-839 and alike. -/
noncomputable def evOne (B : Bench norb) (custom : Option (List ℝ)) (det : List Char) (c : List (Gate (2 * norb)))
    (opt : ℕ) (op : Dict ℝ) : QM ℝ := fun q =>
  match custom with
  | none => if B.save then evSaved B det c opt op q else evFresh B q.params c op q
  | some p => evFresh B p c op q

/-- `quantum_expectation_value`, lines 685-716: on `self.circuit`, with the default `det` and `csfs_option`. -/
noncomputable def quantumExpectation (B : Bench norb) (custom : Option (List ℝ)) (op : Dict ℝ) : QM ℝ :=
  evOne B custom (defaultDet norb B.numElec) B.state 1 op

/-- Option of the superposition, lines 781-791 (no layout) and 903-924. -/
def supOption (flags : Flags) (opt : ℕ) : ℕ :=
  if flags.ansatz0Plus.truthy then 1 else if opt = 0 then 1 else opt

/-- One pair of determinants with its weight, lines 825-975. -/
noncomputable def csfsPair (B : Bench norb) (custom : Option (List ℝ)) (opt : ℕ) (op : Dict ℝ)
    (x : (List Char × List Char) × ℝ) : QM ℝ :=
  if x.1.1 = x.1.2 then do
    let c ← liftExcept (determinantReference x.1.1 norb B.mapper)
    let v ← evOne B custom x.1.1 c 1 op
    return x.2 * v
  else do
    let s ← liftExcept (superpositionReference x.1.1 x.1.2 norb B.mapper)
    let q ← get
    let v ← evOne B custom (x.1.1 ++ x.1.2) s (supOption q.flags opt) op
    let c1 ← liftExcept (determinantReference x.1.1 norb B.mapper)
    let v1 ← evOne B custom x.1.1 c1 1 op
    let c2 ← liftExcept (determinantReference x.1.2 norb B.mapper)
    let v2 ← evOne B custom x.1.2 c2 1 op
    return x.2 * v - 0.5 * x.2 * v1 - 0.5 * x.2 * v2
where
  /-- An exception of a function that does not use the interface. -/
  liftExcept {α : Type} (r : Res α) : QM α := fun q => (r, q)

/-- `quantum_expectation_value_csfs`, lines 718-976. -/
noncomputable def quantumExpectationCsfs (B : Bench norb) (custom : Option (List ℝ)) (opt : ℕ) (reverse : Bool)
    (bra : List ℝ × List (List Char)) (op : Dict ℝ) (ket : List ℝ × List (List Char)) : QM ℝ :=
  if B.mapper ≠ .jordanWigner then throw .typeError
  else if bra.2 = [] ∨ ket.2 = [] then return 0
  else do
    let b ← csfsPair.liftExcept (zipCsf bra)
    let k ← csfsPair.liftExcept (zipCsf ket)
    (uniqueCombinations reverse b k).foldlM (fun val x => do
      let t ← csfsPair B custom opt op x
      return val + t) 0

/-- The circuit of qiskit_nature's `HartreeFock` for the Jordan-Wigner mapper: the first orbitals of each spin. -/
def hfCircuit (norb : ℕ) (numElec : ℕ × ℕ) : List (Gate (2 * norb)) :=
  (List.finRange (2 * norb)).flatMap fun q : Fin (2 * norb) =>
    if (q : ℕ) < norb then (if (q : ℕ) < numElec.1 then [.x q] else [])
    else if (q : ℕ) - norb < numElec.2 then [.x q] else []

/-- Calls on an interface in use. -/
inductive BenchOp
  | shots (s : Option ℕ)
  | max (m : ℕ)
  | params (p : List ℝ)
  | flags (kw : List (String × FlagVal))
  | redoM
  | expectation (custom : Option (List ℝ)) (op : Dict ℝ)
  | labels (obs : List (List Char × ℝ))
  | csfs (custom : Option (List ℝ)) (opt : ℕ) (reverse : Bool) (bra : List ℝ × List (List Char)) (op : Dict ℝ)
      (ket : List ℝ × List (List Char))

noncomputable def BenchOp.run (B : Bench norb) (q : QI) : BenchOp → QI
  | .shots s => (q.setShots s).2
  | .max m => (q.setMax m).2
  | .params p => (q.setParams p).2
  | .flags kw => (q.setFlags kw).2
  | .redoM => q.redoM.2
  | .expectation custom op => (quantumExpectation B custom op q).2
  | .labels obs => (evLabels B (defaultDet norb B.numElec) B.state 1 obs q).2
  | .csfs custom opt rev bra op ket => (quantumExpectationCsfs B custom opt rev bra op ket q).2

end SQ
