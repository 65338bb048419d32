import Verif.Model.Cliques
import Verif.Spec.Circuits

/-!
# Model: transpilation settings and the circuits that are run

slowquant/qiskit_interface/interface.py: `ISA` (301-347), `update_pass_manager` (349-411), `circuit` (459-481),
`_transpile_circuit` (483-543), the end of `construct_circuit` (262-285), the circuits made by
`_one_call_sampler_distributions` (1368-1428), `_check_layout_conflict` (658-683) and the use of the read-out matrix
(413-419, 1286-1308); util.py: `to_CBS_measurement` with transpiled gates (42-51); circuit_wavefunction.py:
`change_primitive` (332-372).

The pass manager of Qiskit is a parameter: a function of the values of its eight options and of a circuit.  The circuit
made from the ansatz and the state circuit are fixed (their construction is modelled in Circuits, AnsatzChoice and
Determinants).  A dictionary of options is a function from keys to values; `none` as a value is Python's `None`.  Not
modelled: prints, counters, `_finalfixedlayout_pm` (it places the
empty circuit on the qubits it is given), the dictionary of options being the caller's own object.
-/

namespace SQ

/-- A gate of a circuit. -/
inductive CGate (n : ℕ)
  | c (g : Gate n)
  | p (g : PGate n)

/-- The same gate on other qubits. -/
def Gate.place {m n : ℕ} (f : Fin m → Fin n) : Gate m → Gate n
  | .x q => .x (f q)
  | .h q => .h (f q)
  | .sdg q => .sdg (f q)
  | .cx c t => .cx (f c) (f t)
  | .swap a b => .swap (f a) (f b)

/-- The same gate on other qubits. -/
def PGate.place {m n : ℕ} (f : Fin m → Fin n) : PGate m → PGate n
  | .rx θ q => .rx θ (f q)
  | .ry θ q => .ry θ (f q)
  | .rz θ q => .rz θ (f q)
  | .x q => .x (f q)
  | .h q => .h (f q)
  | .cx c t => .cx (f c) (f t)
  | .cz c t => .cz (f c) (f t)

/-- The same gate on other qubits. -/
def CGate.place {m n : ℕ} (f : Fin m → Fin n) : CGate m → CGate n
  | .c g => .c (g.place f)
  | .p g => .p (g.place f)

/-- The gates that `compose(other, qubits=qs)` of Qiskit adds to a circuit of `n` qubits: `CircuitError` (here
`runtimeError`) for a wrong number of qubits, a repeated one or one that does not exist. -/
def composeAt (n : ℕ) {m : ℕ} (qs : List ℕ) (gs : List (CGate m)) : Res (List (CGate n)) :=
  if h : qs.length = m ∧ qs.Nodup ∧ ∀ q ∈ qs, q < n then
    .ok (gs.map (CGate.place fun i : Fin m =>
      ⟨qs[(i : ℕ)]'(by rw [h.1]; exact i.2), h.2.2 _ (List.getElem_mem _)⟩))
  else .error .runtimeError

/-- A `QuantumCircuit` with parameters; `layout`: `initial_index_layout(filter_ancillas=True)` and
`final_index_layout()`, if the circuit has a layout. -/
structure TCirc where
  n : ℕ
  gates : List ℝ → List (CGate n)
  layout : Option (List ℕ × List ℕ)

/-- A dictionary with options; a value may be `None`. -/
abbrev PassOpts (V : Type) := String → Option (Option V)

/-- `generate_preset_pass_manager` with `run`, and the two circuits of lines 538-539. `V` are the values of options;
`layoutValue`: a list of qubits as the value of an option. -/
structure PassManagers (V : Type) where
  run : (String → Option V) → {n : ℕ} → (List ℝ → List (CGate n)) → TCirc
  xMeas : (String → Option V) → List (CGate 1)
  yMeas : (String → Option V) → List (CGate 1)
  level3 : V
  seed1234 : V
  layoutValue : List ℕ → V

/-- What `construct_circuit` makes of the ansatz, lines 160-262: number of qubits, `state_circuit`, ansatz circuit and its
number of parameters. -/
structure Ansatz0 where
  n : ℕ
  state : List (CGate n)
  raw : List ℝ → List (CGate n)
  numParams : ℕ

/-- Attributes of the interface. `backend`: the attribute `_backend` of the primitive, if it has one. `minv`: the qubits
that were measured for the read-out matrix. `ansatz`: `ansatz_circuit`; `hasRaw`: `_ansatz_circuit_raw` is set; `fixed`: the
options of `_initialfixedlayout_pm`. -/
structure TQI (V : Type) where
  v2 : Bool
  backend : Option V
  isa : Bool
  opts : PassOpts V
  pm : Option (String → Option V)
  ansatz : Option TCirc
  hasRaw : Bool
  fixed : Option (String → Option V)
  circuit : Option TCirc
  initIdx : List ℕ
  finalIdx : List ℕ
  xy : Option (List (CGate 1) × List (CGate 1))
  params : Option (List ℝ)
  minv : Option (List ℕ)

section
variable {V : Type}

/-- `d.get(key)`. -/
def PassOpts.get (o : PassOpts V) (key : String) : Option V := (o key).join

/-- `d[key] = v`. -/
def PassOpts.set (o : PassOpts V) (key : String) (v : V) : PassOpts V := fun k => if k = key then some (some v) else o k

/-- `d.update(new)`. -/
def PassOpts.update (o new : PassOpts V) : PassOpts V := fun k => match new k with
  | some v => some v
  | none => o k

/-- `allowed_pm_options`, lines 360-369. -/
def allowedOptions : List String :=
  ["optimization_level", "backend", "initial_layout", "layout_method", "routing_method", "translation_method",
    "seed_transpiler", "optimization_method"]

/-- What the pass manager is made with, lines 386-395. -/
def PassOpts.manager (o : PassOpts V) : String → Option V := fun k => if k ∈ allowedOptions then o.get k else none

variable (P : PassManagers V) (A : Ansatz0)

/-- `if d.get(key) is None: d[key] = v`. -/
def PassOpts.fill (o : PassOpts V) (key : String) (v : V) : PassOpts V :=
  if (o.get key).isNone then o.set key v else o

/-- The backend of the primitive, lines 316-330. A backend other than that of the primitive is only reported. -/
def PassOpts.fillBackend (o : PassOpts V) (backend : Option V) : PassOpts V := match backend with
  | some b => o.fill "backend" b
  | none => o

/-- The seed, lines 337-342. -/
def PassOpts.fillSeed (o : PassOpts V) (v : V) : PassOpts V :=
  if (o.get "backend").isSome then o.fill "seed_transpiler" v else o

/-- Defaults, lines 315-342. -/
def TQI.defaults (q : TQI V) : TQI V :=
  { q with opts := ((q.opts.fillBackend q.backend).fill "optimization_level" P.level3).fillSeed P.seed1234 }

open Classical in
/-- The check of the names and the pass manager, lines 370-379 and 386-395. -/
noncomputable def TQI.makeManager (q : TQI V) : Res Unit × TQI V :=
  if ∃ k, (q.opts k).isSome ∧ k ∉ allowedOptions then (.error .valueError, q)
  else (.ok (), { q with pm := some q.opts.manager })

/-- `_transpile_circuit` on the ansatz circuit and the rest of the setter of `circuit` with `ISA`, lines 471-477 and
492-543; `pm` is the pass manager in force. -/
def TQI.transpile (q : TQI V) (pm : String → Option V) : Res Unit × TQI V :=
  let out := P.run pm A.raw
  let ini := match out.layout with
    | some l => l.1
    | none => List.range out.n
  let fin := match out.layout with
    | some l => l.2
    | none => List.range out.n
  let fixed := match out.layout with
    | some l => fun k => if k = "initial_layout" then some (P.layoutValue l.1) else q.opts.manager k
    | none => pm
  let q := { q with hasRaw := true, ansatz := some out, initIdx := ini, finalIdx := fin, fixed := some fixed,
                    xy := some (P.xMeas pm, P.yMeas pm) }
  match composeAt out.n ini A.state with
  | .error e => (.error e, q)
  | .ok s => (.ok (), { q with circuit := some ⟨out.n, fun p => s ++ out.gates p, out.layout⟩ })

/-- The setter of `circuit` with the ansatz circuit, lines 459-481. -/
noncomputable def TQI.setCircuit (q : TQI V) : Res Unit × TQI V :=
  if q.isa then
    match q.pm with
    | some pm => q.transpile P A pm
    | none =>
      match q.makeManager with
      | (.error e, q) => (.error e, q)
      | (.ok (), q) => q.transpile P A q.opts.manager
  else (.ok (), { q with ansatz := some ⟨A.n, A.raw, none⟩, circuit := some ⟨A.n, fun p => A.state ++ A.raw p, none⟩ })

/-- `construct_circuit`, lines 200-285: the circuit, and parameters if there are none. -/
noncomputable def TQI.construct (q : TQI V) : Res Unit × TQI V :=
  match q.setCircuit P A with
  | (.error e, q) => (.error e, q)
  | (.ok (), q) => (.ok (), { q with params := some (q.params.getD (List.replicate A.numParams 0)) })

/-- `update_pass_manager(self.pass_manager_options)` with `ISA` on and a circuit, as called in line 347. -/
noncomputable def TQI.redo (q : TQI V) : Res Unit × TQI V :=
  match q.makeManager with
  | (.error e, q) => (.error e, q)
  | (.ok (), q) => q.construct P A

/-- The setter of `ISA`, lines 303-347. -/
noncomputable def TQI.setIsa (q : TQI V) (b : Bool) : Res Unit × TQI V :=
  let q := { q with isa := q.v2 || b }
  if q.isa then
    let q := q.defaults P
    if q.circuit.isSome then q.redo P A else (.ok (), q)
  else (.ok (), q)

/-- The new options, lines 355-357. -/
def TQI.addOptions (q : TQI V) (new : Option (PassOpts V)) : TQI V := match new with
  | some new => { q with opts := q.opts.update new }
  | none => q

/-- The rest of `update_pass_manager`, lines 359-411; `rebuild`: options were given. -/
noncomputable def TQI.newManager (q : TQI V) (rebuild : Bool) : Res Unit × TQI V :=
  match q.makeManager with
  | (.error e, q') => (.error e, q')
  | (.ok (), q') =>
    if q.isa then
      if rebuild = true ∧ q'.circuit.isSome then q'.construct P A else (.ok (), q')
    else
      match q.setIsa P A true with
      | (.error e, q) => (.error e, q)
      | (.ok (), q) => (.ok (), { q with pm := some q.opts.manager })

/-- `update_pass_manager`, lines 349-411. -/
noncomputable def TQI.updateManager (q : TQI V) (new : Option (PassOpts V)) : Res Unit × TQI V :=
  (q.addOptions new).newManager P A new.isSome

/-- `QuantumInterface.__init__`, lines 103-131, for a sampler. -/
noncomputable def TQI.init (v2 : Bool) (backend : Option V) (opts : PassOpts V) (isa : Bool) : Res Unit × TQI V :=
  TQI.setIsa P A ⟨v2, backend, false, opts, none, none, false, none, none, [], [], none, none, none⟩ isa

/-- `change_primitive` with a sampler, circuit_wavefunction.py:349-369: the circuit is made again, then `ISA` is set again
(and with it, if it is on, the circuit made once more), then the shots, which drops the read-out matrix. -/
noncomputable def TQI.changePrimitive (q : TQI V) (v2 : Bool) (backend : Option V) : Res Unit × TQI V :=
  let q := { q with v2 := v2, backend := backend }
  match q.construct P A with
  | (.error e, q) => (.error e, q)
  | (.ok (), q) =>
    match q.setIsa P A q.isa with
    | (.error e, q) => (.error e, q)
    | (.ok (), q) => (.ok (), { q with minv := none })

/-! ### Measurements -/

/-- `to_CBS_measurement(op, transpiled)`, util.py:42-49. -/
def cbsWith (n : ℕ) (xy : List (CGate 1) × List (CGate 1)) (op : List Char) : List (CGate n) :=
  (List.finRange n).flatMap fun i : Fin n =>
    if op.reverse[(i : ℕ)]? = some 'X' then xy.1.map (CGate.place fun _ => i)
    else if op.reverse[(i : ℕ)]? = some 'Y' then xy.2.map (CGate.place fun _ => i)
    else []

/-- A circuit that is run, and the qubits whose outcomes are the bits 0, 1, … of the integers found. -/
structure RunCirc where
  n : ℕ
  gates : List (CGate n)
  read : List ℕ

/-- The qubits of a circuit that are measured, lines 1381-1385, 1411-1415 and 673-676. -/
def TCirc.finals (c : TCirc) : List ℕ := match c.layout with
  | some l => l.2
  | none => List.range A.n

/-- What is run for a circuit and the label `op` with the parameters `p`, lines 1369-1422. -/
def TQI.measure (q : TQI V) (c : TCirc) (p : List ℝ) (op : List Char) : Res RunCirc :=
  if q.v2 || q.isa then
    match q.xy with
    | none => .error .attributeError
    | some xy => do
      let m ← composeAt c.n (c.finals A) (cbsWith A.n xy op)
      pure ⟨c.n, c.gates p ++ m, c.finals A⟩
  else do
    let m ← composeAt c.n (List.range A.n) ((toCBS A.n op).map CGate.c)
    pure ⟨c.n, c.gates p ++ m, List.range c.n⟩

/-- What is run for `self.circuit`. -/
def TQI.runCirc (q : TQI V) (p : List ℝ) (op : List Char) : Res RunCirc :=
  match q.circuit with
  | none => .error .attributeError
  | some c => q.measure A c p op

/-! ### The read-out matrix -/

/-- The qubits that `_make_Minv` measures, lines 1562-1568 and 1574-1604. -/
def TQI.calibrationQubits (q : TQI V) : List ℕ := if q.isa then q.finalIdx else List.range A.n

/-- `redo_M_mitigation`, lines 413-419. -/
def TQI.redoMatrix (q : TQI V) : TQI V := { q with minv := some (q.calibrationQubits A) }

/-- `_check_layout_conflict(self.circuit)`, lines 669-683, with its three answers. -/
def TQI.layoutConflict (q : TQI V) (c : TCirc) : Res ℕ :=
  if q.isa = false then
    if c.layout.isNone then .ok 0 else .error .valueError
  else
    if ¬ (c.finals A).Perm q.finalIdx then .error .valueError
    else if c.finals A = q.finalIdx then .ok 0
    else .ok 1

/-- `_apply_M_mitigation` for `self.circuit`, lines 1286-1296: the answer of the check and the qubits of the matrix that
is used. -/
def TQI.mitigate (q : TQI V) : Res (ℕ × List ℕ) × TQI V :=
  match q.circuit with
  | none => (.error .attributeError, q)
  | some c =>
    let qs := q.minv.getD (q.calibrationQubits A)
    let q := { q with minv := some qs }
    match q.layoutConflict A c with
    | .error e => (.error e, q)
    | .ok k => (.ok (k, qs), q)

/-! ### Calls -/

/-- The setter of `parameters`, lines 430-448. -/
def TQI.setParams (q : TQI V) (p : List ℝ) : Res Unit × TQI V :=
  if q.circuit.isNone then (.error .attributeError, q)
  else if p.length ≠ A.numParams then (.error .valueError, q)
  else (.ok (), { q with params := some p })

/-- What a user can do with the interface. -/
inductive TCall (V : Type)
  | isa (b : Bool)
  | options (new : Option (PassOpts V))
  | primitive (v2 : Bool) (backend : Option V)
  | params (p : List ℝ)
  | shots
  | redoMatrix
  | mitigate

/-- One call; the setter of `shots` drops the read-out matrix, lines 567-568. -/
noncomputable def TQI.call (q : TQI V) : TCall V → Res Unit × TQI V
  | .isa b => q.setIsa P A b
  | .options new => q.updateManager P A new
  | .primitive v2 backend => q.changePrimitive P A v2 backend
  | .params p => q.setParams A p
  | .shots => (.ok (), { q with minv := none })
  | .redoMatrix => (.ok (), q.redoMatrix A)
  | .mitigate => ((q.mitigate A).1.map fun _ => (), (q.mitigate A).2)

/-- The interface after some calls (the exceptions of calls that fail are caught). -/
noncomputable def TQI.calls (q : TQI V) (cs : List (TCall V)) : TQI V := cs.foldl (fun q c => (q.call P A c).2) q

/-- The interface as a wave function has it: made, and `construct_circuit` called (circuit_wavefunction.py:239-247). -/
noncomputable def TQI.start (v2 : Bool) (backend : Option V) (opts : PassOpts V) (isa : Bool) : TQI V :=
  ((TQI.init P A v2 backend opts isa).2.construct P A).2

end

end SQ
