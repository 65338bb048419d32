import Verif.Lemmas.Transpile
import Verif.Lemmas.DetCircuits

/-!
# C137: how circuits are transpiled does not change what is measured

`P`: the pass managers of Qiskit, assumed to keep the meaning of circuits up to a phase (`FaithfulManagers`). `A`: state
circuit and ansatz circuit. `RunCirc.prob` is the distribution of the circuit that is run, `Ansatz0.prob` that of the
circuits themselves, without any transpilation.
-/

namespace SQ

section
variable {V : Type} {P : PassManagers V} {A : Ansatz0}

/-- C137. Whatever calls were made, with whatever options and primitives and whether or not they failed, unless `ISA` was
switched off: if a circuit is run for a Pauli label, it gives every outcome with the probability that the untranspiled
circuits give. -/
theorem C137_transparent (F : FaithfulManagers P A) (v2 : Bool) (backend : Option V) (opts : PassOpts V) (isa : Bool)
    (cs : List (TCall V)) (hcs : TCall.isa false ∉ cs) (p : List ℝ) (op : List Char) {r : RunCirc}
    (hr : ((TQI.start P A v2 backend opts isa).calls P A cs).runCirc A p op = .ok r) (b : ℕ) :
    r.prob b = A.prob p op b :=
  SafeTQI.prob F (SafeTQI.calls (SafeTQI.start v2 backend opts isa) cs hcs) p op hr b

/-- C137. With known options and without switching `ISA` off, every call succeeds; a circuit is run for every label; only
the setter of parameters changes the parameters. -/
theorem C137_calls (F : FaithfulManagers P A) (v2 : Bool) (backend : Option V) {opts : PassOpts V} (isa : Bool)
    (ho : KnownOptions opts) (cs : List (TCall V)) (hcs : ∀ c ∈ cs, ProperCall A c) (c : TCall V) (hc : ProperCall A c) :
    let q := (TQI.start P A v2 backend opts isa).calls P A cs
    (q.call P A c).1 = .ok () ∧ ((∀ p, c ≠ .params p) → (q.call P A c).2.params = q.params) ∧
      ∀ p op, ∃ r, q.runCirc A p op = .ok r := by
  obtain ⟨h0, h1, h2, -⟩ := start_good (P := P) F v2 backend isa ho
  obtain ⟨g, gv⟩ := calls_good F h0 (fun h => by rw [h1, ← h2, h]; rfl) cs hcs
  obtain ⟨q', e, -, -, hp⟩ := call_good F g gv c hc
  refine ⟨by rw [e], fun h => by rw [e]; exact hp h, fun p op => ?_⟩
  obtain ⟨r, hr, -⟩ := good_run F g gv p op
  exact ⟨r, hr⟩

/-- C137. Then the circuit is the one that the current settings ask for: a V2 primitive has `ISA`; with `ISA` it is what
the pass manager with the current options makes, without it the circuit itself. -/
theorem C137_current (F : FaithfulManagers P A) (v2 : Bool) (backend : Option V) {opts : PassOpts V} (isa : Bool)
    (ho : KnownOptions opts) (cs : List (TCall V)) (hcs : ∀ c ∈ cs, ProperCall A c) :
    let q := (TQI.start P A v2 backend opts isa).calls P A cs
    (q.v2 = true → q.isa = true) ∧
    (q.isa = true → ∃ c, q.circuit = some c ∧ BuiltCirc P A (fun k => if k ∈ allowedOptions then q.opts.get k else none) c) ∧
    (q.isa = false → q.circuit = some ⟨A.n, fun p => A.state ++ A.raw p, none⟩) := by
  obtain ⟨h0, h1, h2, -⟩ := start_good (P := P) F v2 backend isa ho
  obtain ⟨g, gv⟩ := calls_good F h0 (fun h => by rw [h1, ← h2, h]; rfl) cs hcs
  refine ⟨gv, fun hi => ?_, g.off⟩
  obtain ⟨-, -, c, hc, hb, -⟩ := g.on hi
  exact ⟨c, hc, hb⟩

/-- C137. New options are used: the values that are given are in force, values set before that are not mentioned stay, and
`ISA` is on. -/
theorem C137_options (F : FaithfulManagers P A) (v2 : Bool) (backend : Option V) {opts : PassOpts V} (isa : Bool)
    (ho : KnownOptions opts) (cs : List (TCall V)) (hcs : ∀ c ∈ cs, ProperCall A c) (new : PassOpts V)
    (hn : KnownOptions new) :
    let q := (TQI.start P A v2 backend opts isa).calls P A cs
    let q' := (q.updateManager P A (some new)).2
    q'.isa = true ∧ (∀ k v, new k = some (some v) → q'.opts.get k = some v) ∧
      ∀ k v, new k = none → q.opts.get k = some v → q'.opts.get k = some v := by
  obtain ⟨h0, h1, h2, -⟩ := start_good (P := P) F v2 backend isa ho
  obtain ⟨g, gv⟩ := calls_good F h0 (fun h => by rw [h1, ← h2, h]; rfl) cs hcs
  intro q q'
  obtain ⟨q1, e, -, g1, -, -, -, g5⟩ := updateManager_good F g (some new) (fun o h => by
    obtain rfl := Option.some.inj h
    exact hn)
  have hq : q' = q1 := congrArg Prod.snd e
  rw [hq]
  refine ⟨g1, fun k v h => g5 k v ?_, fun k v h h' => g5 k v ?_⟩
  · change Option.join (match new k with
      | some v => some v
      | none => _) = some v
    rw [h]
    rfl
  · change Option.join (match new k with
      | some v => some v
      | none => q.opts k) = some v
    rw [h]
    exact h'

/-- C137, partial: if the shots are set again after every change of settings, the read-out matrix that corrects a
distribution was measured on the qubits that were read. Missing: this is false without setting them
(`C137_matrix_disagree`). -/
theorem C137_matrix_partial (F : FaithfulManagers P A) (v2 : Bool) (backend : Option V) {opts : PassOpts V} (isa : Bool)
    (ho : KnownOptions opts) (cs : List (TCall V)) (hcs : ∀ c ∈ cs, ProperCall A c) (hr : ResetAfterChanges cs)
    (p : List ℝ) (op : List Char) :
    let q := (TQI.start P A v2 backend opts isa).calls P A cs
    ∃ r, q.runCirc A p op = .ok r ∧ (q.mitigate A).1 = .ok (0, r.read) := by
  obtain ⟨h0, h1, h2, h3⟩ := start_good (P := P) F v2 backend isa ho
  have hv : (TQI.start P A v2 backend opts isa).v2 = true → (TQI.start P A v2 backend opts isa).isa = true :=
    fun h => by rw [h1, ← h2, h]; rfl
  obtain ⟨g, gv⟩ := calls_good F h0 hv cs hcs
  have hf := calls_fresh F h0 hv (Or.inl h3) cs hr hcs
  obtain ⟨r, e1, e2, e3⟩ := good_run F g gv p op
  refine ⟨r, e1, e3.trans ?_⟩
  rcases hf with h | h
  · rw [h]; rfl
  · rw [h, ← e2]; rfl

/-- An option with an unknown name is refused with a `ValueError`, but it stays in the settings: every later call of
`update_pass_manager` fails as well. -/
theorem C137_unknown_option_disagree (q : TQI V) (k : String) (hk : k ∉ allowedOptions) (v : V) :
    let q' := (q.updateManager P A (some fun j => if j = k then some (some v) else none)).2
    (q.updateManager P A (some fun j => if j = k then some (some v) else none)).1 = .error .valueError ∧
      ∀ new, (q'.updateManager P A new).1 = .error .valueError := by
  have refuse : ∀ q : TQI V, (q.opts k).isSome → ∀ b, q.newManager P A b = (.error .valueError, q) := by
    intro q h b
    unfold TQI.newManager TQI.makeManager
    rw [if_pos ⟨k, h, hk⟩]
  have stay : ∀ (o new : PassOpts V), (o k).isSome → (o.update new k).isSome := by
    intro o new h
    unfold PassOpts.update
    split
    · rfl
    · exact h
  have first : ((q.addOptions (some fun j => if j = k then some (some v) else none)).opts k).isSome := by
    simp [TQI.addOptions, PassOpts.update]
  intro q'
  have e : q.updateManager P A (some fun j => if j = k then some (some v) else none) = (.error .valueError, _) :=
    refuse _ first _
  refine ⟨by rw [e], fun new => ?_⟩
  have hq : q' = q.addOptions (some fun j => if j = k then some (some v) else none) := congrArg Prod.snd e
  rw [hq]
  unfold TQI.updateManager
  rw [refuse]
  cases new with
  | none => exact first
  | some o => exact stay _ o first

end

/-! ### An example: the option `initial_layout` turns the register around -/

section example_
variable {n : ℕ}

/-- The qubits in the opposite order. -/
def turned (n : ℕ) : List ℕ := (List.finRange n).map fun i => (Fin.rev i : ℕ)

/-- Pass managers that turn the register around if there is an initial layout. -/
def turnManagers : PassManagers ℕ where
  run pm n raw := if (pm "initial_layout").isSome then ⟨n, fun p => (raw p).map (CGate.place Fin.rev), some (turned n, turned n)⟩
    else ⟨n, raw, none⟩
  xMeas _ := [.c (.h 0)]
  yMeas _ := [.c (.sdg 0), .c (.h 0)]
  level3 := 3
  seed1234 := 1234
  layoutValue _ := 7

theorem turned_distinct (n : ℕ) : DistinctQubits n n (turned n) := by
  refine ⟨by simp [turned], ?_, fun q hq => ?_⟩
  · exact (List.nodup_finRange n).map fun i j h => Fin.rev_injective (Fin.ext h)
  · obtain ⟨i, -, rfl⟩ := List.mem_map.1 hq
    exact (Fin.rev i).2

theorem turned_at (i : Fin n) : (turned_distinct n).at i = Fin.rev i := by
  ext; simp [DistinctQubits.at, turned]

/-- They keep the meaning of every ansatz. -/
theorem turnManagers_faithful (A : Ansatz0) : FaithfulManagers turnManagers A where
  ansatz pm := by
    unfold turnManagers
    dsimp only
    split_ifs
    · refine ⟨turned_distinct A.n, turned_distinct A.n, fun p ψ => ⟨1, norm_one, ?_⟩⟩
      have h : (Fin.rev : Fin A.n → Fin A.n) = (turned_distinct A.n).at := funext fun i => (turned_at i).symm
      rw [one_smul, h]
      exact runGates_place (turned_distinct A.n).at_inj (A.raw p) ψ
    · exact ⟨rfl, fun p ψ => ⟨1, norm_one, by rw [one_smul]⟩⟩
  xMeas _ := ⟨1, norm_one, fun ψ => by rw [one_smul]; rfl⟩
  yMeas _ := ⟨1, norm_one, fun ψ => by rw [one_smul]; rfl⟩

/-- Two qubits: the state circuit sets qubit 0, the ansatz copies it to qubit 1 and takes it back. -/
def copyAnsatz : Ansatz0 := ⟨2, [.c (.x 0)], fun _ => [.c (.cx 0 1), .c (.x 0)], 0⟩

/-- The initial layout given as an option. -/
def layoutOption : PassOpts ℕ := fun k => if k = "initial_layout" then some (some 7) else none

theorem layoutOption_known : KnownOptions layoutOption := by
  intro k hk
  unfold layoutOption
  rw [if_neg]
  rintro rfl
  exact hk (by simp [allowedOptions])

theorem noOptions_known : KnownOptions (fun _ => none : PassOpts ℕ) := fun _ _ => rfl

/-- The interface of the example, without `ISA`. -/
noncomputable def copyQI : TQI ℕ := TQI.start turnManagers copyAnsatz false none (fun _ => none) false

example : ProperCall copyAnsatz (.options (some layoutOption)) := fun o h => by
  obtain rfl := Option.some.inj h
  exact layoutOption_known

example : ProperCall copyAnsatz (.primitive true (some 5) : TCall ℕ) := trivial

/-- Measuring `X` and `Y` on the turned register with another primitive. -/
example (b : ℕ) : ∃ r, (copyQI.calls turnManagers copyAnsatz
      [.options (some layoutOption), .primitive true (some 5)]).runCirc copyAnsatz [] ['X', 'Y'] = .ok r ∧
    r.prob b = copyAnsatz.prob [] ['X', 'Y'] b := by
  have F := turnManagers_faithful copyAnsatz
  have hcs : ∀ c ∈ [TCall.options (some layoutOption), .primitive true (some 5)], ProperCall copyAnsatz c := by
    simp only [List.mem_cons, List.not_mem_nil, or_false]
    rintro c (rfl | rfl)
    · intro o h
      obtain rfl := Option.some.inj h
      exact layoutOption_known
    · trivial
  obtain ⟨r, hr⟩ := (C137_calls F false none false noOptions_known _ hcs .shots trivial).2.2 [] ['X', 'Y']
  exact ⟨r, hr, C137_transparent F false none _ false _ (by simp) [] _ hr b⟩

/-- The transpiled circuit with a layout. -/
theorem copy_built {pm : String → Option ℕ} (hpm : pm "initial_layout" = some 7) {c : TCirc}
    (h : BuiltCirc turnManagers copyAnsatz pm c) :
    c = ⟨2, fun _ => [.c (.x 1), .c (.cx 1 0), .c (.x 1)], some ([1, 0], [1, 0])⟩ := by
  have hrun : turnManagers.run pm copyAnsatz.raw = ⟨2, fun _ => [.c (.cx 1 0), .c (.x 1)], some ([1, 0], [1, 0])⟩ := by
    unfold turnManagers
    dsimp only
    rw [hpm, if_pos (by simp)]
    rfl
  have hcomp : composeAt 2 [1, 0] copyAnsatz.state = .ok [.c (.x 1)] := by
    have hd : DistinctQubits 2 2 [1, 0] := ⟨rfl, by decide, by decide⟩
    exact composeAt_ok hd copyAnsatz.state
  obtain ⟨s, hs, rfl⟩ := h
  revert s
  rw [hrun]
  intro s hs
  obtain rfl := Except.ok.inj (hcomp.symm.trans hs)
  rfl

/-- After the layout was given, a label is measured on the turned register. -/
theorem copyQI_turned :
    let q := (copyQI.updateManager turnManagers copyAnsatz (some layoutOption)).2
    q.isa = true ∧ q.v2 = false ∧ q.circuit = some ⟨2, fun _ => [.c (.x 1), .c (.cx 1 0), .c (.x 1)], some ([1, 0], [1, 0])⟩ ∧
      q.finalIdx = [1, 0] ∧ q.minv = copyQI.minv := by
  intro q
  have F := turnManagers_faithful copyAnsatz
  obtain ⟨h0, h1, h2, -⟩ := start_good (P := turnManagers) F false none false noOptions_known
  obtain ⟨q1, e, g, g1, g2, g3, -, g5⟩ := updateManager_good F h0 (some layoutOption) (fun o h => by
    obtain rfl := Option.some.inj h
    exact layoutOption_known)
  have hq : q = q1 := congrArg Prod.snd e
  rw [hq]
  obtain ⟨-, -, c, hc, hb, hf⟩ := g.on g1
  have hpm : q1.opts.manager "initial_layout" = some 7 := by
    unfold PassOpts.manager
    rw [if_pos (by simp [allowedOptions])]
    exact g5 _ _ rfl
  obtain rfl := copy_built hpm hb
  exact ⟨g1, g2.trans h2, hc, hf, g3⟩

/-- Switching `ISA` off after a transpilation leaves the transpiled circuit, whose qubits are then read in the wrong
order: the outcome 2 of the ansatz becomes 1. With read-out mitigation a `ValueError` is raised. -/
theorem C137_isa_off_disagree :
    let q := (copyQI.calls turnManagers copyAnsatz [.options (some layoutOption), .isa false])
    copyAnsatz.prob [] ['Z', 'Z'] 2 = 1 ∧
      (∃ r, q.runCirc copyAnsatz [] ['Z', 'Z'] = .ok r ∧ r.prob 2 = 0 ∧ r.prob 1 = 1) ∧
      (q.mitigate copyAnsatz).1 = .error .valueError := by
  obtain ⟨h1, h2, h3, h4, -⟩ := copyQI_turned
  intro q
  have hq : q = { (copyQI.updateManager turnManagers copyAnsatz (some layoutOption)).2 with isa := false } := by
    have off : ∀ q0 : TQI ℕ, q0.v2 = false → (q0.setIsa turnManagers copyAnsatz false).2 = { q0 with isa := false } := by
      intro q0 h
      unfold TQI.setIsa
      simp [h]
    exact off _ h2
  have run : ∀ a t : Fin 2, a ≠ t →
      runGates [.c (.x a), .c (.cx a t), .c (.x a)] (allZero 2) = basis fun i => decide (i = t) := by
    intro a t hat
    change (Gate.x a).act ((Gate.cx a t).act ((Gate.x a).act (basis fun _ => false))) = _
    rw [x_basis, cx_basis_on hat (by simp), x_basis]
    congr 1
    funext i
    revert a t i
    decide
  have p1 : ∀ b, prob (basis fun i : Fin 2 => decide (i = 1)) b = if qubitBits 2 b = fun i => decide (i = 1) then 1 else 0 := by
    intro b
    unfold prob basis
    split_ifs <;> simp
  have p0 : ∀ b, prob (basis fun i : Fin 2 => decide (i = 0)) b = if qubitBits 2 b = fun i => decide (i = 0) then 1 else 0 := by
    intro b
    unfold prob basis
    split_ifs <;> simp
  refine ⟨?_, ⟨⟨2, [.c (.x 1), .c (.cx 1 0), .c (.x 1)], [0, 1]⟩, ?_, ?_⟩, ?_⟩
  · change prob (runGates [.c (.x 0), .c (.cx 0 1), .c (.x 0)] (allZero 2)) 2 = 1
    rw [run 0 1 (by decide), p1, if_pos (by decide)]
  · rw [hq]
    unfold TQI.runCirc
    rw [h3]
    dsimp only
    unfold TQI.measure
    rw [h2]
    dsimp only
    rw [if_neg (by simp)]
    rfl
  · have hr : ∀ b, RunCirc.prob ⟨2, [.c (.x 1), .c (.cx 1 0), .c (.x 1)], [0, 1]⟩ b
        = prob (basis fun i : Fin 2 => decide (i = 0)) b := by
      intro b
      refine prob_onQubits ⟨2, _, [0, 1]⟩ (distinct_range 2) 1 norm_one _ ?_ b
      rw [one_smul]
      exact (run 1 0 (by decide)).trans (onQubits_id _ (distinct_range_at (distinct_range 2)) _).symm
    rw [hr, hr, p0, p0, if_neg (by decide), if_pos (by decide)]
    exact ⟨rfl, rfl⟩
  · rw [hq]
    unfold TQI.mitigate
    rw [h3]
    dsimp only
    unfold TQI.layoutConflict
    dsimp only
    rw [if_pos rfl, if_neg (by simp)]

/-- A new layout keeps the read-out matrix of the old qubits, and the check of layouts finds nothing. -/
theorem C137_matrix_disagree :
    let q := (copyQI.calls turnManagers copyAnsatz [.redoMatrix, .options (some layoutOption)])
    (∃ r, q.runCirc copyAnsatz [] ['Z', 'Z'] = .ok r ∧ r.read = [1, 0]) ∧
      (q.mitigate copyAnsatz).1 = .ok (0, [0, 1]) := by
  have F := turnManagers_faithful copyAnsatz
  obtain ⟨h0, h1, h2, -⟩ := start_good (P := turnManagers) F false none false noOptions_known
  intro q
  have g0 : GoodTQI turnManagers copyAnsatz (copyQI.redoMatrix copyAnsatz) := 
    ⟨h0.known, h0.params, h0.off, h0.on, h0.rawOff, h0.settled⟩
  obtain ⟨q1, e, g, g1, g2, g3, -, g5⟩ := updateManager_good F g0 (some layoutOption) (fun o h => by
    obtain rfl := Option.some.inj h
    exact layoutOption_known)
  have hq : q = q1 := congrArg Prod.snd e
  rw [hq]
  obtain ⟨r, e1, e2, e3⟩ := good_run F g (fun _ => g1) [] ['Z', 'Z']
  obtain ⟨-, -, c, hc, hb, hf⟩ := g.on g1
  have hpm : q1.opts.manager "initial_layout" = some 7 := by
    unfold PassOpts.manager
    rw [if_pos (by simp [allowedOptions])]
    exact g5 _ _ rfl
  obtain rfl := copy_built hpm hb
  have hread : r.read = [1, 0] := by
    rw [e2]
    unfold TQI.calibrationQubits
    rw [if_pos g1, hf]
    rfl
  have hm : q1.minv = some [0, 1] := by
    rw [g3]
    change some (TQI.calibrationQubits copyAnsatz copyQI) = _
    unfold TQI.calibrationQubits
    rw [if_neg (by
      have : copyQI.isa = false := h1
      simp [this])]
    rfl
  exact ⟨⟨r, e1, hread⟩, e3.trans (by rw [hm]; rfl)⟩

end example_

end SQ
