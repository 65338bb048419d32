import Verif.Lemmas.CircuitTrig
import Verif.Lemmas.CircuitLayouts
import Verif.Lemmas.ParamNames
import Verif.Props.Optimizers

/-!
# C89-C92: circuits of the unitary product ansatz

`PGate`, `runPCircuit`, `onRegister`, `Prepares`, `CircuitExc`, `CircuitLayout`: Spec/Circuits.lean; `OrbLists.Ordered`,
`UpsCall.HasCircuit`: Spec/CircuitLayouts.lean; `ExpTo`, `ExpChain`, `Layout`: Spec/Ansatz.lean; `gradR`: Spec/Structures.lean.
-/

namespace SQ

/-! ## C89 -/

/-- C89: the calls made for an excitation that has a circuit fit on the register, and the gates apply the
exponential of its generator to every state; `grad_param_R` is 2 or, for a spin-adapted single, 4. -/
theorem C89_excitation {norb : ℕ} {ty : String} {idx : List ℕ} {T : FOp ℝ} (h : CircuitExc norb ty idx T) (θ : ℝ) :
    ∃ calls R gs, excitationGates norb ty idx θ = .ok (calls, R) ∧ calls.mapM (GateCall.place (2 * norb)) = .ok gs ∧
      Prepares norb gs T θ ∧ gradR ty = some R := by
  cases h with
  | single i a hr h =>
    have hi := hr i (by simp)
    have ha := hr a (by simp)
    have hlt := (f2q_min hi ha).2 h
    obtain ⟨gs, e1, e2⟩ := single_prepares hi ha hlt θ
    refine ⟨_, 2, gs, ?_, e1, ?_, rfl⟩
    · unfold excitationGates singleEfficient
      simp only [if_true]
      rw [if_neg (by omega)]
      rfl
    · simpa [excite] using e2
  | double i j a b hr hn h hs =>
    obtain ⟨calls, gs, e1, e2, e3⟩ := double_prepares (hr i (by simp)) (hr j (by simp)) (hr a (by simp)) (hr b (by simp)) hn
      (h i (by simp) a (by simp)) (h i (by simp) b (by simp)) (h j (by simp) a (by simp)) (h j (by simp) b (by simp)) hs θ
    refine ⟨calls, 2, gs, ?_, e2, e3, rfl⟩
    unfold excitationGates
    rw [if_neg (by decide), if_pos rfl]
    simp only [e1]
    rfl
  | saSingle i a h ha =>
    obtain ⟨calls, gs, e1, e2, e3⟩ := sa_prepares h ha θ
    refine ⟨calls, 4, gs, ?_, e2, e3, rfl⟩
    unfold excitationGates
    rw [if_neg (by decide), if_neg (by decide), if_pos rfl]
    simp only [e1]
    rfl

/-- The state an exponential leads to is unique, so the circuit of `C89_excitation` is determined on all states. -/
theorem C89_unique {T : FOp ℝ} {θ : ℝ} {x y z : Fock ℝ} (h : ExpTo T θ x y) (k : ExpTo T θ x z) : y = z :=
  fock_ext fun S => (h S).unique (k S)

/-- C89: overlaps of states of electrons in the orbitals are the overlaps of the states on the register, so that different
states of electrons are different there. -/
theorem C89_overlap {norb : ℕ} {x y : Fock ℝ} (hx : Below (2 * norb) x) (hy : Below (2 * norb) y) :
    ∑ b, star (onRegister norb x b) * onRegister norb y b = ((inner x y : ℝ) : ℂ) := register_inner hx hy

/-- C89: what is rejected with `ValueError`: a single excitation not up in the order of the qubits, a double excitation to
a lower spin orbital or with an odd number of alpha indices, a spin-adapted single not to a higher orbital, and anything
else; index lists of the wrong length too. -/
theorem C89_rejected (norb : ℕ) (θ : ℝ) :
    (∀ i a, i < 2 * norb → a < 2 * norb → ¬ ((i % 2 = a % 2 ∧ i < a) ∨ (i % 2 = 0 ∧ a % 2 = 1)) →
      excitationGates norb "single" [i, a] θ = .error .valueError) ∧
    (∀ i j a b, (a < i ∨ a < j ∨ b < i ∨ b < j ∨ [i, j, a, b].countP (· % 2 = 0) % 2 = 1) →
      excitationGates norb "double" [i, j, a, b] θ = .error .valueError) ∧
    (∀ i a, a ≤ i → excitationGates norb "sa_single" [i, a] θ = .error .valueError) ∧
    (∀ ty idx, (ty = "single" ∨ ty = "sa_single") → idx.length ≠ 2 → excitationGates norb ty idx θ = .error .valueError) ∧
    (∀ idx, idx.length ≠ 4 → excitationGates norb "double" idx θ = .error .valueError) ∧
    (∀ ty idx, ty ∉ ["single", "double", "sa_single"] → excitationGates norb ty idx θ = .error .valueError) := by
  refine ⟨?_, ?_, ?_, ?_, ?_, ?_⟩
  · intro i a hi ha h
    rw [← f2q_min hi ha] at h
    unfold excitationGates singleEfficient
    simp only [if_true]
    rw [if_pos (by omega)]
    rfl
  · intro i j a b h
    unfold excitationGates doubleEfficient
    rw [if_neg (by decide), if_pos rfl]
    simp only
    by_cases h1 : a < i ∨ a < j
    · rw [if_pos h1]; rfl
    · rw [if_neg h1]
      by_cases h2 : b < i ∨ b < j
      · rw [if_pos h2]; rfl
      · rw [if_neg h2, if_pos (.inl (by omega))]; rfl
  · intro i a h
    unfold excitationGates saSingleEfficient singleEfficient
    rw [if_neg (by decide), if_neg (by decide), if_pos rfl]
    simp only
    rw [if_pos (by unfold f2q; simp; omega)]
    rfl
  · rintro ty idx (rfl | rfl) h
    · unfold excitationGates
      rw [if_pos rfl]
      match idx, h with
      | [], _ | [_], _ | _ :: _ :: _ :: _, _ => rfl
      | [_, _], h => exact absurd rfl h
    · unfold excitationGates
      rw [if_neg (by decide), if_neg (by decide), if_pos rfl]
      match idx, h with
      | [], _ | [_], _ | _ :: _ :: _ :: _, _ => rfl
      | [_, _], h => exact absurd rfl h
  · intro idx h
    unfold excitationGates
    rw [if_neg (by decide), if_pos rfl]
    match idx, h with
    | [], _ | [_], _ | [_, _], _ | [_, _, _], _ | _ :: _ :: _ :: _ :: _ :: _, _ => rfl
    | [_, _, _, _], h => exact absurd rfl h
  · intro ty idx h
    simp only [List.mem_cons, List.not_mem_nil, or_false, not_or] at h
    unfold excitationGates
    rw [if_neg h.1, if_neg h.2.1, if_neg h.2.2]

/-- Double excitations out of the order of the indices, and from two beta to two alpha orbitals. -/
example : CircuitExc 3 "double" [3, 0, 5, 4] (excite [5, 4] [0, 3] - excite [3, 0] [4, 5]) ∧
    CircuitExc 4 "double" [1, 3, 4, 6] (excite [4, 6] [3, 1] - excite [1, 3] [6, 4]) :=
  ⟨.double 3 0 5 4 (by decide) (by decide) (by decide) (by decide), .double 1 3 4 6 (by decide) (by decide) (by decide) (by decide)⟩

/-- Singles: within a spin, and from an alpha to a (lower) beta orbital; a spin-adapted single. -/
example : CircuitExc 3 "single" [1, 5] (excite [5] [1] - excite [1] [5]) ∧
    CircuitExc 3 "single" [4, 1] (excite [1] [4] - excite [4] [1]) ∧ CircuitExc 3 "sa_single" [0, 2] (E 2 0 - E 0 2) :=
  ⟨.single 1 5 (by decide) (by decide), .single 4 1 (by decide) (by decide), .saSingle 0 2 (by decide) (by decide)⟩

/-! ## C90 -/

theorem exc_same {n : ℕ} {ty : String} {idx : List ℕ} {T T' : FOp ℝ} (h : Excitation 0 n ty idx T)
    (h' : CircuitExc n ty idx T') : T = T' := by
  have names : ∀ k, 1 ≤ k ∧ k ≤ 6 → (spinName k = "single" → k = 1) ∧ (spinName k = "double" → k = 2) ∧
      spinName k ≠ "sa_single" := by
    rintro k ⟨h1, h2⟩
    interval_cases k <;> decide
  cases h with
  | spin k hk I A hI hA hr hs =>
    obtain ⟨n1, n2, n3⟩ := names k hk
    generalize e1 : spinName k = ty at *
    generalize e2 : I ++ A = idx at *
    cases h' with
    | single i a =>
      obtain rfl := n1 rfl
      match I, A, hI, hA with
      | [i'], [a'], _, _ =>
        simp only [List.cons_append, List.nil_append, List.cons.injEq, and_true] at e2
        obtain ⟨rfl, rfl⟩ := e2
        simp
    | double i j a b =>
      obtain rfl := n2 rfl
      match I, A, hI, hA with
      | [i', j'], [a', b'], _, _ =>
        simp only [List.cons_append, List.nil_append, List.cons.injEq, and_true] at e2
        obtain ⟨rfl, rfl, rfl, rfl⟩ := e2
        simp
    | saSingle i a => exact absurd rfl n3
  | saSingle i a hr =>
    generalize e1 : "sa_single" = ty at *
    generalize e2 : [i, a] = idx at *
    cases h' with
    | single => exact absurd e1 (by decide)
    | double => exact absurd e1 (by decide)
    | saSingle i' a' =>
      simp only [List.cons.injEq, and_true] at e2
      obtain ⟨rfl, rfl⟩ := e2
      rfl
  | saDouble1 =>
    generalize e1 : "sa_double_1" = ty at h'
    cases h' <;> exact absurd e1 (by decide)
  | saDouble2 =>
    generalize e1 : "sa_double_2" = ty at h'
    cases h' <;> exact absurd e1 (by decide)
  | saDouble3 =>
    generalize e1 : "sa_double_3" = ty at h'
    cases h' <;> exact absurd e1 (by decide)
  | saDouble4 =>
    generalize e1 : "sa_double_4" = ty at h'
    cases h' <;> exact absurd e1 (by decide)
  | saDouble5 =>
    generalize e1 : "sa_double_5" = ty at h'
    cases h' <;> exact absurd e1 (by decide)

theorem layout_same {n : ℕ} {types : List String} {indices : List (List ℕ)} {Ts Ts' : List (FOp ℝ)}
    (h : Layout 0 n types indices Ts) (h' : CircuitLayout n types indices Ts') : Ts = Ts' := by
  induction h generalizing Ts' with
  | nil => cases h'; rfl
  | cons h1 _ ih =>
    cases h' with
    | cons k1 k2 => rw [exc_same h1 k1, ih k2]

theorem UpsCall.HasCircuit.fits {n : ℕ} {c : UpsCall} (h : c.HasCircuit n) : c.Fits n := by
  match c with
  | .tiled m o => exact h
  | .fucc L o => exact ⟨h.1, h.2.2.1⟩
  | .sds L o => exact ⟨h.1, h.2.2.1, h.2.2.2⟩

theorem loop_error {norb : ℕ} {θs : ℕ → ℝ} {ty : String} {ix : List ℕ}
    (hf : ∀ θ calls R, excitationGates norb ty ix θ = .ok (calls, R) → ∃ e, calls.mapM (GateCall.place (2 * norb)) = .error e) :
    ∀ {l : List (String × List ℕ)} (k : ℕ), (ty, ix) ∈ l → ∃ e, layoutLoop norb θs k l = .error e
  | (ty', ix') :: l, k, hm => by
    unfold layoutLoop
    cases e1 : excitationGates norb ty' ix' (θs k) with
    | error e => exact ⟨e, rfl⟩
    | ok cr =>
      obtain ⟨calls, R⟩ := cr
      simp only [bind, Except.bind]
      cases e2 : calls.mapM (GateCall.place (2 * norb)) with
      | error e => exact ⟨e, rfl⟩
      | ok gs =>
        simp only
        rcases List.mem_cons.1 hm with h | h
        · cases h
          obtain ⟨e, he⟩ := hf _ _ _ e1
          rw [he] at e2; cases e2
        · obtain ⟨e, he⟩ := loop_error hf (k + 1) h
          rw [he]
          exact ⟨e, rfl⟩

/-- C90: the circuit of a layout applies the exponentials one after the other, the first entry first; the parameters are
named in that order, and the number stored for each is the one that belongs to the type. -/
theorem C90_layout {norb : ℕ} {types : List String} {indices : List (List ℕ)} {Ts : List (FOp ℝ)}
    (h : CircuitLayout norb types indices Ts) (θs : ℕ → ℝ) :
    ∃ gs names, upslayout2circuit norb types indices θs = .ok (gs, names) ∧
      names.map Prod.fst = (List.range types.length).map pname ∧ names.map (fun p => some p.2) = types.map gradR ∧
      ∀ x, Below (2 * norb) x → ∃ y, ExpChain (Ts.zip ((List.range Ts.length).map θs)) x y ∧ Below (2 * norb) y ∧
        runPCircuit gs (onRegister norb x) = onRegister norb y := by
  unfold upslayout2circuit
  have key : ∀ k : ℕ, ∃ gs names, layoutLoop norb θs k (types.zip indices) = .ok (gs, names) ∧
      names.map Prod.fst = (List.range' k types.length).map pname ∧ names.map (fun p => some p.2) = types.map gradR ∧
      ∀ x, Below (2 * norb) x → ∃ y, ExpChain (Ts.zip ((List.range' k Ts.length).map θs)) x y ∧ Below (2 * norb) y ∧
        runPCircuit gs (onRegister norb x) = onRegister norb y := by
    induction h with
    | nil => intro k; exact ⟨[], [], rfl, rfl, rfl, fun x hx => ⟨x, .nil x, hx, rfl⟩⟩
    | cons he _ ih =>
      intro k
      obtain ⟨calls, R, g1, e1, e2, e3, e4⟩ := C89_excitation he (θs k)
      obtain ⟨g2, names, i1, i2, i2', i3⟩ := ih (k + 1)
      refine ⟨g1 ++ g2, (pname k, R) :: names, ?_, ?_, ?_, ?_⟩
      · simp only [List.zip_cons_cons, layoutLoop, e1, e2, i1, bind, Except.bind, pure, Except.pure]
      · simp [i2, List.range'_succ]
      · simp only [List.map_cons, i2', e4]
      · intro x hx
        obtain ⟨y, c1, c2, c3⟩ := e3 x hx
        obtain ⟨z, d1, d2, d3⟩ := i3 y c2
        refine ⟨z, ?_, d2, ?_⟩
        · simp only [List.length_cons, List.range'_succ, List.map_cons, List.zip_cons_cons]
          exact .cons c1 d1
        · unfold runPCircuit at *
          rw [List.foldl_append, c3, d3]
  simpa [List.range_eq_range'] using key 0

/-- C90: qiskit orders the parameters of a circuit by their names; up to `10⁹` of them this is the order of the layout. -/
theorem C90_order {n : ℕ} (hn : n ≤ 10 ^ 9) : ((List.range n).map pname).Pairwise (· < ·) := by
  rw [List.pairwise_map]
  refine List.Pairwise.imp_of_mem ?_ List.pairwise_lt_range
  intro a b _ hb h
  exact pname_lt h (by have := List.mem_range.1 hb; omega)

/-- C90: structures made by `create_tiled`, `create_fUCC` and `create_SDSfUCC` (with options that have circuits) are
translated without error, with the names of the structure and its `grad_param_R`. -/
theorem C90_structures {n : ℕ} (calls : List UpsCall) (h : ∀ c ∈ calls, c.HasCircuit n) (θs : ℕ → ℝ) :
    let s := calls.foldl UpsCall.run {}
    ∃ Ts gs names, CircuitLayout n s.types s.indices Ts ∧ Layout 0 n s.types s.indices Ts ∧
      upslayout2circuit n s.types s.indices θs = .ok (gs, names) ∧ names.map Prod.fst = s.names ∧
      ∀ p ∈ names, s.R.lookup p.1 = some p.2 := by
  intro s
  obtain ⟨es, hb, hg⟩ := circ_runs calls built_nil
  rw [List.nil_append] at hb
  obtain ⟨Ts, hT⟩ := circLayout_of_entries es (hg n h)
  obtain ⟨c1, c2⟩ := C36_ups_layout calls fun c hc => UpsCall.HasCircuit.fits (h c hc)
  obtain ⟨Ts', hT'⟩ := c1 0
  rw [← hb.types, ← hb.indices] at hT
  have e := layout_same hT' hT
  subst e
  obtain ⟨gs, names, g1, g2, g3, -⟩ := C90_layout hT θs
  have hn : s.names = (List.range s.types.length).map pname := by rw [hb.names, hb.types, List.length_map]
  refine ⟨_, gs, names, hT, hT', g1, by rw [g2, hn], fun p hp => ?_⟩
  obtain ⟨k, hk, rfl⟩ := List.mem_iff_getElem.1 hp
  have l1 : names.length = s.types.length := by simpa using congrArg List.length g2
  have e1 : s.types[k]? = some s.types[k] := List.getElem?_eq_getElem (by omega)
  have e2 : s.names[k]? = some names[k].1 := by
    rw [hn, ← g2, List.getElem?_map, List.getElem?_eq_getElem hk]; rfl
  rw [c2 k _ _ e1 e2]
  have e3 : (names.map fun p => some p.2)[k]? = (s.types.map gradR)[k]? := by rw [g3]
  rw [List.getElem?_map, List.getElem?_map, e1, List.getElem?_eq_getElem hk, Option.map_some, Option.map_some,
    Option.some.injEq] at e3
  exact e3.symm

/-- C90: the lists handed over by the wave function classes are as required. -/
theorem C90_wave_function_lists {numOrbs numElec cas0 cas1 : ℕ} (h : CasFits numOrbs numElec cas0 cas1) :
    let s := mkSpaces numOrbs numElec cas0 cas1
    let L : OrbLists := ⟨s.activeOccShifted, s.activeUnoccShifted, s.activeOccSpinShifted, s.activeUnoccSpinShifted,
      s.numActiveOrbs⟩
    L.Ok ∧ L.Ordered ∧ L.numOrbs = cas1 := by
  intro s L
  obtain ⟨h1, h2, h3, h4⟩ := C36_wave_function_lists h
  obtain ⟨nI, nV, o, ho, rfl, rfl, rfl, -⟩ := casFits_split h
  have hm : s = _ := mkSpaces_eq (nI := nI) (nA := cas1) (nV := nV) (o := o) ho
  have l1 := lists_range o o rfl
  have l2 := lists_rangeFrom o (cas1 - o) cas1 (by omega)
  have l3 := lists_range (2 * o) (2 * o) rfl
  have l4 := lists_rangeFrom (2 * o) (2 * (cas1 - o)) (2 * cas1) (by omega)
  have e : L = ⟨List.range o, rangeFrom o (cas1 - o), List.range (2 * o), rangeFrom (2 * o) (2 * (cas1 - o)), cas1⟩ := by
    show OrbLists.mk s.activeOccShifted s.activeUnoccShifted s.activeOccSpinShifted s.activeUnoccSpinShifted
      s.numActiveOrbs = _
    rw [hm]
  refine ⟨h1, ⟨fun i hi a ha => ?_, fun i hi a ha => ?_, h3, h4⟩, h2⟩
  · rw [e] at hi ha; dsimp only at hi ha; rw [l1.2] at hi; rw [l2.2] at ha; omega
  · rw [e] at hi ha; dsimp only at hi ha; rw [l3.2] at hi; rw [l4.2] at ha; omega

/-- The option `GD` of `create_fUCC` has no circuit: its excitations include those from one spin orbital twice, for which
a gate gets the same qubit twice, so that the circuit cannot be built for two or more orbitals. -/
theorem C90_generalized_doubles_disagree (L : OrbLists) (hL : 2 ≤ L.numOrbs) (θs : ℕ → ℝ) :
    let r := createFucc L [("n_layers", 1), ("GD", 1)] {}
    r.1 = .ok () ∧ ∃ e, upslayout2circuit L.numOrbs r.2.types r.2.indices θs = .error e := by
  intro r
  have hr : r = (.ok (), UpsStruct.addAll {} (fuccLayer L [("n_layers", 1), ("GD", 1)])) := by
    show createFucc L _ _ = _
    unfold createFucc
    rw [show checkOptions _ [("n_layers", 1), ("GD", 1)] = .ok 1 by decide]
    simp only
    rw [if_neg (by decide)]
    simp
  rw [hr]
  refine ⟨rfl, ?_⟩
  have hb := built_nil.addAll (fuccLayer L [("n_layers", 1), ("GD", 1)])
  rw [List.nil_append] at hb
  obtain ⟨e, he, e1, e2⟩ := mem_fuccLayer.2 (FuccExc.generalizedDouble (L := L) (o := [("n_layers", 1), ("GD", 1)])
    (by decide) 0 0 2 2 (by omega) (by omega) ⟨rfl, rfl⟩)
  unfold upslayout2circuit
  refine loop_error (ty := "double") (ix := [0, 0, 2, 2]) ?_ 0 ?_
  · intro θ calls R h
    unfold excitationGates at h
    rw [if_neg (by decide), if_pos rfl] at h
    have hd : doubleEfficient 2 2 0 0 L.numOrbs θ = .ok (doubleGates 1 1 0 0 (2 * θ * (1 : ℤ))) := by
      unfold doubleEfficient
      rw [if_neg (by decide), if_neg (by decide)]
      simp only
      rw [if_neg (by decide)]
      have f0 : f2q 0 L.numOrbs = 0 := by simp [f2q]
      have f2 : f2q 2 L.numOrbs = 1 := by simp [f2q]
      rw [f0, f2]
      rfl
    simp only [hd] at h
    simp only [pure, Except.pure, bind, Except.bind, Except.ok.injEq, Prod.mk.injEq] at h
    rw [← h.1]
    refine ⟨.runtimeError, ?_⟩
    have hm : (([1, 1, 0, 0] : List ℕ).mergeSort).length = 4 := by rw [List.length_mergeSort]; rfl
    unfold doubleGates
    generalize ([1, 1, 0, 0] : List ℕ).mergeSort = l at hm
    match l, hm with
    | [iz, kz, jz, lz], _ =>
      simp only [List.cons_append, List.mapM_cons, GateCall.place]
      rw [dif_neg (by simp)]
      rfl
  · rw [hb.types, hb.indices, List.zip_map', List.mem_map]
    exact ⟨e, he, by rw [e1, e2]⟩

/-- The options of `fUCCSD`, `kSAfUpCCGSD` and a second layer by hand, and of `tUPS`, meet the hypothesis of
`C90_structures`. -/
example {L : OrbLists} (h1 : L.Ok) (h2 : L.Ordered) : (UpsCall.fucc L [("S", 1), ("D", 1), ("n_layers", 1)]).HasCircuit L.numOrbs ∧
    (UpsCall.fucc L [("SAGS", 1), ("GpD", 1), ("n_layers", 2)]).HasCircuit L.numOrbs ∧
    (UpsCall.sds L [("D", 1), ("n_layers", 1)]).HasCircuit L.numOrbs ∧
    (UpsCall.tiled L.numOrbs [("do_tups", 1), ("n_layers", 3)]).HasCircuit L.numOrbs :=
  ⟨⟨h1, h2, rfl, by decide⟩, ⟨h1, h2, rfl, by decide⟩, ⟨h1, h2, rfl, by decide⟩, rfl⟩

/-! ## C91 -/

/-- C91: the circuit and the state vector code agree: for the same structure and angles (none in the range that the state
vector code skips), running the circuit on the state of any vector gives the state of the vector the code computes. -/
theorem C91_same_state {tiny : ℝ → Bool} {th : Threads} {ci : CIInfo} (ht : ExactTiny tiny) (hs : AnsatzSpace ci ci.nA)
    (hth : th.Fair ci.idx2det.length) {st : AnsatzStruct} {Ts Ts' : List (FOp ℝ)}
    (hL : Layout 0 ci.nA st.types st.indices Ts) (hC : CircuitLayout ci.nA st.types st.indices Ts')
    (thetas : List ℝ) (hl : thetas.length = st.types.length) (ha : ∀ θ ∈ thetas, effAngle θ = θ) (θs : ℕ → ℝ)
    (hθ : ∀ (k : ℕ) θ, thetas[k]? = some θ → θs k = θ) (v : Vec ℝ) :
    ∃ w gs names, constructUps (propVec tiny th ci) tiny ci.offset st thetas false v = .ok w ∧
      upslayout2circuit ci.nA st.types st.indices θs = .ok (gs, names) ∧
      runPCircuit gs (onRegister ci.nA (stateOf ci v)) = onRegister ci.nA (stateOf ci w) := by
  have ho : ci.offset = 0 := by have := hs.fits; omega
  obtain rfl := layout_same hL hC
  obtain ⟨w, hw, ew⟩ := (C26_state ht hs hth (ho ▸ hL) thetas v).1
  obtain ⟨gs, names, g1, -, -, g2⟩ := C90_layout hC θs
  obtain ⟨y, c1, -, c2⟩ := g2 _ (below_stateOf ci v)
  refine ⟨w, gs, names, hw, g1, ?_⟩
  have e : thetas.map effAngle = (List.range Ts.length).map θs := by
    rw [List.map_congr_left ha, List.map_id'']
    · refine List.ext_getElem (by rw [hl, hL.length.1]; simp) fun k h1 h2 => ?_
      simp [hθ k _ (List.getElem?_eq_getElem h1)]
    · intro; rfl
  rw [e] at ew
  rw [c2, expChain_unique c1 ew]

/-! ## C92 -/

/-- C92: along one angle whose type has a number `R` in `grad_param_R`, the expectation value of every operator is a
trigonometric polynomial of degree at most `R`. -/
theorem C92_degree {off n : ℕ} {types : List String} {indices : List (List ℕ)} {Ts : List (FOp ℝ)}
    (h : Layout off n types indices Ts) {k R : ℕ} {ty : String} (hk : types[k]? = some ty) (hR : gradR ty = some R)
    (θs : List ℝ) (hl : θs.length = types.length) (x : Fock ℝ) (y : ℝ → Fock ℝ)
    (hy : ∀ t, ExpChain (Ts.zip (θs.set k t)) x (y t)) (H : FOp ℝ) : TrigPoly R fun t => inner (y t) (H (y t)) := by
  obtain ⟨g1, g2⟩ := h.gens
  obtain ⟨r, T, rfl, hT, hg⟩ := g2 k ty R hk hR
  obtain ⟨Y, hY, hc⟩ := chain_trig hg (Ts := Ts) (θs := θs) (k := k) (by rw [hl, h.length.1]) g1 hT x
  refine (hY.bilin (innerForm H)).congr fun t => ?_
  rw [expChain_unique (hy t) (hc t)]
  rfl

/-- The expectation value (its real part) measured for the circuit of a structure started in a state of the register. -/
def MeasuredEnergy (norb : ℕ) (types : List String) (indices : List (List ℕ)) (ψ : QState (2 * norb))
    (O : QState (2 * norb) →ₗ[ℂ] QState (2 * norb)) (θs : List ℝ) (e : ℝ) : Prop :=
  ∃ gs names, upslayout2circuit norb types indices (fun k => θs.getD k 0) = .ok (gs, names) ∧
    e = (∑ b, star (runPCircuit gs ψ b) * O (runPCircuit gs ψ) b).re

/-- C92: energies of circuits: along every angle a trigonometric polynomial whose degree is at most the number that
`upslayout2circuit` stores in `grad_param_R`, for every observable and every state of electrons it is started in. -/
theorem C92_circuit {norb : ℕ} {types : List String} {indices : List (List ℕ)} {Ts : List (FOp ℝ)}
    (h : CircuitLayout norb types indices Ts) {x : Fock ℝ} (hx : Below (2 * norb) x)
    (O : QState (2 * norb) →ₗ[ℂ] QState (2 * norb)) {E : List ℝ → ℝ}
    (hE : ∀ θs, θs.length = types.length → MeasuredEnergy norb types indices (onRegister norb x) O θs (E θs))
    (θs : List ℝ) (hl : θs.length = types.length) {k : ℕ} {ty : String} (hk : types[k]? = some ty) :
    ∃ R, gradR ty = some R ∧ 0 < R ∧ TrigPoly R fun t => E (θs.set k t) := by
  obtain ⟨l1, g1, g2⟩ := h.gens
  obtain ⟨r, T, hR, hT, hg⟩ := g2 k ty hk
  obtain ⟨Y, hY, hc⟩ := chain_trig hg (Ts := Ts) (θs := θs) (k := k) (by rw [hl, l1]) g1 hT x
  have hr : 0 < 2 * r := by
    cases hr : 2 * r with
    | zero =>
      rw [hr] at hR
      have : ∀ ty, gradR ty ≠ some 0 := by intro ty; unfold gradR; split <;> simp
      exact absurd hR (this ty)
    | succ m => omega
  refine ⟨2 * r, hR, hr, (hY.bilin (regForm norb O)).congr fun t => ?_⟩
  obtain ⟨gs, names, e1, e2⟩ := hE (θs.set k t) (by simpa using hl)
  obtain ⟨gs', names', f1, -, -, f2⟩ := C90_layout h fun j => (θs.set k t).getD j 0
  rw [f1] at e1
  cases e1
  obtain ⟨y, c1, -, c2⟩ := f2 x hx
  have e : (List.range Ts.length).map (fun j => (θs.set k t).getD j 0) = θs.set k t := by
    refine List.ext_getElem (by simp [hl, l1]) fun j h1 h2 => ?_
    rw [List.getElem_map, List.getElem_range, List.getD_eq_getElem?_getD, List.getElem?_eq_getElem h2]; rfl
  rw [e] at c1
  rw [e2, c2, expChain_unique c1 (hc t)]
  rfl

/-- Such a layout, such a state and such an energy exist. -/
example : ∃ Ts, CircuitLayout 2 ["sa_single", "double"] [[0, 1], [0, 1, 2, 3]] Ts ∧ Below (2 * 2) (ket {0, 1} : Fock ℝ) ∧
    ∀ O, ∃ E : List ℝ → ℝ, ∀ θs, θs.length = 2 →
      MeasuredEnergy 2 ["sa_single", "double"] [[0, 1], [0, 1, 2, 3]] (onRegister 2 (ket {0, 1})) O θs (E θs) := by
  have h : CircuitLayout 2 ["sa_single", "double"] [[0, 1], [0, 1, 2, 3]]
      [E 1 0 - E 0 1, excite [2, 3] [1, 0] - excite [0, 1] [3, 2]] :=
    .cons (.saSingle 0 1 (by decide) (by decide)) (.cons (.double 0 1 2 3 (by decide) (by decide) (by decide) (by decide)) .nil)
  refine ⟨_, h, below_sgl (by decide) 1, fun O => ⟨fun θs => ?_, fun θs _ => ?_⟩⟩
  · exact (∑ b, star (runPCircuit (C90_layout h fun k => θs.getD k 0).choose (onRegister 2 (ket {0, 1})) b) *
      O (runPCircuit (C90_layout h fun k => θs.getD k 0).choose (onRegister 2 (ket {0, 1}))) b).re
  · exact ⟨_, _, (C90_layout h fun k => θs.getD k 0).choose_spec.choose_spec.1, rfl⟩

/-- C92: so the parameter-shift rule gives the derivative of the energy of the circuit. -/
theorem C92_gradient {norb : ℕ} {types : List String} {indices : List (List ℕ)} {Ts : List (FOp ℝ)}
    (h : CircuitLayout norb types indices Ts) {x : Fock ℝ} (hx : Below (2 * norb) x)
    (O : QState (2 * norb) →ₗ[ℂ] QState (2 * norb)) {E : List ℝ → ℝ}
    (hE : ∀ θs, θs.length = types.length → MeasuredEnergy norb types indices (onRegister norb x) O θs (E θs))
    (θs : List ℝ) (hl : θs.length = types.length) {k : ℕ} {ty : String} (hk : types[k]? = some ty) {t : ℝ}
    (ht : θs[k]? = some t) :
    ∃ R evals, gradR ty = some R ∧ gradEvals E θs k R = .ok evals ∧
      HasDerivAt (fun t => E (θs.set k t)) (shiftGradient evals R) t := by
  obtain ⟨R, h1, h2, h3⟩ := C92_circuit h hx O hE θs hl hk
  obtain ⟨evals, h4, h5⟩ := C45_gradient h2 ht h3
  exact ⟨R, evals, h1, h4, h5⟩

/-- C92: and RotoSolve reconstructs the energy of the circuit along the angle exactly. -/
theorem C92_rotosolve {norb : ℕ} {types : List String} {indices : List (List ℕ)} {Ts : List (FOp ℝ)}
    (h : CircuitLayout norb types indices Ts) {x : Fock ℝ} (hx : Below (2 * norb) x)
    (O : QState (2 * norb) →ₗ[ℂ] QState (2 * norb)) {E : List ℝ → ℝ}
    (hE : ∀ θs, θs.length = types.length → MeasuredEnergy norb types indices (onRegister norb x) O θs (E θs))
    (θs : List ℝ) (hl : θs.length = types.length) {k : ℕ} {ty : String} (hk : types[k]? = some ty) :
    ∃ R evals, gradR ty = some R ∧ getEnergyEvals E θs k R = .ok evals ∧
      ∀ t, |t| ≤ Real.pi → reconstructedF evals R t = E (θs.set k t) := by
  obtain ⟨R, h1, -, h3⟩ := C92_circuit h hx O hE θs hl hk
  have hk' : k < θs.length := by rw [hl]; exact (List.getElem?_eq_some_iff.1 hk).1
  obtain ⟨evals, h4, -, h5⟩ := C44_period hk' h3
  exact ⟨R, evals, h1, h4, h5⟩

end SQ
