import Verif.Lemmas.Structures
import Verif.Props.OrbitalSpaces
import Verif.Props.Ansatz

/-!
# C36, C37: ansatz structures and their options

`UpsCall`, `UccCall`, `OrbLists.Ok`, `gradR`, `FuccExc`: Spec/Structures.lean.
-/

namespace SQ

/-! ## C36 -/

theorem built_run {s : UpsStruct} {es : List Entry} (h : Built s es) (c : UpsCall) :
    ∃ l, Built (c.run s) (es ++ l) ∧ ∀ n, c.Fits n → ∀ e ∈ l, GoodEntry n e := by
  have keep : ∀ P : Prop, ∃ l : List Entry, Built s (es ++ l) ∧ ∀ n, P → ∀ e ∈ l, GoodEntry n e := fun _ =>
    ⟨[], by simpa using h, by simp⟩
  have keep' : ∀ P : ℕ → Prop, ∃ l : List Entry, Built s (es ++ l) ∧ ∀ n, P n → ∀ e ∈ l, GoodEntry n e := fun _ =>
    ⟨[], by simpa using h, by simp⟩
  match c with
  | .tiled m o =>
    unfold UpsCall.run createTiled
    dsimp only
    split
    · exact keep' _
    · split_ifs
      · exact keep' _
      · exact keep' _
      · refine ⟨_, h.addAll _, fun n hn e he => ?_⟩
        obtain rfl : m = n := hn
        obtain ⟨k, -, he⟩ := List.mem_flatMap.1 he
        exact good_tiledLayer _ _ _ _ _ _ e he
  | .fucc L o =>
    unfold UpsCall.run createFucc
    dsimp only
    split
    · exact keep' _
    · split_ifs
      · exact keep' _
      · refine ⟨_, h.addAll _, fun n hn e he => ?_⟩
        obtain ⟨hL, rfl⟩ := hn
        obtain ⟨k, -, he⟩ := List.mem_flatMap.1 he
        exact good_fuccLayer hL o e he
  | .sds L o =>
    unfold UpsCall.run createSds
    dsimp only
    split
    · exact keep' _
    · split_ifs
      · exact keep' _
      · refine ⟨_, h.addAll _, fun n hn e he => ?_⟩
        obtain ⟨hL, rfl, hp⟩ := hn
        obtain ⟨k, -, he⟩ := List.mem_flatMap.1 he
        exact good_sdsLayer hL o hp e he

theorem built_runs (calls : List UpsCall) : ∀ {s : UpsStruct} {es : List Entry}, Built s es →
    ∃ l, Built (calls.foldl UpsCall.run s) (es ++ l) ∧ ∀ n, (∀ c ∈ calls, c.Fits n) → ∀ e ∈ l, GoodEntry n e := by
  induction calls with
  | nil => intro s es h; exact ⟨[], by simpa using h, by simp⟩
  | cons c calls ih =>
    intro s es h
    obtain ⟨l1, b1, g1⟩ := built_run h c
    obtain ⟨l2, b2, g2⟩ := ih b1
    rw [List.append_assoc] at b2
    refine ⟨l1 ++ l2, b2, fun n hn e he => ?_⟩
    rcases List.mem_append.1 he with he | he
    · exact g1 n (hn c (by simp)) e he
    · exact g2 n (fun c hc => hn c (by simp [hc])) e he

theorem layout_of_good {n : ℕ} (es : List Entry) (h : ∀ e ∈ es, GoodEntry n e) (off : ℕ) :
    ∃ Ts, Layout off n (es.map Entry.ty) (es.map Entry.idx) Ts := by
  induction es with
  | nil => exact ⟨[], Layout.nil⟩
  | cons e es ih =>
    obtain ⟨Ts, hT⟩ := ih fun e he => h e (by simp [he])
    obtain ⟨T, hT'⟩ := (h e (by simp)).1 off
    exact ⟨T :: Ts, Layout.cons hT' hT⟩

/-- C36: after any sequence of calls of the `create_` methods with any arguments (also failing ones), the
lists of types, indices and names have `n_params` entries, no name occurs twice, and `grad_param_R` has
only these names as keys, each at most once. -/
theorem C36_ups_consistent (calls : List UpsCall) :
    let s := calls.foldl UpsCall.run {}
    s.types.length = s.nParams ∧ s.indices.length = s.nParams ∧ s.names.length = s.nParams ∧ s.names.Nodup ∧
      (s.R.map Prod.fst).Nodup ∧ ∀ x ∈ s.R, x.1 ∈ s.names := by
  intro s
  obtain ⟨es, hb, -⟩ := built_runs calls built_nil
  rw [List.nil_append] at hb
  refine ⟨?_, ?_, ?_, ?_, hb.nodup, fun x hx => ?_⟩
  · rw [hb.types, hb.nParams, List.length_map]
  · rw [hb.indices, hb.nParams, List.length_map]
  · rw [hb.names, hb.nParams, List.length_map, List.length_range]
  · rw [hb.names]
    exact List.nodup_range.map fun a b h => pname_inj h
  · obtain ⟨k, hk, he⟩ := hb.keys x hx
    rw [hb.names, he]
    exact List.mem_map.2 ⟨k, List.mem_range.2 hk, rfl⟩

/-- C36: if all calls concern `n` active orbitals, every entry is an excitation among these orbitals with
the right number of indices (so C26, C28, C71 apply to the structure), and `grad_param_R` assigns every
name the value belonging to the type of its entry. -/
theorem C36_ups_layout {n : ℕ} (calls : List UpsCall) (h : ∀ c ∈ calls, c.Fits n) :
    let s := calls.foldl UpsCall.run {}
    (∀ off, ∃ Ts, Layout off n s.ansatz.types s.ansatz.indices Ts) ∧
    ∀ (k : ℕ) ty nm, s.types[k]? = some ty → s.names[k]? = some nm → s.R.lookup nm = gradR ty := by
  intro s
  obtain ⟨es, hb, hg⟩ := built_runs calls built_nil
  rw [List.nil_append] at hb
  refine ⟨fun off => ?_, fun k ty nm h1 h2 => ?_⟩
  · have := layout_of_good es (hg n h) off
    rw [← hb.types, ← hb.indices] at this
    exact this
  · rw [hb.names, List.getElem?_map] at h2
    rw [hb.types, List.getElem?_map] at h1
    cases he : es[k]? with
    | none => rw [he] at h1; simp at h1
    | some e =>
      rw [he] at h1
      have hk : k < es.length := (List.getElem?_eq_some_iff.1 he).1
      rw [List.getElem?_range hk] at h2
      simp only [Option.map_some, Option.some.injEq] at h1 h2
      rw [← h2, hb.look, he, ← h1]
      exact (hg n h e (List.mem_of_getElem? he)).2

/-- C36: the orbital lists the wave function classes hand over are as required (for active spaces that
fit). -/
theorem C36_wave_function_lists {numOrbs numElec cas0 cas1 : ℕ} (h : CasFits numOrbs numElec cas0 cas1) :
    let s := mkSpaces numOrbs numElec cas0 cas1
    let L : OrbLists := ⟨s.activeOccShifted, s.activeUnoccShifted, s.activeOccSpinShifted, s.activeUnoccSpinShifted,
      s.numActiveOrbs⟩
    L.Ok ∧ L.numOrbs = cas1 ∧ L.occSpin.Nodup ∧ L.unoccSpin.Nodup := by
  intro s L
  obtain ⟨nI, nV, o, ho, rfl, rfl, rfl, h4⟩ := casFits_split h
  have hm : s = _ := mkSpaces_eq (nI := nI) (nA := cas1) (nV := nV) (o := o) ho
  have l1 := lists_range o o rfl
  have l2 := lists_rangeFrom o (cas1 - o) cas1 (by omega)
  have l3 := lists_range (2 * o) (2 * o) rfl
  have l4 := lists_rangeFrom (2 * o) (2 * (cas1 - o)) (2 * cas1) (by omega)
  have e : L = ⟨List.range o, rangeFrom o (cas1 - o), List.range (2 * o), rangeFrom (2 * o) (2 * (cas1 - o)), cas1⟩ := by
    show OrbLists.mk s.activeOccShifted s.activeUnoccShifted s.activeOccSpinShifted s.activeUnoccSpinShifted
      s.numActiveOrbs = _
    rw [hm]
  rw [e]
  refine ⟨⟨fun p hp => ?_, fun p hp => ?_, fun p hp hq => ?_⟩, rfl, l3.1, l4.1⟩
  · rcases List.mem_append.1 hp with hp | hp
    · rw [l1.2] at hp; show p < cas1; omega
    · rw [l2.2] at hp; exact hp.2
  · rcases List.mem_append.1 hp with hp | hp
    · rw [l3.2] at hp; show p < 2 * cas1; omega
    · rw [l4.2] at hp; exact hp.2
  · rw [l1.2] at hp; rw [l2.2] at hq; omega

theorem mem_blockIf {f : ℤ} {l : List Entry} {e : Entry} : e ∈ blockIf f l ↔ f ≠ 0 ∧ e ∈ l := by
  unfold blockIf; split_ifs with h <;> simp [h]

theorem mem_spin {occ unocc : List ℕ} {k : ℕ} (hk : 1 ≤ k ∧ k ≤ 6) {l : List (List ℕ)}
    (hl : ∀ x, x ∈ l ↔ SpinExcitation occ unocc k x) {ty : String} {idx : List ℕ} :
    (∃ e ∈ spinEntries (spinName k) l, e.ty = ty ∧ e.idx = idx) ↔
      ∃ I A, I.Sublist occ ∧ A.Sublist unocc ∧ I.length = k ∧ A.length = k ∧ SameSpin A I ∧ spinName k = ty ∧
        I ++ A = idx := by
  constructor
  · rintro ⟨e, he, rfl, rfl⟩
    obtain ⟨x, hx, rfl⟩ := List.mem_map.1 he
    obtain ⟨A, I, h1, h2, h3, h4, h5, rfl⟩ := (hl x).1 hx
    exact ⟨I, A, h2, h1, h4, h3, h5, rfl, (occFirst_interleave hk A I h3 h4).symm⟩
  · rintro ⟨I, A, h2, h1, h4, h3, h5, rfl, rfl⟩
    exact ⟨_, List.mem_map.2 ⟨interleave A I, (hl _).2 ⟨A, I, h1, h2, h3, h4, h5, rfl⟩, rfl⟩, rfl,
      occFirst_interleave hk A I h3 h4⟩

theorem mem_fuccLayer {L : OrbLists} {o : Options} {ty : String} {idx : List ℕ} :
    (∃ e ∈ fuccLayer L o, e.ty = ty ∧ e.idx = idx) ↔ FuccExc L o ty idx := by
  have m1 : ∀ x, x ∈ iterateT1 L.occSpin L.unoccSpin ↔ SpinExcitation L.occSpin L.unoccSpin 1 x := fun x => by
    rw [iterateT1_eq]; exact mem_excIter
  have m2 : ∀ x, x ∈ iterateT2 L.occSpin L.unoccSpin ↔ SpinExcitation L.occSpin L.unoccSpin 2 x := fun x => by
    rw [iterateT2_eq]; exact mem_excIter
  have m3 : ∀ x, x ∈ iterateT3 L.occSpin L.unoccSpin ↔ SpinExcitation L.occSpin L.unoccSpin 3 x := fun x => by
    rw [iterateT3_eq]; exact mem_excIter
  have m4 : ∀ x, x ∈ iterateT4 L.occSpin L.unoccSpin ↔ SpinExcitation L.occSpin L.unoccSpin 4 x := fun x => by
    rw [iterateT4_eq]; exact mem_excIter
  have m5 : ∀ x, x ∈ iterateT5 L.occSpin L.unoccSpin ↔ SpinExcitation L.occSpin L.unoccSpin 5 x := fun x => by
    rw [iterateT5_eq]; exact mem_excIter
  have m6 : ∀ x, x ∈ iterateT6 L.occSpin L.unoccSpin ↔ SpinExcitation L.occSpin L.unoccSpin 6 x := fun x => by
    rw [iterateT6_eq]; exact mem_excIter
  have spinCase : ∀ (k : ℕ) (hk : 1 ≤ k ∧ k ≤ 6) (l : List (List ℕ)),
      (∀ x, x ∈ l ↔ SpinExcitation L.occSpin L.unoccSpin k x) → o.flag (spinOption k) ≠ 0 →
      ∀ e ∈ spinEntries (spinName k) l, FuccExc L o e.ty e.idx := by
    intro k hk l hl ho e he
    obtain ⟨I, A, h1, h2, h3, h4, h5, h6, h7⟩ := (mem_spin hk hl).1 ⟨e, he, rfl, rfl⟩
    rw [← h6, ← h7]
    exact FuccExc.spin k hk ho I A h1 h2 h3 h4 h5
  constructor
  · rintro ⟨e, he, rfl, rfl⟩
    unfold fuccLayer at he
    simp only [List.mem_append, mem_blockIf] at he
    rcases he with (((((((((((⟨ho, he⟩ | ⟨ho, he⟩) | ⟨ho, he⟩) | ⟨ho, he⟩) | ⟨ho, he⟩) | ⟨ho, he⟩) | ⟨ho, he⟩) |
      ⟨ho, he⟩) | ⟨ho, he⟩) | ⟨ho, he⟩) | ⟨ho, he⟩) | ⟨ho, he⟩) | ⟨ho, he⟩
    · exact spinCase 1 (by decide) _ m1 ho e he
    · obtain ⟨x, hx, rfl⟩ := List.mem_map.1 he
      obtain ⟨a, i, h1, h2, h3, rfl⟩ := ((C35_generalized_singles (2 * L.numOrbs)).2.1.2 x).1 hx
      exact FuccExc.generalizedSingle ho i a h1 h2 h3
    · obtain ⟨x, hx, rfl⟩ := List.mem_map.1 he
      exact FuccExc.saSingle ho _ _ (mem_T1sa hx).2 (mem_T1sa hx).1
    · obtain ⟨x, hx, rfl⟩ := List.mem_map.1 he
      obtain ⟨h1, h2, -⟩ := ((C35_generalized_singles L.numOrbs).1.2 x).1 hx
      exact FuccExc.generalizedSaSingle ho _ _ h1 h2
    · exact spinCase 2 (by decide) _ m2 ho e he
    · obtain ⟨x, hx, rfl⟩ := List.mem_map.1 he
      obtain ⟨a, i, b, j, h1, h2, h3, h4, h5, rfl⟩ := ((C35_generalized_doubles (2 * L.numOrbs)).2.2 x).1 hx
      exact FuccExc.generalizedDouble ho i j a b ⟨h1, h2, h3⟩ h4 h5
    · obtain ⟨x, hx, rfl⟩ := List.mem_map.1 he
      obtain ⟨a, ha, i, hi, rfl⟩ := mem_pairT2 hx
      exact FuccExc.pairDouble ho i a hi ha
    · obtain ⟨x, hx, rfl⟩ := List.mem_map.1 he
      obtain ⟨a, i, h1, h2, rfl⟩ := ((C35_generalized_singles L.numOrbs).2.2.2 x).1 hx
      exact FuccExc.generalizedPairDouble ho i a h1 h2
    · exact spinCase 3 (by decide) _ m3 ho e he
    · exact spinCase 4 (by decide) _ m4 ho e he
    · exact spinCase 5 (by decide) _ m5 ho e he
    · exact spinCase 6 (by decide) _ m6 ho e he
    · obtain ⟨x, hx, rfl⟩ := List.mem_map.1 he
      obtain ⟨h1, h2, h3⟩ := mem_T2sa hx
      have hn : saDoubleName x.case = "sa_double_" ++ toString x.case := by
        rcases h3 with ⟨-, -, h⟩ | ⟨-, -, h⟩ | ⟨-, -, h⟩ | ⟨-, -, h | h⟩ <;> rw [h] <;> rfl
      show FuccExc L o (saDoubleName x.case) _
      rw [hn]
      exact FuccExc.saDouble ho _ _ _ _ _ h1 h2 h3
  · intro h
    unfold fuccLayer
    simp only [List.mem_append, mem_blockIf]
    cases h with
    | spin k hk ho I A hI hA lI lA hs =>
      have key : ∀ l : List (List ℕ), (∀ x, x ∈ l ↔ SpinExcitation L.occSpin L.unoccSpin k x) →
          ∃ e ∈ spinEntries (spinName k) l, e.ty = spinName k ∧ e.idx = I ++ A := fun l hl =>
        (mem_spin hk hl).2 ⟨I, A, hI, hA, lI, lA, hs, rfl, rfl⟩
      obtain ⟨k1, k6⟩ := hk
      interval_cases k
      · obtain ⟨e, he, h1, h2⟩ := key _ m1
        exact ⟨e, by simp [show o.flag "S" ≠ 0 from ho, show e ∈ spinEntries "single" _ from he], h1, h2⟩
      · obtain ⟨e, he, h1, h2⟩ := key _ m2
        exact ⟨e, by simp [show o.flag "D" ≠ 0 from ho, show e ∈ spinEntries "double" _ from he], h1, h2⟩
      · obtain ⟨e, he, h1, h2⟩ := key _ m3
        exact ⟨e, by simp [show o.flag "T" ≠ 0 from ho, show e ∈ spinEntries "triple" _ from he], h1, h2⟩
      · obtain ⟨e, he, h1, h2⟩ := key _ m4
        exact ⟨e, by simp [show o.flag "Q" ≠ 0 from ho, show e ∈ spinEntries "quadruple" _ from he], h1, h2⟩
      · obtain ⟨e, he, h1, h2⟩ := key _ m5
        exact ⟨e, by simp [show o.flag "5" ≠ 0 from ho, show e ∈ spinEntries "quintuple" _ from he], h1, h2⟩
      · obtain ⟨e, he, h1, h2⟩ := key _ m6
        exact ⟨e, by simp [show o.flag "6" ≠ 0 from ho, show e ∈ spinEntries "sextuple" _ from he], h1, h2⟩
    | generalizedSingle ho i a h ha hs =>
      have he : (⟨"single", [i, a], some 2⟩ : Entry) ∈ spinEntries "single" (iterateT1Gen (2 * L.numOrbs)) :=
        List.mem_map.2 ⟨[a, i], ((C35_generalized_singles _).2.1.2 _).2 ⟨a, i, h, ha, hs, rfl⟩, rfl⟩
      exact ⟨⟨"single", [i, a], some 2⟩, by simp [ho, he], rfl, rfl⟩
    | saSingle ho i a hi ha =>
      have he : (⟨"sa_single", [i, a], some 4⟩ : Entry) ∈ saEntries (iterateT1sa L.occ L.unocc) :=
        List.mem_map.2 ⟨(a, i, (Real.sqrt 2)⁻¹), by
          simp only [iterateT1sa, List.mem_flatMap, List.mem_singleton, Prod.mk.injEq]
          exact ⟨i, hi, a, ha, by simp⟩, rfl⟩
      exact ⟨⟨"sa_single", [i, a], some 4⟩, by simp [ho, he], rfl, rfl⟩
    | generalizedSaSingle ho i a h ha =>
      have he : (⟨"sa_single", [i, a], some 4⟩ : Entry) ∈ saEntries (iterateT1saGen L.numOrbs) :=
        List.mem_map.2 ⟨(a, i, (Real.sqrt 2)⁻¹), ((C35_generalized_singles _).1.2 _).2 ⟨h, ha, rfl⟩, rfl⟩
      exact ⟨⟨"sa_single", [i, a], some 4⟩, by simp [ho, he], rfl, rfl⟩
    | generalizedDouble ho i j a b h hb hs =>
      have he : (⟨"double", [i, j, a, b], some 2⟩ : Entry) ∈ spinEntries "double" (iterateT2Gen (2 * L.numOrbs)) :=
        List.mem_map.2 ⟨[a, i, b, j], ((C35_generalized_doubles _).2.2 _).2 ⟨a, i, b, j, h.1, h.2.1, h.2.2, hb, hs, rfl⟩,
          rfl⟩
      exact ⟨⟨"double", [i, j, a, b], some 2⟩, by simp [ho, he], rfl, rfl⟩
    | pairDouble ho i a hi ha =>
      have he : (⟨"double", [2 * i, 2 * i + 1, 2 * a, 2 * a + 1], some 2⟩ : Entry) ∈
          spinEntries "double" (iteratePairT2 L.occ L.unocc) :=
        List.mem_map.2 ⟨[2 * a, 2 * i, 2 * a + 1, 2 * i + 1], by
          simp only [iteratePairT2, List.mem_flatMap, List.mem_singleton]
          exact ⟨i, hi, a, ha, rfl⟩, rfl⟩
      exact ⟨⟨"double", [2 * i, 2 * i + 1, 2 * a, 2 * a + 1], some 2⟩, by simp [ho, he], rfl, rfl⟩
    | generalizedPairDouble ho i a h ha =>
      have he : (⟨"double", [2 * i, 2 * i + 1, 2 * a, 2 * a + 1], some 2⟩ : Entry) ∈
          spinEntries "double" (iteratePairT2Gen L.numOrbs) :=
        List.mem_map.2 ⟨[2 * a, 2 * i, 2 * a + 1, 2 * i + 1], ((C35_generalized_singles _).2.2.2 _).2 ⟨a, i, h, ha, rfl⟩,
          rfl⟩
      exact ⟨⟨"double", [2 * i, 2 * i + 1, 2 * a, 2 * a + 1], some 2⟩, by simp [ho, he], rfl, rfl⟩
    | saDouble ho i j a b c h1 h2 h3 =>
      have hn : saDoubleName c = "sa_double_" ++ toString c := by
        rcases h3 with ⟨-, -, h⟩ | ⟨-, -, h⟩ | ⟨-, -, h⟩ | ⟨-, -, h | h⟩ <;> rw [h] <;> rfl
      obtain ⟨x, hx, rfl, rfl, rfl, rfl, rfl⟩ : ∃ x ∈ iterateT2sa L.occ L.unocc, x.i = i ∧ x.j = j ∧ x.a = a ∧ x.b = b ∧
          x.case = c := by
        unfold PairFrom at h1 h2
        rw [← inclPair] at h1 h2
        obtain ⟨pi, g1, pj, g2, g3⟩ := h1
        obtain ⟨pa, g4, pb, g5, g6⟩ := h2
        refine ⟨⟨a, i, b, j, if c = 5 then 1 / (2 * Real.sqrt 3) else
          1 / 2 * (Real.sqrt ((if a = b then 2 else 1) * (if i = j then 2 else 1)))⁻¹, c⟩, mem_loopFromIncl.2 ⟨pi, _, Nat.zero_le _, g1, mem_loopFromIncl.2 ⟨pj, _, g2, g3,
          mem_loopFromIncl.2 ⟨pa, _, Nat.zero_le _, g4, mem_loopFromIncl.2 ⟨pb, _, g5, g6,
            mem_t2saBody.2 ⟨rfl, rfl, rfl, rfl, h3, rfl⟩⟩⟩⟩⟩, rfl, rfl, rfl, rfl, rfl⟩
      have he : (⟨saDoubleName x.case, [x.i, x.j, x.a, x.b], none⟩ : Entry) ∈ sadEntries (iterateT2sa L.occ L.unocc) :=
        List.mem_map.2 ⟨x, hx, rfl⟩
      exact ⟨⟨saDoubleName x.case, [x.i, x.j, x.a, x.b], none⟩, by simp [ho, he], hn, rfl⟩

theorem checkOptions_ok {valid : List String} {o : Options} {n : ℤ} :
    checkOptions valid o = .ok n ↔ (∀ kv ∈ o, kv.1 ∈ valid) ∧ o.lookup "n_layers" = some n := by
  unfold checkOptions
  by_cases h : ∀ kv ∈ o, kv.1 ∈ valid
  · rw [if_neg (by simpa using fun a b hab => h (a, b) hab)]
    cases ho : o.lookup "n_layers" with
    | none => simp
    | some m => simp only [Except.ok.injEq, Option.some.injEq]; exact ⟨fun e => ⟨h, e⟩, fun e => e.2⟩
  · rw [if_pos (by push Not at h; obtain ⟨kv, h1, h2⟩ := h; simpa using ⟨kv.1, ⟨kv.2, h1⟩, h2⟩)]
    simp only [reduceCtorEq, false_iff, not_and]
    intro h'; exact absurd h' h

theorem checkOptions_err {valid : List String} {o : Options} {e : PyErr} (h : checkOptions valid o = .error e) :
    e = .valueError := by
  unfold checkOptions at h
  split_ifs at h
  · exact (Except.error.inj h).symm
  · split at h
    · exact (Except.error.inj h).symm
    · exact absurd h (by simp)

/-- C36: a successful `create_fUCC` on a fresh structure adds exactly the excitations its options ask for
(if the number of layers is positive). -/
theorem C36_fucc_content (L : OrbLists) (o : Options) (N : ℤ) (hN : o.lookup "n_layers" = some N)
    (hok : (createFucc L o {}).1 = .ok ()) (ty : String) (idx : List ℕ) :
    (∃ k : ℕ, (createFucc L o {}).2.types[k]? = some ty ∧ (createFucc L o {}).2.indices[k]? = some idx) ↔
      0 < N ∧ FuccExc L o ty idx := by
  have hb : Built (createFucc L o {}).2 ((List.range N.toNat).flatMap fun _ => fuccLayer L o) := by
    unfold createFucc at hok ⊢
    revert hok
    cases hc : checkOptions ["n_layers", "S", "D", "SAGS", "pD", "GpD", "SAS", "T", "Q", "5", "6", "SAD", "GS", "GD"] o with
    | error e => intro h; exact absurd h (by simp)
    | ok M =>
      obtain rfl : N = M := Option.some.inj (hN.symm.trans (checkOptions_ok.1 hc).2)
      dsimp only
      split_ifs
      · intro h; exact absurd h (by simp)
      · intro _
        have := built_nil.addAll ((List.range N.toNat).flatMap fun _ => fuccLayer L o)
        rwa [List.nil_append] at this
  rw [hb.types, hb.indices, ← mem_fuccLayer]
  constructor
  · rintro ⟨k, h1, h2⟩
    rw [List.getElem?_map] at h1 h2
    cases he : ((List.range N.toNat).flatMap fun _ => fuccLayer L o)[k]? with
    | none => rw [he] at h1; simp at h1
    | some e =>
      rw [he] at h1 h2
      obtain ⟨m, hm, hl⟩ := List.mem_flatMap.1 (List.mem_of_getElem? he)
      rw [List.mem_range] at hm
      exact ⟨by omega, e, hl, by simpa using h1, by simpa using h2⟩
  · rintro ⟨h0, e, he, rfl, rfl⟩
    have hm : e ∈ (List.range N.toNat).flatMap fun _ => fuccLayer L o :=
      List.mem_flatMap.2 ⟨0, List.mem_range.2 (by omega), he⟩
    obtain ⟨k, hk⟩ := List.mem_iff_getElem?.1 hm
    exact ⟨k, by rw [List.getElem?_map, hk]; rfl, by rw [List.getElem?_map, hk]; rfl⟩

theorem length_rangeStep2 (m : ℕ) : (rangeStep2 0 m).length = (m + 1) / 2 ∧ (rangeStep2 1 m).length = m / 2 := by
  induction m with
  | zero => exact ⟨rfl, rfl⟩
  | succ m ih =>
    unfold rangeStep2 at ih ⊢
    rw [List.range_succ, List.filter_append, List.filter_append, List.length_append, List.length_append, ih.1, ih.2]
    constructor
    · by_cases h : m % 2 = 0
      · rw [List.filter_singleton]; simp [h]; omega
      · rw [List.filter_singleton]; simp [h]; omega
    · by_cases h : 1 ≤ m ∧ (m - 1) % 2 = 0
      · rw [List.filter_singleton]; simp [h]; omega
      · rw [List.filter_singleton, show decide (1 ≤ m ∧ (m - 1) % 2 = 0) = false from decide_eq_false h]
        simp; omega

theorem length_flatMap_const {α β : Type} (l : List α) (f : α → List β) (c : ℕ) (h : ∀ x ∈ l, (f x).length = c) :
    (l.flatMap f).length = l.length * c := by
  induction l with
  | nil => simp
  | cons x l ih =>
    rw [List.flatMap_cons, List.length_append, h x (by simp), ih fun y hy => h y (by simp [hy]), List.length_cons]
    ring

/-- C36: the number of parameters of a tUPS (QNP) ansatz is 3 (2) per neighbouring pair of orbitals and
layer, without the singles after the last column when these are skipped. -/
theorem C36_tiled_count (n : ℕ) (o : Options) (N : ℕ) (hN : o.lookup "n_layers" = some (N : ℤ))
    (hok : (createTiled n o {}).1 = .ok ()) (ht : o.flag "do_tups" = 0 ∨ o.flag "do_tups" = 1)
    (hq : o.flag "do_qnp" = 0 ∨ o.flag "do_qnp" = 1) :
    (createTiled n o {}).2.nParams +
      (if o.flag "skip_last_singles" ≠ 0 ∧ 0 < N then (if n = 2 then 1 else (n - 1) / 2) else 0) =
      N * ((if o.flag "do_tups" = 1 then 3 else 2) * (n - 1)) := by
  set t := o.flag "do_tups" with hdt
  set q := o.flag "do_qnp" with hdq
  set sk := o.flag "skip_last_singles" with hds
  have hsum : t + q = 1 ∧ (createTiled n o {}).2 = UpsStruct.addAll {} ((List.range N).flatMap (tiledLayer n t q sk N)) := by
    unfold createTiled at hok ⊢
    revert hok
    cases hc : checkOptions ["n_layers", "do_qnp", "skip_last_singles", "do_tups", "do_pp"] o with
    | error e => intro h; exact absurd h (by simp)
    | ok M =>
      obtain rfl : (N : ℤ) = M := Option.some.inj (hN.symm.trans (checkOptions_ok.1 hc).2)
      dsimp only
      rw [← hdt, ← hdq, ← hds]
      split_ifs
      · intro h; exact absurd h (by simp)
      · intro h; exact absurd h (by simp)
      · intro _
        exact ⟨by omega, by rw [Int.toNat_natCast]⟩
  obtain ⟨hsum, hcr⟩ := hsum
  have hb := built_nil.addAll ((List.range N).flatMap (tiledLayer n t q sk N))
  rw [List.nil_append] at hb
  rw [hcr, hb.nParams]
  set c := if t = 1 then 3 else 2 with hc
  have hblock : ∀ skip p, (tiledBlock t q skip p).length = if skip = true then c - 1 else c := by
    intro skip p
    rw [hc]
    unfold tiledBlock
    rcases ht with h | h
    · have hq1 : q = 1 := by omega
      rw [h, hq1]
      cases skip <;> rfl
    · have hq0 : q = 0 := by omega
      rw [h, hq0]
      cases skip <;> rfl
  have hlayer : ∀ k : ℕ, (tiledLayer n t q sk N k).length =
      (n - 1 + 1) / 2 * (if (decide ((k : ℤ) + 1 = N) && decide (sk ≠ 0) && decide (n = 2)) = true then c - 1 else c) +
      (n - 1) / 2 * (if (decide ((k : ℤ) + 1 = N) && decide (sk ≠ 0)) = true then c - 1 else c) := by
    intro k
    unfold tiledLayer
    dsimp only
    rw [List.length_append, length_flatMap_const _ _ _ fun p _ => hblock _ p,
      length_flatMap_const _ _ _ fun p _ => hblock _ p, (length_rangeStep2 _).1, (length_rangeStep2 _).2]
  have hc1 : 1 ≤ c := by rw [hc]; split_ifs <;> omega
  have hpairs : (n - 1 + 1) / 2 + (n - 1) / 2 = n - 1 := by omega
  have hfull : ∀ k : ℕ, ¬ ((k : ℤ) + 1 = N ∧ sk ≠ 0) → (tiledLayer n t q sk N k).length = c * (n - 1) := by
    intro k hk
    rw [hlayer k]
    have h1 : (decide ((k : ℤ) + 1 = N) && decide (sk ≠ 0)) = false := by
      rw [Bool.and_eq_false_iff, decide_eq_false_iff_not, decide_eq_false_iff_not]
      by_cases h : (k : ℤ) + 1 = N
      · exact Or.inr fun h' => hk ⟨h, h'⟩
      · exact Or.inl h
    rw [h1]
    simp only [Bool.false_and, Bool.false_eq_true, if_false]
    rw [show c * (n - 1) = c * ((n - 1 + 1) / 2 + (n - 1) / 2) by rw [hpairs]]; ring
  rcases Nat.eq_zero_or_pos N with rfl | hpos
  · simp
  by_cases hsk : sk ≠ 0
  · rw [if_pos ⟨hsk, hpos⟩]
    obtain ⟨M, rfl⟩ : ∃ M, N = M + 1 := ⟨N - 1, by omega⟩
    rw [List.range_succ, List.flatMap_append, List.length_append,
      length_flatMap_const (List.range M) _ (c * (n - 1)) fun k hk => hfull k (by
        rw [List.mem_range] at hk; push_cast; omega)]
    simp only [List.flatMap_cons, List.flatMap_nil, List.append_nil, List.length_range]
    have hlast : (tiledLayer n t q sk ((M + 1 : ℕ) : ℤ) M).length + (if n = 2 then 1 else (n - 1) / 2) = c * (n - 1) := by
      rw [hlayer M]
      have h1 : (decide ((M : ℤ) + 1 = ((M + 1 : ℕ) : ℤ)) && decide (sk ≠ 0)) = true := by
        rw [Bool.and_eq_true, decide_eq_true_eq, decide_eq_true_eq]; exact ⟨by push_cast; ring, hsk⟩
      rw [h1]
      simp only [Bool.true_and, decide_eq_true_eq, if_true]
      obtain ⟨d, hd⟩ : ∃ d, c = d + 1 := ⟨c - 1, by omega⟩
      rw [hd, Nat.add_sub_cancel]
      by_cases hn : n = 2
      · subst hn; simp
      · rw [if_neg hn, if_neg hn, show (d + 1) * (n - 1) = (d + 1) * ((n - 1 + 1) / 2 + (n - 1) / 2) by rw [hpairs]]; ring
    rw [add_assoc, hlast]; ring
  · rw [if_neg (fun h => hsk h.1),
      length_flatMap_const (List.range N) _ (c * (n - 1)) fun k _ => hfull k (fun h => hsk h.2)]
    simp

/-- Disagreement: with pair doubles `create_SDSfUCC` labels a spin-adapted single as "double" (with two
indices); running the ansatz on such an entry raises `ValueError`. -/
theorem C36_sds_pair_doubles_disagree :
    (createSds ⟨[0], [1], [0, 1], [2, 3], 2⟩ [("n_layers", 1), ("pD", 1)] {}).1 = .ok () ∧
    (createSds ⟨[0], [1], [0, 1], [2, 3], 2⟩ [("n_layers", 1), ("pD", 1)] {}).2.ansatz =
      ⟨["double", "double", "sa_single"], [[0, 1], [0, 1, 2, 3], [0, 1]]⟩ ∧
    ∀ {V : Type} [AddCommGroup V] [Module ℝ V] (prop : List (Dict ℝ) → V → Res V) (tiny : ℝ → Bool) (offset : ℕ)
      (θ : ℝ) (v : V), applyExc prop tiny offset "double" [0, 1] θ v = .error .valueError :=
  ⟨rfl, rfl, fun prop tiny offset θ v => C26_errors prop tiny offset "double" [0, 1] θ v (by decide)⟩

/-! ### UccStructure -/

/-- The structure holds these entries. -/
def UccBuilt (s : UccStruct) (es : List Entry) : Prop :=
  s.types = es.map Entry.ty ∧ s.indices = es.map Entry.idx ∧ s.nParams = es.length

theorem UccBuilt.fold {α : Type} {f : UccStruct → α → UccStruct} {g : α → Entry} (l : List α)
    (hf : ∀ x ∈ l, ∀ s, f s x = s.add (g x).ty (g x).idx) : ∀ {s : UccStruct} {es : List Entry}, UccBuilt s es →
    UccBuilt (l.foldl f s) (es ++ l.map g) := by
  induction l with
  | nil => intro s es h; simpa using h
  | cons x l ih =>
    intro s es h
    have := ih (fun y hy => hf y (by simp [hy])) (s := f s x) (es := es ++ [g x]) (by
      rw [hf x (by simp) s]
      exact ⟨by simp [UccStruct.add, h.1], by simp [UccStruct.add, h.2.1], by simp [UccStruct.add, h.2.2]⟩)
    simpa using this

/-- C36: the same for `UccStructure`: after any calls of its methods with the lists of the wave function
the two lists have `n_params` entries, and every entry is an excitation among the active orbitals. -/
theorem C36_ucc {L : OrbLists} (hL : L.Ok) (calls : List UccCall) :
    let s := calls.foldl (UccCall.run L) {}
    s.types.length = s.nParams ∧ s.indices.length = s.nParams ∧
      ∀ off, ∃ Ts, Layout off L.numOrbs s.ansatz.types s.ansatz.indices Ts := by
  intro s
  have hocc : ∀ p ∈ L.occ, p < L.numOrbs := fun p hp => hL.spat p (List.mem_append_left _ hp)
  have hun : ∀ p ∈ L.unocc, p < L.numOrbs := fun p hp => hL.spat p (List.mem_append_right _ hp)
  obtain ⟨t1, t2, t3, t4, t5, t6⟩ := t_spin L.occSpin L.unoccSpin
  have key : ∀ (calls : List UccCall) (s : UccStruct) (es : List Entry), UccBuilt s es → (∀ e ∈ es, GoodEntry L.numOrbs e) →
      ∃ es', UccBuilt (calls.foldl (UccCall.run L) s) es' ∧ ∀ e ∈ es', GoodEntry L.numOrbs e := by
    intro calls
    induction calls with
    | nil => intro s es h hg; exact ⟨es, h, hg⟩
    | cons c calls ih =>
      intro s es h hg
      have step : ∃ l, UccBuilt (c.run L s) (es ++ l) ∧ ∀ e ∈ l, GoodEntry L.numOrbs e := by
        have spin : ∀ (k : ℕ), 1 ≤ k ∧ k ≤ 6 → ∀ l : List (List ℕ), (∀ x ∈ l, SpinExcitation L.occSpin L.unoccSpin k x) →
            ∃ l', UccBuilt (l.foldl (fun s x => s.add (spinName k) (occFirst x)) s) (es ++ l') ∧
              ∀ e ∈ l', GoodEntry L.numOrbs e := fun k hk l hl =>
          ⟨_, UccBuilt.fold (g := fun x => ⟨spinName k, occFirst x, some 2⟩) l (fun _ _ _ => rfl) h,
            good_spinEntries hk hl hL.spin⟩
        cases c with
        | saSingles =>
          refine ⟨_, UccBuilt.fold (g := fun x : ℕ × ℕ × ℝ => ⟨"sa_single", [x.2.1, x.1], some 4⟩) (iterateT1sa L.occ L.unocc)
            (fun _ _ _ => rfl) h, fun e he => ?_⟩
          obtain ⟨x, hx, rfl⟩ := List.mem_map.1 he
          exact good_saSingle (hocc _ (mem_T1sa hx).2) (hun _ (mem_T1sa hx).1)
        | saDoubles =>
          refine ⟨_, UccBuilt.fold (f := UccStruct.addSaDouble)
            (g := fun x : SaDouble => ⟨saDoubleName x.case, [x.i, x.j, x.a, x.b], none⟩)
            (iterateT2sa L.occ L.unocc) (fun x hx s => ?_) h, fun e he => ?_⟩
          · obtain ⟨-, -, h3⟩ := mem_T2sa hx
            unfold UccStruct.addSaDouble UccStruct.add
            rcases h3 with ⟨-, -, h⟩ | ⟨-, -, h⟩ | ⟨-, -, h⟩ | ⟨-, -, h | h⟩ <;> rw [h] <;> rfl
          · obtain ⟨x, hx, rfl⟩ := List.mem_map.1 he
            obtain ⟨h1, h2, h3⟩ := mem_T2sa hx
            exact good_sad hL.spat hL.disj h1 h2 h3
        | triples => exact spin 3 (by decide) _ t3
        | quadruples => exact spin 4 (by decide) _ t4
        | quintuples => exact spin 5 (by decide) _ t5
        | sextuples => exact spin 6 (by decide) _ t6
      obtain ⟨l, b, g⟩ := step
      rw [List.foldl_cons]
      refine ih _ _ b fun e he => ?_
      rcases List.mem_append.1 he with he | he
      · exact hg e he
      · exact g e he
  obtain ⟨es, hb, hg⟩ := key calls {} [] ⟨rfl, rfl, rfl⟩ (by simp)
  refine ⟨by rw [hb.1, hb.2.2, List.length_map], by rw [hb.2.1, hb.2.2, List.length_map], fun off => ?_⟩
  have := layout_of_good es hg off
  rw [← hb.1, ← hb.2.1] at this
  exact this

example : (⟨[0, 1], [2, 3], [0, 1, 2, 3], [4, 5, 6, 7], 4⟩ : OrbLists).Ok :=
  ⟨by decide, by decide, by decide⟩
example : (createTiled 4 [("n_layers", 2), ("do_tups", 1)] {}).2.nParams = 18 := by decide +kernel
example : (createTiled 3 [("n_layers", 1), ("do_qnp", 1)] {}).2.ansatz =
    ⟨["double", "sa_single", "double", "sa_single"], [[0, 1, 2, 3], [0, 1], [2, 3, 4, 5], [1, 2]]⟩ := by rfl

/-- Calls as a wave function makes them. -/
example : (createFucc ⟨[0, 1], [2, 3], [0, 1, 2, 3], [4, 5, 6, 7], 4⟩ [("n_layers", 1), ("S", 1), ("pD", 1)] {}).1 = .ok () ∧
    (UpsCall.fucc ⟨[0, 1], [2, 3], [0, 1, 2, 3], [4, 5, 6, 7], 4⟩ [("n_layers", 1), ("S", 1), ("pD", 1)]).Fits 4 :=
  ⟨rfl, ⟨by decide, by decide, by decide⟩, rfl⟩

/-! ## C37 -/

/-- C37: `create_tiled` succeeds exactly if all options are known, `n_layers` is given and exactly one
kind of tiling is chosen; otherwise it raises `ValueError` and leaves the structure as it was. -/
theorem C37_tiled (n : ℕ) (o : Options) (s : UpsStruct) :
    ((createTiled n o s).1 = .ok () ↔
      (∀ kv ∈ o, kv.1 ∈ ["n_layers", "do_qnp", "skip_last_singles", "do_tups", "do_pp"]) ∧
      (∃ N, o.lookup "n_layers" = some N) ∧
      (o.flag "do_tups" + o.flag "do_qnp" ≠ 0 ∧ o.flag "do_tups" + o.flag "do_qnp" ≤ 1)) ∧
    ((createTiled n o s).1 ≠ .ok () → createTiled n o s = (.error .valueError, s)) := by
  unfold createTiled
  cases h : checkOptions ["n_layers", "do_qnp", "skip_last_singles", "do_tups", "do_pp"] o with
  | error e =>
    rw [checkOptions_err h]
    refine ⟨⟨fun h' => absurd h' (by simp), fun ⟨h1, ⟨N, h2⟩, _⟩ => ?_⟩, fun _ => rfl⟩
    rw [checkOptions_ok.2 ⟨h1, h2⟩] at h
    exact absurd h (by simp)
  | ok N =>
    obtain ⟨h1, h2⟩ := checkOptions_ok.1 h
    dsimp only
    split_ifs with h3 h4
    · exact ⟨⟨fun h' => absurd h' (by simp), fun h' => absurd h3 h'.2.2.1⟩, fun _ => rfl⟩
    · exact ⟨⟨fun h' => absurd h' (by simp), fun h' => absurd h'.2.2.2 (by omega)⟩, fun _ => rfl⟩
    · exact ⟨⟨fun _ => ⟨h1, ⟨N, h2⟩, h3, by omega⟩, fun _ => rfl⟩, fun h' => absurd rfl h'⟩

/-- C37: the same for `create_fUCC`, which needs at least one kind of excitation. -/
theorem C37_fucc (L : OrbLists) (o : Options) (s : UpsStruct) :
    ((createFucc L o s).1 = .ok () ↔
      (∀ kv ∈ o, kv.1 ∈ ["n_layers", "S", "D", "SAGS", "pD", "GpD", "SAS", "T", "Q", "5", "6", "SAD", "GS", "GD"]) ∧
      (∃ N, o.lookup "n_layers" = some N) ∧
      ∃ k ∈ ["S", "D", "SAGS", "pD", "GpD", "SAS", "T", "Q", "5", "6", "SAD", "GS", "GD"], o.lookup k = some 1) ∧
    ((createFucc L o s).1 ≠ .ok () → createFucc L o s = (.error .valueError, s)) := by
  have hk : (∃ k ∈ ["S", "D", "SAGS", "pD", "GpD", "SAS", "T", "Q", "5", "6", "SAD", "GS", "GD"], o.lookup k = some 1) ↔
      ¬ ∀ k ∈ fuccKinds, o.flag k ≠ 1 := by
    have hp : List.Perm ["S", "D", "SAGS", "pD", "GpD", "SAS", "T", "Q", "5", "6", "SAD", "GS", "GD"] fuccKinds := by
      decide +kernel
    have hf : ∀ k, o.flag k = 1 ↔ o.lookup k = some 1 := by
      intro k
      unfold Options.flag
      cases o.lookup k <;> simp
    push Not
    constructor
    · rintro ⟨k, h1, h2⟩; exact ⟨k, hp.mem_iff.1 h1, (hf k).2 h2⟩
    · rintro ⟨k, h1, h2⟩; exact ⟨k, hp.mem_iff.2 h1, (hf k).1 h2⟩
  rw [hk]
  unfold createFucc
  cases h : checkOptions ["n_layers", "S", "D", "SAGS", "pD", "GpD", "SAS", "T", "Q", "5", "6", "SAD", "GS", "GD"] o with
  | error e =>
    rw [checkOptions_err h]
    refine ⟨⟨fun h' => absurd h' (by simp), fun ⟨h1, ⟨N, h2⟩, _⟩ => ?_⟩, fun _ => rfl⟩
    rw [checkOptions_ok.2 ⟨h1, h2⟩] at h
    exact absurd h (by simp)
  | ok N =>
    obtain ⟨h1, h2⟩ := checkOptions_ok.1 h
    dsimp only
    split_ifs with h3
    · exact ⟨⟨fun h' => absurd h' (by simp), fun h' => absurd h3 h'.2.2⟩, fun _ => rfl⟩
    · exact ⟨⟨fun _ => ⟨h1, ⟨N, h2⟩, h3⟩, fun _ => rfl⟩, fun h' => absurd rfl h'⟩

/-- C37: the same for `create_SDSfUCC`. -/
theorem C37_sds (L : OrbLists) (o : Options) (s : UpsStruct) :
    ((createSds L o s).1 = .ok () ↔
      (∀ kv ∈ o, kv.1 ∈ ["n_layers", "D", "pD", "GpD"]) ∧ (∃ N, o.lookup "n_layers" = some N) ∧
      ∃ k ∈ ["D", "pD", "GpD"], o.lookup k = some 1) ∧
    ((createSds L o s).1 ≠ .ok () → createSds L o s = (.error .valueError, s)) := by
  have hk : (∃ k ∈ ["D", "pD", "GpD"], o.lookup k = some 1) ↔ ¬ ∀ k ∈ ["D", "pD", "GpD"], o.flag k ≠ 1 := by
    have hf : ∀ k, o.flag k = 1 ↔ o.lookup k = some 1 := by
      intro k
      unfold Options.flag
      cases o.lookup k <;> simp
    push Not
    exact ⟨fun ⟨k, h1, h2⟩ => ⟨k, h1, (hf k).2 h2⟩, fun ⟨k, h1, h2⟩ => ⟨k, h1, (hf k).1 h2⟩⟩
  rw [hk]
  unfold createSds
  cases h : checkOptions ["n_layers", "D", "pD", "GpD"] o with
  | error e =>
    rw [checkOptions_err h]
    refine ⟨⟨fun h' => absurd h' (by simp), fun ⟨h1, ⟨N, h2⟩, _⟩ => ?_⟩, fun _ => rfl⟩
    rw [checkOptions_ok.2 ⟨h1, h2⟩] at h
    exact absurd h (by simp)
  | ok N =>
    obtain ⟨h1, h2⟩ := checkOptions_ok.1 h
    dsimp only
    split_ifs with h3
    · exact ⟨⟨fun h' => absurd h' (by simp), fun h' => absurd h3 h'.2.2⟩, fun _ => rfl⟩
    · exact ⟨⟨fun _ => ⟨h1, ⟨N, h2⟩, h3⟩, fun _ => rfl⟩, fun h' => absurd rfl h'⟩

/-- A mistyped option after valid ones. -/
example (s : UpsStruct) : createTiled 4 [("n_layers", 2), ("do_tups", 1), ("skip_last_single", 1)] s = (.error .valueError, s) :=
  rfl

end SQ
