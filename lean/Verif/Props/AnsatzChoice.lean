import Verif.Lemmas.AnsatzChoice
import Verif.Props.PerfectPairing

/-!
# C115: ansätze by name

`NamedExc`: Spec/AnsatzChoice.lean; `FuccExc`: Spec/Structures.lean; `CircuitLayout`: Spec/Circuits.lean. A result holds
the reference determinant and the layout, and beside it the option dictionary as the call leaves it.
-/

namespace SQ

/-- C115: for the names that both know (but fUCCpD) the classical wave function and the quantum interface choose the same
reference determinant and the same layout, raise in the same cases and leave the same options, for all options; `do_pp`
is for tUPS only. -/
theorem C115_agree {name : String} (hn : name ∈ ["tups", "qnp", "fucc", "fuccsd", "ksafupccgsd", "sdsfuccsd", "ksasdsfupccgsd"])
    (L : OrbLists) (m : ℕ) (o : Options) (hp : name ≠ "tups" → o.flag "do_pp" = 0) :
    circuitInit .jordanWigner name L (m, m) o = upsInit name L (2 * m) o := by
  have e : circuitLayout name L o = upsLayout name L o := by
    simp only [List.mem_cons, List.not_mem_nil, or_false] at hn
    rcases hn with rfl | rfl | rfl | rfl | rfl | rfl | rfl <;> rfl
  have ha : name ∈ allowedAnsatz := by
    simp only [List.mem_cons, List.not_mem_nil, or_false] at hn
    rcases hn with rfl | rfl | rfl | rfl | rfl | rfl | rfl <;> decide
  unfold circuitInit upsInit
  rw [if_neg (by simpa using ha), e, ← two_mul]
  by_cases h : o.flag "do_pp" = 0
  · rw [if_neg (fun x => x h), if_neg (fun x => x.2 h)]
  · obtain rfl : name = "tups" := by_contra fun hx => h (hp hx)
    rw [if_pos h, if_neg (fun x => x rfl), if_pos ⟨rfl, h⟩]

/-- The final options. -/
theorem circuitLayout_ok {name : String} {L : OrbLists} {o o' : Options} {s : UpsStruct}
    (h : circuitLayout name L o = (.ok s, o'))
    (hf : name ∈ ["fucc", "fuccpd", "fuccd", "fuccsd", "ksafupccgsd"] →
      ∀ k ∈ ["GD", "T", "Q", "5", "6", "SAD"], o.flag k = 0)
    (hp : name ∈ ["sdsfuccsd", "ksasdsfupccgsd"] → o.flag "pD" = 0) (hL : L.Ok) (hO : L.Ordered) :
    ∃ calls : List UpsCall, s = calls.foldl UpsCall.run {} ∧ ∀ c ∈ calls, c.HasCircuit L.numOrbs := by
  have done : ∀ {r : Res Unit × UpsStruct}, builtLayout r = .ok s → s = r.2 := by
    rintro ⟨_ | _, r⟩ h
    · cases h
    · cases h; rfl
  unfold circuitLayout at h
  by_cases h1 : name ∈ ["fucc", "fuccpd", "fuccd", "fuccsd", "ksafupccgsd"]
  · rw [if_pos h1] at h
    refine ⟨[.fucc L _], done (congrArg Prod.fst h), ?_⟩
    simp only [List.mem_singleton, forall_eq]
    refine ⟨hL, hO, rfl, fun k hk => ?_⟩
    have hk0 := hf h1 k hk
    have hne : k ≠ "n_layers" ∧ k ≠ "pD" ∧ k ≠ "D" ∧ k ≠ "S" ∧ k ≠ "SAGS" ∧ k ≠ "GpD" := by
      simp only [List.mem_cons, List.not_mem_nil, or_false] at hk
      rcases hk with rfl | rfl | rfl | rfl | rfl | rfl <;> decide
    obtain ⟨n1, n2, n3, n4, n5, n6⟩ := hne
    rw [flag_defaultLayers _ n1]
    split_ifs <;> simp only [flag_put, hk0, n2, n3, n4, n5, n6, if_false]
  rw [if_neg h1] at h
  by_cases h2 : name = "hf"
  · rw [if_pos h2] at h
    by_cases h0 : o.length ≠ 0
    · rw [if_pos h0] at h; cases h
    rw [if_neg h0] at h
    exact ⟨[], (Except.ok.inj (congrArg Prod.fst h)).symm, by simp⟩
  rw [if_neg h2] at h
  by_cases h3 : name ∈ ["tups", "qnp"]
  · rw [if_pos h3] at h
    exact ⟨[.tiled L.numOrbs _], done (congrArg Prod.fst h), by simp [UpsCall.HasCircuit]⟩
  rw [if_neg h3] at h
  by_cases h4 : name ∈ ["sdsfuccsd", "ksasdsfupccgsd"]
  · rw [if_pos h4] at h
    refine ⟨[.sds L _], done (congrArg Prod.fst h), ?_⟩
    simp only [List.mem_singleton, forall_eq]
    refine ⟨hL, hO, rfl, ?_⟩
    rw [flag_defaultLayers _ (by decide)]
    split_ifs <;> simp [flag_put, hp h4]
  rw [if_neg h4] at h
  cases h

/-- C115: when the interface accepts name and options (and no excitations without a circuit are asked for), the layout has
a circuit, its operators are those of the state vector code (`C91_same_state` applies), the checks of the parameters
pass, and the parameters of the circuit are in the order of the layout. -/
theorem C115_circuit {name : String} {L : OrbLists} {o o' : Options} {e : ℕ × ℕ} {det : List Bool} {s : UpsStruct}
    {mapper : Mapper} (h : circuitInit mapper name L e o = (.ok (det, s), o'))
    (hf : name ∈ ["fucc", "fuccpd", "fuccd", "fuccsd", "ksafupccgsd"] →
      ∀ k ∈ ["GD", "T", "Q", "5", "6", "SAD"], o.flag k = 0)
    (hp : name ∈ ["sdsfuccsd", "ksasdsfupccgsd"] → o.flag "pD" = 0) (hL : L.Ok) (hO : L.Ordered)
    (hs : s.nParams ≤ 10 ^ 9) (θs : ℕ → ℝ) :
    ∃ Ts gs R, CircuitLayout L.numOrbs s.types s.indices Ts ∧ Layout 0 L.numOrbs s.types s.indices Ts ∧
      upslayout2circuit L.numOrbs s.types s.indices θs = .ok (gs, R) ∧
      checkParameters R (R.map Prod.fst) = .ok (R, s.names) ∧ s.names.length = s.nParams := by
  have hc : circuitLayout name L o = (.ok s, o') := by
    unfold circuitInit at h
    rcases Classical.em (name ∉ allowedAnsatz) with h1 | h1
    · rw [if_pos h1] at h; cases h
    rw [if_neg h1] at h
    revert h
    generalize (if o.flag "do_pp" ≠ 0 then if mapper ≠ .jordanWigner then .error .valueError
      else ppDet (2 * L.numOrbs) (e.1 + e.2) else .ok (hfDet (2 * L.numOrbs) (e.1 + e.2)) : Res (List Bool)) = r
    cases r with
    | error => intro h; cases h
    | ok d =>
      rcases circuitLayout name L o with ⟨_ | s', o''⟩
      · intro h; cases h
      · intro h; cases h; rfl
  obtain ⟨calls, e1, e2⟩ := circuitLayout_ok hc hf hp hL hO
  obtain ⟨Ts, gs, R, a1, a2, a3, a4, -⟩ := C90_structures calls e2 θs
  obtain ⟨b1, -, b3, -⟩ := C36_ups_consistent calls
  rw [← e1] at a1 a2 a3 a4 b1 b3
  obtain ⟨gs', R', c1, c2, -⟩ := C90_layout a1 θs
  rw [a3] at c1
  cases c1
  refine ⟨Ts, gs, R, a1, a2, a3, ?_, b3⟩
  rw [b1] at c2
  unfold checkParameters
  rw [c2, circuitParameters_range hs, ← c2, a4]
  have hl : R.length = s.names.length := by rw [← a4, List.length_map]
  have hR : (if R.length = 0 then s.names.foldl (fun d p => dictSet d p 2) R else R) = R := by
    split_ifs with h0
    · rw [hl] at h0
      rw [List.length_eq_zero_iff.1 h0]; rfl
    · rfl
  simp only [hR]
  rw [if_neg (by simpa using hl), if_neg]
  rw [Bool.not_eq_true, List.any_eq_false]
  intro p hp
  rw [← a4, List.mem_map] at hp
  obtain ⟨x, hx, rfl⟩ := hp
  rw [Bool.not_eq_true, Option.isNone_eq_false_iff, List.lookup_isSome_iff]
  exact ⟨x, hx, by simp⟩

theorem fucc_only {L : OrbLists} {o : Options} {keys : List String} {N : ℤ} (hk : ∀ k ∈ keys, k ∈ fuccKinds) (hne : keys ≠ [])
    (hall : ∀ kv ∈ o, kv.1 = "n_layers" ∨ kv.1 ∈ keys) (hflag : ∀ k ∈ keys, o.flag k = 1)
    (hlook : o.lookup "n_layers" = some N) : (createFucc L o {}).1 = .ok () ∧
      ∀ k, k ≠ "n_layers" → (o.flag k ≠ 0 ↔ k ∈ keys) := by
  have hz : ∀ k, k ≠ "n_layers" → (o.flag k ≠ 0 ↔ k ∈ keys) := by
    intro k hn
    refine ⟨fun h => ?_, fun h => by rw [hflag k h]; decide⟩
    by_contra hk'
    apply h
    unfold Options.flag
    cases e : o.lookup k with
    | none => rfl
    | some v =>
      obtain ⟨kv, h1, h2⟩ := List.lookup_isSome_iff.1 (by rw [e]; rfl)
      obtain rfl : k = kv.1 := by simpa using h2
      rcases hall kv h1 with h | h
      · exact absurd h hn
      · exact absurd h hk'
  refine ⟨?_, hz⟩
  unfold createFucc
  have hv : ∀ k ∈ fuccKinds, k ∈ ["n_layers", "S", "D", "SAGS", "pD", "GpD", "SAS", "T", "Q", "5", "6", "SAD", "GS", "GD"] := by
    decide
  rw [checkOptions_ok.2 ⟨fun kv hkv => ?_, hlook⟩]
  · dsimp only
    rw [if_neg]
    intro h
    obtain ⟨k, hk1⟩ := List.exists_mem_of_ne_nil _ hne
    exact h k (hk k hk1) (hflag k hk1)
  · rcases hall kv hkv with h | h
    · rw [h]; decide
    · exact hv _ (hk _ h)

section named

variable (L : OrbLists) (o : Options)

theorem named_d (h : ∀ k, k ≠ "n_layers" → (o.flag k ≠ 0 ↔ k ∈ ["D"])) (ty : String) (idx : List ℕ) :
    FuccExc L o ty idx ↔ NamedExc L "fuccd" ty idx := by
  constructor
  · intro hx
    cases hx with
    | spin k hk ho I A hI hA lI lA hs =>
      obtain ⟨k1, k2⟩ := hk
      interval_cases k
      case «2» => exact .dDouble ⟨I, A, hI, hA, lI, lA, hs, rfl⟩
      all_goals exact absurd ((h _ (by decide)).1 ho) (by decide)
    | _ ho => exact absurd ((h _ (by decide)).1 ho) (by decide)
  · intro hx
    generalize hn : "fuccd" = name at hx
    cases hx with
    | dDouble hx =>
      obtain ⟨I, A, hI, hA, lI, lA, hs, rfl⟩ := hx
      exact .spin 2 (by decide) ((h _ (by decide)).2 (by decide)) I A hI hA lI lA hs
    | _ => exact absurd hn (by decide)

theorem named_sd (h : ∀ k, k ≠ "n_layers" → (o.flag k ≠ 0 ↔ k ∈ ["S", "D"])) (ty : String) (idx : List ℕ) :
    FuccExc L o ty idx ↔ NamedExc L "fuccsd" ty idx := by
  constructor
  · intro hx
    cases hx with
    | spin k hk ho I A hI hA lI lA hs =>
      obtain ⟨k1, k2⟩ := hk
      interval_cases k
      case «1» => exact .sdSingle ⟨I, A, hI, hA, lI, lA, hs, rfl⟩
      case «2» => exact .sdDouble ⟨I, A, hI, hA, lI, lA, hs, rfl⟩
      all_goals exact absurd ((h _ (by decide)).1 ho) (by decide)
    | _ ho => exact absurd ((h _ (by decide)).1 ho) (by decide)
  · intro hx
    generalize hn : "fuccsd" = name at hx
    cases hx with
    | sdSingle hx =>
      obtain ⟨I, A, hI, hA, lI, lA, hs, rfl⟩ := hx
      exact .spin 1 (by decide) ((h _ (by decide)).2 (by decide)) I A hI hA lI lA hs
    | sdDouble hx =>
      obtain ⟨I, A, hI, hA, lI, lA, hs, rfl⟩ := hx
      exact .spin 2 (by decide) ((h _ (by decide)).2 (by decide)) I A hI hA lI lA hs
    | _ => exact absurd hn (by decide)

theorem named_pd (h : ∀ k, k ≠ "n_layers" → (o.flag k ≠ 0 ↔ k ∈ ["pD"])) (ty : String) (idx : List ℕ) :
    FuccExc L o ty idx ↔ NamedExc L "fuccpd" ty idx := by
  constructor
  · intro hx
    cases hx with
    | pairDouble ho i a hi ha => exact .pair hi ha
    | spin k hk ho =>
      obtain ⟨k1, k2⟩ := hk
      interval_cases k
      all_goals exact absurd ((h _ (by decide)).1 ho) (by decide)
    | _ ho => exact absurd ((h _ (by decide)).1 ho) (by decide)
  · intro hx
    generalize hn : "fuccpd" = name at hx
    cases hx with
    | pair hi ha => exact .pairDouble ((h _ (by decide)).2 (by decide)) _ _ hi ha
    | _ => exact absurd hn (by decide)

theorem named_k (h : ∀ k, k ≠ "n_layers" → (o.flag k ≠ 0 ↔ k ∈ ["SAGS", "GpD"])) (ty : String) (idx : List ℕ) :
    FuccExc L o ty idx ↔ NamedExc L "ksafupccgsd" ty idx := by
  constructor
  · intro hx
    cases hx with
    | generalizedSaSingle ho i a hi ha => exact .genSingle hi ha
    | generalizedPairDouble ho i a hi ha => exact .genPair hi ha
    | spin k hk ho =>
      obtain ⟨k1, k2⟩ := hk
      interval_cases k
      all_goals exact absurd ((h _ (by decide)).1 ho) (by decide)
    | _ ho => exact absurd ((h _ (by decide)).1 ho) (by decide)
  · intro hx
    generalize hn : "ksafupccgsd" = name at hx
    cases hx with
    | genSingle hi ha => exact .generalizedSaSingle ((h _ (by decide)).2 (by decide)) _ _ hi ha
    | genPair hi ha => exact .generalizedPairDouble ((h _ (by decide)).2 (by decide)) _ _ hi ha
    | _ => exact absurd hn (by decide)

end named

/-- C115: the named ansätze with nothing but a number of layers (default one) are accepted by the interface and consist of
the excitations the name stands for; a layer number of zero or less gives none. -/
theorem C115_content {name : String} (hn : name ∈ ["fuccd", "fuccsd", "fuccpd", "ksafupccgsd"]) (L : OrbLists) (m : ℕ)
    {o : Options} (ho : o = [] ∨ ∃ N, o = [("n_layers", N)]) (mapper : Mapper) :
    ∃ s o', circuitInit mapper name L (m, m) o = (.ok (hfDet (2 * L.numOrbs) (2 * m), s), o') ∧ ∀ ty idx,
      ((∃ k : ℕ, s.types[k]? = some ty ∧ s.indices[k]? = some idx) ↔
        0 < (o.lookup "n_layers").getD 1 ∧ NamedExc L name ty idx) := by
  have hpp : o.flag "do_pp" = 0 := by rcases ho with rfl | ⟨N, rfl⟩ <;> rfl
  have ha : name ∈ allowedAnsatz := by
    simp only [List.mem_cons, List.not_mem_nil, or_false] at hn
    rcases hn with rfl | rfl | rfl | rfl <;> decide
  obtain ⟨o', h1, h2, h3, h4⟩ : ∃ o', circuitLayout name L o = (builtLayout (createFucc L o' {}), o') ∧
      o'.lookup "n_layers" = some ((o.lookup "n_layers").getD 1) ∧ (createFucc L o' {}).1 = .ok () ∧
      ∀ ty idx, FuccExc L o' ty idx ↔ NamedExc L name ty idx := by
    have key : ∀ (keys : List String) (o' : Options), circuitLayout name L o = (builtLayout (createFucc L o' {}), o') →
        (∀ k ∈ keys, k ∈ fuccKinds) → keys ≠ [] → (∀ kv ∈ o', kv.1 = "n_layers" ∨ kv.1 ∈ keys) →
        (∀ k ∈ keys, o'.flag k = 1) → o'.lookup "n_layers" = some ((o.lookup "n_layers").getD 1) →
        (∀ o' : Options, (∀ k, k ≠ "n_layers" → (o'.flag k ≠ 0 ↔ k ∈ keys)) →
          ∀ ty idx, FuccExc L o' ty idx ↔ NamedExc L name ty idx) →
        ∃ o', circuitLayout name L o = (builtLayout (createFucc L o' {}), o') ∧
          o'.lookup "n_layers" = some ((o.lookup "n_layers").getD 1) ∧ (createFucc L o' {}).1 = .ok () ∧
          ∀ ty idx, FuccExc L o' ty idx ↔ NamedExc L name ty idx :=
      fun keys o' h1 h2 h3 h4 h5 h6 h7 =>
        have := fucc_only (L := L) h2 h3 h4 h5 h6
        ⟨o', h1, h6, this.1, h7 o' this.2⟩
    simp only [List.mem_cons, List.not_mem_nil, or_false] at hn
    rcases hn with rfl | rfl | rfl | rfl
    · refine key ["D"] (o.put "D" 1).defaultLayers rfl (by decide) (by decide) ?_ ?_ ?_ (named_d L)
      all_goals rcases ho with rfl | ⟨N, rfl⟩ <;> simp [Options.put, Options.defaultLayers, List.lookup, Options.flag]
    · refine key ["S", "D"] ((o.put "S" 1).put "D" 1).defaultLayers rfl (by decide) (by decide) ?_ ?_ ?_ (named_sd L)
      all_goals rcases ho with rfl | ⟨N, rfl⟩ <;> simp [Options.put, Options.defaultLayers, List.lookup, Options.flag]
    · refine key ["pD"] (o.put "pD" 1).defaultLayers rfl (by decide) (by decide) ?_ ?_ ?_ (named_pd L)
      all_goals rcases ho with rfl | ⟨N, rfl⟩ <;> simp [Options.put, Options.defaultLayers, List.lookup, Options.flag]
    · refine key ["SAGS", "GpD"] ((o.put "SAGS" 1).put "GpD" 1).defaultLayers rfl (by decide) (by decide) ?_ ?_ ?_ (named_k L)
      all_goals rcases ho with rfl | ⟨N, rfl⟩ <;> simp [Options.put, Options.defaultLayers, List.lookup, Options.flag]
  refine ⟨(createFucc L o' {}).2, o', ?_, fun ty idx => ?_⟩
  · unfold circuitInit
    rw [if_neg (by simpa using ha), if_neg (fun x => x hpp), h1, ← two_mul]
    unfold builtLayout
    rw [h3]
  · rw [C36_fucc_content L o' _ h2 h3, h4]

/-! ## Options -/

theorem prep_idem (o : Options) :
    (∀ k, (o.put k 1).put k 1 = o.put k 1) ∧
    (∀ k, k ≠ "n_layers" → ((o.put k 1).defaultLayers.put k 1).defaultLayers = (o.put k 1).defaultLayers) ∧
    (∀ k l, k ≠ "n_layers" → l ≠ "n_layers" → k ≠ l →
      ((((o.put k 1).put l 1).defaultLayers.put k 1).put l 1).defaultLayers = ((o.put k 1).put l 1).defaultLayers) ∧
    o.defaultLayers.defaultLayers = o.defaultLayers := by
  have hd : ∀ p : Options, p.defaultLayers.defaultLayers = p.defaultLayers := fun p =>
    defaultLayers_self (by rw [lookup_defaultLayers, if_pos rfl])
  refine ⟨fun k => put_self (by rw [lookup_put, if_pos rfl]), fun k hk => ?_, fun k l hk hl hkl => ?_, hd o⟩
  · rw [put_self (o := (o.put k 1).defaultLayers) (by rw [lookup_defaultLayers, if_neg hk, lookup_put, if_pos rfl]), hd]
  · rw [put_self (o := ((o.put k 1).put l 1).defaultLayers)
      (by rw [lookup_defaultLayers, if_neg hk, lookup_put, if_neg hkl, lookup_put, if_pos rfl]),
      put_self (o := ((o.put k 1).put l 1).defaultLayers) (by rw [lookup_defaultLayers, if_neg hl, lookup_put, if_pos rfl]), hd]

theorem circuitLayout_twice (name : String) (L : OrbLists) (o : Options) :
    circuitLayout name L (circuitLayout name L o).2 = circuitLayout name L o ∧
      (circuitLayout name L o).2.flag "do_pp" = o.flag "do_pp" := by
  obtain ⟨i1, i2, i3, i4⟩ := prep_idem o
  unfold circuitLayout
  by_cases h1 : name ∈ ["fucc", "fuccpd", "fuccd", "fuccsd", "ksafupccgsd"]
  · simp only [if_pos h1]
    simp only [List.mem_cons, List.not_mem_nil, or_false] at h1
    rcases h1 with rfl | rfl | rfl | rfl | rfl <;>
      simp [i2, i3, i4, flag_defaultLayers, flag_put]
  simp only [if_neg h1]
  by_cases h2 : name = "hf"
  · simp only [if_pos h2]
    split_ifs <;> simp_all
  simp only [if_neg h2]
  by_cases h3 : name ∈ ["tups", "qnp"]
  · simp only [if_pos h3]
    simp only [List.mem_cons, List.not_mem_nil, or_false] at h3
    rcases h3 with rfl | rfl <;> simp [i1, flag_put]
  simp only [if_neg h3]
  by_cases h4 : name ∈ ["sdsfuccsd", "ksasdsfupccgsd"]
  · simp only [if_pos h4]
    simp only [List.mem_cons, List.not_mem_nil, or_false] at h4
    rcases h4 with rfl | rfl <;> simp [i2, flag_defaultLayers, flag_put]
  simp only [if_neg h4]
  simp

/-- C115: constructing the circuit again with the options that the first time left behind changes nothing. -/
theorem C115_twice (mapper : Mapper) (name : String) (L : OrbLists) (e : ℕ × ℕ) (o : Options) :
    circuitInit mapper name L e (circuitInit mapper name L e o).2 = circuitInit mapper name L e o := by
  obtain ⟨h1, h2⟩ := circuitLayout_twice name L o
  unfold circuitInit
  by_cases ha : name ∉ allowedAnsatz
  · simp only [if_pos ha]
  simp only [if_neg ha]
  generalize hr : (if o.flag "do_pp" ≠ 0 then if mapper ≠ .jordanWigner then .error .valueError
      else ppDet (2 * L.numOrbs) (e.1 + e.2) else .ok (hfDet (2 * L.numOrbs) (e.1 + e.2)) : Res (List Bool)) = r
  cases r with
  | error x => simp only [hr]
  | ok d =>
    rcases hc : circuitLayout name L o with ⟨x | s', o''⟩ <;>
      (rw [hc] at h1 h2; dsimp only at h1 h2 ⊢; rw [h2, hr]; dsimp only; rw [h1])

/-- C115: the excitations of `WaveFunctionUCC`: what counts is which of the characters s, d, t, q, 5, 6 occur, and every
structure so built has operators. -/
theorem C115_ucc {L : OrbLists} (hL : L.Ok) {exc exc' : List Char}
    (h : ∀ c ∈ ['s', 'd', 't', 'q', '5', '6'], c ∈ exc ↔ c ∈ exc') :
    uccLayout exc L = uccLayout exc' L ∧
    (uccLayout exc L).types.length = (uccLayout exc L).nParams ∧
    ∀ off, ∃ Ts, Layout off L.numOrbs (uccLayout exc L).ansatz.types (uccLayout exc L).ansatz.indices Ts := by
  constructor
  · unfold uccLayout
    simp only [h 's' (by decide), h 'd' (by decide), h 't' (by decide), h 'q' (by decide), h '5' (by decide),
      h '6' (by decide)]
  · have : ∃ calls : List UccCall, uccLayout exc L = calls.foldl (UccCall.run L) {} := by
      refine ⟨(if 's' ∈ exc then [.saSingles] else []) ++ (if 'd' ∈ exc then [.saDoubles] else []) ++
        (if 't' ∈ exc then [.triples] else []) ++ (if 'q' ∈ exc then [.quadruples] else []) ++
        (if '5' ∈ exc then [.quintuples] else []) ++ (if '6' ∈ exc then [.sextuples] else []), ?_⟩
      simp only [List.foldl_append]
      unfold uccLayout
      have step : ∀ (p : Prop) [Decidable p] (c : UccCall) (s : UccStruct),
          (if p then [c] else []).foldl (UccCall.run L) s = if p then UccCall.run L s c else s := by
        intro p _ c s
        split_ifs <;> rfl
      simp only [step]
      rfl
    obtain ⟨calls, e⟩ := this
    obtain ⟨h1, -, h3⟩ := C36_ucc hL calls
    rw [← e] at h1 h3
    exact ⟨h1, h3⟩

/-- C115 fails for two names of the classical class: fUCCpD and SAfUCCSD are accepted, but the branches that should set
their excitations ask for other names, so without options for excitations they raise `ValueError`; the interface knows
fUCCpD. -/
theorem C115_names_disagree {name : String} (hn : name = "fuccpd" ∨ name = "safuccsd") (L : OrbLists) (m : ℕ) {o : Options}
    (ho : ∀ k ∈ fuccKinds, o.flag k ≠ 1) : (upsInit name L m o).1 = .error .valueError := by
  have e : (upsLayout name L o).1 = builtLayout (createFucc L o.defaultLayers {}) := by
    rcases hn with rfl | rfl <;> rfl
  have e2 : (createFucc L o.defaultLayers {}).1 = .error .valueError := by
    unfold createFucc checkOptions
    rw [lookup_defaultLayers, if_pos rfl]
    have hno : ∀ k ∈ fuccKinds, o.defaultLayers.flag k ≠ 1 := fun k hk => by
      rw [flag_defaultLayers _ (by rintro rfl; revert hk; decide)]
      exact ho k hk
    split_ifs <;> rfl
  unfold upsInit
  rw [if_neg (by rcases hn with rfl | rfl <;> (rintro ⟨h, -⟩; revert h; decide))]
  dsimp only
  rcases hl : upsLayout name L o with ⟨_ | s, o'⟩
  · rw [hl] at e
    unfold builtLayout at e
    rw [e2] at e
    cases e
    rfl
  · rw [hl] at e
    unfold builtLayout at e
    rw [e2] at e
    cases e

/-- C115 fails for a dictionary of options used twice, since it is changed in place: after fUCCSD, the same dictionary gives
a kSAfUpCCGSD wave function spin-orbital singles, which are not part of that ansatz, and makes tUPS raise. -/
theorem C115_shared_disagree {L : OrbLists} {i a : ℕ} (hi : i ∈ L.occSpin) (ha : a ∈ L.unoccSpin) (hs : i % 2 = a % 2)
    (m : ℕ) : let o := (upsInit "fuccsd" L m []).2
    (∃ det s, (upsInit "ksafupccgsd" L m o).1 = .ok (det, s) ∧
      ∃ k : ℕ, s.types[k]? = some "single" ∧ s.indices[k]? = some [i, a]) ∧
    ¬NamedExc L "ksafupccgsd" "single" [i, a] ∧ (upsInit "tups" L m o).1 = .error .valueError := by
  have e : (upsInit "fuccsd" L m []).2 = [("S", 1), ("D", 1), ("n_layers", 1)] := by
    have hok : (createFucc L [("S", 1), ("D", 1), ("n_layers", 1)] {}).1 = .ok () :=
      (fucc_only (keys := ["S", "D"]) (N := 1) (by decide) (by decide) (by decide) (by decide) rfl).1
    have hl : upsLayout "fuccsd" L [] = (builtLayout (createFucc L [("S", 1), ("D", 1), ("n_layers", 1)] {}),
      [("S", 1), ("D", 1), ("n_layers", 1)]) := rfl
    unfold upsInit
    rw [if_neg (by rintro ⟨h, -⟩; revert h; decide), hl]
    unfold builtLayout
    rw [hok]
  rw [e]
  intro o
  set o2 : Options := [("S", 1), ("D", 1), ("n_layers", 1), ("SAGS", 1), ("GpD", 1)] with ho2
  have hok : (createFucc L o2 {}).1 = .ok () :=
    (fucc_only (keys := ["S", "D", "SAGS", "GpD"]) (N := 1) (by decide) (by decide) (by decide) (by decide) rfl).1
  have hl : upsLayout "ksafupccgsd" L o = (builtLayout (createFucc L o2 {}), o2) := rfl
  refine ⟨⟨hfDet (2 * L.numOrbs) m, (createFucc L o2 {}).2, ?_, ?_⟩, ?_, ?_⟩
  · unfold upsInit
    rw [if_neg (by rintro ⟨h, -⟩; revert h; decide), hl]
    unfold builtLayout
    rw [hok]
  · refine (C36_fucc_content L o2 1 rfl hok "single" [i, a]).2 ⟨by decide, ?_⟩
    have := FuccExc.spin (L := L) (o := o2) 1 (by decide) (by decide) [i] [a] (List.singleton_sublist.2 hi)
      (List.singleton_sublist.2 ha) rfl rfl (by simp [SameSpin, List.countP_cons, hs])
    exact this
  · intro hx
    generalize h1 : "ksafupccgsd" = n at hx
    generalize h2 : "single" = t at hx
    cases hx <;> first | exact absurd h1 (by decide) | exact absurd h2 (by decide)
  · have : upsLayout "tups" L o = (builtLayout (createTiled L.numOrbs [("S", 1), ("D", 1), ("n_layers", 1), ("do_tups", 1)] {}),
      [("S", 1), ("D", 1), ("n_layers", 1), ("do_tups", 1)]) := rfl
    unfold upsInit
    rw [if_neg (by rintro ⟨-, h⟩; exact h rfl), this]
    rfl

/-- C115 fails for QNP with `do_pp`: the interface starts from the perfect-pairing determinant, the classical class from
the Hartree-Fock determinant. -/
theorem C115_pairing_disagree : ∃ s o', s.nParams = 4 ∧
    circuitInit .jordanWigner "qnp" ⟨[0, 1], [2], [0, 1, 2, 3], [4, 5], 3⟩ (2, 2) [("do_pp", 1), ("n_layers", 1)] =
      (.ok ([true, true, false, false, true, true], s), o') ∧
    upsInit "qnp" ⟨[0, 1], [2], [0, 1, 2, 3], [4, 5], 3⟩ 4 [("do_pp", 1), ("n_layers", 1)] =
      (.ok ([true, true, true, true, false, false], s), o') := by
  refine ⟨_, [("do_pp", 1), ("n_layers", 1), ("do_qnp", 1)], ?_, rfl, rfl⟩
  rfl

/-- The lists of a wave function with two active electrons in two orbitals meet the hypotheses. -/
example : ∃ (L : OrbLists) (s : UpsStruct) (o' : Options), L.Ok ∧ L.Ordered ∧
    circuitInit .jordanWigner "fuccsd" L (1, 1) [] = (.ok (hfDet 4 2, s), o') ∧
    (∃ k : ℕ, s.types[k]? = some "double" ∧ s.indices[k]? = some [0, 1, 2, 3]) ∧
    (∃ k : ℕ, s.types[k]? = some "single" ∧ s.indices[k]? = some [0, 2]) := by
  obtain ⟨s, o', h1, h2⟩ := C115_content (name := "fuccsd") (by decide) ⟨[0], [1], [0, 1], [2, 3], 2⟩ 1 (o := []) (Or.inl rfl)
    .jordanWigner
  refine ⟨_, s, o', ⟨by decide, by decide, by decide⟩, ⟨by decide, by decide, by decide, by decide⟩, h1, ?_, ?_⟩
  · exact (h2 _ _).2 ⟨by decide, .sdDouble ⟨[0, 1], [2, 3], by decide, by decide, rfl, rfl, by unfold SameSpin; decide, rfl⟩⟩
  · exact (h2 _ _).2 ⟨by decide, .sdSingle ⟨[0], [2], by decide, by decide, rfl, rfl, by unfold SameSpin; decide, rfl⟩⟩

end SQ
