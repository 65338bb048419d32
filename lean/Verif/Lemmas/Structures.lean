import Verif.Spec.Structures
import Verif.Props.Iterators
import Init.Data.Nat.ToString
import Mathlib.Tactic.IntervalCases

/-!
# Lemmas: ansatz structures
-/

namespace SQ

/-! ### Names and dictionaries -/

theorem pname_inj {m n : ℕ} (h : pname m = pname n) : m = n := by
  have h1 := String.ofList_injective h
  have hz : ∀ k (l : List Char) , Nat.ofDigitChars 10 (List.replicate k '0' ++ l) 0 = Nat.ofDigitChars 10 l 0 := by
    intro k l
    induction k with
    | zero => rfl
    | succ k ih =>
      rw [List.replicate_succ, List.cons_append]
      simpa [Nat.ofDigitChars, List.foldl_cons] using ih
  have h2 := congrArg (fun l => Nat.ofDigitChars 10 l.tail 0) h1
  simpa only [List.tail_cons, hz, Nat.ofDigitChars_ten_toDigits] using h2

theorem lookup_dictSet (d : List (String × ℕ)) (k k' : String) (v : ℕ) :
    (dictSet d k v).lookup k' = if k' = k then some v else d.lookup k' := by
  induction d with
  | nil =>
    by_cases h : k' = k
    · simp [dictSet, List.lookup_cons, h]
    · have : (k' == k) = false := by simpa using h
      simp [dictSet, List.lookup_cons, h, this]
  | cons x d ih =>
    obtain ⟨a, b⟩ := x
    unfold dictSet
    by_cases h : a = k
    · rw [if_pos h]
      subst h
      by_cases h' : k' = a
      · simp [List.lookup_cons, h']
      · have : (k' == a) = false := by simpa using h'
        simp [List.lookup_cons, h', this]
    · rw [if_neg h, List.lookup_cons, List.lookup_cons, ih]
      by_cases h' : k' = a
      · subst h'; simp [h]
      · have : (k' == a) = false := by simpa using h'
        rw [this]

theorem keys_dictSet (d : List (String × ℕ)) (k : String) (v : ℕ) (h : k ∉ d.map Prod.fst) :
    dictSet d k v = d ++ [(k, v)] := by
  induction d with
  | nil => rfl
  | cons x d ih =>
    obtain ⟨a, b⟩ := x
    simp only [List.map_cons, List.mem_cons, not_or] at h
    unfold dictSet
    rw [if_neg (Ne.symm h.1), ih h.2]
    rfl

/-! ### The structure and the entries it was built from -/

/-- The structure holds these entries. -/
structure Built (s : UpsStruct) (es : List Entry) : Prop where
  types : s.types = es.map Entry.ty
  indices : s.indices = es.map Entry.idx
  nParams : s.nParams = es.length
  names : s.names = (List.range es.length).map pname
  look : ∀ k : ℕ, s.R.lookup (pname k) = es[k]?.bind Entry.R
  keys : ∀ x ∈ s.R, ∃ k < es.length, x.1 = pname k
  nodup : (s.R.map Prod.fst).Nodup

theorem built_nil : Built {} [] := ⟨rfl, rfl, rfl, rfl, fun _ => rfl, fun x hx => by simp at hx, by simp⟩

theorem Built.add {s : UpsStruct} {es : List Entry} (h : Built s es) (e : Entry) : Built (s.add e) (es ++ [e]) := by
  have hfresh : pname s.nParams ∉ s.R.map Prod.fst := by
    intro hm
    obtain ⟨x, hx, he⟩ := List.mem_map.1 hm
    obtain ⟨k, hk, hk'⟩ := h.keys x hx
    rw [he] at hk'
    have := pname_inj hk'
    rw [h.nParams] at this
    omega
  have hget : ∀ k : ℕ, (es ++ [e])[k]? = if k = es.length then some e else es[k]? := by
    intro k
    rcases lt_trichotomy k es.length with hk | hk | hk
    · rw [List.getElem?_append_left hk, if_neg (by omega)]
    · subst hk; simp
    · rw [if_neg (by omega), List.getElem?_eq_none (by simp; omega), List.getElem?_eq_none (by omega)]
  refine ⟨?_, ?_, ?_, ?_, fun k => ?_, fun x hx => ?_, ?_⟩
  · simp [UpsStruct.add, h.types]
  · simp [UpsStruct.add, h.indices]
  · simp [UpsStruct.add, h.nParams]
  · simp [UpsStruct.add, h.names, h.nParams, List.range_succ]
  · rw [hget]
    unfold UpsStruct.add
    dsimp only
    cases he : e.R with
    | none =>
      dsimp only
      rw [h.look]
      by_cases hk : k = es.length
      · rw [if_pos hk, hk]; simp [he]
      · rw [if_neg hk]
    | some r =>
      dsimp only
      rw [lookup_dictSet]
      by_cases hk : k = es.length
      · rw [if_pos (by rw [h.nParams, hk]), if_pos hk]; simp [he]
      · rw [if_neg (fun hp => hk (by rw [pname_inj hp, h.nParams])), if_neg hk, h.look]
  · rw [List.length_append, List.length_singleton]
    unfold UpsStruct.add at hx
    dsimp only at hx
    cases he : e.R with
    | none =>
      rw [he] at hx
      obtain ⟨k, hk, hk'⟩ := h.keys x hx
      exact ⟨k, by omega, hk'⟩
    | some r =>
      rw [he] at hx
      dsimp only at hx
      rw [keys_dictSet _ _ _ hfresh, List.mem_append, List.mem_singleton] at hx
      rcases hx with hx | rfl
      · obtain ⟨k, hk, hk'⟩ := h.keys x hx
        exact ⟨k, by omega, hk'⟩
      · exact ⟨es.length, by omega, by rw [h.nParams]⟩
  · unfold UpsStruct.add
    dsimp only
    cases he : e.R with
    | none => exact h.nodup
    | some r =>
      dsimp only
      rw [keys_dictSet _ _ _ hfresh, List.map_append]
      refine List.nodup_append.2 ⟨h.nodup, by simp, ?_⟩
      intro a ha b hb hab
      simp only [List.map_cons, List.map_nil, List.mem_singleton] at hb
      exact hfresh (by rw [← hb, ← hab]; exact ha)

theorem Built.addAll {s : UpsStruct} {es : List Entry} (h : Built s es) (l : List Entry) :
    Built (s.addAll l) (es ++ l) := by
  induction l generalizing s es with
  | nil => simpa [UpsStruct.addAll] using h
  | cons e l ih =>
    have := ih (h.add e)
    rw [List.append_assoc] at this
    exact this

/-! ### Entries are excitations -/

/-- The entry is an excitation among `n` orbitals, with the right `R`. -/
def GoodEntry (n : ℕ) (e : Entry) : Prop := (∀ off, ∃ T, Excitation off n e.ty e.idx T) ∧ e.R = gradR e.ty

theorem occFirst_interleave {k : ℕ} (hk : 1 ≤ k ∧ k ≤ 6) (A I : List ℕ) (hA : A.length = k) (hI : I.length = k) :
    occFirst (interleave A I) = I ++ A := by
  obtain ⟨h1, h6⟩ := hk
  match A, I with
  | [], _ => simp at hA; omega
  | _, [] => simp at hI; omega
  | [a], [i] => rfl
  | [a, b], [i, j] => rfl
  | [a, b, c], [i, j, k] => rfl
  | [a, b, c, d], [i, j, k, l] => rfl
  | [a, b, c, d, e], [i, j, k, l, m] => rfl
  | [a, b, c, d, e, f], [i, j, k, l, m, n] => rfl
  | _ :: _ :: _ :: _ :: _ :: _ :: _ :: _, _ => simp at hA; omega
  | _, _ :: _ :: _ :: _ :: _ :: _ :: _ :: _ => simp at hI; omega
  | [_], _ :: _ :: _ => simp at hA hI; omega
  | [_, _], [_] => simp at hA hI; omega
  | [_, _], _ :: _ :: _ :: _ => simp at hA hI; omega
  | [_, _, _], [_] => simp at hA hI; omega
  | [_, _, _], [_, _] => simp at hA hI; omega
  | [_, _, _], _ :: _ :: _ :: _ :: _ => simp at hA hI; omega
  | [_, _, _, _], [_] => simp at hA hI; omega
  | [_, _, _, _], [_, _] => simp at hA hI; omega
  | [_, _, _, _], [_, _, _] => simp at hA hI; omega
  | [_, _, _, _], _ :: _ :: _ :: _ :: _ :: _ => simp at hA hI; omega
  | [_, _, _, _, _], [_] => simp at hA hI; omega
  | [_, _, _, _, _], [_, _] => simp at hA hI; omega
  | [_, _, _, _, _], [_, _, _] => simp at hA hI; omega
  | [_, _, _, _, _], [_, _, _, _] => simp at hA hI; omega
  | [_, _, _, _, _], [_, _, _, _, _, _] => simp at hA hI; omega
  | [_, _, _, _, _, _], [_] => simp at hA hI; omega
  | [_, _, _, _, _, _], [_, _] => simp at hA hI; omega
  | [_, _, _, _, _, _], [_, _, _] => simp at hA hI; omega
  | [_, _, _, _, _, _], [_, _, _, _] => simp at hA hI; omega
  | [_, _, _, _, _, _], [_, _, _, _, _] => simp at hA hI; omega

theorem good_spin {n k : ℕ} (hk : 1 ≤ k ∧ k ≤ 6) {I A : List ℕ} (hI : I.length = k) (hA : A.length = k)
    (hr : ∀ p ∈ I ++ A, p < 2 * n) (hs : I.countP (· % 2 = 1) = A.countP (· % 2 = 1)) :
    GoodEntry n ⟨spinName k, I ++ A, some 2⟩ := by
  refine ⟨fun off => ⟨_, Excitation.spin k hk I A hI hA hr hs⟩, ?_⟩
  obtain ⟨h1, h6⟩ := hk
  interval_cases k <;> rfl

theorem good_spinEntries {n k : ℕ} (hk : 1 ≤ k ∧ k ≤ 6) {occ unocc : List ℕ} {l : List (List ℕ)}
    (hl : ∀ x ∈ l, SpinExcitation occ unocc k x) (hr : ∀ p ∈ occ ++ unocc, p < 2 * n) :
    ∀ e ∈ spinEntries (spinName k) l, GoodEntry n e := by
  intro e he
  obtain ⟨x, hx, rfl⟩ := List.mem_map.1 he
  obtain ⟨A, I, h1, h2, h3, h4, h5, rfl⟩ := hl x hx
  rw [occFirst_interleave hk A I h3 h4]
  refine good_spin hk h4 h3 (fun p hp => hr p ?_) h5.2.symm
  rcases List.mem_append.1 hp with h | h
  · exact List.mem_append_left _ (h2.subset h)
  · exact List.mem_append_right _ (h1.subset h)

theorem good_saSingle {n i a : ℕ} (hi : i < n) (ha : a < n) : GoodEntry n ⟨"sa_single", [i, a], some 4⟩ :=
  ⟨fun off => ⟨_, Excitation.saSingle i a (by
    intro p hp
    simp only [List.mem_cons, List.not_mem_nil, or_false] at hp
    rcases hp with rfl | rfl <;> assumption)⟩, rfl⟩

theorem good_single {n i a : ℕ} (hi : i < 2 * n) (ha : a < 2 * n) (h : i % 2 = a % 2) :
    GoodEntry n ⟨"single", [i, a], some 2⟩ :=
  good_spin (k := 1) (by decide) (I := [i]) (A := [a]) rfl rfl (by
    intro p hp
    simp only [List.cons_append, List.nil_append, List.mem_cons, List.not_mem_nil, or_false] at hp
    rcases hp with rfl | rfl <;> assumption) (by simp [h])

theorem good_double {n i j a b : ℕ} (hr : ∀ p ∈ [i, j, a, b], p < 2 * n)
    (h : [i, j].countP (· % 2 = 1) = [a, b].countP (· % 2 = 1)) : GoodEntry n ⟨"double", [i, j, a, b], some 2⟩ :=
  good_spin (k := 2) (by decide) (I := [i, j]) (A := [a, b]) rfl rfl hr h

theorem good_pair {n i a : ℕ} (hi : i < n) (ha : a < n) :
    GoodEntry n ⟨"double", [2 * i, 2 * i + 1, 2 * a, 2 * a + 1], some 2⟩ := by
  refine good_double ?_ (by simp [List.countP_cons, Nat.add_mod])
  intro p hp
  simp only [List.mem_cons, List.not_mem_nil, or_false] at hp
  omega

theorem good_sad {n : ℕ} {occ unocc : List ℕ} (hr : ∀ p ∈ occ ++ unocc, p < n) (hd : ∀ p ∈ occ, p ∉ unocc)
    {x : SaDouble} (h1 : PairFrom occ x.i x.j) (h2 : PairFrom unocc x.a x.b) (h3 : SaCase x.i x.j x.a x.b x.case) :
    GoodEntry n ⟨saDoubleName x.case, [x.i, x.j, x.a, x.b], none⟩ := by
  obtain ⟨a, i, b, j, f, c⟩ := x
  simp only at h1 h2 h3 ⊢
  have hp : ∀ (L : List ℕ) (y z : ℕ), PairFrom L y z → y ∈ L ∧ z ∈ L := by
    rintro L y z (⟨rfl, h⟩ | h)
    · exact ⟨h, h⟩
    · exact ⟨h.subset (by simp), h.subset (by simp)⟩
  obtain ⟨hi, hj⟩ := hp _ _ _ h1
  obtain ⟨ha, hb⟩ := hp _ _ _ h2
  have li := hr i (List.mem_append_left _ hi)
  have lj := hr j (List.mem_append_left _ hj)
  have la := hr a (List.mem_append_right _ ha)
  have lb := hr b (List.mem_append_right _ hb)
  have hia : i ≠ a := fun h => hd i hi (h ▸ ha)
  have hib : i ≠ b := fun h => hd i hi (h ▸ hb)
  have hja : j ≠ a := fun h => hd j hj (h ▸ ha)
  have hjb : j ≠ b := fun h => hd j hj (h ▸ hb)
  rcases h3 with ⟨rfl, rfl, rfl⟩ | ⟨rfl, hab, rfl⟩ | ⟨hij, rfl, rfl⟩ | ⟨hij, hab, rfl | rfl⟩
  · exact ⟨fun off => ⟨_, Excitation.saDouble1 i a hia (by simp [li, la])⟩, rfl⟩
  · exact ⟨fun off => ⟨_, Excitation.saDouble2 i a b (by simp [hia, hib, hab]) (by simp [li, la, lb])⟩, rfl⟩
  · exact ⟨fun off => ⟨_, Excitation.saDouble3 i j a (by simp [hia, hja, hij]) (by simp [li, la, lj])⟩, rfl⟩
  · exact ⟨fun off => ⟨_, Excitation.saDouble4 i j a b (by simp [*]) (by simp [*])⟩, rfl⟩
  · exact ⟨fun off => ⟨_, Excitation.saDouble5 i j a b (by simp [*]) (by simp [*])⟩, rfl⟩

/-! ### Members of the iterators (no condition on the lists) -/

theorem t_spin (occ unocc : List ℕ) :
    (∀ x ∈ iterateT1 occ unocc, SpinExcitation occ unocc 1 x) ∧
    (∀ x ∈ iterateT2 occ unocc, SpinExcitation occ unocc 2 x) ∧
    (∀ x ∈ iterateT3 occ unocc, SpinExcitation occ unocc 3 x) ∧
    (∀ x ∈ iterateT4 occ unocc, SpinExcitation occ unocc 4 x) ∧
    (∀ x ∈ iterateT5 occ unocc, SpinExcitation occ unocc 5 x) ∧
    (∀ x ∈ iterateT6 occ unocc, SpinExcitation occ unocc 6 x) := by
  rw [iterateT1_eq, iterateT2_eq, iterateT3_eq, iterateT4_eq, iterateT5_eq, iterateT6_eq]
  exact ⟨fun _ => mem_excIter.1, fun _ => mem_excIter.1, fun _ => mem_excIter.1, fun _ => mem_excIter.1,
    fun _ => mem_excIter.1, fun _ => mem_excIter.1⟩

theorem mem_T1sa {occ unocc : List ℕ} {x : ℕ × ℕ × ℝ} (h : x ∈ iterateT1sa occ unocc) : x.1 ∈ unocc ∧ x.2.1 ∈ occ := by
  obtain ⟨a, i, f⟩ := x
  simp only [iterateT1sa, List.mem_flatMap, List.mem_singleton, Prod.mk.injEq] at h
  obtain ⟨i', h1, a', h2, rfl, rfl, -⟩ := h
  exact ⟨h2, h1⟩

theorem mem_pairT2 {occ unocc : List ℕ} {x : List ℕ} (h : x ∈ iteratePairT2 occ unocc) :
    ∃ a ∈ unocc, ∃ i ∈ occ, x = [2 * a, 2 * i, 2 * a + 1, 2 * i + 1] := by
  simp only [iteratePairT2, List.mem_flatMap, List.mem_singleton] at h
  obtain ⟨i, h1, a, h2, h3⟩ := h
  exact ⟨a, h2, i, h1, h3⟩

theorem mem_T2sa {occ unocc : List ℕ} {x : SaDouble} (hx : x ∈ iterateT2sa occ unocc) :
    PairFrom occ x.i x.j ∧ PairFrom unocc x.a x.b ∧ SaCase x.i x.j x.a x.b x.case := by
  unfold iterateT2sa at hx
  unfold PairFrom
  rw [← inclPair, ← inclPair]
  obtain ⟨pi, i, -, h1, hx⟩ := mem_loopFromIncl.1 hx
  obtain ⟨pj, j, h2, h3, hx⟩ := mem_loopFromIncl.1 hx
  obtain ⟨pa, a, -, h4, hx⟩ := mem_loopFromIncl.1 hx
  obtain ⟨pb, b, h5, h6, hx⟩ := mem_loopFromIncl.1 hx
  obtain ⟨rfl, rfl, rfl, rfl, hc, hf⟩ := mem_t2saBody.1 hx
  exact ⟨⟨pi, h1, pj, h2, h3⟩, ⟨pa, h4, pb, h5, h6⟩, hc⟩

/-! ### Layers -/

theorem good_blockIf {n : ℕ} {f : ℤ} {l : List Entry} (h : ∀ e ∈ l, GoodEntry n e) : ∀ e ∈ blockIf f l, GoodEntry n e := by
  unfold blockIf
  split_ifs
  · exact h
  · simp

theorem good_tiledBlock {n p : ℕ} (hp : p + 1 < n) (t q : ℤ) (skip : Bool) :
    ∀ e ∈ tiledBlock t q skip p, GoodEntry n e := by
  have hs : GoodEntry n ⟨"sa_single", [p, p + 1], some 4⟩ := good_saSingle (by omega) hp
  have hd : GoodEntry n ⟨"double", [2 * p, 2 * p + 1, 2 * p + 2, 2 * p + 3], some 2⟩ := by
    have := good_pair (n := n) (i := p) (a := p + 1) (by omega) hp
    exact this
  intro e he
  unfold tiledBlock at he
  rw [List.mem_append, List.mem_append] at he
  rcases he with (he | he) | he
  · split_ifs at he
    · rw [List.mem_singleton.1 he]; exact hs
    · simp at he
  · rw [List.mem_singleton.1 he]; exact hd
  · split_ifs at he
    · simp at he
    · rw [List.mem_singleton.1 he]; exact hs
    · simp at he

theorem mem_rangeStep2 {a b p : ℕ} : p ∈ rangeStep2 a b ↔ p < b ∧ a ≤ p ∧ (p - a) % 2 = 0 := by
  simp [rangeStep2]

theorem good_tiledLayer (n : ℕ) (t q s L : ℤ) (k : ℕ) : ∀ e ∈ tiledLayer n t q s L k, GoodEntry n e := by
  intro e he
  unfold tiledLayer at he
  rw [List.mem_append] at he
  rcases he with he | he <;>
  · obtain ⟨p, hp, he⟩ := List.mem_flatMap.1 he
    rw [mem_rangeStep2] at hp
    exact good_tiledBlock (by omega) _ _ _ e he

theorem good_fuccLayer {L : OrbLists} (hL : L.Ok) (o : Options) : ∀ e ∈ fuccLayer L o, GoodEntry L.numOrbs e := by
  obtain ⟨t1, t2, t3, t4, t5, t6⟩ := t_spin L.occSpin L.unoccSpin
  have hocc : ∀ p ∈ L.occ, p < L.numOrbs := fun p hp => hL.spat p (List.mem_append_left _ hp)
  have hun : ∀ p ∈ L.unocc, p < L.numOrbs := fun p hp => hL.spat p (List.mem_append_right _ hp)
  intro e he
  unfold fuccLayer at he
  simp only [List.mem_append] at he
  rcases he with (((((((((((he | he) | he) | he) | he) | he) | he) | he) | he) | he) | he) | he) | he
  · exact good_blockIf (good_spinEntries (k := 1) (by decide) t1 hL.spin) e he
  · refine good_blockIf (fun e he => ?_) e he
    obtain ⟨x, hx, rfl⟩ := List.mem_map.1 he
    obtain ⟨a, i, h1, h2, h3, rfl⟩ := ((C35_generalized_singles (2 * L.numOrbs)).2.1.2 x).1 hx
    refine good_single (by omega) h2 ?_
    have := h3.2
    simp only [List.countP_cons, List.countP_nil] at this
    rcases Nat.mod_two_eq_zero_or_one a with h | h <;> rcases Nat.mod_two_eq_zero_or_one i with h' | h' <;>
      simp [h, h'] at this ⊢
  · refine good_blockIf (fun e he => ?_) e he
    obtain ⟨x, hx, rfl⟩ := List.mem_map.1 he
    exact good_saSingle (hocc _ (mem_T1sa hx).2) (hun _ (mem_T1sa hx).1)
  · refine good_blockIf (fun e he => ?_) e he
    obtain ⟨x, hx, rfl⟩ := List.mem_map.1 he
    obtain ⟨h1, h2, -⟩ := ((C35_generalized_singles L.numOrbs).1.2 x).1 hx
    exact good_saSingle (by omega) h2
  · exact good_blockIf (good_spinEntries (k := 2) (by decide) t2 hL.spin) e he
  · refine good_blockIf (fun e he => ?_) e he
    obtain ⟨x, hx, rfl⟩ := List.mem_map.1 he
    obtain ⟨a, i, b, j, h1, h2, h3, h4, h5, rfl⟩ := ((C35_generalized_doubles (2 * L.numOrbs)).2.2 x).1 hx
    refine good_double (fun p hp => ?_) h5.2.symm
    simp only [List.mem_cons, List.not_mem_nil, or_false] at hp
    omega
  · refine good_blockIf (fun e he => ?_) e he
    obtain ⟨x, hx, rfl⟩ := List.mem_map.1 he
    obtain ⟨a, ha, i, hi, rfl⟩ := mem_pairT2 hx
    exact good_pair (hocc _ hi) (hun _ ha)
  · refine good_blockIf (fun e he => ?_) e he
    obtain ⟨x, hx, rfl⟩ := List.mem_map.1 he
    obtain ⟨a, i, h1, h2, rfl⟩ := ((C35_generalized_singles L.numOrbs).2.2.2 x).1 hx
    exact good_pair (by omega) h2
  · exact good_blockIf (good_spinEntries (k := 3) (by decide) t3 hL.spin) e he
  · exact good_blockIf (good_spinEntries (k := 4) (by decide) t4 hL.spin) e he
  · exact good_blockIf (good_spinEntries (k := 5) (by decide) t5 hL.spin) e he
  · exact good_blockIf (good_spinEntries (k := 6) (by decide) t6 hL.spin) e he
  · refine good_blockIf (fun e he => ?_) e he
    obtain ⟨x, hx, rfl⟩ := List.mem_map.1 he
    obtain ⟨h1, h2, h3⟩ := mem_T2sa hx
    exact good_sad hL.spat hL.disj h1 h2 h3

theorem mod_cases {a b i j : ℕ} (h : SameSpin [a, b] [i, j]) :
    (i % 2 = a % 2 → j % 2 = b % 2) ∧ (i % 2 ≠ a % 2 → i % 2 = b % 2 ∧ j % 2 = a % 2) := by
  have := h.2
  simp only [List.countP_cons, List.countP_nil, decide_eq_true_eq] at this
  rcases Nat.mod_two_eq_zero_or_one a with h1 | h1 <;> rcases Nat.mod_two_eq_zero_or_one b with h2 | h2 <;>
  rcases Nat.mod_two_eq_zero_or_one i with h3 | h3 <;> rcases Nat.mod_two_eq_zero_or_one j with h4 | h4 <;>
  simp [h1, h2, h3, h4] at this ⊢

theorem good_sdsLayer {L : OrbLists} (hL : L.Ok) (o : Options) (hp : o.flag "pD" = 0) :
    ∀ e ∈ sdsLayer L o, GoodEntry L.numOrbs e := by
  obtain ⟨-, t2, -⟩ := t_spin L.occSpin L.unoccSpin
  intro e he
  unfold sdsLayer at he
  simp only [List.mem_append] at he
  rcases he with (he | he) | he
  · refine good_blockIf (fun e he => ?_) e he
    obtain ⟨x, hx, he⟩ := List.mem_flatMap.1 he
    obtain ⟨A, I, h1, h2, h3, h4, h5, rfl⟩ := t2 x hx
    match A, I, h3, h4 with
    | [a, b], [i, j], _, _ =>
      have ha := hL.spin a (List.mem_append_right _ (h1.subset (by simp)))
      have hb := hL.spin b (List.mem_append_right _ (h1.subset (by simp)))
      have hi := hL.spin i (List.mem_append_left _ (h2.subset (by simp)))
      have hj := hL.spin j (List.mem_append_left _ (h2.subset (by simp)))
      obtain ⟨m1, m2⟩ := mod_cases h5
      simp only [interleave, sdsBody, List.mem_cons, List.not_mem_nil, or_false] at he
      rcases he with rfl | rfl | rfl
      · split_ifs with h
        · exact good_single hi ha h
        · exact good_single hi hb (m2 h).1
      · refine good_double (fun p hp => ?_) h5.2.symm
        simp only [List.mem_cons, List.not_mem_nil, or_false] at hp
        rcases hp with rfl | rfl | rfl | rfl <;> assumption
      · split_ifs with h
        · exact good_single hj hb (m1 h)
        · exact good_single hj ha (m2 h).2
  · unfold blockIf at he
    rw [if_neg (by simpa using hp)] at he
    simp at he
  · refine good_blockIf (fun e he => ?_) e he
    obtain ⟨x, hx, he⟩ := List.mem_flatMap.1 he
    obtain ⟨a, i, h1, h2, rfl⟩ := ((C35_generalized_singles L.numOrbs).2.2.2 x).1 hx
    simp only [sdsGenPairBody, List.mem_cons, List.not_mem_nil, or_false] at he
    have hs : GoodEntry L.numOrbs ⟨"sa_single", [2 * i / 2, 2 * a / 2], some 4⟩ :=
      good_saSingle (by omega) (by omega)
    rcases he with rfl | rfl | rfl
    · exact hs
    · exact good_pair (by omega) h2
    · exact hs

end SQ
