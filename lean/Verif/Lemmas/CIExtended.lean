import Verif.Lemmas.CISpaces
import Verif.Spec.CISpace

/-! # Extended determinant spaces -/

namespace SQ

/-! ### Counting positions -/

theorem count_eq_card (l : List ℕ) (v : ℕ) :
    l.count v = ((Finset.range l.length).filter fun p => l[p]? = some v).card := by
  induction l using List.reverseRecOn with
  | nil => rfl
  | append_singleton l b ih =>
    rw [List.count_append, ih, List.length_append, List.length_singleton, Finset.range_add_one,
      Finset.filter_insert]
    have h1 : (Finset.range l.length).filter (fun p => (l ++ [b])[p]? = some v)
        = (Finset.range l.length).filter fun p => l[p]? = some v := by
      apply Finset.filter_congr
      intro p hp
      rw [List.getElem?_append_left (Finset.mem_range.1 hp)]
    rw [h1]
    by_cases hb : b = v
    · subst hb
      rw [if_pos (by simp), Finset.card_insert_of_notMem (by simp)]
      simp
    · rw [if_neg (by simpa using hb)]
      simp [hb]

theorem replicate_set_getElem? (n a b i p : ℕ) (hp : p < n) :
    ((List.replicate n a).set i b)[p]? = some (if p = i then b else a) := by
  rw [List.getElem?_set]
  by_cases h : i = p
  · subst h; simp [hp]
  · rw [if_neg h, if_neg fun e => h e.symm]; simp [hp]

theorem replicate_set2_getElem? (n a b i j p : ℕ) (hp : p < n) :
    (((List.replicate n a).set i b).set j b)[p]? = some (if p = i ∨ p = j then b else a) := by
  rw [List.getElem?_set]
  by_cases h : j = p
  · subst h; simp [hp]
  · rw [if_neg h, replicate_set_getElem? n a b i p hp]
    have : ¬ p = j := fun e => h e.symm
    simp [this]

theorem mem_set2 {a b : ℕ} (hab : a ≠ b) (n : ℕ) (x : List ℕ) :
    (∃ i j, i ≤ n ∧ min (i + 1) n ≤ j ∧ j ≤ n ∧ x = ((List.replicate n a).set i b).set j b) ↔
      x.length = n ∧ (∀ y ∈ x, y = a ∨ y = b) ∧ x.count b ≤ 2 := by
  constructor
  · rintro ⟨i, j, hi, _, hj, rfl⟩
    have hl : (((List.replicate n a).set i b).set j b).length = n := by simp
    refine ⟨hl, ?_, ?_⟩
    · intro y hy
      obtain ⟨p, hp, rfl⟩ := List.getElem_of_mem hy
      rw [hl] at hp
      have := replicate_set2_getElem? n a b i j p hp
      rw [List.getElem?_eq_getElem (by rw [hl]; exact hp)] at this
      rw [Option.some.inj this]
      split
      · exact Or.inr rfl
      · exact Or.inl rfl
    · rw [count_eq_card, hl]
      have : (Finset.range n).filter (fun p => (((List.replicate n a).set i b).set j b)[p]? = some b)
          ⊆ {i, j} := by
        intro p hp
        rw [Finset.mem_filter, Finset.mem_range] at hp
        rw [replicate_set2_getElem? n a b i j p hp.1] at hp
        have h2 := Option.some.inj hp.2
        by_cases h : p = i ∨ p = j
        · simpa using h
        · rw [if_neg h] at h2; exact absurd h2 hab
      exact (Finset.card_le_card this).trans Finset.card_le_two
  · rintro ⟨hl, hx, hc⟩
    rw [count_eq_card, hl] at hc
    set Z := (Finset.range n).filter fun p => x[p]? = some b with hZ
    have build : ∀ i j, i ≤ n → j ≤ n → (∀ p < n, p ∈ Z ↔ (p = i ∨ p = j)) →
        x = ((List.replicate n a).set i b).set j b := by
      intro i j _ _ h
      apply List.ext_getElem?
      intro p
      by_cases hp : p < n
      · rw [replicate_set2_getElem? n a b i j p hp]
        have hxp : x[p]? = some x[p] := List.getElem?_eq_getElem (by rw [hl]; exact hp)
        have hm := h p hp
        rw [hZ, Finset.mem_filter, Finset.mem_range] at hm
        by_cases hpz : p = i ∨ p = j
        · rw [if_pos hpz]; exact (hm.2 hpz).2
        · rw [if_neg hpz]
          have hne : ¬ x[p]? = some b := fun e => hpz (hm.1 ⟨hp, e⟩)
          rcases hx x[p] (List.getElem_mem _) with e | e
          · rw [hxp, e]
          · rw [hxp, e] at hne; exact absurd rfl hne
      · rw [List.getElem?_eq_none (by rw [hl]; omega), List.getElem?_eq_none (by simp; omega)]
    have hsub : ∀ p ∈ Z, p < n := fun p hp => Finset.mem_range.1 (Finset.mem_filter.1 hp).1
    rcases Nat.lt_or_ge Z.card 2 with h2 | h2
    · rcases Nat.lt_or_ge Z.card 1 with h1 | h1
      · have : Z = ∅ := Finset.card_eq_zero.1 (by omega)
        refine ⟨n, n, le_refl _, by simp, le_refl _, build n n (le_refl _) (le_refl _) ?_⟩
        intro p hp; rw [this]; simp; omega
      · obtain ⟨i, hi⟩ := Finset.card_eq_one.1 (show Z.card = 1 by omega)
        have hin : i < n := hsub i (by rw [hi]; simp)
        refine ⟨i, n, by omega, by omega, le_refl _, build i n (by omega) (le_refl _) ?_⟩
        intro p hp; rw [hi]; simp; omega
    · obtain ⟨i, j, hij, hZij⟩ := Finset.card_eq_two.1 (show Z.card = 2 by omega)
      have hin : i < n := hsub i (by rw [hZij]; simp)
      have hjn : j < n := hsub j (by rw [hZij]; simp)
      rcases lt_or_gt_of_ne hij with h | h
      · refine ⟨i, j, by omega, by omega, by omega, build i j (by omega) (by omega) ?_⟩
        intro p hp; rw [hZij]; simp
      · refine ⟨j, i, by omega, by omega, by omega, build j i (by omega) (by omega) ?_⟩
        intro p hp; rw [hZij]; simp; tauto

theorem mem_set1 {a b : ℕ} (hab : a ≠ b) (n : ℕ) (x : List ℕ) :
    (∃ i, i ≤ n ∧ x = (List.replicate n a).set i b) ↔
      x.length = n ∧ (∀ y ∈ x, y = a ∨ y = b) ∧ x.count b ≤ 1 := by
  constructor
  · rintro ⟨i, hi, rfl⟩
    have hl : ((List.replicate n a).set i b).length = n := by simp
    refine ⟨hl, ?_, ?_⟩
    · intro y hy
      obtain ⟨p, hp, rfl⟩ := List.getElem_of_mem hy
      rw [hl] at hp
      have := replicate_set_getElem? n a b i p hp
      rw [List.getElem?_eq_getElem (by rw [hl]; exact hp)] at this
      rw [Option.some.inj this]
      split
      · exact Or.inr rfl
      · exact Or.inl rfl
    · rw [count_eq_card, hl]
      have : (Finset.range n).filter (fun p => ((List.replicate n a).set i b)[p]? = some b) ⊆ {i} := by
        intro p hp
        rw [Finset.mem_filter, Finset.mem_range] at hp
        rw [replicate_set_getElem? n a b i p hp.1] at hp
        have h2 := Option.some.inj hp.2
        by_cases h : p = i
        · simpa using h
        · rw [if_neg h] at h2; exact absurd h2 hab
      exact (Finset.card_le_card this).trans (by simp)
  · rintro ⟨hl, hx, hc⟩
    obtain ⟨i, j, hi, hij, hj, rfl⟩ := (mem_set2 hab n x).2 ⟨hl, hx, by omega⟩
    rcases Nat.lt_or_ge j n with hjn | hjn
    · -- two different positions are impossible
      exfalso
      have hin : i < j := by omega
      rw [count_eq_card, hl] at hc
      have : ({i, j} : Finset ℕ) ⊆ (Finset.range n).filter
          (fun p => (((List.replicate n a).set i b).set j b)[p]? = some b) := by
        intro p hp
        have hp' : p = i ∨ p = j := by simpa using hp
        have hpn : p < n := by omega
        rw [Finset.mem_filter, Finset.mem_range, replicate_set2_getElem? n a b i j p hpn, if_pos hp']
        exact ⟨hpn, rfl⟩
      have h2 := Finset.card_le_card this
      rw [Finset.card_pair (by omega)] at h2
      omega
    · refine ⟨i, hi, ?_⟩
      rw [List.set_eq_of_length_le (by simp; omega)]

theorem mem_set0 (a b n : ℕ) (hab : a ≠ b) (x : List ℕ) :
    x = List.replicate n a ↔ x.length = n ∧ (∀ y ∈ x, y = a ∨ y = b) ∧ x.count b ≤ 0 := by
  rw [List.eq_replicate_iff]
  constructor
  · rintro ⟨h1, h2⟩
    refine ⟨h1, fun y hy => Or.inl (h2 y hy), ?_⟩
    rw [Nat.le_zero, List.count_eq_zero]
    intro hb; exact hab (h2 b hb).symm
  · rintro ⟨h1, h2, h3⟩
    refine ⟨h1, fun y hy => ?_⟩
    rcases h2 y hy with h | h
    · exact h
    · rw [Nat.le_zero, List.count_eq_zero] at h3
      subst h; exact absurd hy h3

/-! ### The generators -/

theorem foldl_gen {σ α β : Type} (f : σ × List β → α → σ × List β) (s : σ) (g : α → List β)
    (l : List α) (h : ∀ a ∈ l, ∀ out, f (s, out) a = (s, out ++ g a)) : ∀ out,
    l.foldl f (s, out) = (s, out ++ l.flatMap g) := by
  induction l with
  | nil => intro out; simp
  | cons a t ih =>
    intro out
    rw [List.foldl_cons, h a (by simp), ih fun x hx => h x (by simp [hx])]
    simp

theorem foldl_gen3 {σ τ α β : Type} (f : σ × τ × List β → α → σ × τ × List β) (s : σ) (t0 : τ)
    (g : α → List β) (l : List α) (h : ∀ a ∈ l, ∀ out, f (s, t0, out) a = (s, t0, out ++ g a)) : ∀ out,
    l.foldl f (s, t0, out) = (s, t0, out ++ l.flatMap g) := by
  induction l with
  | nil => intro out; simp
  | cons a t ih =>
    intro out
    rw [List.foldl_cons, h a (by simp), ih fun x hx => h x (by simp [hx])]
    simp

theorem ite_set {l : List ℕ} {n : ℕ} (h : l.length = n) (i b : ℕ) :
    (if i ≠ n then l.set i b else l) = l.set i b := by
  split
  · rfl
  · next hi =>
    rw [List.set_eq_of_length_le]
    omega

theorem replicate_set_self (n a i : ℕ) : (List.replicate n a).set i a = List.replicate n a := by
  simp

theorem genSingles_eq (nI nV : ℕ) : genSingles nI nV = (List.range (nI + 1)).flatMap fun i =>
    (List.range (nV + 1)).flatMap fun j =>
      [((List.replicate nI 1).set i 0, (List.replicate nV 0).set j 1)] := by
  unfold genSingles
  rw [foldl_gen3 _ (List.replicate nI 1) (List.replicate nV 0) (fun i =>
    (List.range (nV + 1)).flatMap fun j =>
      [((List.replicate nI 1).set i 0, (List.replicate nV 0).set j 1)])]
  · simp
  · intro i _ out
    dsimp only
    rw [ite_set (l := List.replicate nI 1) (n := nI) (by simp),
      ite_set (l := (List.replicate nI 1).set i 0) (n := nI) (by simp), List.set_set, replicate_set_self,
      foldl_gen _ (List.replicate nV 0) (fun j =>
        [((List.replicate nI 1).set i 0, (List.replicate nV 0).set j 1)])]
    intro j _ out
    dsimp only
    rw [ite_set (l := List.replicate nV 0) (n := nV) (by simp),
      ite_set (l := (List.replicate nV 0).set j 1) (n := nV) (by simp), List.set_set, replicate_set_self]

theorem mem_pyRange {a b x : ℕ} : x ∈ pyRange a b ↔ a ≤ x ∧ x < b := by
  unfold pyRange
  rw [List.mem_map]
  constructor
  · rintro ⟨y, hy, rfl⟩
    rw [List.mem_range] at hy; omega
  · rintro ⟨h1, h2⟩
    exact ⟨x - a, by rw [List.mem_range]; omega, by omega⟩

theorem set_reset (n a b i j : ℕ) (h : i ≠ j ∨ n ≤ j) :
    ((List.replicate n a).set i b).set j a = (List.replicate n a).set i b := by
  rcases Nat.lt_or_ge j n with hj | hj
  · apply List.ext_getElem?
    intro p
    rw [List.getElem?_set]
    split
    · next hp =>
      subst hp
      rw [if_pos (by simpa using hj), replicate_set_getElem? n a b i j hj, if_neg (by omega)]
    · rfl
  · rw [List.set_eq_of_length_le (by simp; exact hj)]

theorem genDoubles_eq (nI nV : ℕ) : genDoubles nI nV = (List.range (nI + 1)).flatMap fun i =>
    (pyRange (min (i + 1) nI) (nI + 1)).flatMap fun i2 =>
    (List.range (nV + 1)).flatMap fun j =>
    (pyRange (min (j + 1) nV) (nV + 1)).flatMap fun j2 =>
      [(((List.replicate nI 1).set i 0).set i2 0, ((List.replicate nV 0).set j 1).set j2 1)] := by
  unfold genDoubles
  rw [foldl_gen3 _ (List.replicate nI 1) (List.replicate nV 0) (fun i =>
    (pyRange (min (i + 1) nI) (nI + 1)).flatMap fun i2 =>
    (List.range (nV + 1)).flatMap fun j =>
    (pyRange (min (j + 1) nV) (nV + 1)).flatMap fun j2 =>
      [(((List.replicate nI 1).set i 0).set i2 0, ((List.replicate nV 0).set j 1).set j2 1)])]
  · simp
  · intro i hi out
    rw [List.mem_range] at hi
    dsimp only
    rw [ite_set (l := List.replicate nI 1) (n := nI) (by simp),
      foldl_gen3 _ ((List.replicate nI 1).set i 0) (List.replicate nV 0) (fun i2 =>
      (List.range (nV + 1)).flatMap fun j =>
      (pyRange (min (j + 1) nV) (nV + 1)).flatMap fun j2 =>
        [(((List.replicate nI 1).set i 0).set i2 0, ((List.replicate nV 0).set j 1).set j2 1)])]
    · dsimp only
      rw [ite_set (l := (List.replicate nI 1).set i 0) (n := nI) (by simp), List.set_set, replicate_set_self]
    · intro i2 hi2 out
      rw [mem_pyRange] at hi2
      dsimp only
      rw [ite_set (l := (List.replicate nI 1).set i 0) (n := nI) (by simp),
        ite_set (l := ((List.replicate nI 1).set i 0).set i2 0) (n := nI) (by simp),
        List.set_set, set_reset nI 1 0 i i2 (by omega),
        foldl_gen _ (List.replicate nV 0) (fun j =>
        (pyRange (min (j + 1) nV) (nV + 1)).flatMap fun j2 =>
          [(((List.replicate nI 1).set i 0).set i2 0, ((List.replicate nV 0).set j 1).set j2 1)])]
      intro j hj out
      rw [List.mem_range] at hj
      dsimp only
      rw [ite_set (l := List.replicate nV 0) (n := nV) (by simp),
        foldl_gen _ ((List.replicate nV 0).set j 1) (fun j2 =>
          [(((List.replicate nI 1).set i 0).set i2 0, ((List.replicate nV 0).set j 1).set j2 1)])]
      · dsimp only
        rw [ite_set (l := (List.replicate nV 0).set j 1) (n := nV) (by simp), List.set_set, replicate_set_self]
      · intro j2 hj2 out
        rw [mem_pyRange] at hj2
        dsimp only
        rw [ite_set (l := (List.replicate nV 0).set j 1) (n := nV) (by simp),
          ite_set (l := ((List.replicate nV 0).set j 1).set j2 1) (n := nV) (by simp),
          List.set_set, set_reset nV 0 1 j j2 (by omega)]

theorem mem_genSingles {nI nV : ℕ} {x y : List ℕ} : (x, y) ∈ genSingles nI nV ↔
    (∃ i, i ≤ nI ∧ x = (List.replicate nI 1).set i 0) ∧ ∃ j, j ≤ nV ∧ y = (List.replicate nV 0).set j 1 := by
  rw [genSingles_eq]
  simp only [List.mem_flatMap, List.mem_range, List.mem_singleton, Prod.mk.injEq]
  constructor
  · rintro ⟨i, hi, j, hj, h1, h2⟩; exact ⟨⟨i, by omega, h1⟩, j, by omega, h2⟩
  · rintro ⟨⟨i, hi, h1⟩, j, hj, h2⟩; exact ⟨i, by omega, j, by omega, h1, h2⟩

theorem mem_genDoubles {nI nV : ℕ} {x y : List ℕ} : (x, y) ∈ genDoubles nI nV ↔
    (∃ i j, i ≤ nI ∧ min (i + 1) nI ≤ j ∧ j ≤ nI ∧ x = ((List.replicate nI 1).set i 0).set j 0) ∧
      ∃ i j, i ≤ nV ∧ min (i + 1) nV ≤ j ∧ j ≤ nV ∧ y = ((List.replicate nV 0).set i 1).set j 1 := by
  rw [genDoubles_eq]
  simp only [List.mem_flatMap, List.mem_range, mem_pyRange, List.mem_singleton, Prod.mk.injEq]
  constructor
  · rintro ⟨i, hi, i2, hi2, j, hj, j2, hj2, h1, h2⟩
    exact ⟨⟨i, i2, by omega, by omega, by omega, h1⟩, j, j2, by omega, by omega, by omega, h2⟩
  · rintro ⟨⟨i, i2, h3, h4, h5, h1⟩, j, j2, h6, h7, h8, h2⟩
    exact ⟨i, by omega, i2, ⟨by omega, by omega⟩, j, by omega, j2, ⟨by omega, by omega⟩, h1, h2⟩

/-- Inactive and virtual parts with at most `k` holes and `k` particles. -/
def OuterPart (nI nV k : ℕ) (p : List ℕ × List ℕ) : Prop :=
  (p.1.length = nI ∧ Occ p.1 ∧ p.1.count 0 ≤ k) ∧ p.2.length = nV ∧ Occ p.2 ∧ p.2.count 1 ≤ k

theorem occ_or {x : List ℕ} : Occ x ↔ ∀ y ∈ x, y = 0 ∨ y = 1 := by
  unfold Occ
  exact forall₂_congr fun y _ => by omega

theorem occ_or' {x : List ℕ} : Occ x ↔ ∀ y ∈ x, y = 1 ∨ y = 0 := by
  unfold Occ
  exact forall₂_congr fun y _ => by omega

theorem outer_singles {nI nV : ℕ} {p : List ℕ × List ℕ} : p ∈ genSingles nI nV ↔ OuterPart nI nV 1 p := by
  obtain ⟨x, y⟩ := p
  rw [mem_genSingles, mem_set1 (by decide), mem_set1 (by decide), ← occ_or, ← occ_or']
  rfl

theorem outer_doubles {nI nV : ℕ} {p : List ℕ × List ℕ} : p ∈ genDoubles nI nV ↔ OuterPart nI nV 2 p := by
  obtain ⟨x, y⟩ := p
  rw [mem_genDoubles, mem_set2 (by decide), mem_set2 (by decide), ← occ_or, ← occ_or']
  rfl

theorem outer_ref {nI nV : ℕ} {p : List ℕ × List ℕ} :
    p = (List.replicate nI 1, List.replicate nV 0) ↔ OuterPart nI nV 0 p := by
  obtain ⟨x, y⟩ := p
  rw [Prod.mk.injEq, mem_set0 1 0 nI (by decide), mem_set0 0 1 nV (by decide), ← occ_or, ← occ_or']
  rfl

theorem OuterPart.mono {nI nV k m : ℕ} (h : k ≤ m) {p : List ℕ × List ℕ} (hp : OuterPart nI nV k p) :
    OuterPart nI nV m p :=
  ⟨⟨hp.1.1, hp.1.2.1, hp.1.2.2.trans h⟩, hp.2.1, hp.2.2.1, hp.2.2.2.trans h⟩

/-! ### Full strings -/

/-- A full occupation list with `e + nI` electrons, at most `k` holes and `k` particles. -/
def FullStr (nI nA nV : ℕ) (e : ℤ) (k : ℕ) (α : List ℕ) : Prop :=
  α.length = nI + nA + nV ∧ Occ α ∧ (α.count 1 : ℤ) = e + nI ∧
    (α.take nI).count 0 ≤ k ∧ (α.drop (nI + nA)).count 1 ≤ k

theorem fullStr_iff {nI nA nV k : ℕ} {e : ℤ} {α : List ℕ} : FullStr nI nA nV e k α ↔
    ∃ p s, OuterPart nI nV k p ∧ s ∈ genSpinStrings nA (activeElec e nI p) ∧ α = p.1 ++ s ++ p.2 := by
  constructor
  · rintro ⟨hl, ho, hc, h1, h2⟩
    have hsplit : α = α.take nI ++ (α.drop nI).take nA ++ α.drop (nI + nA) := by
      rw [List.append_assoc, ← List.drop_drop, List.take_append_drop, List.take_append_drop]
    refine ⟨(α.take nI, α.drop (nI + nA)), (α.drop nI).take nA, ?_, ?_, hsplit⟩
    · exact ⟨⟨by simp; omega, fun x hx => ho x (List.mem_of_mem_take hx), h1⟩, by simp; omega,
        fun x hx => ho x (List.mem_of_mem_drop hx), h2⟩
    · rw [mem_gen]
      refine ⟨by simp; omega, fun x hx => ho x (List.mem_of_mem_drop (List.mem_of_mem_take hx)), ?_⟩
      unfold activeElec
      have hcount := congrArg (List.count 1) hsplit
      rw [List.count_append, List.count_append] at hcount
      have o1 : Occ (α.take nI) := fun x hx => ho x (List.mem_of_mem_take hx)
      have o2 : Occ (α.drop (nI + nA)) := fun x hx => ho x (List.mem_of_mem_drop hx)
      dsimp only
      rw [o1.sum, o2.sum]
      omega
  · rintro ⟨⟨x, y⟩, s, ⟨⟨h1, h2, h3⟩, h4, h5, h6⟩, hs, rfl⟩
    rw [mem_gen] at hs
    obtain ⟨g1, g2, g3⟩ := hs
    dsimp only at *
    refine ⟨by simp [h1, h4, g1]; omega, ?_, ?_, ?_, ?_⟩
    · rw [Occ.append, Occ.append]; exact ⟨⟨h2, g2⟩, h5⟩
    · unfold activeElec at g3
      dsimp only at g3
      rw [h2.sum, h5.sum] at g3
      rw [List.count_append, List.count_append]
      push_cast
      omega
    · rw [List.append_assoc, List.take_left' h1]; exact h3
    · rw [List.drop_left' (by simp [h1, g1])]; exact h6

theorem activeElec_ref (e : ℤ) (nI nV : ℕ) :
    activeElec e nI (List.replicate nI 1, List.replicate nV 0) = e := by
  unfold activeElec; simp

/-! ### The loop -/

/-- Determinants of one block. -/
def blockDets (nA : ℕ) (pa pb : List ℕ × List ℕ) (na nb : ℤ) : List ℕ :=
  (pairs (genSpinStrings nA na) (genSpinStrings nA nb)).map fun p =>
    detOf (pa.1 ++ p.1 ++ pa.2) (pb.1 ++ p.2 ++ pb.2)

theorem indexBlock_eq {nI nA nV k m : ℕ} (hN : 0 < nI + nA + nV) {pa pb : List ℕ × List ℕ}
    (ha : OuterPart nI nV k pa) (hb : OuterPart nI nV m pb) (na nb : ℤ) (l : List ℕ) :
    indexBlock nA pa pb na nb (Indexing.of l)
      = .ok (Indexing.of ((blockDets nA pa pb na nb).foldl pushNew l)) := by
  unfold indexBlock
  rw [foldlM_pairs (fun st a b => indexStepSkip st (pa.1 ++ a ++ pa.2) (pb.1 ++ b ++ pb.2))]
  have := foldlM_skip ((pairs (genSpinStrings nA na) (genSpinStrings nA nb)).map fun p =>
    (pa.1 ++ p.1 ++ pa.2, pb.1 ++ p.2 ++ pb.2)) (by
      intro p hp
      obtain ⟨q, hq, rfl⟩ := List.mem_map.1 hp
      obtain ⟨q1, q2⟩ := mem_pairs.1 hq
      rw [mem_gen] at q1 q2
      exact detStr_ne_nil hN (by simp [ha.1.1, ha.2.1, q1.1]; omega) (by simp [hb.1.1, hb.2.1, q2.1]; omega)) l
  rw [List.foldlM_map, List.map_map] at this
  exact this

theorem foldlM_blocks {α : Type} (f : Indexing → α → Res Indexing) (g : α → List ℕ) (ps : List α)
    (h : ∀ p ∈ ps, ∀ l, f (Indexing.of l) p = .ok (Indexing.of ((g p).foldl pushNew l))) : ∀ l,
    ps.foldlM f (Indexing.of l) = .ok (Indexing.of ((ps.flatMap g).foldl pushNew l)) := by
  induction ps with
  | nil => intro l; rfl
  | cons p t ih =>
    intro l
    rw [List.foldlM_cons, h p (by simp), List.flatMap_cons, List.foldl_append]
    exact ih (fun q hq => h q (by simp [hq])) _

/-- All determinants offered to the extended space, in order. -/
def extendedDets (nI nA nV : ℕ) (na nb : ℤ) (doubles : Bool) : List ℕ :=
  let ref := (List.replicate nI 1, List.replicate nV 0)
  let outer := genSingles nI nV ++ if doubles then genDoubles nI nV else []
  blockDets nA ref ref na nb
    ++ (outer.flatMap fun p => blockDets nA p ref (activeElec na nI p) nb)
    ++ (outer.flatMap fun p => blockDets nA ref p na (activeElec nb nI p))
    ++ if doubles then (genSingles nI nV).flatMap fun p => (genSingles nI nV).flatMap fun q =>
        blockDets nA p q (activeElec na nI p) (activeElec nb nI q) else []

theorem extendedLoop_eq {nI nA nV : ℕ} (hN : 0 < nI + nA + nV) (na nb order : ℤ) :
    extendedLoop nI nA nV na nb order
      = .ok (Indexing.of ((extendedDets nI nA nV na nb (decide (order = 2))).foldl pushNew [])) := by
  have href : OuterPart nI nV 0 (List.replicate nI 1, List.replicate nV 0) := outer_ref.1 rfl
  have houter : ∀ p ∈ genSingles nI nV ++ (if order = 2 then genDoubles nI nV else []),
      OuterPart nI nV 2 p := by
    intro p hp
    rcases List.mem_append.1 hp with h | h
    · exact (outer_singles.1 h).mono (by omega)
    · split at h
      · exact outer_doubles.1 h
      · cases h
  unfold extendedLoop extendedDets
  dsimp only
  have e0 := indexBlock_eq hN href href na nb []
  rw [show (Indexing.of []) = {} from rfl] at e0
  rw [e0]
  dsimp only
  rw [foldlM_blocks _ (fun p => blockDets nA p (List.replicate nI 1, List.replicate nV 0) (activeElec na nI p) nb) _
    fun p hp l => indexBlock_eq hN (houter p hp) href _ _ l]
  dsimp only
  rw [foldlM_blocks _ (fun p => blockDets nA (List.replicate nI 1, List.replicate nV 0) p na (activeElec nb nI p)) _
    fun p hp l => indexBlock_eq hN href (houter p hp) _ _ l]
  dsimp only
  by_cases ho : order = 2
  · simp only [if_pos ho, decide_eq_true ho, if_true]
    rw [foldlM_blocks _ (fun p => (genSingles nI nV).flatMap fun q =>
        blockDets nA p q (activeElec na nI p) (activeElec nb nI q)) _ fun p hp l =>
      foldlM_blocks _ _ _ (fun q hq l => indexBlock_eq hN (outer_singles.1 hp) (outer_singles.1 hq) _ _ l) l]
    simp only [List.foldl_append]
  · simp only [if_neg ho, decide_eq_false ho, Bool.false_eq_true, if_false, List.foldl_append,
      List.foldl_nil]

theorem mem_block {nA : ℕ} {pa pb : List ℕ × List ℕ} {na nb : ℤ} {d : ℕ} :
    d ∈ blockDets nA pa pb na nb ↔ ∃ s ∈ genSpinStrings nA na, ∃ t ∈ genSpinStrings nA nb,
      d = detOf (pa.1 ++ s ++ pa.2) (pb.1 ++ t ++ pb.2) := by
  unfold blockDets
  rw [List.mem_map]
  constructor
  · rintro ⟨⟨s, t⟩, hp, rfl⟩
    obtain ⟨h1, h2⟩ := mem_pairs.1 hp
    exact ⟨s, h1, t, h2, rfl⟩
  · rintro ⟨s, hs, t, ht, rfl⟩
    exact ⟨(s, t), mem_pairs.2 ⟨hs, ht⟩, rfl⟩

/-- Membership in a family of blocks. -/
theorem mem_blocks {nI nA nV k m : ℕ} {na nb : ℤ} {d : ℕ} :
    (∃ p q, OuterPart nI nV k p ∧ OuterPart nI nV m q ∧
      d ∈ blockDets nA p q (activeElec na nI p) (activeElec nb nI q)) ↔
    ∃ α β, FullStr nI nA nV na k α ∧ FullStr nI nA nV nb m β ∧ d = detOf α β := by
  constructor
  · rintro ⟨p, q, hp, hq, hd⟩
    obtain ⟨s, hs, t, ht, rfl⟩ := mem_block.1 hd
    exact ⟨_, _, fullStr_iff.2 ⟨p, s, hp, hs, rfl⟩, fullStr_iff.2 ⟨q, t, hq, ht, rfl⟩, rfl⟩
  · rintro ⟨α, β, hα, hβ, rfl⟩
    obtain ⟨p, s, hp, hs, rfl⟩ := fullStr_iff.1 hα
    obtain ⟨q, t, hq, ht, rfl⟩ := fullStr_iff.1 hβ
    exact ⟨p, q, hp, hq, mem_block.2 ⟨s, hs, t, ht, rfl⟩⟩

/-- The classes of the extended space. -/
def ExtClass (nI nA nV : ℕ) (na nb : ℤ) (doubles : Bool) (α β : List ℕ) : Prop :=
  (FullStr nI nA nV na (if doubles then 2 else 1) α ∧ FullStr nI nA nV nb 0 β) ∨
  (FullStr nI nA nV na 0 α ∧ FullStr nI nA nV nb (if doubles then 2 else 1) β) ∨
  (doubles = true ∧ FullStr nI nA nV na 1 α ∧ FullStr nI nA nV nb 1 β)

theorem FullStr.mono {nI nA nV k m : ℕ} {e : ℤ} (h : k ≤ m) {α : List ℕ}
    (hα : FullStr nI nA nV e k α) : FullStr nI nA nV e m α :=
  ⟨hα.1, hα.2.1, hα.2.2.1, hα.2.2.2.1.trans h, hα.2.2.2.2.trans h⟩

theorem mem_extendedDets {nI nA nV : ℕ} {na nb : ℤ} {doubles : Bool} {d : ℕ} :
    d ∈ extendedDets nI nA nV na nb doubles ↔
      ∃ α β, ExtClass nI nA nV na nb doubles α β ∧ d = detOf α β := by
  have hout : ∀ p, p ∈ genSingles nI nV ++ (if doubles then genDoubles nI nV else []) ↔
      OuterPart nI nV (if doubles then 2 else 1) p := by
    intro p
    rw [List.mem_append, outer_singles]
    cases doubles
    · simp
    · simp only [if_true, outer_doubles]
      exact ⟨fun h => h.elim (fun h => h.mono (by omega)) id, Or.inr⟩
  have href : ∀ p, OuterPart nI nV 0 p ↔ p = (List.replicate nI 1, List.replicate nV 0) :=
    fun p => outer_ref.symm
  have k0 : d ∈ blockDets nA (List.replicate nI 1, List.replicate nV 0)
      (List.replicate nI 1, List.replicate nV 0) na nb ↔
      ∃ α β, FullStr nI nA nV na 0 α ∧ FullStr nI nA nV nb 0 β ∧ d = detOf α β := by
    rw [← mem_blocks]
    simp only [href]
    constructor
    · intro h; exact ⟨_, _, rfl, rfl, by rw [activeElec_ref, activeElec_ref]; exact h⟩
    · rintro ⟨_, _, rfl, rfl, h⟩; rwa [activeElec_ref, activeElec_ref] at h
  have k1 : (d ∈ (genSingles nI nV ++ (if doubles then genDoubles nI nV else [])).flatMap fun p =>
      blockDets nA p (List.replicate nI 1, List.replicate nV 0) (activeElec na nI p) nb) ↔
      ∃ α β, FullStr nI nA nV na (if doubles then 2 else 1) α ∧ FullStr nI nA nV nb 0 β ∧ d = detOf α β := by
    rw [← mem_blocks, List.mem_flatMap]
    simp only [href, hout]
    constructor
    · rintro ⟨p, hp, h⟩; exact ⟨p, _, hp, rfl, by rw [activeElec_ref]; exact h⟩
    · rintro ⟨p, _, hp, rfl, h⟩; rw [activeElec_ref] at h; exact ⟨p, hp, h⟩
  have k2 : (d ∈ (genSingles nI nV ++ (if doubles then genDoubles nI nV else [])).flatMap fun p =>
      blockDets nA (List.replicate nI 1, List.replicate nV 0) p na (activeElec nb nI p)) ↔
      ∃ α β, FullStr nI nA nV na 0 α ∧ FullStr nI nA nV nb (if doubles then 2 else 1) β ∧ d = detOf α β := by
    rw [← mem_blocks, List.mem_flatMap]
    simp only [href, hout]
    constructor
    · rintro ⟨p, hp, h⟩; exact ⟨_, p, rfl, hp, by rw [activeElec_ref]; exact h⟩
    · rintro ⟨_, p, rfl, hp, h⟩; rw [activeElec_ref] at h; exact ⟨p, hp, h⟩
  have k3 : (d ∈ if doubles then (genSingles nI nV).flatMap fun p => (genSingles nI nV).flatMap fun q =>
        blockDets nA p q (activeElec na nI p) (activeElec nb nI q) else []) ↔
      ∃ α β, doubles = true ∧ FullStr nI nA nV na 1 α ∧ FullStr nI nA nV nb 1 β ∧ d = detOf α β := by
    cases doubles
    · simp
    · simp only [if_true, true_and]
      rw [← mem_blocks]
      simp only [List.mem_flatMap, outer_singles]
      constructor
      · rintro ⟨p, hp, q, hq, h⟩; exact ⟨p, q, hp, hq, h⟩
      · rintro ⟨p, q, hp, hq, h⟩; exact ⟨p, hp, q, hq, h⟩
  unfold extendedDets
  dsimp only
  rw [List.mem_append, List.mem_append, List.mem_append, k0, k1, k2, k3]
  unfold ExtClass
  constructor
  · rintro (((⟨α, β, h1, h2, h3⟩ | ⟨α, β, h1, h2, h3⟩) | ⟨α, β, h1, h2, h3⟩) | ⟨α, β, h0, h1, h2, h3⟩)
    · exact ⟨α, β, Or.inl ⟨h1.mono (by split <;> omega), h2⟩, h3⟩
    · exact ⟨α, β, Or.inl ⟨h1, h2⟩, h3⟩
    · exact ⟨α, β, Or.inr (Or.inl ⟨h1, h2⟩), h3⟩
    · exact ⟨α, β, Or.inr (Or.inr ⟨h0, h1, h2⟩), h3⟩
  · rintro ⟨α, β, ⟨h1, h2⟩ | ⟨h1, h2⟩ | ⟨h0, h1, h2⟩, h3⟩
    · exact Or.inl (Or.inl (Or.inr ⟨α, β, h1, h2, h3⟩))
    · exact Or.inl (Or.inr ⟨α, β, h1, h2, h3⟩)
    · exact Or.inr ⟨α, β, h0, h1, h2, h3⟩

theorem ExtClass.full {nI nA nV : ℕ} {na nb : ℤ} {doubles : Bool} {α β : List ℕ}
    (h : ExtClass nI nA nV na nb doubles α β) : FullStr nI nA nV na 2 α ∧ FullStr nI nA nV nb 2 β := by
  rcases h with ⟨h1, h2⟩ | ⟨h1, h2⟩ | ⟨_, h1, h2⟩
  · exact ⟨h1.mono (by split <;> omega), h2.mono (by omega)⟩
  · exact ⟨h1.mono (by omega), h2.mono (by split <;> omega)⟩
  · exact ⟨h1.mono (by omega), h2.mono (by omega)⟩

/-! ### From strings to sets -/

/-- Occupied positions. -/
def ones (l : List ℕ) : Finset ℕ := (Finset.range l.length).filter fun p => l[p]? = some 1

theorem card_ones (l : List ℕ) : (ones l).card = l.count 1 := (count_eq_card l 1).symm

theorem mem_ones {l : List ℕ} {p : ℕ} : p ∈ ones l ↔ l.getD p 0 = 1 := by
  unfold ones
  rw [Finset.mem_filter, Finset.mem_range, List.getD_eq_getElem?_getD]
  constructor
  · rintro ⟨_, h⟩; rw [h]; rfl
  · intro h
    cases hp : l[p]? with
    | none => rw [hp] at h; simp at h
    | some x =>
      rw [hp] at h
      exact ⟨(List.getElem?_eq_some_iff.1 hp).1, by rw [← h]; rfl⟩

theorem holes_list {l : List ℕ} {m : ℕ} (h : m ≤ l.length) (ho : Occ l) :
    (l.take m).count 0 = (Finset.range m \ ones l).card := by
  rw [count_eq_card, List.length_take, min_eq_left h]
  congr 1
  ext p
  rw [Finset.mem_filter, Finset.mem_sdiff, mem_ones]
  constructor
  · rintro ⟨hp, h0⟩
    refine ⟨hp, ?_⟩
    rw [List.getElem?_take, if_pos (Finset.mem_range.1 hp)] at h0
    rw [List.getD_eq_getElem?_getD, h0]; simp
  · rintro ⟨hp, h1⟩
    have hlt : p < l.length := lt_of_lt_of_le (Finset.mem_range.1 hp) h
    refine ⟨hp, ?_⟩
    rw [List.getElem?_take, if_pos (Finset.mem_range.1 hp), List.getElem?_eq_getElem hlt]
    rw [List.getD_eq_getElem _ _ hlt] at h1
    have := ho _ (List.getElem_mem hlt)
    congr 1; omega

theorem parts_list {l : List ℕ} {m : ℕ} :
    (l.drop m).count 1 = ((ones l).filter fun p => m ≤ p).card := by
  rw [count_eq_card]
  refine Finset.card_bij (fun p _ => m + p) ?_ ?_ ?_
  · intro p hp
    rw [Finset.mem_filter, List.getElem?_drop] at hp
    rw [Finset.mem_filter, mem_ones, List.getD_eq_getElem?_getD, hp.2]
    exact ⟨rfl, by omega⟩
  · intro a _ b _ h; omega
  · intro q hq
    rw [Finset.mem_filter] at hq
    have h1 := (Finset.mem_filter.1 hq.1).2
    have h2 := Finset.mem_range.1 (Finset.mem_filter.1 hq.1).1
    refine ⟨q - m, ?_, by omega⟩
    rw [Finset.mem_filter, List.getElem?_drop, show m + (q - m) = q by omega, List.length_drop,
      Finset.mem_range]
    exact ⟨by omega, h1⟩

theorem spatOf_decode {n : ℕ} {a b : List ℕ} (ha : a.length = n) (hb : b.length = n) (oa : Occ a)
    (ob : Occ b) : spatOf n 0 (decode n (detOf a b)) = ones a ∧ spatOf n 1 (decode n (detOf a b)) = ones b := by
  constructor
  · ext p
    unfold spatOf
    rw [Finset.mem_filter, add_zero, (mem_decode_detOf ha hb oa ob).1, mem_ones]
    constructor
    · exact fun h => h.2
    · intro h
      refine ⟨?_, h⟩
      rw [Finset.mem_range]; by_contra hp
      rw [List.getD_eq_default _ _ (by omega)] at h; omega
  · ext p
    unfold spatOf
    rw [Finset.mem_filter, (mem_decode_detOf ha hb oa ob).2, mem_ones]
    constructor
    · exact fun h => h.2
    · intro h
      refine ⟨?_, h⟩
      rw [Finset.mem_range]; by_contra hp
      rw [List.getD_eq_default _ _ (by omega)] at h; omega

/-- The occupation list of a set of orbitals. -/
def occOf (n : ℕ) (T : Finset ℕ) : List ℕ := (List.range n).map fun p => if p ∈ T then 1 else 0

theorem occOf_length (n : ℕ) (T : Finset ℕ) : (occOf n T).length = n := by simp [occOf]

theorem occOf_occ (n : ℕ) (T : Finset ℕ) : Occ (occOf n T) := by
  intro x hx
  obtain ⟨p, _, rfl⟩ := List.mem_map.1 hx
  split <;> omega

theorem ones_occOf {n : ℕ} {T : Finset ℕ} (h : T ⊆ Finset.range n) : ones (occOf n T) = T := by
  ext p
  rw [mem_ones]
  unfold occOf
  by_cases hp : p < n
  · rw [List.getD_eq_getElem _ _ (by simpa using hp)]
    simp
  · rw [List.getD_eq_default _ _ (by simpa using hp)]
    simp only [zero_ne_one, false_iff]
    intro hm; exact hp (Finset.mem_range.1 (h hm))

theorem spatOf_sub (n σ : ℕ) (S : Finset ℕ) : spatOf n σ S ⊆ Finset.range n := Finset.filter_subset _ _

theorem decode_occOf {n : ℕ} {S : Finset ℕ} (hS : S ⊆ Finset.range (2 * n)) :
    decode n (detOf (occOf n (spatOf n 0 S)) (occOf n (spatOf n 1 S))) = S := by
  have hm := fun p => mem_decode_detOf (occOf_length n (spatOf n 0 S)) (occOf_length n (spatOf n 1 S))
    (occOf_occ _ _) (occOf_occ _ _) (p := p)
  ext q
  rcases Nat.even_or_odd' q with ⟨p, rfl | rfl⟩
  · rw [(hm p).1, ← mem_ones, ones_occOf (spatOf_sub _ _ _)]
    unfold spatOf
    rw [Finset.mem_filter, add_zero]
    constructor
    · exact fun h => h.2
    · intro h; have := Finset.mem_range.1 (hS h); exact ⟨by rw [Finset.mem_range]; omega, h⟩
  · rw [(hm p).2, ← mem_ones, ones_occOf (spatOf_sub _ _ _)]
    unfold spatOf
    rw [Finset.mem_filter]
    constructor
    · exact fun h => h.2
    · intro h; have := Finset.mem_range.1 (hS h); exact ⟨by rw [Finset.mem_range]; omega, h⟩

theorem decode_sub (n d : ℕ) : decode n d ⊆ Finset.range (2 * n) := Finset.filter_subset _ _

theorem holes_eq {nI m σ : ℕ} (h : nI ≤ m) (S : Finset ℕ) :
    holes nI σ S = (Finset.range nI \ spatOf m σ S).card := by
  unfold holes
  congr 1
  ext p
  unfold spatOf
  simp only [Finset.mem_sdiff, Finset.mem_filter, Finset.mem_range]
  constructor
  · rintro ⟨h1, h2⟩; exact ⟨h1, fun h3 => h2 ⟨h1, h3.2⟩⟩
  · rintro ⟨h1, h2⟩; exact ⟨h1, fun h3 => h2 ⟨by omega, h3.2⟩⟩

theorem fullStr_set {nI nA nV k σ : ℕ} {e : ℤ} {α : List ℕ} {S : Finset ℕ}
    (hl : α.length = nI + nA + nV) (ho : Occ α) (hs : spatOf (nI + nA + nV) σ S = ones α) :
    FullStr nI nA nV e k α ↔ ((spatOf (nI + nA + nV) σ S).card : ℤ) = e + nI ∧ AtMost nI nA nV k σ S := by
  unfold FullStr AtMost particles
  rw [holes_eq (m := nI + nA + nV) (by omega), hs, card_ones, holes_list (by omega) ho, parts_list]
  constructor
  · rintro ⟨_, _, h1, h2, h3⟩; exact ⟨h1, h2, h3⟩
  · rintro ⟨h1, h2, h3⟩; exact ⟨hl, ho, h1, h2, h3⟩

theorem mem_extended_set {nI nA nV : ℕ} {na nb : ℤ} {doubles : Bool} {S : Finset ℕ} :
    (∃ α β, ExtClass nI nA nV na nb doubles α β ∧ decode (nI + nA + nV) (detOf α β) = S) ↔
      InExtended nI nA nV na nb doubles S := by
  constructor
  · rintro ⟨α, β, hc, rfl⟩
    obtain ⟨hα, hβ⟩ := hc.full
    have hs := spatOf_decode hα.1 hβ.1 hα.2.1 hβ.2.1
    have fa : ∀ k, FullStr nI nA nV na k α ↔ _ := fun k => fullStr_set hα.1 hα.2.1 hs.1
    have fb : ∀ k, FullStr nI nA nV nb k β ↔ _ := fun k => fullStr_set hβ.1 hβ.2.1 hs.2
    refine ⟨⟨decode_sub _ _, ((fa 2).1 hα).1, ((fb 2).1 hβ).1⟩, ?_⟩
    cases doubles
    · rcases hc with ⟨h1, h2⟩ | ⟨h1, h2⟩ | ⟨h0, _⟩
      · exact Or.inl ⟨((fa _).1 h1).2, ((fb _).1 h2).2⟩
      · exact Or.inr ⟨((fa _).1 h1).2, ((fb _).1 h2).2⟩
      · cases h0
    · rcases hc with ⟨h1, h2⟩ | ⟨h1, h2⟩ | ⟨_, h1, h2⟩
      · exact Or.inl ⟨((fa _).1 h1).2, ((fb _).1 h2).2⟩
      · exact Or.inr (Or.inl ⟨((fa _).1 h1).2, ((fb _).1 h2).2⟩)
      · exact Or.inr (Or.inr ⟨((fa _).1 h1).2, ((fb _).1 h2).2⟩)
  · rintro ⟨⟨hS, h1, h2⟩, hc⟩
    refine ⟨occOf _ (spatOf (nI + nA + nV) 0 S), occOf _ (spatOf (nI + nA + nV) 1 S), ?_, decode_occOf hS⟩
    have fa : ∀ k, FullStr nI nA nV na k (occOf _ (spatOf (nI + nA + nV) 0 S)) ↔ _ := fun k =>
      fullStr_set (occOf_length _ _) (occOf_occ _ _) (ones_occOf (spatOf_sub _ _ _)).symm
    have fb : ∀ k, FullStr nI nA nV nb k (occOf _ (spatOf (nI + nA + nV) 1 S)) ↔ _ := fun k =>
      fullStr_set (occOf_length _ _) (occOf_occ _ _) (ones_occOf (spatOf_sub _ _ _)).symm
    cases doubles
    · rcases hc with ⟨a, b⟩ | ⟨a, b⟩
      · exact Or.inl ⟨(fa _).2 ⟨h1, a⟩, (fb _).2 ⟨h2, b⟩⟩
      · exact Or.inr (Or.inl ⟨(fa _).2 ⟨h1, a⟩, (fb _).2 ⟨h2, b⟩⟩)
    · rcases hc with ⟨a, b⟩ | ⟨a, b⟩ | ⟨a, b⟩
      · exact Or.inl ⟨(fa _).2 ⟨h1, a⟩, (fb _).2 ⟨h2, b⟩⟩
      · exact Or.inr (Or.inl ⟨(fa _).2 ⟨h1, a⟩, (fb _).2 ⟨h2, b⟩⟩)
      · exact Or.inr (Or.inr ⟨rfl, (fa _).2 ⟨h1, a⟩, (fb _).2 ⟨h2, b⟩⟩)

end SQ
