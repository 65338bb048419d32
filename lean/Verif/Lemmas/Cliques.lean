import Verif.Spec.Cliques

/-! # Lemmas: Pauli cliques -/

namespace SQ

theorem clash_symm {a b : List Char} (h : Clash a b) : Clash b a := by
  obtain ⟨i, x, y, h1, h2, h3, h4, h5⟩ := h
  exact ⟨i, y, x, h2, h1, h4, h3, h5.symm⟩

theorem Covers.clash {a b c : List Char} (h : Covers a b) (hc : Clash b c) : Clash a c := by
  obtain ⟨i, x, y, h1, h2, h3, h4, h5⟩ := hc
  exact ⟨i, x, y, h.2 i x h1 h3, h2, h3, h4, h5⟩

theorem Covers.refl (a : List Char) : Covers a a := ⟨rfl, fun _ _ h _ => h⟩

theorem Covers.trans {a b c : List Char} (h1 : Covers a b) (h2 : Covers b c) : Covers a c :=
  ⟨h1.1.trans h2.1, fun i x hx hI => h1.2 i x (h2.2 i x hx hI) hI⟩

theorem Clash.ne {a b : List Char} (h : Clash a b) : a ≠ b := by
  obtain ⟨i, x, y, h1, h2, h3, h4, h5⟩ := h
  rintro rfl
  exact h5 (Option.some.inj (h1.symm.trans h2))

theorem Covers.not_clash {a b : List Char} (h : Covers a b) : ¬ Clash a b := by
  rintro ⟨i, x, y, h1, h2, h3, h4, h5⟩
  exact h5 (Option.some.inj (h1.symm.trans (h.2 i y h2 h4)))

theorem commuting_iff (a b : List Char) : commuting a b = true ↔ ¬ Clash a b := by
  induction a generalizing b with
  | nil =>
    have : commuting [] b = true := by cases b <;> rfl
    simp only [this, true_iff]
    rintro ⟨i, x, y, h1, -⟩
    simp at h1
  | cons c cs ih =>
    cases b with
    | nil =>
      simp only [commuting, true_iff]
      rintro ⟨i, x, y, -, h1, -⟩
      simp at h1
    | cons p ps =>
      have hsplit : Clash (c :: cs) (p :: ps) ↔ (c ≠ 'I' ∧ p ≠ 'I' ∧ c ≠ p) ∨ Clash cs ps := by
        constructor
        · rintro ⟨i, x, y, h1, h2, h3⟩
          cases i with
          | zero =>
            rw [List.getElem?_cons_zero, Option.some.injEq] at h1 h2
            subst h1 h2
            exact Or.inl h3
          | succ i => exact Or.inr ⟨i, x, y, by simpa using h1, by simpa using h2, h3⟩
        · rintro (h | ⟨i, x, y, h1, h2, h3⟩)
          · exact ⟨0, c, p, rfl, rfl, h⟩
          · exact ⟨i + 1, x, y, by simpa using h1, by simpa using h2, h3⟩
      rw [hsplit]
      unfold commuting
      by_cases hI : c = 'I' ∨ p = 'I'
      · rw [if_pos hI, ih]
        tauto
      · rw [if_neg hI]
        by_cases hc : c ≠ p
        · rw [if_pos hc]
          push Not at hI
          simp only [Bool.false_eq_true, false_iff, not_not]
          exact Or.inl ⟨hI.1, hI.2, hc⟩
        · rw [if_neg hc, ih]
          tauto

/-- The head after joining. -/
def mergeHead (head pauli : List Char) : List Char :=
  (head.zip pauli).map fun cp => if cp.1 ≠ 'I' then cp.1 else cp.2

theorem fit_eq (p h : List Char) : fitInClique p h = if commuting h p then (true, mergeHead h p) else (false, []) := rfl

theorem fit_pos {p h : List Char} (hc : ¬ Clash h p) : fitInClique p h = (true, mergeHead h p) := by
  rw [fit_eq, if_pos ((commuting_iff h p).2 hc)]

theorem fit_neg {p h : List Char} (hc : Clash h p) : fitInClique p h = (false, []) := by
  rw [fit_eq, if_neg (fun h' => (commuting_iff h p).1 h' hc)]

theorem mergeHead_get {h p : List Char} (hl : h.length = p.length) (i : ℕ) :
    (mergeHead h p)[i]? = match h[i]?, p[i]? with
      | some a, some b => some (if a ≠ 'I' then a else b)
      | _, _ => none := by
  unfold mergeHead
  rw [List.zip_eq_zipWith, List.getElem?_map, List.getElem?_zipWith]
  cases h[i]? <;> cases p[i]? <;> rfl

theorem merge_covers {h p : List Char} (hl : h.length = p.length) (hc : ¬ Clash h p) :
    Covers (mergeHead h p) h ∧ Covers (mergeHead h p) p := by
  have hlen : (mergeHead h p).length = h.length := by unfold mergeHead; rw [List.length_map, List.length_zip, hl, min_self]
  refine ⟨⟨hlen, fun i x hx hI => ?_⟩, ⟨hlen.trans hl, fun i x hx hI => ?_⟩⟩
  · have hi : i < p.length := hl ▸ (List.getElem?_eq_some_iff.1 hx).1
    rw [mergeHead_get hl, hx, List.getElem?_eq_getElem hi]
    simp [hI]
  · have hi : i < h.length := hl.symm ▸ (List.getElem?_eq_some_iff.1 hx).1
    rw [mergeHead_get hl, hx, List.getElem?_eq_getElem hi]
    by_cases h0 : h[i] = 'I'
    · simp [h0]
    · have : h[i] = x := by
        by_contra hne
        exact hc ⟨i, h[i], x, List.getElem?_eq_getElem hi, hx, h0, hI, hne⟩
      simp [this]

theorem merge_eq_of_covers {h p : List Char} (hc : Covers h p) : mergeHead h p = h := by
  refine List.ext_getElem? fun i => ?_
  rw [mergeHead_get hc.1]
  cases hh : h[i]? with
  | none => rfl
  | some a =>
    have hi : i < p.length := hc.1 ▸ (List.getElem?_eq_some_iff.1 hh).1
    rw [List.getElem?_eq_getElem hi]
    by_cases ha : a = 'I'
    · by_cases hp : p[i] = 'I'
      · simp [ha, hp]
      · have := hc.2 i _ (List.getElem?_eq_getElem hi) hp
        rw [hh, ha, Option.some.injEq] at this
        exact absurd this.symm hp
    · simp [ha]

/-! ### Locating a label -/

/-- The first head that does not clash with `q` covers it. -/
def Located (q : List Char) (hs : List (List Char)) : Prop :=
  ∃ l h r, hs = l ++ h :: r ∧ Covers h q ∧ ∀ g ∈ l, Clash g q

theorem located_cons_pos {q h : List Char} {hs : List (List Char)} (hc : Covers h q) : Located q (h :: hs) :=
  ⟨[], h, hs, rfl, hc, by simp⟩

theorem located_cons_neg {q h : List Char} {hs : List (List Char)} (hc : Clash h q) (hl : Located q hs) :
    Located q (h :: hs) := by
  obtain ⟨l, g, r, rfl, h1, h2⟩ := hl
  refine ⟨h :: l, g, r, rfl, h1, fun x hx => ?_⟩
  rcases List.mem_cons.1 hx with rfl | hx
  · exact hc
  · exact h2 x hx

theorem located_cons {q h : List Char} {hs : List (List Char)} :
    Located q (h :: hs) ↔ Covers h q ∨ Clash h q ∧ Located q hs := by
  constructor
  · rintro ⟨l, g, r, he, h1, h2⟩
    cases l with
    | nil => rw [List.nil_append, List.cons.injEq] at he; rw [he.1]; exact Or.inl h1
    | cons a l =>
      rw [List.cons_append, List.cons.injEq] at he
      exact Or.inr ⟨by rw [he.1]; exact h2 a (by simp), l, g, r, he.2, h1, fun x hx => h2 x (by simp [hx])⟩
  · rintro (h | ⟨h1, h2⟩)
    · exact located_cons_pos h
    · exact located_cons_neg h1 h2

def headsOf (cs : List CliqueHead) : List (List Char) := cs.map CliqueHead.head

theorem addPauli_pos {p : List Char} {c : CliqueHead} {cs : List CliqueHead} (h : ¬ Clash c.head p) :
    addPauli p (c :: cs) =
      (if mergeHead c.head p ≠ c.head then ⟨mergeHead c.head p, SaverData.empty⟩ else ⟨mergeHead c.head p, c.data⟩) :: cs := by
  rw [addPauli, fit_pos h]; rfl

theorem addPauli_neg {p : List Char} {c : CliqueHead} {cs : List CliqueHead} (h : Clash c.head p) :
    addPauli p (c :: cs) = c :: addPauli p cs := by
  rw [addPauli, fit_neg h]; rfl

theorem headsOf_addPauli_pos {p : List Char} {c : CliqueHead} {cs : List CliqueHead} (h : ¬ Clash c.head p) :
    headsOf (addPauli p (c :: cs)) = mergeHead c.head p :: headsOf cs := by
  rw [addPauli_pos h]
  unfold headsOf
  rw [List.map_cons]
  split_ifs <;> rfl

theorem headsOf_addPauli_neg {p : List Char} {c : CliqueHead} {cs : List CliqueHead} (h : Clash c.head p) :
    headsOf (addPauli p (c :: cs)) = c.head :: headsOf (addPauli p cs) := by
  rw [addPauli_neg h]; rfl

/-- What holds of the heads after any history. -/
structure HeadsInv (n : ℕ) (added : List (List Char)) (hs : List (List Char)) : Prop where
  len : ∀ h ∈ hs, h.length = n
  clash : hs.Pairwise Clash
  found : ∀ q ∈ added, Located q hs

theorem addPauli_heads_mem {n : ℕ} {p : List Char} (hp : p.length = n) {cs : List CliqueHead}
    (hl : ∀ h ∈ headsOf cs, h.length = n) {d : List Char} (hd : d ∈ headsOf (addPauli p cs)) :
    (∃ e ∈ headsOf cs, Covers d e) ∨ d = p := by
  induction cs with
  | nil =>
    simp only [addPauli, headsOf, List.map_cons, List.map_nil, List.mem_singleton] at hd
    exact Or.inr hd
  | cons c cs ih =>
    have hc : c.head.length = p.length := (hl c.head (by simp [headsOf])).trans hp.symm
    by_cases h : Clash c.head p
    · rw [headsOf_addPauli_neg h] at hd
      rcases List.mem_cons.1 hd with rfl | hd
      · exact Or.inl ⟨_, by simp [headsOf], Covers.refl _⟩
      · rcases ih (fun x hx => hl x (by simp only [headsOf, List.map_cons, List.mem_cons]; exact Or.inr hx)) hd with
          ⟨e, he, h'⟩ | h'
        · exact Or.inl ⟨e, by simp only [headsOf, List.map_cons, List.mem_cons]; exact Or.inr he, h'⟩
        · exact Or.inr h'
    · rw [headsOf_addPauli_pos h] at hd
      rcases List.mem_cons.1 hd with rfl | hd
      · exact Or.inl ⟨c.head, by simp [headsOf], (merge_covers hc h).1⟩
      · exact Or.inl ⟨d, by simp only [headsOf, List.map_cons, List.mem_cons]; exact Or.inr hd, Covers.refl _⟩

theorem addPauli_inv {n : ℕ} {p : List Char} (hp : p.length = n) {added : List (List Char)} {cs : List CliqueHead}
    (h : HeadsInv n added (headsOf cs)) : HeadsInv n (added ++ [p]) (headsOf (addPauli p cs)) := by
  refine ⟨fun d hd => ?_, ?_, fun q hq => ?_⟩
  · rcases addPauli_heads_mem hp h.len hd with ⟨e, he, hc⟩ | rfl
    · exact hc.1.trans (h.len e he)
    · exact hp
  · obtain ⟨hl, hcl, -⟩ := h
    induction cs with
    | nil => simp [addPauli, headsOf]
    | cons c cs ih =>
      have hc : c.head.length = p.length := (hl c.head (by simp [headsOf])).trans hp.symm
      have hl' : ∀ h ∈ headsOf cs, h.length = n := fun x hx =>
        hl x (by simp only [headsOf, List.map_cons, List.mem_cons]; exact Or.inr hx)
      have hcl' : (∀ d ∈ headsOf cs, Clash c.head d) ∧ (headsOf cs).Pairwise Clash := List.pairwise_cons.1 hcl
      by_cases h : Clash c.head p
      · rw [headsOf_addPauli_neg h]
        refine List.pairwise_cons.2 ⟨fun d hd => ?_, ih hl' hcl'.2⟩
        rcases addPauli_heads_mem hp hl' hd with ⟨e, he, hcov⟩ | rfl
        · exact clash_symm (hcov.clash (clash_symm (hcl'.1 e he)))
        · exact h
      · rw [headsOf_addPauli_pos h]
        exact List.pairwise_cons.2 ⟨fun d hd => (merge_covers hc h).1.clash (hcl'.1 d hd), hcl'.2⟩
  · obtain ⟨hl, -, hf⟩ := h
    rcases List.mem_append.1 hq with hq | hq
    · have hloc := hf q hq
      clear hf hq
      induction cs with
      | nil => obtain ⟨l, g, r, he, -⟩ := hloc; simp [headsOf] at he
      | cons c cs ih =>
        have hc : c.head.length = p.length := (hl c.head (by simp [headsOf])).trans hp.symm
        have hl' : ∀ h ∈ headsOf cs, h.length = n := fun x hx =>
          hl x (by simp only [headsOf, List.map_cons, List.mem_cons]; exact Or.inr hx)
        have hloc' : Covers c.head q ∨ Clash c.head q ∧ Located q (headsOf cs) := located_cons.1 hloc
        by_cases h : Clash c.head p
        · rw [headsOf_addPauli_neg h]
          rcases hloc' with h1 | ⟨h1, h2⟩
          · exact located_cons_pos h1
          · exact located_cons_neg h1 (ih hl' h2)
        · rw [headsOf_addPauli_pos h]
          rcases hloc' with h1 | ⟨h1, h2⟩
          · exact located_cons_pos ((merge_covers hc h).1.trans h1)
          · exact located_cons_neg ((merge_covers hc h).1.clash h1) h2
    · rw [List.mem_singleton] at hq
      subst hq
      clear hf
      induction cs with
      | nil => exact ⟨[], q, [], rfl, Covers.refl _, by simp⟩
      | cons c cs ih =>
        have hc : c.head.length = q.length := (hl c.head (by simp [headsOf])).trans hp.symm
        by_cases h : Clash c.head q
        · rw [headsOf_addPauli_neg h]
          exact located_cons_neg h (ih fun x hx =>
            hl x (by simp only [headsOf, List.map_cons, List.mem_cons]; exact Or.inr hx))
        · rw [headsOf_addPauli_pos h]
          exact located_cons_pos (merge_covers hc h).2

theorem addPauli_data {p : List Char} {cs : List CliqueHead} {d : CliqueHead} (hd : d ∈ addPauli p cs) :
    d ∈ cs ∨ d.data = SaverData.empty := by
  induction cs with
  | nil => rw [addPauli, List.mem_singleton] at hd; rw [hd]; exact Or.inr rfl
  | cons c cs ih =>
    by_cases h : Clash c.head p
    · rw [addPauli_neg h] at hd
      rcases List.mem_cons.1 hd with rfl | hd
      · simp
      · rcases ih hd with h | h
        · exact Or.inl (by simp [h])
        · exact Or.inr h
    · rw [addPauli_pos h] at hd
      rcases List.mem_cons.1 hd with rfl | hd
      · by_cases hm : mergeHead c.head p ≠ c.head
        · rw [if_pos hm]; exact Or.inr rfl
        · rw [if_neg hm]
          push Not at hm
          rw [hm]
          exact Or.inl (by simp)
      · exact Or.inl (by simp [hd])

theorem mem_dictPut {α : Type} {d : List (ℕ × α)} {k : ℕ} {v : α} {x : ℕ × α} (hx : x ∈ dictPut d k v) :
    x ∈ d ∨ x = (k, v) := by
  unfold dictPut at hx
  split_ifs at hx
  · obtain ⟨y, hy, rfl⟩ := List.mem_map.1 hx
    split_ifs
    · exact Or.inr rfl
    · exact Or.inl hy
  · rcases List.mem_append.1 hx with hx | hx
    · exact Or.inl hx
    · exact Or.inr (List.mem_singleton.1 hx)

theorem lookup_dictPut {α : Type} (d : List (ℕ × α)) (k : ℕ) (v : α) (k' : ℕ) :
    (dictPut d k v).lookup k' = if k' = k then some v else d.lookup k' := by
  unfold dictPut
  by_cases h : (d.any fun kv => kv.1 == k) = true
  · rw [if_pos h]
    induction d with
    | nil => simp at h
    | cons x d ih =>
      obtain ⟨a, b⟩ := x
      rw [List.map_cons]
      by_cases ha : a = k
      · subst ha
        simp only [if_true]
        by_cases hk : k' = a
        · subst hk; simp [List.lookup]
        · have h1 : (k' == a) = false := by simpa using hk
          rw [List.lookup, h1, if_neg hk]
          simp only [List.lookup, h1]
          by_cases h' : (d.any fun kv => kv.1 == a) = true
          · rw [ih h', if_neg hk]
          · have hmap : d.map (fun kv => if kv.1 = a then (a, v) else kv) = d := by
              refine (List.map_congr_left fun y hy => ?_).trans (List.map_id _)
              have : y.1 ≠ a := fun e => h' (List.any_eq_true.2 ⟨y, hy, by simpa using e⟩)
              simp [this]
            rw [hmap]
      · simp only [if_neg ha]
        have h' : (d.any fun kv => kv.1 == k) = true := by
          rw [List.any_cons] at h
          have : (a == k) = false := by simpa using ha
          simpa [this] using h
        by_cases hk : k' = a
        · subst hk; simp [List.lookup, ha]
        · have h1 : (k' == a) = false := by simpa using hk
          simp only [List.lookup, h1]
          exact ih h'
  · rw [if_neg h]
    induction d with
    | nil =>
      by_cases hk : k' = k
      · subst hk; simp [List.lookup]
      · have h1 : (k' == k) = false := by simpa using hk
        simp [List.lookup, h1, hk]
    | cons x d ih =>
      obtain ⟨a, b⟩ := x
      have ha : a ≠ k := fun e => h (by simp [e])
      have h' : ¬ (d.any fun kv => kv.1 == k) = true := fun e => h (by rw [List.any_cons, e]; simp)
      by_cases hk : k' = a
      · subst hk; simp [List.lookup, ha]
      · have h1 : (k' == a) = false := by simpa using hk
        simp only [List.cons_append, List.lookup, h1]
        exact ih h'

theorem headsOf_updateHeads (h : List Char) (d : Distr) (m : ℕ) (cs : List CliqueHead) :
    headsOf (updateHeads h d m cs).2 = headsOf cs := by
  induction cs with
  | nil => rfl
  | cons c cs ih =>
    unfold updateHeads
    split_ifs with hh
    · split
      · rfl
      · rfl
      · show c.head :: headsOf _ = _; rw [ih]; rfl
    · show c.head :: headsOf _ = _; rw [ih]; rfl

theorem updateHeads_data {h : List Char} {d : Distr} {m : ℕ} {cs : List CliqueHead} {c : CliqueHead}
    (hc : c ∈ (updateHeads h d m cs).2) {k : ℕ} {x : Distr} (hx : (k, x) ∈ c.data) :
    (∃ c' ∈ cs, c'.head = c.head ∧ (k, x) ∈ c'.data) ∨ (h = c.head ∧ k = m ∧ x = d) := by
  induction cs with
  | nil => simp [updateHeads] at hc
  | cons b cs ih =>
    have step : c ∈ (updateHeads h d m cs).2 →
        (∃ c' ∈ b :: cs, c'.head = c.head ∧ (k, x) ∈ c'.data) ∨ (h = c.head ∧ k = m ∧ x = d) := fun hc => by
      rcases ih hc with ⟨c', h1, h2⟩ | h'
      · exact Or.inl ⟨c', by simp [h1], h2⟩
      · exact Or.inr h'
    unfold updateHeads at hc
    split_ifs at hc with hh
    · split at hc
      · exact Or.inl ⟨c, hc, rfl, hx⟩
      · exact Or.inl ⟨c, hc, rfl, hx⟩
      · rcases List.mem_cons.1 hc with rfl | hc
        · rcases mem_dictPut hx with hx | hx
          · exact Or.inl ⟨b, by simp, rfl, hx⟩
          · rw [Prod.mk.injEq] at hx
            exact Or.inr ⟨hh, hx⟩
        · exact step hc
    · rcases List.mem_cons.1 hc with rfl | hc
      · exact Or.inl ⟨c, by simp, rfl, hx⟩
      · exact step hc

theorem headsOf_updateAll (m : ℕ) (l : List (List Char × Distr)) (cs : List CliqueHead) :
    headsOf (updateAll m l cs).2 = headsOf cs := by
  induction l generalizing cs with
  | nil => rfl
  | cons hd l ih =>
    unfold updateAll
    have := headsOf_updateHeads hd.1 hd.2 m cs
    split
    · rename_i h; rw [h] at this; exact this
    · rename_i h; rw [h] at this; rw [ih]; exact this

theorem updateAll_data {m : ℕ} {l : List (List Char × Distr)} {cs : List CliqueHead} {c : CliqueHead}
    (hc : c ∈ (updateAll m l cs).2) {k : ℕ} {x : Distr} (hx : (k, x) ∈ c.data) :
    (∃ c' ∈ cs, c'.head = c.head ∧ (k, x) ∈ c'.data) ∨ (k = m ∧ (c.head, x) ∈ l) := by
  induction l generalizing cs with
  | nil => exact Or.inl ⟨c, hc, rfl, hx⟩
  | cons hd l ih =>
    unfold updateAll at hc
    have hstep : ∀ cs', (updateHeads hd.1 hd.2 m cs).2 = cs' →
        (∃ c' ∈ cs', c'.head = c.head ∧ (k, x) ∈ c'.data) →
        (∃ c' ∈ cs, c'.head = c.head ∧ (k, x) ∈ c'.data) ∨ (k = m ∧ (c.head, x) ∈ hd :: l) := by
      rintro cs' rfl ⟨c', h1, h2, h3⟩
      rcases updateHeads_data h1 h3 with ⟨c'', g1, g2, g3⟩ | ⟨g1, g2, g3⟩
      · exact Or.inl ⟨c'', g1, g2.trans h2, g3⟩
      · refine Or.inr ⟨g2, ?_⟩
        rw [← h2, ← g1, g3]; simp
    split at hc
    · rename_i h
      exact hstep _ (by rw [h]) ⟨c, hc, rfl, hx⟩
    · rename_i h
      rcases ih hc with h' | ⟨h1, h2⟩
      · exact hstep _ (by rw [h]) h'
      · exact Or.inr ⟨h1, by simp [h2]⟩

theorem updateDistr_snd (cs : List CliqueHead) (hs : List (List Char)) (ds : List Distr) (m : ℕ) :
    (updateDistr cs hs ds m).2 = (updateAll m (hs.zip ds) cs).2 := by
  unfold updateDistr
  split <;> rename_i h <;> rw [h]

theorem headsOf_updateDistr (cs : List CliqueHead) (hs : List (List Char)) (ds : List Distr) (m : ℕ) :
    headsOf (updateDistr cs hs ds m).2 = headsOf cs := by
  rw [updateDistr_snd, headsOf_updateAll]

theorem mem_sortedReverse {l : List (List Char)} {x : List Char} : x ∈ sortedReverse l ↔ x ∈ l :=
  (List.mergeSort_perm l _).mem_iff

theorem foldl_addPauli_inv {n : ℕ} (ps : List (List Char)) (hp : ∀ p ∈ ps, p.length = n) {added : List (List Char)}
    {cs : List CliqueHead} (h : HeadsInv n added (headsOf cs)) :
    HeadsInv n (added ++ ps) (headsOf (ps.foldl (fun cs p => addPauli p cs) cs)) := by
  induction ps generalizing added cs with
  | nil => simpa using h
  | cons p ps ih =>
    have := ih (fun q hq => hp q (by simp [hq])) (addPauli_inv (hp p (by simp)) h)
    simpa using this

theorem foldl_addPauli_data (ps : List (List Char)) {cs : List CliqueHead} {d : CliqueHead}
    (hd : d ∈ ps.foldl (fun cs p => addPauli p cs) cs) : d ∈ cs ∨ d.data = SaverData.empty := by
  induction ps generalizing cs with
  | nil => exact Or.inl hd
  | cons p ps ih =>
    rcases ih hd with h | h
    · exact addPauli_data h
    · exact Or.inr h

/-- The list `add_paulis` starts from. -/
def startCliques (cliques : List CliqueHead) (paulis : List (List Char)) : List CliqueHead :=
  match cliques, paulis with
  | [], p :: _ => [⟨List.replicate p.length 'Z', SaverData.empty⟩]
  | cs, _ => cs

theorem addPaulis_eq (cs : List CliqueHead) (ps : List (List Char)) (h : ¬ (cs = [] ∧ ps = [])) :
    addPaulis cs ps = (newHeads ((sortedReverse ps).foldl (fun cs p => addPauli p cs) (startCliques cs ps)),
      (sortedReverse ps).foldl (fun cs p => addPauli p cs) (startCliques cs ps)) := by
  unfold addPaulis
  rw [if_neg h]
  rfl

theorem addPaulis_inv {n : ℕ} {ps : List (List Char)} (hp : ∀ p ∈ ps, p.length = n) {added : List (List Char)}
    {cs : List CliqueHead} (h : HeadsInv n added (headsOf cs)) :
    HeadsInv n (added ++ ps) (headsOf (addPaulis cs ps).2) ∧
      ∀ d ∈ (addPaulis cs ps).2, d ∈ cs ∨ d.data = SaverData.empty := by
  by_cases h0 : cs = [] ∧ ps = []
  · have e : addPaulis cs ps = (.error .indexError, cs) := by unfold addPaulis; rw [if_pos h0]
    rw [e]
    exact ⟨by rw [h0.2, List.append_nil]; exact h, fun d hd => Or.inl hd⟩
  · rw [addPaulis_eq cs ps h0]
    have hstart : HeadsInv n added (headsOf (startCliques cs ps)) ∧
        ∀ d ∈ startCliques cs ps, d ∈ cs ∨ d.data = SaverData.empty := by
      match cs, ps with
      | [], [] => exact absurd ⟨rfl, rfl⟩ h0
      | [], p :: ps =>
        have hn : added = [] := by
          cases added with
          | nil => rfl
          | cons q l =>
            obtain ⟨l, g, r, he, -⟩ := h.found q (by simp)
            simp [headsOf] at he
        refine ⟨⟨fun x hx => ?_, by simp [startCliques, headsOf], by simp [hn]⟩, fun d hd => ?_⟩
        · simp only [startCliques, headsOf, List.map_cons, List.map_nil, List.mem_singleton] at hx
          rw [hx, List.length_replicate]
          exact hp p (by simp)
        · simp only [startCliques, List.mem_singleton] at hd
          rw [hd]; exact Or.inr rfl
      | c :: cs, ps => exact ⟨h, fun d hd => Or.inl hd⟩
    refine ⟨?_, fun d hd => ?_⟩
    · have := foldl_addPauli_inv (sortedReverse ps) (fun p hp' => hp p (mem_sortedReverse.1 hp')) hstart.1
      refine ⟨this.len, this.clash, fun q hq => this.found q ?_⟩
      rcases List.mem_append.1 hq with hq | hq
      · exact List.mem_append_left _ hq
      · exact List.mem_append_right _ (mem_sortedReverse.2 hq)
    · rcases foldl_addPauli_data _ hd with h' | h'
      · exact hstart.2 d h'
      · exact Or.inr h'

/-- Stored data come from an update for the same head. -/
def DataInv (ops : List CliqueOp) (cs : List CliqueHead) : Prop :=
  ∀ c ∈ cs, ∀ m d, (m, d) ∈ c.data → d ≠ [] → ∃ op ∈ ops, op.Gives c.head m d

theorem history_inv {n : ℕ} (ops : List CliqueOp) (hn : ∀ op ∈ ops, ∀ p ∈ op.adds, p.length = n) :
    HeadsInv n (ops.flatMap CliqueOp.adds) (headsOf (ops.foldl CliqueOp.run [])) ∧ DataInv ops (ops.foldl CliqueOp.run []) := by
  induction ops using List.reverseRecOn with
  | nil => exact ⟨⟨by simp [headsOf], by simp [headsOf], by simp⟩, by simp [DataInv]⟩
  | append_singleton ops op ih =>
    obtain ⟨i1, i2⟩ := ih fun o ho => hn o (by simp [ho])
    rw [List.foldl_append, List.flatMap_append, List.foldl_cons, List.foldl_nil]
    cases op with
    | add ps =>
      have hps : ∀ p ∈ ps, p.length = n := fun p hp => hn (.add ps) (by simp) p hp
      obtain ⟨h1, h2⟩ := addPaulis_inv hps i1
      refine ⟨?_, fun c hc m d hd hne => ?_⟩
      · simpa [CliqueOp.adds, CliqueOp.run] using h1
      · rcases h2 c hc with h | h
        · obtain ⟨o, ho, hg⟩ := i2 c h m d hd hne
          exact ⟨o, by simp [ho], hg⟩
        · rw [h, SaverData.empty, List.mem_singleton, Prod.mk.injEq] at hd
          exact absurd hd.2 hne
    | update hs ds m' =>
      refine ⟨?_, fun c hc m d hd hne => ?_⟩
      · show HeadsInv n _ (headsOf (updateDistr _ hs ds m').2)
        rw [headsOf_updateDistr]
        simpa [CliqueOp.adds] using i1
      · have hc' : c ∈ (updateDistr (ops.foldl CliqueOp.run []) hs ds m').2 := hc
        rw [updateDistr_snd] at hc'
        rcases updateAll_data hc' hd with ⟨c', h1, h2, h3⟩ | ⟨h1, h2⟩
        · obtain ⟨o, ho, hg⟩ := i2 c' h1 m d h3 hne
          exact ⟨o, by simp [ho], h2 ▸ hg⟩
        · exact ⟨.update hs ds m', by simp, h1, h2⟩

/-! ### Reading -/

theorem isEmpty_false {data : SaverData} {m : ℕ} : data.isEmpty m = .ok false ↔ ∃ d, data.lookup m = some d ∧ d ≠ [] := by
  unfold SaverData.isEmpty
  cases data.lookup m with
  | none => simp
  | some d =>
    by_cases hd : d = []
    · subst hd
      simp only [ne_eq, not_true_eq_false, if_false]
      split_ifs <;> simp
    · simp [hd]

theorem read_located {q : List Char} (cs : List CliqueHead) (h : Located q (headsOf cs)) :
    ∃ c ∈ cs, Covers c.head q ∧ getHead q cs = .ok c.head ∧
      ∀ m, (∀ d, getDistr q m cs = .ok d → c.data.lookup m = some d ∧ d ≠ []) ∧
        (c.data.isEmpty m = .ok false → ∃ d, getDistr q m cs = .ok d) := by
  induction cs with
  | nil => obtain ⟨l, g, r, he, -⟩ := h; simp [headsOf] at he
  | cons c cs ih =>
    have h' : Covers c.head q ∨ Clash c.head q ∧ Located q (headsOf cs) := located_cons.1 h
    rcases h' with h1 | ⟨h1, h2⟩
    · refine ⟨c, by simp, h1, ?_, fun m => ?_⟩
      · rw [getHead, fit_pos h1.not_clash, merge_eq_of_covers h1]; simp
      · have : getDistr q m (c :: cs) = match c.data.isEmpty m with
            | .error e => .error e
            | .ok true => .error .valueError
            | .ok false => c.data.get m := by
          rw [getDistr, fit_pos h1.not_clash, merge_eq_of_covers h1]
          simp only [if_true, ne_eq, not_true_eq_false, if_false]
          cases c.data.isEmpty m with
          | error e => rfl
          | ok b => cases b <;> rfl
        rw [this]
        cases he : c.data.isEmpty m with
        | error e => simp
        | ok b =>
          cases b with
          | true => simp
          | false =>
            obtain ⟨d, hd, hne⟩ := isEmpty_false.1 he
            have hg : c.data.get m = .ok d := by unfold SaverData.get; rw [hd]
            refine ⟨fun x hx => ?_, fun _ => ⟨d, hg⟩⟩
            obtain rfl : d = x := Except.ok.inj (hg.symm.trans hx)
            exact ⟨hd, hne⟩
    · obtain ⟨c', g1, g2, g3, g4⟩ := ih h2
      refine ⟨c', by simp [g1], g2, ?_, fun m => ?_⟩
      · rw [getHead, fit_neg h1]; exact g3
      · have : getDistr q m (c :: cs) = getDistr q m cs := by rw [getDistr, fit_neg h1]; rfl
        rw [this]; exact g4 m

/-! ### Measuring and storing -/

theorem updateHeads_notMem {h : List Char} {d : Distr} {m : ℕ} {cs : List CliqueHead} (hh : h ∉ headsOf cs) :
    updateHeads h d m cs = (.ok (), cs) := by
  induction cs with
  | nil => rfl
  | cons c cs ih =>
    have h1 : h ≠ c.head := fun e => hh (by simp [headsOf, e])
    have h2 : h ∉ headsOf cs := fun e => hh (by simp only [headsOf, List.map_cons, List.mem_cons]; exact Or.inr e)
    rw [updateHeads, if_neg h1, ih h2]

theorem updateAll_cons_notMem {m : ℕ} {l : List (List Char × Distr)} {c : CliqueHead} {cs : List CliqueHead}
    (hh : ∀ x ∈ l, x.1 ≠ c.head) : updateAll m l (c :: cs) = ((updateAll m l cs).1, c :: (updateAll m l cs).2) := by
  induction l generalizing cs with
  | nil => rfl
  | cons x l ih =>
    rw [updateAll, updateAll, updateHeads, if_neg (hh x (by simp))]
    cases hu : updateHeads x.1 x.2 m cs with
    | mk r cs' =>
      cases r with
      | error e => rfl
      | ok u => exact ih fun y hy => hh y (by simp [hy])

theorem newHeads_cons {c : CliqueHead} {cs : List CliqueHead} {hs : List (List Char)} (h : newHeads (c :: cs) = .ok hs) :
    ∃ e r, c.data.isEmpty 0 = .ok e ∧ newHeads cs = .ok r ∧ hs = if e then c.head :: r else r := by
  unfold newHeads at h
  cases he : c.data.isEmpty 0 with
  | error e => rw [he] at h; exact absurd h (by simp [bind, Except.bind])
  | ok e =>
    rw [he] at h
    cases hr : newHeads cs with
    | error e => rw [hr] at h; exact absurd h (by simp [bind, Except.bind])
    | ok r =>
      rw [hr] at h
      refine ⟨e, r, rfl, rfl, ?_⟩
      exact (Except.ok.inj h).symm

theorem newHeads_sub {cs : List CliqueHead} {hs : List (List Char)} (h : newHeads cs = .ok hs) : ∀ x ∈ hs, x ∈ headsOf cs := by
  induction cs generalizing hs with
  | nil => cases Except.ok.inj h; simp
  | cons c cs ih =>
    obtain ⟨e, r, -, h2, rfl⟩ := newHeads_cons h
    intro x hx
    have : ∀ y ∈ r, y ∈ headsOf (c :: cs) := fun y hy => by
      simp only [headsOf, List.map_cons, List.mem_cons]; exact Or.inr (ih h2 y hy)
    cases e with
    | true =>
      rcases List.mem_cons.1 hx with rfl | hx
      · simp [headsOf]
      · exact this x hx
    | false => exact this x hx

/-- Storing a non-empty distribution for each returned head leaves no head without raw data. -/
theorem update_after_newHeads {cs : List CliqueHead} (hnd : (headsOf cs).Nodup) {hs : List (List Char)}
    (h : newHeads cs = .ok hs) {ds : List Distr} (hl : ds.length = hs.length) (hne : ∀ d ∈ ds, d ≠ []) :
    (updateAll 0 (hs.zip ds) cs).1 = .ok () ∧ (∀ c ∈ (updateAll 0 (hs.zip ds) cs).2, c.data.isEmpty 0 = .ok false) ∧
      ∀ c ∈ (updateAll 0 (hs.zip ds) cs).2, c.head ∉ hs → c ∈ cs := by
  induction cs generalizing hs ds with
  | nil =>
    cases Except.ok.inj h
    exact ⟨rfl, by simp [updateAll], by simp [updateAll]⟩
  | cons c cs ih =>
    obtain ⟨e, r, h1, h2, rfl⟩ := newHeads_cons h
    have hnd' : c.head ∉ headsOf cs ∧ (headsOf cs).Nodup := List.nodup_cons.1 hnd
    cases e with
    | false =>
      simp only [Bool.false_eq_true, if_false] at hl ⊢
      obtain ⟨i1, i2, i3⟩ := ih hnd'.2 h2 hl hne
      have hno : ∀ x ∈ r.zip ds, x.1 ≠ c.head := fun x hx e =>
        hnd'.1 (e ▸ newHeads_sub h2 x.1 (List.of_mem_zip hx).1)
      rw [updateAll_cons_notMem hno]
      refine ⟨i1, fun b hb => ?_, fun b hb hbn => ?_⟩
      · rcases List.mem_cons.1 hb with rfl | hb
        · exact h1
        · exact i2 b hb
      · rcases List.mem_cons.1 hb with rfl | hb
        · simp
        · exact List.mem_cons_of_mem _ (i3 b hb hbn)
    | true =>
      simp only [if_true] at hl ⊢
      cases ds with
      | nil => simp at hl
      | cons d ds =>
        have hl' : ds.length = r.length := by simpa using hl
        obtain ⟨i1, i2, i3⟩ := ih hnd'.2 h2 hl' fun x hx => hne x (by simp [hx])
        have hno : ∀ x ∈ r.zip ds, x.1 ≠ c.head := fun x hx e =>
          hnd'.1 (e ▸ newHeads_sub h2 x.1 (List.of_mem_zip hx).1)
        have hstep : updateAll 0 ((c.head :: r).zip (d :: ds)) (c :: cs) =
            updateAll 0 (r.zip ds) (⟨c.head, c.data.add d 0⟩ :: cs) := by
          rw [List.zip_cons_cons, updateAll, updateHeads, if_pos rfl, h1, updateHeads_notMem hnd'.1]
        rw [hstep, updateAll_cons_notMem (c := ⟨c.head, c.data.add d 0⟩) hno]
        refine ⟨i1, fun b hb => ?_, fun b hb hbn => ?_⟩
        · rcases List.mem_cons.1 hb with rfl | hb
          · refine isEmpty_false.2 ⟨d, ?_, hne d (by simp)⟩
            show (dictPut c.data 0 d).lookup 0 = some d
            rw [lookup_dictPut, if_pos rfl]
          · exact i2 b hb
        · rcases List.mem_cons.1 hb with rfl | hb
          · exact absurd (List.mem_cons_self) hbn
          · exact List.mem_cons_of_mem _ (i3 b hb fun hh => hbn (List.mem_cons_of_mem _ hh))

theorem checkAllocated_ok {m : ℕ} {cs : List CliqueHead} (h : ∀ c ∈ cs, c.data.isEmpty m = .ok false) :
    checkAllocated m cs = .ok () := by
  induction cs with
  | nil => rfl
  | cons c cs ih =>
    rw [checkAllocated, h c (by simp)]
    exact ih fun d hd => h d (by simp [hd])

/-- The head is the same and no stored distribution has changed. -/
def KeepsData (c c' : CliqueHead) : Prop :=
  c'.head = c.head ∧ ∀ m d, d ≠ [] → c.data.lookup m = some d → c'.data.lookup m = some d

theorem KeepsData.refl (c : CliqueHead) : KeepsData c c := ⟨rfl, fun _ _ _ h => h⟩

theorem keeps_refl (cs : List CliqueHead) : List.Forall₂ KeepsData cs cs := by
  induction cs with
  | nil => exact .nil
  | cons c cs ih => exact .cons (KeepsData.refl c) ih

theorem keeps_trans {a b c : List CliqueHead} (h1 : List.Forall₂ KeepsData a b) (h2 : List.Forall₂ KeepsData b c) :
    List.Forall₂ KeepsData a c := by
  induction h1 generalizing c with
  | nil => cases h2; exact .nil
  | cons hk _ ih =>
    cases h2 with
    | cons hk' h2 =>
      exact .cons ⟨hk'.1.trans hk.1, fun m d hd h => hk'.2 m d hd (hk.2 m d hd h)⟩ (ih h2)

theorem updateHeads_keeps (h : List Char) (d : Distr) (m : ℕ) (cs : List CliqueHead) :
    List.Forall₂ KeepsData cs (updateHeads h d m cs).2 := by
  induction cs with
  | nil => exact .nil
  | cons c cs ih =>
    unfold updateHeads
    split_ifs with hh
    · split
      · exact keeps_refl _
      · exact keeps_refl _
      · rename_i he
        refine .cons ⟨rfl, fun m' d' hd' hl => ?_⟩ ih
        change (dictPut c.data m d).lookup m' = some d'
        rw [lookup_dictPut]
        split_ifs with hm
        · subst hm
          have := isEmpty_false.2 ⟨d', hl, hd'⟩
          rw [he] at this
          cases this
        · exact hl
    · exact .cons (KeepsData.refl c) ih

theorem updateAll_keeps (m : ℕ) (l : List (List Char × Distr)) (cs : List CliqueHead) :
    List.Forall₂ KeepsData cs (updateAll m l cs).2 := by
  induction l generalizing cs with
  | nil => exact keeps_refl _
  | cons hd l ih =>
    unfold updateAll
    have h1 := updateHeads_keeps hd.1 hd.2 m cs
    split
    · rename_i e cs' he
      rw [he] at h1
      exact h1
    · rename_i cs' he
      rw [he] at h1
      exact keeps_trans h1 (ih _)

theorem getDistr_keeps {p : List Char} {m : ℕ} {d : Distr} {cs cs' : List CliqueHead}
    (hk : List.Forall₂ KeepsData cs cs') (h : getDistr p m cs = .ok d) : getDistr p m cs' = .ok d := by
  induction hk with
  | nil => exact h
  | @cons c c' cs cs' hc hk ih =>
    unfold getDistr at h ⊢
    rw [hc.1]
    by_cases hf : (fitInClique p c.head).1 = true
    · simp only [hf, if_true] at h ⊢
      split_ifs at h ⊢ with hne
      cases he : c.data.isEmpty m with
      | error e => rw [he] at h; cases h
      | ok b =>
        rw [he] at h
        cases b with
        | true => cases h
        | false =>
          obtain ⟨d', h1, h2⟩ := isEmpty_false.1 he
          have hd : d' = d := by
            simp only [SaverData.get, h1] at h
            exact Except.ok.inj h
          subst hd
          have h3 := hc.2 m d' h2 h1
          rw [isEmpty_false.2 ⟨d', h3, h2⟩]
          simp only [SaverData.get, h3]
    · simp only [hf, Bool.false_eq_true, if_false] at h ⊢
      exact ih h

theorem isEmpty_error {data : SaverData} {m : ℕ} {e : PyErr} (h : data.isEmpty m = .error e) : e = .valueError := by
  unfold SaverData.isEmpty at h
  split at h
  · cases h
  · split_ifs at h <;> cases h; rfl

theorem updateHeads_error {h : List Char} {d : Distr} {m : ℕ} {cs : List CliqueHead} {e : PyErr}
    (he : (updateHeads h d m cs).1 = .error e) : e = .valueError := by
  induction cs with
  | nil => cases he
  | cons c cs ih =>
    unfold updateHeads at he
    split_ifs at he with hh
    · split at he
      · rename_i e' h1
        cases he
        exact isEmpty_error h1
      · cases he; rfl
      · exact ih he
    · exact ih he

theorem updateHeads_filled {h : List Char} {d : Distr} {m : ℕ} {cs : List CliqueHead} {c : CliqueHead}
    (hc : c ∈ cs) (hh : c.head = h) (hf : c.data.isEmpty m = .ok false) :
    (updateHeads h d m cs).1 = .error .valueError := by
  induction cs with
  | nil => cases hc
  | cons c' cs ih =>
    unfold updateHeads
    rcases List.mem_cons.1 hc with rfl | hc
    · rw [if_pos hh.symm, hf]
    · split_ifs
      · split
        · rename_i e he; rw [isEmpty_error he]
        · rfl
        · exact ih hc
      · exact ih hc

theorem updateAll_filled {m : ℕ} {l : List (List Char × Distr)} {cs : List CliqueHead} {c : CliqueHead}
    (hc : c ∈ cs) (hf : c.data.isEmpty m = .ok false) {d : Distr} (hl : (c.head, d) ∈ l) :
    (updateAll m l cs).1 = .error .valueError := by
  induction l generalizing cs c with
  | nil => cases hl
  | cons hd l ih =>
    unfold updateAll
    rcases List.mem_cons.1 hl with rfl | hl
    · have := updateHeads_filled (d := d) hc rfl hf
      split
      · rename_i e cs' he; rw [he] at this; exact this
      · rename_i cs' he; rw [he] at this; cases this
    · have hk := updateHeads_keeps hd.1 hd.2 m cs
      split
      · rename_i e cs' he
        have : (updateHeads hd.1 hd.2 m cs).1 = .error e := by rw [he]
        exact congrArg _ (updateHeads_error this)
      · rename_i cs' he
        replace hk : List.Forall₂ KeepsData cs cs' := by rw [he] at hk; exact hk
        obtain ⟨c', hc', hkc⟩ : ∃ c' ∈ cs', KeepsData c c' := by
          clear ih he
          induction hk with
          | nil => cases hc
          | cons h1 _ ih =>
            rcases List.mem_cons.1 hc with rfl | hc
            · exact ⟨_, List.mem_cons_self, h1⟩
            · obtain ⟨c', h2, h3⟩ := ih hc
              exact ⟨c', List.mem_cons_of_mem _ h2, h3⟩
        obtain ⟨d', h1, h2⟩ := isEmpty_false.1 hf
        refine ih hc' (isEmpty_false.2 ⟨d', hkc.2 m d' h2 h1, h2⟩) (hkc.1 ▸ hl)

theorem getDistr_head {p head : List Char} {m : ℕ} {d : Distr} {cs : List CliqueHead}
    (h : getDistr p m cs = .ok d) (hh : getHead p cs = .ok head) :
    ∃ c ∈ cs, c.head = head ∧ c.data.isEmpty m = .ok false := by
  induction cs with
  | nil => cases h
  | cons c cs ih =>
    unfold getDistr at h
    unfold getHead at hh
    by_cases hf : (fitInClique p c.head).1 = true
    · simp only [hf, if_true] at h hh
      split_ifs at h hh with hne
      refine ⟨c, List.mem_cons_self, Except.ok.inj hh, ?_⟩
      cases he : c.data.isEmpty m with
      | error e => rw [he] at h; cases h
      | ok b =>
        rw [he] at h
        cases b with
        | true => cases h
        | false => rfl
    · simp only [hf, Bool.false_eq_true, if_false] at h hh
      obtain ⟨c', h1, h2⟩ := ih h hh
      exact ⟨c', List.mem_cons_of_mem _ h1, h2⟩

end SQ
