import Verif.Lemmas.NormalOrderSem

/-! # Lemmas about dictionaries -/

namespace SQ

variable {R : Type*} [CommRing R]

theorem mem_keys_addTo {tiny : R → Bool} {d : Dict R} {k : Str} {v : R} {x : Str}
    (h : x ∈ (addTo tiny d k v).map (·.1)) : x ∈ d.map (·.1) ∨ x = k := by
  induction d with
  | nil => simp [addTo] at h; exact Or.inr h
  | cons kv t ih =>
    obtain ⟨k', v'⟩ := kv
    simp only [addTo] at h
    split at h
    · split at h
      · left; simp only [List.map_cons, List.mem_cons]; exact Or.inr h
      · left; simpa using h
    · simp only [List.map_cons, List.mem_cons] at h ⊢
      rcases h with h | h
      · exact Or.inl (Or.inl h)
      · rcases ih h with h | h
        · exact Or.inl (Or.inr h)
        · exact Or.inr h

theorem wf_addTo {tiny : R → Bool} {d : Dict R} (hd : WF d) (k : Str) (v : R) :
    WF (addTo tiny d k v) := by
  unfold WF at *
  induction d with
  | nil => simp [addTo]
  | cons kv t ih =>
    obtain ⟨k', v'⟩ := kv
    simp only [List.map_cons, List.nodup_cons] at hd
    simp only [addTo]
    split
    · split
      · exact hd.2
      · simpa using hd
    · next hne =>
      simp only [List.map_cons, List.nodup_cons]
      refine ⟨fun h => ?_, ih hd.2⟩
      rcases mem_keys_addTo h with h | h
      · exact hd.1 h
      · exact hne h

theorem wf_foldl_addTo {tiny : R → Bool} (B : List (Str × R)) {A : Dict R} (hA : WF A) :
    WF (B.foldl (fun d kv => addTo tiny d kv.1 kv.2) A) := by
  induction B generalizing A with
  | nil => exact hA
  | cons kv t ih => exact ih (wf_addTo hA _ _)

theorem mem_addTo_keyP {tiny : R → Bool} {P : Str → Prop} {d : Dict R}
    (hd : ∀ kv ∈ d, P kv.1) {k : Str} {v : R} (hk : P k) : ∀ kv ∈ addTo tiny d k v, P kv.1 := by
  intro kv h
  have : kv.1 ∈ (addTo tiny d k v).map (·.1) := List.mem_map_of_mem h
  rcases mem_keys_addTo this with h | h
  · obtain ⟨y, hy, e⟩ := List.mem_map.1 h
    rw [← e]; exact hd y hy
  · rw [h]; exact hk

theorem foldl_addTo_keyP {tiny : R → Bool} {P : Str → Prop} (B : List (Str × R)) {A : Dict R}
    (hA : ∀ kv ∈ A, P kv.1) (hB : ∀ kv ∈ B, P kv.1) :
    ∀ kv ∈ B.foldl (fun d kv => addTo tiny d kv.1 kv.2) A, P kv.1 := by
  induction B generalizing A with
  | nil => exact hA
  | cons kv t ih =>
    exact ih (mem_addTo_keyP hA (hB kv (by simp))) (fun x hx => hB x (by simp [hx]))

theorem wf_orderQueue {tiny : R → Bool} (n : ℕ) : ∀ (q : List (Str × R)) (acc d : Dict R),
    WF acc → orderQueue tiny n q acc = .ok d → WF d := by
  induction n with
  | zero =>
    intro q acc d hacc h
    match q with
    | [] => simp [orderQueue] at h; subst h; exact hacc
    | x :: q => simp [orderQueue] at h
  | succ n ih =>
    intro q acc d hacc h
    match q with
    | [] => simp [orderQueue] at h; subst h; exact hacc
    | (s, f) :: q =>
      simp only [orderQueue] at h
      split at h
      · simp at h
      · exact ih _ _ _ hacc h
      · exact ih _ _ _ (wf_addTo hacc _ _) h

theorem normalOrder_wf {tiny : R → Bool} {d e : Dict R} (h : normalOrder tiny d = .ok e) : WF e :=
  wf_orderQueue _ _ _ _ (by simp [WF]) h

omit [CommRing R] in
theorem get?_cons (k' : Str) (v' : R) (t : Dict R) (k : Str) :
    Dict.get? ((k', v') :: t) k = if k' = k then some v' else Dict.get? t k := by
  simp only [Dict.get?, List.find?_cons]
  by_cases h : k' = k
  · subst h; simp
  · have : (k' == k) = false := by simpa using h
    simp [this, h]

omit [CommRing R] in
theorem get?_none_of_not_mem {d : Dict R} {k : Str} (h : k ∉ d.map (·.1)) : d.get? k = none := by
  induction d with
  | nil => rfl
  | cons kv t ih =>
    obtain ⟨k', v'⟩ := kv
    simp only [List.map_cons, List.mem_cons, not_or] at h
    rw [get?_cons, if_neg (Ne.symm h.1)]; exact ih h.2

omit [CommRing R] in
theorem get?_some_of_mem {d : Dict R} {k : Str} (h : k ∈ d.map (·.1)) : ∃ v, d.get? k = some v := by
  induction d with
  | nil => simp at h
  | cons kv t ih =>
    obtain ⟨k', v'⟩ := kv
    rw [get?_cons]
    split
    · exact ⟨v', rfl⟩
    · next hne =>
      simp only [List.map_cons, List.mem_cons] at h
      rcases h with h | h
      · exact absurd h.symm hne
      · exact ih h

omit [CommRing R] in
theorem get?_of_mem {d : Dict R} (hd : WF d) {kv : Str × R} (h : kv ∈ d) :
    d.get? kv.1 = some kv.2 := by
  induction d with
  | nil => simp at h
  | cons y t ih =>
    obtain ⟨k', v'⟩ := y
    simp only [WF, List.map_cons, List.nodup_cons] at hd
    rw [get?_cons]
    rcases List.mem_cons.1 h with h' | h'
    · subst h'; simp
    · have hne : k' ≠ kv.1 := by
        rintro rfl; exact hd.1 (List.mem_map_of_mem h')
      rw [if_neg hne]; exact ih hd.2 h'

theorem get?_addTo {tiny : R → Bool} {d : Dict R} (hd : WF d) (k : Str) (v : R) (x : Str) :
    (addTo tiny d k v).get? x =
      if x = k then
        (match d.get? k with
          | none => some v
          | some w => if tiny (w + v) then none else some (w + v))
      else d.get? x := by
  induction d with
  | nil =>
    simp only [addTo, get?_cons]
    by_cases h : x = k
    · subst h; simp [Dict.get?]
    · simp [h, Ne.symm h]
  | cons kv t ih =>
    obtain ⟨k', v'⟩ := kv
    simp only [WF, List.map_cons, List.nodup_cons] at hd
    have ih := ih hd.2
    simp only [addTo]
    by_cases hk : k' = k
    · subst hk
      simp only [if_true, get?_cons]
      by_cases hx : x = k'
      · subst hx
        simp only [if_true]
        split
        · next h => rw [get?_none_of_not_mem hd.1]
        · next h => simp [get?_cons]
      · rw [if_neg hx, if_neg (Ne.symm hx)]
        split
        · rfl
        · rw [get?_cons, if_neg (Ne.symm hx)]
    · simp only [if_neg hk, get?_cons, ih]
      by_cases hx : x = k
      · subst hx; simp [hk]
      · simp [hx]

end SQ
