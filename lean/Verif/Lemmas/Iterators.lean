import Verif.Model.Iterators
import Verif.Spec.Iterators
import Mathlib.Data.List.Nodup
import Mathlib.Data.List.Sublists

/-! # Lemmas about the excitation iterators -/

namespace SQ

theorem mem_loopFrom {β : Type _} {L : List ℕ} {n : ℕ} {f : ℕ → ℕ → List β} {y : β} :
    y ∈ loopFrom L n f ↔ ∃ i a, n ≤ i ∧ L[i]? = some a ∧ y ∈ f a (i + 1) := by
  simp only [loopFrom, List.mem_flatMap, Prod.exists]
  constructor
  · rintro ⟨a, i, h, hy⟩
    rw [List.mem_zipIdx_iff_le_and_getElem?_sub] at h
    refine ⟨i, a, h.1, ?_, hy⟩
    have := h.2
    rw [List.getElem?_drop] at this
    rwa [Nat.add_sub_cancel' h.1] at this
  · rintro ⟨i, a, h1, h2, hy⟩
    refine ⟨a, i, ?_, hy⟩
    rw [List.mem_zipIdx_iff_le_and_getElem?_sub, List.getElem?_drop, Nat.add_sub_cancel' h1]
    exact ⟨h1, h2⟩

theorem loopFrom_flatMap {β γ : Type _} (L : List ℕ) (n : ℕ) (f : ℕ → ℕ → List β) (g : β → List γ) :
    (loopFrom L n f).flatMap g = loopFrom L n fun a m => (f a m).flatMap g := by
  unfold loopFrom
  rw [List.flatMap_assoc]

/-- `k` nested loops. -/
def combs : ℕ → List ℕ → ℕ → List (List ℕ)
  | 0, _, _ => [[]]
  | k + 1, L, n => loopFrom L n fun a m => (combs k L m).flatMap fun t => [a :: t]

theorem cons_sublist_drop {L : List ℕ} {n a : ℕ} {t : List ℕ} :
    (a :: t).Sublist (L.drop n) ↔ ∃ i, n ≤ i ∧ L[i]? = some a ∧ t.Sublist (L.drop (i + 1)) := by
  constructor
  · intro h
    rw [List.cons_sublist_iff] at h
    obtain ⟨r1, r2, h1, h2, h3⟩ := h
    obtain ⟨j, hj, ej⟩ := List.getElem_of_mem h2
    refine ⟨n + j, by omega, ?_, ?_⟩
    · rw [← List.getElem?_drop, h1, List.getElem?_append_left hj, List.getElem?_eq_getElem hj, ej]
    · have : L.drop (n + j + 1) = (r1.drop (j + 1)) ++ r2 := by
        rw [Nat.add_assoc, ← List.drop_drop, h1, List.drop_append_of_le_length (by omega)]
      rw [this]
      exact h3.trans (List.sublist_append_right _ _)
  · rintro ⟨i, h1, h2, h3⟩
    have hi : i < L.length := (List.getElem?_eq_some_iff.1 h2).1
    have he : L.drop i = a :: L.drop (i + 1) := by
      rw [List.drop_eq_getElem_cons hi, (List.getElem?_eq_some_iff.1 h2).2]
    have : (a :: t).Sublist (L.drop i) := by rw [he]; exact h3.cons_cons a
    exact this.trans (List.drop_sublist_drop_left _ h1)

theorem mem_combs {k : ℕ} : ∀ {L : List ℕ} {n : ℕ} {A : List ℕ},
    A ∈ combs k L n ↔ A.Sublist (L.drop n) ∧ A.length = k := by
  induction k with
  | zero =>
    intro L n A
    simp only [combs, List.mem_singleton, List.length_eq_zero_iff]
    constructor
    · rintro rfl; simp
    · exact fun h => h.2
  | succ k ih =>
    intro L n A
    simp only [combs, mem_loopFrom, List.mem_flatMap, List.mem_singleton]
    constructor
    · rintro ⟨i, a, h1, h2, t, ht, rfl⟩
      rw [ih] at ht
      exact ⟨cons_sublist_drop.2 ⟨i, h1, h2, ht.1⟩, by simp [ht.2]⟩
    · rintro ⟨h1, h2⟩
      cases A with
      | nil => simp at h2
      | cons a t =>
        obtain ⟨i, g1, g2, g3⟩ := cons_sublist_drop.1 h1
        exact ⟨i, a, g1, g2, t, ih.2 ⟨g3, by simpa using h2⟩, rfl⟩

theorem nodup_flatMap_key {α β γ : Type _} {l : List α} {f : α → List β} (key : α → γ) (out : β → γ)
    (hl : (l.map key).Nodup) (h : ∀ x ∈ l, (f x).Nodup) (hk : ∀ x ∈ l, ∀ y ∈ f x, out y = key x) :
    (l.flatMap f).Nodup := by
  rw [List.nodup_flatMap]
  refine ⟨h, ?_⟩
  rw [List.nodup_iff_pairwise_ne, List.pairwise_map] at hl
  refine hl.imp_of_mem fun {x y} hx hy hxy => ?_
  intro z hz1 hz2
  exact hxy ((hk x hx z hz1).symm.trans (hk y hy z hz2))

theorem nodup_loopFrom {β γ : Type _} {L : List ℕ} (hL : L.Nodup) (n : ℕ) {f : ℕ → ℕ → List β}
    (out : β → ℕ) (h : ∀ a m, (f a m).Nodup) (hk : ∀ a m, ∀ y ∈ f a m, out y = a) :
    (loopFrom L n f).Nodup := by
  refine nodup_flatMap_key Prod.fst out ?_ (fun x _ => h _ _) fun x _ => hk _ _
  rw [List.zipIdx_map_fst]
  exact hL.sublist (List.drop_sublist _ _)

theorem nodup_combs {L : List ℕ} (hL : L.Nodup) (k : ℕ) : ∀ n, (combs k L n).Nodup := by
  induction k with
  | zero => intro n; simp [combs]
  | succ k ih =>
    intro n
    refine nodup_loopFrom (γ := Unit) hL n (fun y => y.headD 0) (fun a m => ?_) fun a m y hy => ?_
    · rw [← List.map_eq_flatMap]
      exact (ih m).map (List.cons_injective)
    · simp only [List.mem_flatMap, List.mem_singleton] at hy
      obtain ⟨t, -, rfl⟩ := hy
      rfl

theorem spinCounters_iff (A I : List ℕ) :
    ((spinCounters A I).1 ≠ 0 ∨ (spinCounters A I).2 ≠ 0) ↔ ¬ SameSpin A I := by
  have up : ∀ (A : List ℕ) (c : ℤ × ℤ),
      A.foldl (fun c a => if a % 2 = 0 then (c.1 + 1, c.2) else (c.1, c.2 + 1)) c
        = (c.1 + (A.countP (· % 2 = 0) : ℕ), c.2 + (A.countP (· % 2 = 1) : ℕ)) := by
    intro A
    induction A with
    | nil => intro c; simp
    | cons a A ih =>
      intro c
      rw [List.foldl_cons, ih]
      rcases Nat.mod_two_eq_zero_or_one a with h | h <;>
        simp [h, List.countP_cons] <;> ring
  have down : ∀ (I : List ℕ) (c : ℤ × ℤ),
      I.foldl (fun c a => if a % 2 = 0 then (c.1 - 1, c.2) else (c.1, c.2 - 1)) c
        = (c.1 - (I.countP (· % 2 = 0) : ℕ), c.2 - (I.countP (· % 2 = 1) : ℕ)) := by
    intro A
    induction A with
    | nil => intro c; simp
    | cons a A ih =>
      intro c
      rw [List.foldl_cons, ih]
      rcases Nat.mod_two_eq_zero_or_one a with h | h <;>
        simp [h, List.countP_cons] <;> ring
  unfold spinCounters SameSpin
  rw [up, down]
  dsimp only
  omega

theorem mem_yieldIf {A I out y : List ℕ} : y ∈ yieldIf A I out ↔ SameSpin A I ∧ y = out := by
  unfold yieldIf
  by_cases h : SameSpin A I
  · rw [if_neg (by rw [spinCounters_iff]; exact not_not.2 h)]
    simp [h]
  · rw [if_pos (by rw [spinCounters_iff]; exact h)]
    simp [h]

theorem nodup_yieldIf (A I out : List ℕ) : (yieldIf A I out).Nodup := by
  unfold yieldIf
  split_ifs <;> simp

/-- The iterators as one scheme. -/
def excIter (k : ℕ) (occ unocc : List ℕ) : List (List ℕ) :=
  (combs k unocc 0).flatMap fun A => (combs k occ 0).flatMap fun I => yieldIf A I (interleave A I)

theorem interleave_fst : ∀ {k : ℕ} {A I A' I' : List ℕ}, A.length = k → I.length = k → A'.length = k →
    I'.length = k → interleave A I = interleave A' I' → A = A' ∧ I = I' := by
  intro k
  induction k with
  | zero =>
    intro A I A' I' h1 h2 h3 h4 _
    rw [List.length_eq_zero_iff] at h1 h2 h3 h4
    subst h1 h2 h3 h4
    simp
  | succ k ih =>
    intro A I A' I' h1 h2 h3 h4 h
    match A, I, A', I' with
    | a :: A, i :: I, a' :: A', i' :: I' =>
      simp only [List.length_cons, Nat.add_right_cancel_iff] at h1 h2 h3 h4
      simp only [interleave, List.cons.injEq] at h
      obtain ⟨rfl, rfl, h⟩ := h
      obtain ⟨rfl, rfl⟩ := ih h1 h2 h3 h4 h
      exact ⟨rfl, rfl⟩

theorem mem_excIter {k : ℕ} {occ unocc x : List ℕ} :
    x ∈ excIter k occ unocc ↔ SpinExcitation occ unocc k x := by
  simp only [excIter, List.mem_flatMap, mem_combs, mem_yieldIf, List.drop_zero, SpinExcitation]
  constructor
  · rintro ⟨A, ⟨h1, h2⟩, I, ⟨h3, h4⟩, h5, h6⟩; exact ⟨A, I, h1, h3, h2, h4, h5, h6⟩
  · rintro ⟨A, I, h1, h3, h2, h4, h5, h6⟩; exact ⟨A, ⟨h1, h2⟩, I, ⟨h3, h4⟩, h5, h6⟩

theorem nodup_excIter {k : ℕ} {occ unocc : List ℕ} (ho : occ.Nodup) (hu : unocc.Nodup) :
    (excIter k occ unocc).Nodup := by
  classical
  let sp : List ℕ → List ℕ × List ℕ := fun y =>
    if h : ∃ p : List ℕ × List ℕ, p.1.length = k ∧ p.2.length = k ∧ y = interleave p.1 p.2 then h.choose
    else ([], [])
  have hsp : ∀ A I : List ℕ, A.length = k → I.length = k → sp (interleave A I) = (A, I) := by
    intro A I h1 h2
    have h : ∃ p : List ℕ × List ℕ, p.1.length = k ∧ p.2.length = k ∧
        interleave A I = interleave p.1 p.2 := ⟨(A, I), h1, h2, rfl⟩
    have hs : sp (interleave A I) = h.choose := dif_pos h
    obtain ⟨g1, g2, g3⟩ := h.choose_spec
    obtain ⟨e1, e2⟩ := interleave_fst h1 h2 g1 g2 g3
    rw [hs]
    exact Prod.ext e1.symm e2.symm
  refine nodup_flatMap_key id (fun y => (sp y).1) (by simpa using nodup_combs hu k 0) (fun A hA => ?_) ?_
  · refine nodup_flatMap_key id (fun y => (sp y).2) (by simpa using nodup_combs ho k 0)
      (fun I _ => nodup_yieldIf _ _ _) ?_
    intro I hI y hy
    rw [mem_yieldIf] at hy
    rw [mem_combs] at hA hI
    rw [hy.2, hsp A I hA.2 hI.2]
    rfl
  · intro A hA y hy
    rw [List.mem_flatMap] at hy
    obtain ⟨I, hI, hy⟩ := hy
    rw [mem_yieldIf] at hy
    rw [mem_combs] at hA hI
    rw [hy.2, hsp A I hA.2 hI.2]
    rfl

theorem iterateT1_eq (occ unocc : List ℕ) : iterateT1 occ unocc = excIter 1 occ unocc := by
  simp only [iterateT1, excIter, combs, loopFrom_flatMap, List.flatMap_cons, List.flatMap_nil,
    List.append_nil, interleave]

theorem iterateT2_eq (occ unocc : List ℕ) : iterateT2 occ unocc = excIter 2 occ unocc := by
  simp only [iterateT2, excIter, combs, loopFrom_flatMap, List.flatMap_cons, List.flatMap_nil,
    List.append_nil, interleave]

theorem iterateT3_eq (occ unocc : List ℕ) : iterateT3 occ unocc = excIter 3 occ unocc := by
  simp only [iterateT3, excIter, combs, loopFrom_flatMap, List.flatMap_cons, List.flatMap_nil,
    List.append_nil, interleave]

theorem iterateT4_eq (occ unocc : List ℕ) : iterateT4 occ unocc = excIter 4 occ unocc := by
  simp only [iterateT4, excIter, combs, loopFrom_flatMap, List.flatMap_cons, List.flatMap_nil,
    List.append_nil, interleave]

theorem iterateT5_eq (occ unocc : List ℕ) : iterateT5 occ unocc = excIter 5 occ unocc := by
  simp only [iterateT5, excIter, combs, loopFrom_flatMap, List.flatMap_cons, List.flatMap_nil,
    List.append_nil, interleave]

theorem iterateT6_eq (occ unocc : List ℕ) : iterateT6 occ unocc = excIter 6 occ unocc := by
  simp only [iterateT6, excIter, combs, loopFrom_flatMap, List.flatMap_cons, List.flatMap_nil,
    List.append_nil, interleave]

/-! ### Ranges -/

theorem mem_loopRange {β : Type _} {a b : ℕ} {f : ℕ → List β} {y : β} :
    y ∈ loopRange a b f ↔ ∃ x, a ≤ x ∧ x < b ∧ y ∈ f x := by
  simp only [loopRange, List.mem_flatMap, List.mem_map, List.mem_range]
  constructor
  · rintro ⟨x, ⟨k, hk, rfl⟩, hy⟩; exact ⟨_, by omega, by omega, hy⟩
  · rintro ⟨x, h1, h2, hy⟩; exact ⟨x, ⟨x - a, by omega, by omega⟩, hy⟩

theorem nodup_loopRange {β : Type _} {a b : ℕ} {f : ℕ → List β} (out : β → ℕ) (h : ∀ x, (f x).Nodup)
    (hk : ∀ x, ∀ y ∈ f x, out y = x) : (loopRange a b f).Nodup := by
  refine nodup_flatMap_key id out ?_ (fun x _ => h _) fun x _ => hk _
  rw [List.map_id]
  exact List.nodup_range.map fun x y h => by simpa using h

theorem mem_loopFromIncl {β : Type _} {L : List ℕ} {n : ℕ} {f : ℕ → ℕ → List β} {y : β} :
    y ∈ loopFromIncl L n f ↔ ∃ i a, n ≤ i ∧ L[i]? = some a ∧ y ∈ f a i := by
  simp only [loopFromIncl, List.mem_flatMap, Prod.exists]
  constructor
  · rintro ⟨a, i, h, hy⟩
    rw [List.mem_zipIdx_iff_le_and_getElem?_sub] at h
    refine ⟨i, a, h.1, ?_, hy⟩
    have := h.2
    rw [List.getElem?_drop] at this
    rwa [Nat.add_sub_cancel' h.1] at this
  · rintro ⟨i, a, h1, h2, hy⟩
    refine ⟨a, i, ?_, hy⟩
    rw [List.mem_zipIdx_iff_le_and_getElem?_sub, List.getElem?_drop, Nat.add_sub_cancel' h1]
    exact ⟨h1, h2⟩

theorem nodup_loopFromIncl {β : Type _} {L : List ℕ} (hL : L.Nodup) (n : ℕ) {f : ℕ → ℕ → List β}
    (out : β → ℕ) (h : ∀ a m, (f a m).Nodup) (hk : ∀ a m, ∀ y ∈ f a m, out y = a) :
    (loopFromIncl L n f).Nodup := by
  refine nodup_flatMap_key Prod.fst out ?_ (fun x _ => h _ _) fun x _ => hk _ _
  rw [List.zipIdx_map_fst]
  exact hL.sublist (List.drop_sublist _ _)

/-- Two nested inclusive loops visit the pairs in list order. -/
theorem inclPair {L : List ℕ} {a b : ℕ} :
    (∃ i : ℕ, L[i]? = some a ∧ ∃ j : ℕ, i ≤ j ∧ L[j]? = some b) ↔ (a = b ∧ a ∈ L) ∨ [a, b].Sublist L := by
  have hs : [a, b].Sublist L ↔ ∃ i : ℕ, L[i]? = some a ∧ ∃ j : ℕ, i + 1 ≤ j ∧ L[j]? = some b := by
    have := cons_sublist_drop (L := L) (n := 0) (a := a) (t := [b])
    rw [List.drop_zero] at this
    rw [this]
    simp only [cons_sublist_drop, List.nil_sublist, and_true, Nat.zero_le, true_and]
  rw [hs]
  constructor
  · rintro ⟨i, h1, j, h2, h3⟩
    rcases h2.eq_or_lt with rfl | h
    · rw [h1] at h3
      exact Or.inl ⟨by simpa using h3, List.mem_of_getElem? h1⟩
    · exact Or.inr ⟨i, h1, j, h, h3⟩
  · rintro (⟨rfl, h⟩ | ⟨i, h1, j, h2, h3⟩)
    · obtain ⟨i, hi⟩ := List.getElem?_of_mem h
      exact ⟨i, hi, i, le_rfl, hi⟩
    · exact ⟨i, h1, j, by omega, h3⟩

end SQ
