import Verif.Model.SaStates
import Verif.Lemmas.SamplerRun
import Verif.Lemmas.QuantumTransfer
import Verif.Lemmas.ResponseOps
import Verif.Lemmas.ResponseLoop

/-! # Lemmas: the states given to a state-averaged UPS wave function -/

namespace SQ

theorem mapM_length {α β : Type} {f : α → Res β} {l : List α} {r : List β} (h : l.mapM f = .ok r) : r.length = l.length := by
  induction l generalizing r with
  | nil => cases h; rfl
  | cons a l ih =>
    rw [List.mapM_cons] at h
    cases ha : f a with
    | error e => rw [ha] at h; cases h
    | ok b =>
      rw [ha, ok_bind] at h
      cases hl : l.mapM f with
      | error e => rw [hl] at h; cases h
      | ok bs =>
        rw [hl, ok_bind] at h
        cases h
        rw [List.length_cons, List.length_cons, ih hl]

theorem detInt_chars {d : List Char} {k : ℕ} (h : detInt d = .ok k) : ∀ c ∈ d, c = '0' ∨ c = '1' := by
  unfold detInt at h
  split_ifs at h with hd
  clear hd
  revert h
  generalize 0 = r
  induction d generalizing r with
  | nil => intro _ c hc; simp at hc
  | cons a d ih =>
    intro h c hc
    rw [List.foldlM_cons] at h
    rcases List.mem_cons.1 hc with rfl | hc
    · by_contra hn
      push Not at hn
      rw [if_neg hn.1, if_neg hn.2] at h
      cases h
    · by_cases h0 : a = '0'
      · rw [if_pos h0] at h
        exact ih (2 * r) h c hc
      · by_cases h1 : a = '1'
        · rw [if_neg h0, if_pos h1] at h
          exact ih (2 * r + 1) h c hc
        · rw [if_neg h0, if_neg h1] at h
          cases h

theorem detInt_decode {n : ℕ} (hn : 0 < n) {d : List Char} (h : IsDet n d) :
    ∃ k, detInt d = .ok k ∧ k < 2 ^ (2 * n) ∧ decode n k = detSet d := by
  obtain ⟨v, h1, h2, h3⟩ := detInt_fold d h.2
  have hne : d ≠ [] := by rintro rfl; have := h.1; simp at this; omega
  refine ⟨v, ?_, h.1 ▸ h1, ?_⟩
  · unfold detInt
    rw [if_neg hne, h2, zero_mul, zero_add]
  · ext p
    rw [mem_decode]
    unfold detSet
    rw [Finset.mem_filter, Finset.mem_range, h.1]
    refine and_congr_right fun hp => ?_
    rw [h3 _ (by rw [h.1]; omega), h.1, show 2 * n - 1 - (2 * n - 1 - p) = p by omega]

theorem detSet_inj {n : ℕ} {d e : List Char} (hd : IsDet n d) (he : IsDet n e) (h : detSet d = detSet e) : d = e := by
  refine List.ext_getElem (hd.1.trans he.1.symm) fun i h1 h2 => ?_
  have := Finset.ext_iff.1 h i
  unfold detSet at this
  rw [Finset.mem_filter, Finset.mem_filter, Finset.mem_range, Finset.mem_range, List.getElem?_eq_getElem h1,
    List.getElem?_eq_getElem h2, Option.some_inj, Option.some_inj] at this
  have h3 := hd.2 _ (List.getElem_mem h1)
  have h4 := he.2 _ (List.getElem_mem h2)
  rcases h3 with h3 | h3 <;> rcases h4 with h4 | h4 <;> rw [h3, h4] at this ⊢ <;> simp_all

/-- One step of the loop over determinants. -/
def saStep (ci : CIInfo) (nso : ℕ) (v : Vec ℝ) (cd : ℝ × List Char) : Res (Vec ℝ) :=
  if cd.2.length ≠ nso then .error .valueError
  else do
    let k ← detInt cd.2
    match ci.find k with
    | none => .error .keyError
    | some i => .ok (Function.update v i cd.1)

variable {ci : CIInfo}

theorem saStep_ok (hv : ci.Valid) (hA : 0 < ci.nA) {v : Vec ℝ} {cd : ℝ × List Char} (h1 : IsDet ci.nA cd.2)
    (h2 : ci.Mem (detSet cd.2)) : ∃ i, i < ci.idx2det.length ∧ ci.D i = detSet cd.2 ∧
      saStep ci (2 * ci.nA) v cd = .ok (Function.update v i cd.1) := by
  obtain ⟨k, k1, k2, k3⟩ := detInt_decode hA h1
  unfold saStep
  rw [if_neg (by simpa using h1.1), k1, ok_bind]
  cases hf : ci.find k with
  | none => exact absurd (k3 ▸ h2) (hv.find_none k2 hf)
  | some i => exact ⟨i, (hv.find_lt hf).1, (hv.find_some_mem hf).2.trans k3, rfl⟩

theorem saStep_conv (hv : ci.Valid) (hA : 0 < ci.nA) {v w : Vec ℝ} {cd : ℝ × List Char}
    (h : saStep ci (2 * ci.nA) v cd = .ok w) : IsDet ci.nA cd.2 ∧ ci.Mem (detSet cd.2) := by
  unfold saStep at h
  by_cases hl : cd.2.length ≠ 2 * ci.nA
  · rw [if_pos hl] at h; cases h
  rw [if_neg hl] at h
  cases hk : detInt cd.2 with
  | error e => rw [hk] at h; cases h
  | ok k =>
    have hd : IsDet ci.nA cd.2 := ⟨by simpa using hl, detInt_chars hk⟩
    obtain ⟨k', e, -, e2⟩ := detInt_decode hA hd
    rw [hk] at e
    cases e
    refine ⟨hd, ?_⟩
    rw [hk, ok_bind] at h
    cases hf : ci.find k with
    | none => rw [hf] at h; cases h
    | some i => rw [← e2]; exact (hv.find_some_mem hf).1

theorem saStep_error (hv : ci.Valid) (hA : 0 < ci.nA) {v : Vec ℝ} {cd : ℝ × List Char} {e : PyErr}
    (h : saStep ci (2 * ci.nA) v cd = .error e) : e = .valueError ∨ (e = .keyError ∧ ¬ ci.Mem (detSet cd.2)) := by
  by_cases hg : IsDet ci.nA cd.2
  · by_cases hm : ci.Mem (detSet cd.2)
    · obtain ⟨i, -, -, e1⟩ := saStep_ok (v := v) hv hA hg hm
      rw [h] at e1; cases e1
    · unfold saStep at h
      rw [if_neg (by simpa using hg.1)] at h
      obtain ⟨k, k1, -, -⟩ := detInt_decode hA hg
      rw [k1, ok_bind] at h
      cases hf : ci.find k with
      | none => rw [hf] at h; cases h; exact .inr ⟨rfl, hm⟩
      | some i => rw [hf] at h; cases h
  · left
    unfold saStep at h
    by_cases hl : cd.2.length ≠ 2 * ci.nA
    · rw [if_pos hl] at h; cases h; rfl
    rw [if_neg hl] at h
    cases hk : detInt cd.2 with
    | ok k => exact absurd ⟨by simpa using hl, detInt_chars hk⟩ hg
    | error e' =>
      rw [hk] at h
      cases h
      unfold detInt at hk
      split_ifs at hk
      · cases hk; rfl
      · revert hk
        generalize 0 = r
        clear hg hl
        generalize cd.2 = d
        induction d generalizing r with
        | nil => intro hk; cases hk
        | cons a d ih =>
          intro hk
          rw [List.foldlM_cons] at hk
          by_cases h0 : a = '0'
          · rw [if_pos h0] at hk; exact ih _ hk
          · by_cases h1 : a = '1'
            · rw [if_neg h0, if_pos h1] at hk; exact ih _ hk
            · rw [if_neg h0, if_neg h1] at hk; cases hk; rfl

theorem saFold_ok (hv : ci.Valid) (hA : 0 < ci.nA) (l : List (ℝ × List Char)) (v : Vec ℝ)
    (h : ∀ cd ∈ l, IsDet ci.nA cd.2 ∧ ci.Mem (detSet cd.2)) : ∃ w, l.foldlM (saStep ci (2 * ci.nA)) v = .ok w := by
  induction l generalizing v with
  | nil => exact ⟨v, rfl⟩
  | cons cd l ih =>
    obtain ⟨i, -, -, e⟩ := saStep_ok (v := v) hv hA (h cd (by simp)).1 (h cd (by simp)).2
    rw [List.foldlM_cons, e, ok_bind]
    exact ih _ fun x hx => h x (by simp [hx])

theorem saFold_conv (hv : ci.Valid) (hA : 0 < ci.nA) (l : List (ℝ × List Char)) (v w : Vec ℝ)
    (e : l.foldlM (saStep ci (2 * ci.nA)) v = .ok w) : ∀ cd ∈ l, IsDet ci.nA cd.2 ∧ ci.Mem (detSet cd.2) := by
  induction l generalizing v with
  | nil => intro cd hc; simp at hc
  | cons cd l ih =>
    rw [List.foldlM_cons] at e
    cases hs : saStep ci (2 * ci.nA) v cd with
    | error x => rw [hs] at e; cases e
    | ok v' =>
      rw [hs, ok_bind] at e
      intro x hx
      rcases List.mem_cons.1 hx with rfl | hx
      · exact saStep_conv hv hA hs
      · exact ih v' e x hx

theorem saFold_error (hv : ci.Valid) (hA : 0 < ci.nA) (l : List (ℝ × List Char)) (v : Vec ℝ) {e : PyErr}
    (h : l.foldlM (saStep ci (2 * ci.nA)) v = .error e) :
    e = .valueError ∨ (e = .keyError ∧ ∃ cd ∈ l, ¬ ci.Mem (detSet cd.2)) := by
  induction l generalizing v with
  | nil => cases h
  | cons cd l ih =>
    rw [List.foldlM_cons] at h
    cases hs : saStep ci (2 * ci.nA) v cd with
    | error x =>
      rw [hs] at h
      cases h
      rcases saStep_error hv hA hs with h | ⟨h, h'⟩
      · exact .inl h
      · exact .inr ⟨h, cd, by simp, h'⟩
    | ok v' =>
      rw [hs, ok_bind] at h
      rcases ih v' h with h | ⟨h, x, hx, h'⟩
      · exact .inl h
      · exact .inr ⟨h, x, by simp [hx], h'⟩

theorem saFold_state (hv : ci.Valid) (hA : 0 < ci.nA) (l : List (ℝ × List Char)) (v w : Vec ℝ)
    (hn : (l.map Prod.snd).Nodup) (h0 : ∀ cd ∈ l, coeff (stateOf ci v) (detSet cd.2) = 0)
    (e : l.foldlM (saStep ci (2 * ci.nA)) v = .ok w) :
    stateOf ci w = stateOf ci v + (l.map fun cd => sgl (detSet cd.2) cd.1).sum := by
  induction l generalizing v with
  | nil => cases e; simp
  | cons cd l ih =>
    have hg := saFold_conv hv hA _ _ _ e
    obtain ⟨i, i1, i2, e1⟩ := saStep_ok (v := v) hv hA (hg cd (by simp)).1 (hg cd (by simp)).2
    rw [List.foldlM_cons, e1, ok_bind] at e
    have hvi : v i = 0 := by rw [← coeff_stateOf hv v i1, i2]; exact h0 cd (by simp)
    have hu : stateOf ci (Function.update v i cd.1) = stateOf ci v + sgl (detSet cd.2) cd.1 := by
      have := stateOf_update v i1 cd.1
      rwa [hvi, zero_add, i2] at this
    rw [List.map_cons, List.nodup_cons] at hn
    rw [ih _ hn.2 (fun x hx => ?_) e, hu, List.map_cons, List.sum_cons, add_assoc]
    rw [hu, coeff_add, h0 x (by simp [hx]), coeff_sgl, if_neg, add_zero]
    intro hs
    exact hn.1 (List.mem_map.2 ⟨x, hx, (detSet_inj (hg cd (by simp)).1 (hg x (by simp [hx])).1 hs).symm⟩)

theorem saRow_eq (ci : CIInfo) (nso : ℕ) (s : List ℝ × List (List Char)) : saRow ci nso s =
    if s.1.length ≠ s.2.length then .error .valueError else (s.1.zip s.2).foldlM (saStep ci nso) 0 := rfl

/-- A state that has a row: as many coefficients as determinants, which are determinants of the space. -/
theorem saRow_iff (hv : ci.Valid) (hA : 0 < ci.nA) (s : Csf) : (∃ w, saRow ci (2 * ci.nA) s = .ok w) ↔
    Csf.Good ci.nA s ∧ ∀ d ∈ s.2, ci.Mem (detSet d) := by
  rw [saRow_eq]
  by_cases hl : s.1.length ≠ s.2.length
  · rw [if_pos hl]
    exact ⟨fun ⟨w, h⟩ => (by cases h), fun h => absurd h.1.1 hl⟩
  · rw [if_neg hl]
    rw [not_not] at hl
    constructor
    · rintro ⟨w, h⟩
      have := saFold_conv hv hA _ _ _ h
      have hm : ∀ d ∈ s.2, ∃ cd ∈ s.1.zip s.2, cd.2 = d := by
        intro d hd
        obtain ⟨i, hi, rfl⟩ := List.mem_iff_getElem.1 hd
        exact ⟨(s.1[i]'(by omega), s.2[i]), List.mem_iff_getElem.2 ⟨i, by simp; omega, by simp⟩, rfl⟩
      refine ⟨⟨hl, fun d hd => ?_⟩, fun d hd => ?_⟩ <;> obtain ⟨cd, h1, rfl⟩ := hm d hd
      · exact (this cd h1).1
      · exact (this cd h1).2
    · rintro ⟨⟨-, h1⟩, h2⟩
      exact saFold_ok hv hA _ _ fun cd hc => ⟨h1 _ (List.of_mem_zip hc).2, h2 _ (List.of_mem_zip hc).2⟩

theorem saRow_state (hv : ci.Valid) (hA : 0 < ci.nA) {s : Csf} (hn : s.2.Nodup) {w : Vec ℝ}
    (h : saRow ci (2 * ci.nA) s = .ok w) : stateOf ci w = csfFock s := by
  rw [saRow_eq] at h
  by_cases hl : s.1.length ≠ s.2.length
  · rw [if_pos hl] at h; cases h
  rw [if_neg hl] at h
  rw [not_not] at hl
  rw [saFold_state hv hA _ _ _ (by rw [List.map_snd_zip hl.ge]; exact hn) (fun cd _ => by
    rw [stateOf_zero]; rfl) h, stateOf_zero, zero_add]
  rfl

theorem saRow_error (hv : ci.Valid) (hA : 0 < ci.nA) {s : Csf} {e : PyErr} (h : saRow ci (2 * ci.nA) s = .error e) :
    e = .valueError ∨ (e = .keyError ∧ ∃ d ∈ s.2, ¬ ci.Mem (detSet d)) := by
  rw [saRow_eq] at h
  by_cases hl : s.1.length ≠ s.2.length
  · rw [if_pos hl] at h; cases h; exact .inl rfl
  rw [if_neg hl] at h
  rcases saFold_error hv hA _ _ h with h | ⟨h, cd, hc, h'⟩
  · exact .inl h
  · exact .inr ⟨h, cd.2, (List.of_mem_zip hc).2, h'⟩

end SQ
