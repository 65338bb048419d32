import Verif.Model.Response
import Verif.Lemmas.OperatorsSem

/-!
# Lemmas: the loops that fill the response matrices
-/

namespace SQ

theorem foldlM_ok_exists {α σ ν : Type} {f : σ → α → Res σ} (up : σ → α → ν → σ) (V : α → ν → Prop)
    (l : List α) (h : ∀ x ∈ l, ∃ v, V x v ∧ ∀ s, f s x = .ok (up s x v)) :
    ∃ L : List (α × ν), L.map (·.1) = l ∧ (∀ t ∈ L, V t.1 t.2) ∧
      ∀ s, l.foldlM f s = .ok (L.foldl (fun s t => up s t.1 t.2) s) := by
  induction l with
  | nil => exact ⟨[], rfl, by simp, fun s => rfl⟩
  | cons x l ih =>
    obtain ⟨L, h1, h2, h3⟩ := ih fun y hy => h y (by simp [hy])
    obtain ⟨v, hv, hf⟩ := h x (by simp)
    refine ⟨(x, v) :: L, by simp [h1], ?_, fun s => ?_⟩
    · intro t ht
      rcases List.mem_cons.1 ht with rfl | ht
      · exact hv
      · exact h2 t ht
    · rw [List.foldlM_cons, hf, List.foldl_cons]
      exact h3 _

theorem mapM_ok_exists {α β : Type} {f : α → Res β} (V : α → β → Prop) (l : List α)
    (h : ∀ x ∈ l, ∃ v, f x = .ok v ∧ V x v) :
    ∃ L, l.mapM f = .ok L ∧ List.Forall₂ V l L := by
  induction l with
  | nil => exact ⟨[], rfl, .nil⟩
  | cons x l ih =>
    obtain ⟨L, h1, h2⟩ := ih fun y hy => h y (by simp [hy])
    obtain ⟨v, hv, hV⟩ := h x (by simp)
    refine ⟨v :: L, ?_, .cons hV h2⟩
    rw [List.mapM_cons, hv]
    simp only [h1]
    rfl

/-- What the nested loop does when no step fails. -/
theorem lrLoop_ok {α β κ ν : Type} {js : List (α × ℕ)} {is : ℕ → List (β × ℕ)} {pre : α → Res κ}
    {entry : κ → α × ℕ → β × ℕ → Res ν} (put : LRMats → ℕ → ℕ → ν → LRMats) (V : ℕ → ℕ → ν → Prop)
    (h : ∀ x ∈ js, ∃ k, pre x.1 = .ok k ∧ ∀ y ∈ is x.2, ∃ v, entry k x y = .ok v ∧ V y.2 x.2 v) :
    ∃ L : List (ℕ × ℕ × ν), (∀ t ∈ L, V t.1 t.2.1 t.2.2) ∧
      (∀ i j, (∃ t ∈ L, t.1 = i ∧ t.2.1 = j) ↔ ∃ x ∈ js, x.2 = j ∧ ∃ y ∈ is x.2, y.2 = i) ∧
      ∀ M, lrLoop js is pre entry put M = .ok (L.foldl (fun M t => put M t.1 t.2.1 t.2.2) M) := by
  induction js with
  | nil => exact ⟨[], by simp, by simp, fun M => rfl⟩
  | cons x js ih =>
    obtain ⟨L, h1, h2, h3⟩ := ih fun y hy => h y (by simp [hy])
    obtain ⟨k, hk, he⟩ := h x (by simp)
    obtain ⟨L', g1, g2, g3⟩ := foldlM_ok_exists
      (f := fun M y => do let v ← entry k x y; pure (put M y.2 x.2 v)) (fun M (y : β × ℕ) v => put M y.2 x.2 v)
      (fun y v => V y.2 x.2 v) (is x.2) (by
        intro y hy
        obtain ⟨v, e1, e2⟩ := he y hy
        exact ⟨v, e2, fun s => by rw [e1]; rfl⟩)
    refine ⟨L'.map (fun t => (t.1.2, x.2, t.2)) ++ L, ?_, ?_, fun M => ?_⟩
    · intro t ht
      rcases List.mem_append.1 ht with ht | ht
      · obtain ⟨t', h4, rfl⟩ := List.mem_map.1 ht
        exact g2 t' h4
      · exact h1 t ht
    · intro i j
      constructor
      · rintro ⟨t, ht, rfl, rfl⟩
        rcases List.mem_append.1 ht with ht | ht
        · obtain ⟨t', h4, rfl⟩ := List.mem_map.1 ht
          exact ⟨x, by simp, rfl, t'.1, by rw [← g1]; exact List.mem_map_of_mem h4, rfl⟩
        · obtain ⟨x', a, b⟩ := (h2 _ _).1 ⟨t, ht, rfl, rfl⟩
          exact ⟨x', by simp [a], b⟩
      · rintro ⟨x', hx', rfl, y, hy, rfl⟩
        rcases List.mem_cons.1 hx' with rfl | hx'
        · rw [← g1] at hy
          obtain ⟨t', h4, rfl⟩ := List.mem_map.1 hy
          exact ⟨_, List.mem_append_left _ (List.mem_map_of_mem h4), rfl, rfl⟩
        · obtain ⟨t, a, b⟩ := (h2 y.2 x'.2).2 ⟨x', hx', rfl, y, hy, rfl⟩
          exact ⟨t, List.mem_append_right _ a, b⟩
    · unfold lrLoop at h3 ⊢
      rw [List.foldlM_cons, hk]
      simp only [ok_bind]
      rw [g3 M]
      simp only [ok_bind]
      rw [h3, List.foldl_append, List.foldl_map]

theorem setSym_get (X : Mat ℝ) (i j : ℕ) (v : ℝ) (r c : ℕ) :
    setSym X i j v r c = if (r = i ∧ c = j) ∨ (r = j ∧ c = i) then v else X r c := by
  unfold setSym set2
  by_cases h1 : r = j ∧ c = i <;> by_cases h2 : r = i ∧ c = j <;> simp [h1, h2]

/-- Symmetric writes of the values of a symmetric function. -/
theorem foldl_setSym (F : ℕ → ℕ → ℝ) (hF : ∀ r c, F r c = F c r) (L : List (ℕ × ℕ × ℝ))
    (hL : ∀ t ∈ L, t.2.2 = F t.1 t.2.1) (X : Mat ℝ) (r c : ℕ) :
    ((∃ t ∈ L, (t.1 = r ∧ t.2.1 = c) ∨ (t.1 = c ∧ t.2.1 = r)) →
      (L.foldl (fun X t => setSym X t.1 t.2.1 t.2.2) X) r c = F r c) ∧
    ((¬ ∃ t ∈ L, (t.1 = r ∧ t.2.1 = c) ∨ (t.1 = c ∧ t.2.1 = r)) →
      (L.foldl (fun X t => setSym X t.1 t.2.1 t.2.2) X) r c = X r c) := by
  induction L generalizing X with
  | nil => simp
  | cons t L ih =>
    rw [List.foldl_cons]
    obtain ⟨a, b⟩ := ih (fun t' h => hL t' (by simp [h])) (setSym X t.1 t.2.1 t.2.2)
    have ht := hL t (by simp)
    have key : (t.1 = r ∧ t.2.1 = c) ∨ (t.1 = c ∧ t.2.1 = r) → setSym X t.1 t.2.1 t.2.2 r c = F r c := by
      intro h
      rw [setSym_get, if_pos (by rcases h with ⟨rfl, rfl⟩ | ⟨rfl, rfl⟩ <;> simp), ht]
      rcases h with ⟨rfl, rfl⟩ | ⟨rfl, rfl⟩
      · rfl
      · exact hF _ _
    by_cases hex : ∃ t ∈ L, (t.1 = r ∧ t.2.1 = c) ∨ (t.1 = c ∧ t.2.1 = r)
    · refine ⟨fun _ => a hex, fun h => absurd ?_ h⟩
      obtain ⟨t', h1, h2⟩ := hex
      exact ⟨t', by simp [h1], h2⟩
    · constructor
      · rintro ⟨t', h1, h2⟩
        rcases List.mem_cons.1 h1 with rfl | h1
        · rw [b hex]; exact key h2
        · exact absurd ⟨t', h1, h2⟩ hex
      · intro h
        rw [b hex, setSym_get, if_neg]
        intro h'
        exact h ⟨t, by simp, by rcases h' with ⟨rfl, rfl⟩ | ⟨rfl, rfl⟩ <;> simp⟩

theorem foldl_proj {σ τ ν : Type} (f : σ → τ) (put : σ → ν → σ) (put' : τ → ν → τ)
    (h : ∀ s v, f (put s v) = put' (f s) v) (L : List ν) (s : σ) : f (L.foldl put s) = L.foldl put' (f s) := by
  induction L generalizing s with
  | nil => rfl
  | cons v L ih => rw [List.foldl_cons, List.foldl_cons, ih, h]

theorem foldl_same {σ τ ν : Type} (f : σ → τ) (put : σ → ν → σ) (h : ∀ s v, f (put s v) = f s) (L : List ν)
    (s : σ) : f (L.foldl put s) = f s := by
  induction L generalizing s with
  | nil => rfl
  | cons v L ih => rw [List.foldl_cons, ih, h]

/-- Writes to `A` at shifted positions. -/
theorem foldl_shift {ν : Type} (val : ν → ℝ) (a b : ℕ) (L : List (ℕ × ℕ × ν)) (X : Mat ℝ) :
    L.foldl (fun X t => setSym X (t.1 + a) (t.2.1 + b) (val t.2.2)) X
      = (L.map fun t => (t.1 + a, t.2.1 + b, val t.2.2)).foldl (fun X t => setSym X t.1 t.2.1 t.2.2) X := by
  rw [List.foldl_map]

theorem maxAbs_gt (l : List ℝ) (m0 : ℝ) (t : ℝ) :
    l.foldl (fun m x => max m |x|) m0 > t ↔ m0 > t ∨ ∃ x ∈ l, |x| > t := by
  induction l generalizing m0 with
  | nil => simp
  | cons x l ih =>
    rw [List.foldl_cons, ih]
    simp only [gt_iff_lt, lt_max_iff, List.mem_cons, exists_eq_or_imp]
    tauto

theorem bigGrad_iff (l : List ℝ) : bigGrad l ↔ ∃ x ∈ l, |x| > 1 / 1000 := by
  unfold bigGrad
  rw [maxAbs_gt]
  simp only [gt_iff_lt, or_iff_right_iff_imp]
  intro h; norm_num at h

theorem mem_zipIdx_snd {α : Type} {l : List α} {k i : ℕ} :
    (∃ y ∈ l.zipIdx k, y.2 = i) ↔ k ≤ i ∧ i < k + l.length := by
  constructor
  · rintro ⟨y, hy, rfl⟩
    have := List.mem_zipIdx hy
    omega
  · rintro ⟨h1, h2⟩
    refine ⟨(l[i - k], i), ?_, rfl⟩
    rw [List.mem_iff_getElem]
    refine ⟨i - k, by simp; omega, ?_⟩
    rw [List.getElem_zipIdx]
    exact Prod.ext rfl (by dsimp only; omega)

end SQ
