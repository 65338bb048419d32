import Verif.Model.Layout
import Verif.Spec.Layout

/-!
# Breadth-first search
-/

namespace SQ

variable {edges : List (ℕ × ℕ)} {s target : ℕ}

theorem Coupled.symm {u v : ℕ} (h : Coupled edges u v) : Coupled edges v u := Or.symm h

theorem mem_neighbours {u v : ℕ} : v ∈ neighbours edges u ↔ Coupled edges u v := by
  unfold neighbours Coupled
  simp only [List.mem_flatMap, List.mem_append]
  constructor
  · rintro ⟨⟨a, b⟩, he, h | h⟩
    · split_ifs at h with e
      · simp only at e h
        rw [List.mem_singleton] at h
        subst e h
        exact Or.inl he
      · simp at h
    · split_ifs at h with e
      · simp only at e h
        rw [List.mem_singleton] at h
        subst e h
        exact Or.inr he
      · simp at h
  · rintro (h | h)
    · exact ⟨_, h, Or.inl (by simp)⟩
    · exact ⟨_, h, Or.inr (by simp)⟩

/-- There is a route with `k` steps. -/
def Steps (edges : List (ℕ × ℕ)) (s : ℕ) : ℕ → ℕ → Prop
  | 0, v => v = s
  | k + 1, v => ∃ u, Steps edges s k u ∧ Coupled edges u v

theorem steps_of_route : ∀ {l : List ℕ} {b : ℕ}, IsRoute edges l s b → Steps edges s (l.length - 1) b := by
  intro l
  induction l using List.reverseRecOn with
  | nil => intro b h; simp [IsRoute] at h
  | append_singleton l x ih =>
    intro b h
    obtain ⟨h1, h2, h3⟩ := h
    rw [List.getLast?_append] at h2
    simp only [List.getLast?_singleton, Option.some_or, Option.some.injEq] at h2
    subst h2
    cases hl : l.getLast? with
    | none =>
      rw [List.getLast?_eq_none_iff] at hl
      subst hl
      simpa [Steps] using h1
    | some y =>
      have hne : l ≠ [] := by rintro rfl; simp at hl
      obtain ⟨c1, -, c3⟩ := List.isChain_append.1 h3
      have : IsRoute edges l s y := by
        refine ⟨?_, hl, c1⟩
        rw [List.head?_append_of_ne_nil _ hne] at h1
        exact h1
      have hs := ih this
      have hpos : 0 < l.length := List.length_pos_of_ne_nil hne
      have : (l ++ [x]).length - 1 = (l.length - 1) + 1 := by simp; omega
      rw [this]
      exact ⟨y, hs, c3 y (by rw [hl]; rfl) x (by simp)⟩

theorem route_snoc {l : List ℕ} {u v : ℕ} (h : IsRoute edges l s u) (hc : Coupled edges u v) :
    IsRoute edges (l ++ [v]) s v := by
  obtain ⟨h1, h2, h3⟩ := h
  have hne : l ≠ [] := by rintro rfl; simp at h2
  refine ⟨by rw [List.head?_append_of_ne_nil _ hne]; exact h1, by simp, List.isChain_append.2 ⟨h3, by simp, ?_⟩⟩
  intro x hx y hy
  rw [h2] at hx
  simp at hx hy
  subst hx hy
  exact hc

/-- Distance from the start. -/
def AtDist (edges : List (ℕ × ℕ)) (s k v : ℕ) : Prop := Steps edges s k v ∧ ∀ j < k, ¬ Steps edges s j v

def pkeys (par : Parents) : List ℕ := par.map Prod.fst

theorem lookup_isNone {par : Parents} {w : ℕ} : (par.lookup w).isNone = true ↔ w ∉ pkeys par := by
  rw [Option.isNone_iff_eq_none, List.lookup_eq_none_iff]
  unfold pkeys
  rw [List.mem_map]
  constructor
  · rintro h ⟨x, hx, rfl⟩; simpa using h x hx
  · intro h x hx
    have : w ≠ x.1 := fun e => h ⟨x, hx, e.symm⟩
    simpa using this

theorem lookup_get {par : Parents} (hnd : (pkeys par).Nodup) {i v : ℕ} {p : Option ℕ} (h : par[i]? = some (v, p)) :
    par.lookup v = some p := by
  induction par generalizing i with
  | nil => simp at h
  | cons x par ih =>
    obtain ⟨w, r⟩ := x
    cases i with
    | zero =>
      simp only [List.getElem?_cons_zero, Option.some.injEq] at h
      cases h
      simp [List.lookup]
    | succ i =>
      rw [List.getElem?_cons_succ] at h
      have hnd' : w ∉ pkeys par ∧ (pkeys par).Nodup := List.nodup_cons.1 hnd
      have : v ≠ w := by
        rintro rfl
        exact hnd'.1 (List.mem_map.2 ⟨_, List.mem_of_getElem? h, rfl⟩)
      rw [List.lookup_cons]
      have : (v == w) = false := by simpa using this
      rw [this]
      exact ih hnd'.2 h

theorem discover_spec (c : ℕ) : ∀ (ws queue : List ℕ) (par : Parents), ∃ new : List ℕ,
    discover c ws queue par = (queue ++ new, par ++ new.map fun w => (w, some c)) ∧ new.Nodup ∧
    (∀ w ∈ new, w ∈ ws ∧ w ∉ pkeys par) ∧ ∀ w ∈ ws, w ∈ pkeys par ∨ w ∈ new := by
  intro ws
  induction ws with
  | nil => intro q p; exact ⟨[], by simp [discover], by simp, by simp, by simp⟩
  | cons w ws ih =>
    intro q p
    unfold discover
    by_cases h : (p.lookup w).isNone = true
    · rw [if_pos h]
      have hw := lookup_isNone.1 h
      obtain ⟨new, h1, h2, h3, h4⟩ := ih (q ++ [w]) (p ++ [(w, some c)])
      have hk : pkeys (p ++ [(w, some c)]) = pkeys p ++ [w] := by simp [pkeys]
      rw [hk] at h3 h4
      refine ⟨w :: new, by rw [h1]; simp, List.nodup_cons.2 ⟨fun hm => (h3 w hm).2 (by simp), h2⟩, ?_, ?_⟩
      · intro x hx
        rcases List.mem_cons.1 hx with rfl | hx
        · exact ⟨by simp, hw⟩
        · exact ⟨by simp [(h3 x hx).1], fun hm => (h3 x hx).2 (by simp [hm])⟩
      · intro x hx
        rcases List.mem_cons.1 hx with rfl | hx
        · right; simp
        · rcases h4 x hx with h | h
          · rcases List.mem_append.1 h with h | h
            · exact Or.inl h
            · right; rw [List.mem_singleton] at h; simp [h]
          · right; simp [h]
    · rw [if_neg h]
      have hw : w ∈ pkeys p := by
        by_contra hh; exact h (lookup_isNone.2 hh)
      obtain ⟨new, h1, h2, h3, h4⟩ := ih q p
      refine ⟨new, h1, h2, fun x hx => ⟨by simp [(h3 x hx).1], (h3 x hx).2⟩, fun x hx => ?_⟩
      rcases List.mem_cons.1 hx with rfl | hx
      · exact Or.inl hw
      · exact h4 x hx

/-- The entries of the parent dictionary. -/
def ParentsOk (edges : List (ℕ × ℕ)) (s : ℕ) (par : Parents) : Prop :=
  ∀ (i v : ℕ) (p : Option ℕ), par[i]? = some (v, p) → (p = none ∧ v = s) ∨
    ∃ u j p' k, p = some u ∧ j < i ∧ par[j]? = some (u, p') ∧ Coupled edges u v ∧ AtDist edges s k u ∧ AtDist edges s (k + 1) v

def endpoints (edges : List (ℕ × ℕ)) : List ℕ := edges.flatMap fun e => [e.1, e.2]

theorem endpoints_length : (endpoints edges).length = 2 * edges.length := by
  unfold endpoints
  induction edges with
  | nil => rfl
  | cons e es ih => rw [List.flatMap_cons, List.length_append, ih]; simp; omega

theorem mem_endpoints {u v : ℕ} (h : Coupled edges u v) : v ∈ endpoints edges := by
  unfold endpoints
  rcases h with h | h
  · exact List.mem_flatMap.2 ⟨_, h, by simp⟩
  · exact List.mem_flatMap.2 ⟨_, h, by simp⟩

structure BfsInv (edges : List (ℕ × ℕ)) (s target : ℕ) (d : ℕ) (A B : List ℕ) (par : Parents) : Prop where
  nodup : (pkeys par).Nodup
  sub : ∀ v ∈ pkeys par, v ∈ s :: endpoints edges
  start : s ∈ pkeys par
  near : ∀ v ∈ A, AtDist edges s d v
  far : ∀ v ∈ B, AtDist edges s (d + 1) v
  all : ∀ k ≤ d, ∀ v, Steps edges s k v → v ∈ pkeys par
  queued : ∀ v ∈ A ++ B, v ∈ pkeys par
  done : ∀ v ∈ pkeys par, v ∈ A ++ B ∨ (v ≠ target ∧ ∀ w, Coupled edges v w → w ∈ pkeys par)
  ok : ParentsOk edges s par

theorem BfsInv.length_le {d : ℕ} {A B : List ℕ} {par : Parents} (h : BfsInv edges s target d A B par) :
    par.length ≤ 2 * edges.length + 1 := by
  have : (pkeys par).length ≤ (s :: endpoints edges).length := (h.nodup.subperm h.sub).length_le
  rw [List.length_cons, endpoints_length] at this
  simpa [pkeys] using this

theorem steps_ge {k v d : ℕ} (hd : AtDist edges s d v) (hs : Steps edges s k v) : d ≤ k := by
  by_contra h; exact hd.2 k (by omega) hs

/-- Going to the next level. -/
theorem BfsInv.next {d : ℕ} {B : List ℕ} {par : Parents} (h : BfsInv edges s target d [] B par) :
    BfsInv edges s target (d + 1) B [] par where
  nodup := h.nodup
  sub := h.sub
  start := h.start
  near := h.far
  far := by simp
  all := by
    intro k hk v hs
    by_cases hkd : k ≤ d
    · exact h.all k hkd v hs
    · have : k = d + 1 := by omega
      subst this
      obtain ⟨u, hu, hc⟩ := hs
      have hm := h.all d le_rfl u hu
      rcases h.done u hm with hq | hq
      · have := steps_ge (h.far u (by simpa using hq)) hu
        omega
      · exact hq.2 v hc
  queued := by simpa using h.queued
  done := by simpa using h.done
  ok := h.ok

theorem parentsOk_append {par : Parents} {c d : ℕ} {new : List ℕ} (h : ParentsOk edges s par) (hc : c ∈ pkeys par)
    (hd : AtDist edges s d c) (hn : ∀ w ∈ new, Coupled edges c w ∧ AtDist edges s (d + 1) w) :
    ParentsOk edges s (par ++ new.map fun w => (w, some c)) := by
  intro i v p hi
  by_cases hlt : i < par.length
  · rw [List.getElem?_append_left hlt] at hi
    rcases h i v p hi with h1 | ⟨u, j, p', k, h1, h2, h3, h4⟩
    · exact Or.inl h1
    · exact Or.inr ⟨u, j, p', k, h1, h2, by rw [List.getElem?_append_left (by omega)]; exact h3, h4⟩
  · rw [List.getElem?_append_right (by omega), List.getElem?_map] at hi
    obtain ⟨w, hw, he⟩ := Option.map_eq_some_iff.1 hi
    cases he
    right
    obtain ⟨x, hx, he⟩ := List.mem_map.1 hc
    obtain ⟨j, hj, he'⟩ := List.getElem_of_mem hx
    obtain ⟨xu, xp⟩ := x
    simp only at he
    subst he
    refine ⟨xu, j, xp, d, rfl, by omega, ?_, (hn v (List.mem_of_getElem? hw)).1, hd, (hn v (List.mem_of_getElem? hw)).2⟩
    rw [List.getElem?_append_left hj, List.getElem?_eq_getElem hj, he']

theorem BfsInv.step {d c : ℕ} {A B : List ℕ} {par : Parents} (h : BfsInv edges s target d (c :: A) B par) (hct : c ≠ target) :
    ∃ new : List ℕ, discover c (neighbours edges c) (A ++ B) par =
        (A ++ (B ++ new), par ++ new.map fun w => (w, some c)) ∧
      BfsInv edges s target d A (B ++ new) (par ++ new.map fun w => (w, some c)) := by
  obtain ⟨new, h1, h2, h3, h4⟩ := discover_spec c (neighbours edges c) (A ++ B) par
  have hcd := h.near c (by simp)
  have hnew : ∀ w ∈ new, Coupled edges c w ∧ AtDist edges s (d + 1) w := by
    intro w hw
    have hc := mem_neighbours.1 (h3 w hw).1
    refine ⟨hc, ⟨c, hcd.1, hc⟩, fun j hj hs => (h3 w hw).2 (h.all j (by omega) w hs)⟩
  have hk : pkeys (par ++ new.map fun w => (w, some c)) = pkeys par ++ new := by
    unfold pkeys
    rw [List.map_append, List.map_map]
    congr 1
    exact (List.map_congr_left fun _ _ => rfl).trans (List.map_id _)
  refine ⟨new, by rw [h1, List.append_assoc], ?_⟩
  constructor
  · rw [hk, List.nodup_append]
    exact ⟨h.nodup, h2, fun a ha b hb e => (h3 b hb).2 (e ▸ ha)⟩
  · intro v hv
    rw [hk] at hv
    rcases List.mem_append.1 hv with hv | hv
    · exact h.sub v hv
    · exact List.mem_cons_of_mem _ (mem_endpoints (hnew v hv).1)
  · rw [hk]; exact List.mem_append_left _ h.start
  · exact fun v hv => h.near v (by simp [hv])
  · intro v hv
    rcases List.mem_append.1 hv with hv | hv
    · exact h.far v hv
    · exact (hnew v hv).2
  · intro k hk' v hs
    rw [hk]
    exact List.mem_append_left _ (h.all k hk' v hs)
  · intro v hv
    rw [hk]
    rcases List.mem_append.1 hv with hv | hv
    · exact List.mem_append_left _ (h.queued v (by simp [hv]))
    · rcases List.mem_append.1 hv with hv | hv
      · exact List.mem_append_left _ (h.queued v (by simp [hv]))
      · exact List.mem_append_right _ hv
  · intro v hv
    rw [hk] at hv ⊢
    rcases List.mem_append.1 hv with hv | hv
    · rcases h.done v hv with hq | hq
      · rcases List.mem_append.1 hq with hq | hq
        · rcases List.mem_cons.1 hq with rfl | hq
          · right
            refine ⟨hct, fun w hw => ?_⟩
            rcases h4 w (mem_neighbours.2 hw) with h | h
            · exact List.mem_append_left _ h
            · exact List.mem_append_right _ h
          · left; simp [hq]
        · left; simp [hq]
      · right
        exact ⟨hq.1, fun w hw => List.mem_append_left _ (hq.2 w hw)⟩
    · left; simp [hv]
  · exact parentsOk_append h.ok (h.queued c (by simp)) hcd hnew

/-- What the search returns. -/
theorem bfs_spec : ∀ (f : ℕ) (d : ℕ) (A B : List ℕ) (par : Parents), BfsInv edges s target d A B par →
    (A ++ B).length + (2 * edges.length + 2) ≤ f + par.length →
    (∃ par', bfs edges target f (A ++ B) par = .ok par' ∧ (pkeys par').Nodup ∧ target ∈ pkeys par' ∧ ParentsOk edges s par') ∨
    (bfs edges target f (A ++ B) par = .error .valueError ∧ ∀ k, ¬ Steps edges s k target) := by
  intro f
  induction f with
  | zero =>
    intro d A B par h hf
    have := h.length_le
    omega
  | succ f ih =>
    have main : ∀ (d c : ℕ) (A B : List ℕ) (par : Parents), BfsInv edges s target d (c :: A) B par →
        (c :: A ++ B).length + (2 * edges.length + 2) ≤ f + 1 + par.length →
        (∃ par', bfs edges target (f + 1) (c :: A ++ B) par = .ok par' ∧ (pkeys par').Nodup ∧ target ∈ pkeys par' ∧
          ParentsOk edges s par') ∨
        (bfs edges target (f + 1) (c :: A ++ B) par = .error .valueError ∧ ∀ k, ¬ Steps edges s k target) := by
      intro d c A B par h hf
      by_cases hc : c = target
      · left
        refine ⟨par, ?_, h.nodup, hc ▸ h.queued c (by simp), h.ok⟩
        rw [List.cons_append]
        unfold bfs
        rw [if_pos hc]
      · obtain ⟨new, h1, h2⟩ := h.step hc
        have e : bfs edges target (f + 1) (c :: A ++ B) par =
            bfs edges target f (A ++ (B ++ new)) (par ++ new.map fun w => (w, some c)) := by
          rw [List.cons_append]
          conv_lhs => unfold bfs
          rw [if_neg hc]
          simp only [h1]
        rw [e]
        refine ih d A (B ++ new) _ h2 ?_
        simp only [List.length_append, List.length_map, List.length_cons] at hf ⊢
        omega
    intro d A B par h hf
    cases A with
    | cons c A => exact main d c A B par h hf
    | nil =>
      cases B with
      | cons c B =>
        have := main (d + 1) c B [] par h.next (by simpa using hf)
        simpa using this
      | nil =>
        right
        refine ⟨rfl, ?_⟩
        have hall : ∀ k v, Steps edges s k v → v ∈ pkeys par := by
          intro k
          induction k with
          | zero => intro v hv; rw [show v = s from hv]; exact h.start
          | succ k ihk =>
            rintro v ⟨u, hu, hc⟩
            rcases h.done u (ihk u hu) with hq | hq
            · simp at hq
            · exact hq.2 v hc
        intro k hk
        rcases h.done target (hall k target hk) with hq | hq
        · simp at hq
        · exact hq.1 rfl

theorem bfs_init (hst : s ≠ target) : BfsInv edges s target 0 [s] [] [(s, none)] where
  nodup := by simp [pkeys]
  sub := by simp [pkeys]
  start := by simp [pkeys]
  near := by
    intro v hv
    rw [List.mem_singleton] at hv
    exact ⟨hv, fun j hj => by omega⟩
  far := by simp
  all := by
    intro k hk v hs
    have : k = 0 := by omega
    subst this
    have : v = s := hs
    simp [pkeys, this]
  queued := by simp [pkeys]
  done := by intro v hv; left; simpa [pkeys] using hv
  ok := by
    intro i v p hi
    cases i with
    | zero =>
      simp only [List.getElem?_cons_zero, Option.some.injEq, Prod.mk.injEq] at hi
      exact Or.inl ⟨hi.2.symm, hi.1.symm⟩
    | succ i => simp at hi

/-- Walking back along the parents. -/
theorem backtrack_spec {par : Parents} (hnd : (pkeys par).Nodup) (hok : ParentsOk edges s par) :
    ∀ (i v : ℕ) (p : Option ℕ), par[i]? = some (v, p) → ∃ l k, IsRoute edges l s v ∧ AtDist edges s k v ∧
      l.length = k + 1 ∧ ∀ f, i < f → ∀ path, backtrack par f (some v) path = .ok (l ++ path.reverse) := by
  intro i
  induction i using Nat.strong_induction_on with
  | _ i ih =>
    intro v p hi
    have hl := lookup_get hnd hi
    rcases hok i v p hi with ⟨rfl, rfl⟩ | ⟨u, j, p', k, rfl, hj, hpj, hc, hdu, hdv⟩
    · refine ⟨[v], 0, ⟨rfl, rfl, by simp⟩, ⟨rfl, fun j hj => by omega⟩, rfl, fun f hf path => ?_⟩
      obtain ⟨f, rfl⟩ : ∃ g, f = g + 1 := ⟨f - 1, by omega⟩
      unfold backtrack
      rw [hl]
      simp only [backtrack]
      simp
    · obtain ⟨l, k', h1, h2, h3, h4⟩ := ih j hj u p' hpj
      have : k' = k := le_antisymm (steps_ge h2 hdu.1) (steps_ge hdu h2.1)
      subst this
      refine ⟨l ++ [v], k' + 1, route_snoc h1 hc, hdv, by simp [h3], fun f hf path => ?_⟩
      obtain ⟨f, rfl⟩ : ∃ g, f = g + 1 := ⟨f - 1, by omega⟩
      unfold backtrack
      rw [hl]
      simp only
      rw [h4 f (by omega)]
      simp

/-- The result of the search for a path. -/
theorem findBestPath_spec (edges : List (ℕ × ℕ)) (a b : ℕ) :
    (∃ l k, findBestPath edges a b = .ok l ∧ IsRoute edges l a b ∧ AtDist edges a k b ∧ l.length = k + 1) ∨
    (findBestPath edges a b = .error .valueError ∧ ∀ k, ¬ Steps edges a k b) := by
  unfold findBestPath
  by_cases h : a = b
  · rw [if_pos h]
    left
    subst h
    exact ⟨[a], 0, rfl, ⟨rfl, rfl, by simp⟩, ⟨rfl, fun j hj => by omega⟩, rfl⟩
  · rw [if_neg h]
    rcases bfs_spec (edges := edges) (s := a) (target := b) (2 * edges.length + 2) 0 [a] [] [(a, none)] (bfs_init h)
      (by simp only [List.length_append, List.length_cons, List.length_nil]; omega) with
      ⟨par, h1, h2, h3, h4⟩ | ⟨h1, h2⟩
    · left
      obtain ⟨x, hx, he⟩ := List.mem_map.1 h3
      obtain ⟨i, hi, he'⟩ := List.getElem_of_mem hx
      obtain ⟨v, p⟩ := x
      simp only at he
      subst he
      obtain ⟨l, k, g1, g2, g3, g4⟩ := backtrack_spec h2 h4 i v p (by rw [List.getElem?_eq_getElem hi, he'])
      refine ⟨l, k, ?_, g1, g2, g3⟩
      rw [List.append_nil] at h1
      rw [h1]
      show backtrack par (par.length + 1) (some v) [] = _
      rw [g4 _ (by omega)]
      simp
    · right
      refine ⟨?_, h2⟩
      rw [List.append_nil] at h1
      rw [h1]
      rfl

end SQ
