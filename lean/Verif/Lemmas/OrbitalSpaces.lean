import Verif.Model.OrbitalSpaces
import Verif.Model.Operators
import Verif.Lemmas.Iterators

/-! # Lemmas about the orbital spaces -/

namespace SQ

theorem mem_pyRangeZ {a b i : ℤ} : i ∈ pyRangeZ a b ↔ a ≤ i ∧ i < b := by
  simp only [pyRangeZ, List.mem_map, List.mem_range]
  constructor
  · rintro ⟨k, hk, rfl⟩; omega
  · intro h; exact ⟨(i - a).toNat, by omega, by omega⟩

theorem mem_activeSpace {N c0 c1 : ℕ} {i : ℤ} :
    i ∈ activeSpace N c0 c1 ↔ ((N : ℤ) - c0 ≤ i ∧ i < N) ∨ ((N : ℤ) ≤ i ∧ i < N + 2 * c1 - c0) := by
  have hl : (pyRangeZ ((N : ℤ) - c0) N).length = c0 := by simp [pyRangeZ]
  unfold activeSpace
  dsimp only
  rw [List.mem_append, mem_pyRangeZ, mem_pyRangeZ, hl]

theorem range_split (a m : ℕ) : List.range (a + m) = List.range a ++ rangeFrom a m := by
  rw [List.range_add]
  rfl

theorem rangeFrom_split (a m k : ℕ) : rangeFrom a (m + k) = rangeFrom a m ++ rangeFrom (a + m) k := by
  unfold rangeFrom
  rw [List.range_add, List.map_append, List.map_map]
  congr 1
  refine List.map_congr_left fun x _ => ?_
  simp [Nat.add_assoc]

theorem rangeFrom_zero (m : ℕ) : rangeFrom 0 m = List.range m := by
  simp [rangeFrom]

theorem mem_rangeFrom' {a m p : ℕ} : p ∈ rangeFrom a m ↔ a ≤ p ∧ p < a + m := by
  simp only [rangeFrom, List.mem_map, List.mem_range]
  constructor
  · rintro ⟨k, hk, rfl⟩; omega
  · intro h; exact ⟨p - a, by omega, by omega⟩

theorem filter_all {α : Type _} {l : List α} {p : α → Bool} (h : ∀ x ∈ l, p x = true) : l.filter p = l :=
  List.filter_eq_self.2 h

theorem filter_none {α : Type _} {l : List α} {p : α → Bool} (h : ∀ x ∈ l, p x = false) : l.filter p = [] :=
  List.filter_eq_nil_iff.2 fun x hx => by rw [h x hx]; simp

theorem spatial_append (l l' : List ℕ) :
    spatial (l ++ l') = l'.foldl (fun out idx => if idx / 2 ∈ out then out else out ++ [idx / 2]) (spatial l) := by
  unfold spatial
  rw [List.foldl_append]

theorem spatial_rangeFrom (a m : ℕ) : spatial (rangeFrom (2 * a) (2 * m)) = rangeFrom a m := by
  induction m with
  | zero => rfl
  | succ m ih =>
    rw [show 2 * (m + 1) = 2 * m + 2 by ring, rangeFrom_split, rangeFrom_split a m 1, spatial_append, ih]
    have e : rangeFrom (2 * a + 2 * m) 2 = [2 * (a + m), 2 * (a + m) + 1] := by
      simp [rangeFrom, List.range_succ]
      omega
    rw [e]
    have h1 : 2 * (a + m) / 2 = a + m := by omega
    have h2 : (2 * (a + m) + 1) / 2 = a + m := by omega
    have hn : a + m ∉ rangeFrom a m := by rw [mem_rangeFrom']; omega
    simp only [List.foldl_cons, List.foldl_nil, h1, h2, if_neg hn]
    rw [if_pos (by simp)]
    simp [rangeFrom]

theorem npMin_rangeFrom (a m : ℕ) (h : 0 < m) : npMin (rangeFrom a m) = a := by
  obtain ⟨m, rfl⟩ : ∃ k, m = k + 1 := ⟨m - 1, by omega⟩
  unfold rangeFrom
  rw [List.range_succ_eq_map, List.map_cons, npMin]
  have : ∀ (l : List ℕ) (b : ℕ), (∀ x ∈ l, b ≤ x) → l.foldl min b = b := by
    intro l
    induction l with
    | nil => intro b _; rfl
    | cons x l ih =>
      intro b hb
      rw [List.foldl_cons, min_eq_left (hb x (by simp)), ih b fun y hy => hb y (by simp [hy])]
  rw [Nat.add_zero]
  refine this _ _ fun x hx => ?_
  simp only [List.map_map, List.mem_map, List.mem_range, Function.comp] at hx
  obtain ⟨k, -, rfl⟩ := hx
  omega

theorem map_sub_rangeFrom (a b m : ℕ) (h : b ≤ a) :
    (rangeFrom a m).map (· - b) = rangeFrom (a - b) m := by
  unfold rangeFrom
  rw [List.map_map]
  refine List.map_congr_left fun x _ => ?_
  simp only [Function.comp]
  omega

theorem shifted_rangeFrom {a m b k : ℕ} (h : a ≤ b) (hk : m = 0 → k = 0) :
    shifted (rangeFrom a m) (rangeFrom b k) = rangeFrom (b - a) k := by
  unfold shifted
  by_cases hm : m = 0
  · rw [hk hm, hm]; rfl
  · have hl : (rangeFrom a m).length ≠ 0 := by simpa [rangeFrom] using hm
    rw [if_neg hl, npMin_rangeFrom _ _ (by omega), map_sub_rangeFrom _ _ _ h]

/-- The spaces for an even number of electrons and a fitting active space. -/
theorem mkSpaces_eq {nI nA nV o : ℕ} (ho : o ≤ nA) :
    mkSpaces (nI + nA + nV) (2 * (nI + o)) (2 * o) nA =
      { inactiveSpin := List.range (2 * nI)
        activeSpin := rangeFrom (2 * nI) (2 * nA)
        virtualSpin := rangeFrom (2 * (nI + nA)) (2 * nV)
        activeOccSpin := rangeFrom (2 * nI) (2 * o)
        activeUnoccSpin := rangeFrom (2 * (nI + o)) (2 * (nA - o))
        inactive := List.range nI
        active := rangeFrom nI nA
        virt := rangeFrom (nI + nA) nV
        activeOcc := rangeFrom nI o
        activeUnocc := rangeFrom (nI + o) (nA - o)
        activeSpinShifted := List.range (2 * nA)
        activeOccSpinShifted := List.range (2 * o)
        activeUnoccSpinShifted := rangeFrom (2 * o) (2 * (nA - o))
        activeShifted := List.range nA
        activeOccShifted := List.range o
        activeUnoccShifted := rangeFrom o (nA - o)
        numActiveElec := 2 * o
        numInactiveOrbs := nI
        numActiveOrbs := nA
        numVirtualOrbs := nV } := by
  have hisAct : ∀ i : ℕ, decide ((i : ℤ) ∈ activeSpace (2 * (nI + o)) (2 * o) nA)
      = decide (2 * nI ≤ i ∧ i < 2 * (nI + nA)) := by
    intro i
    refine decide_eq_decide.2 ?_
    rw [mem_activeSpace]
    push_cast
    omega
  have hlow : List.range (2 * (nI + o)) = List.range (2 * nI) ++ rangeFrom (2 * nI) (2 * o) := by
    rw [← range_split]; congr 1; ring
  have hhigh : (List.range (2 * (nI + nA + nV) - 2 * (nI + o))).map (2 * (nI + o) + ·)
      = rangeFrom (2 * (nI + o)) (2 * (nA - o)) ++ rangeFrom (2 * (nI + nA)) (2 * nV) := by
    have : 2 * (nI + nA + nV) - 2 * (nI + o) = 2 * (nA - o) + 2 * nV := by omega
    rw [this]
    change rangeFrom _ _ = _
    rw [rangeFrom_split]
    congr 2
    omega
  have e1 : (List.range (2 * (nI + o))).filter (fun i => decide (2 * nI ≤ i ∧ i < 2 * (nI + nA)))
      = rangeFrom (2 * nI) (2 * o) := by
    rw [hlow, List.filter_append, filter_none, filter_all, List.nil_append]
    · intro x hx; rw [mem_rangeFrom'] at hx; simp; omega
    · intro x hx; rw [List.mem_range] at hx; simp; omega
  have e2 : (List.range (2 * (nI + o))).filter (fun i => !decide (2 * nI ≤ i ∧ i < 2 * (nI + nA)))
      = List.range (2 * nI) := by
    rw [hlow, List.filter_append, filter_all, filter_none, List.append_nil]
    · intro x hx; rw [mem_rangeFrom'] at hx; simp; omega
    · intro x hx; rw [List.mem_range] at hx; simp; omega
  have e3 : ((List.range (2 * (nI + nA + nV) - 2 * (nI + o))).map (2 * (nI + o) + ·)).filter
      (fun i => decide (2 * nI ≤ i ∧ i < 2 * (nI + nA))) = rangeFrom (2 * (nI + o)) (2 * (nA - o)) := by
    rw [hhigh, List.filter_append, filter_all, filter_none, List.append_nil]
    · intro x hx; rw [mem_rangeFrom'] at hx; simp; omega
    · intro x hx; rw [mem_rangeFrom'] at hx; simp; omega
  have e4 : ((List.range (2 * (nI + nA + nV) - 2 * (nI + o))).map (2 * (nI + o) + ·)).filter
      (fun i => !decide (2 * nI ≤ i ∧ i < 2 * (nI + nA))) = rangeFrom (2 * (nI + nA)) (2 * nV) := by
    rw [hhigh, List.filter_append, filter_none, filter_all, List.nil_append]
    · intro x hx; rw [mem_rangeFrom'] at hx; simp; omega
    · intro x hx; rw [mem_rangeFrom'] at hx; simp; omega
  have e5 : rangeFrom (2 * nI) (2 * o) ++ rangeFrom (2 * (nI + o)) (2 * (nA - o))
      = rangeFrom (2 * nI) (2 * nA) := by
    rw [show 2 * (nI + o) = 2 * nI + 2 * o by ring, ← rangeFrom_split]
    congr 1
    omega
  have s0 : spatial (List.range (2 * nI)) = List.range nI := by
    rw [← rangeFrom_zero, ← rangeFrom_zero, show rangeFrom 0 (2 * nI) = rangeFrom (2 * 0) (2 * nI) from rfl,
      spatial_rangeFrom]
  have hs : ∀ {a m b k : ℕ}, a ≤ b → (m = 0 → k = 0) → b - a = 0 →
      shifted (rangeFrom a m) (rangeFrom b k) = List.range k := by
    intro a m b k h1 h2 h3
    rw [shifted_rangeFrom h1 h2, h3, rangeFrom_zero]
  unfold mkSpaces
  simp only [hisAct, e1, e2, e3, e4, e5, s0, spatial_rangeFrom]
  have l1 : (rangeFrom (2 * nI) (2 * o)).length = 2 * o := by simp [rangeFrom]
  have l2 : (rangeFrom (2 * nI) (2 * nA)).length / 2 = nA := by simp [rangeFrom]
  have l3 : (rangeFrom (2 * (nI + nA)) (2 * nV)).length / 2 = nV := by simp [rangeFrom]
  have l4 : (List.range (2 * nI)).length / 2 = nI := by simp
  have z1 := hs (a := 2 * nI) (m := 2 * nA) (b := 2 * nI) (k := 2 * nA) (by omega) (by omega) (by omega)
  have z2 := hs (a := 2 * nI) (m := 2 * nA) (b := 2 * nI) (k := 2 * o) (by omega) (by omega) (by omega)
  have z3 := shifted_rangeFrom (a := 2 * nI) (m := 2 * nA) (b := 2 * (nI + o)) (k := 2 * (nA - o)) (by omega)
    (by omega)
  have z4 := hs (a := nI) (m := nA) (b := nI) (k := nA) (by omega) (by omega) (by omega)
  have z5 := hs (a := nI) (m := nA) (b := nI) (k := o) (by omega) (by omega) (by omega)
  have z6 := shifted_rangeFrom (a := nI) (m := nA) (b := nI + o) (k := nA - o) (by omega) (by omega)
  rw [show 2 * (nI + o) - 2 * nI = 2 * o by omega] at z3
  rw [show nI + o - nI = o by omega] at z6
  rw [l1, l2, l3, l4, z1, z2, z3, z4, z5, z6]

/-! ### Pairs of orbitals -/

theorem mem_orbitalPairs {n : ℕ} {pq : ℕ × ℕ} : pq ∈ orbitalPairs n ↔ pq.1 < pq.2 ∧ pq.2 < n := by
  obtain ⟨p, q⟩ := pq
  simp only [orbitalPairs, List.mem_flatMap, List.mem_map, List.mem_range, Prod.mk.injEq]
  constructor
  · rintro ⟨a, h1, b, ⟨k, h2, rfl⟩, rfl, rfl⟩; omega
  · intro h; exact ⟨p, by omega, q, ⟨q - (p + 1), by omega, by omega⟩, rfl, rfl⟩

theorem nodup_orbitalPairs (n : ℕ) : (orbitalPairs n).Nodup := by
  refine nodup_flatMap_key id Prod.fst (by simpa using List.nodup_range) (fun p _ => ?_) fun p _ y hy => ?_
  · refine List.Nodup.map (fun x y h => by simpa using h) ?_
    exact List.nodup_range.map fun x y h => by simpa using h
  · obtain ⟨q, -, rfl⟩ := List.mem_map.1 hy
    rfl

/-- The pair is redundant. -/
def RedundantPair (s : Spaces) (inc : Bool) (pq : ℕ × ℕ) : Prop :=
  (pq.1 ∈ s.inactive ∧ pq.2 ∈ s.inactive) ∨ (pq.1 ∈ s.virt ∧ pq.2 ∈ s.virt) ∨
    (inc = false ∧ (pq.1 ∈ s.active ∧ pq.2 ∈ s.active))

instance (s : Spaces) (inc : Bool) (pq : ℕ × ℕ) : Decidable (RedundantPair s inc pq) := by
  unfold RedundantPair; infer_instance

theorem kappaFold (s : Spaces) (inc : Bool) (l : List (ℕ × ℕ)) : ∀ k : KappaLists,
    l.foldl (kappaStep s inc) k =
      ⟨k.kappa ++ l.filter (fun pq => !decide (RedundantPair s inc pq)),
       k.noActiveActive ++ l.filter (fun pq => decide (¬ RedundantPair s inc pq ∧
          ¬ (pq.1 ∈ s.active ∧ pq.2 ∈ s.active))),
       k.noActiveActiveDagger ++ (l.filter (fun pq => decide (¬ RedundantPair s inc pq ∧
          ¬ (pq.1 ∈ s.active ∧ pq.2 ∈ s.active)))).map Prod.swap,
       k.redundant ++ l.filter (fun pq => decide (RedundantPair s inc pq))⟩ := by
  induction l with
  | nil => intro k; simp
  | cons pq l ih =>
    intro k
    rw [List.foldl_cons, ih]
    unfold kappaStep
    by_cases h1 : pq.1 ∈ s.inactive ∧ pq.2 ∈ s.inactive
    · have hr : RedundantPair s inc pq := Or.inl h1
      rw [if_pos h1]; simp [hr]
    by_cases h2 : pq.1 ∈ s.virt ∧ pq.2 ∈ s.virt
    · have hr : RedundantPair s inc pq := Or.inr (Or.inl h2)
      rw [if_neg h1, if_pos h2]; simp [hr]
    by_cases h3 : inc = false ∧ (pq.1 ∈ s.active ∧ pq.2 ∈ s.active)
    · have hr : RedundantPair s inc pq := Or.inr (Or.inr h3)
      rw [if_neg h1, if_neg h2, if_pos h3]; simp [hr]
    have hr : ¬ RedundantPair s inc pq := by
      rintro (h | h | h)
      · exact h1 h
      · exact h2 h
      · exact h3 h
    rw [if_neg h1, if_neg h2, if_neg h3]
    by_cases h4 : pq.1 ∈ s.active ∧ pq.2 ∈ s.active
    · rw [if_neg (not_not.2 h4)]
      simp [h4, hr]
    · rw [if_pos h4]
      have h5 : decide (¬ RedundantPair s inc pq ∧ ¬ (pq.1 ∈ s.active ∧ pq.2 ∈ s.active)) = true := by
        simp only [decide_eq_true_eq]; exact ⟨hr, h4⟩
      simp only [List.filter_cons, h5, if_true, List.map_cons, Prod.swap]
      simp [hr]

end SQ
