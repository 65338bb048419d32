import Verif.Spec.OrbitalSpaces
import Verif.Lemmas.OrbitalSpaces
import Verif.Props.CISpaces
import Mathlib.Data.List.Sort

/-!
# Lemmas: the perfect-pairing determinant
-/

namespace SQ

theorem doubled_append (a b : List Bool) : doubled (a ++ b) = doubled a ++ doubled b := by
  induction a with
  | nil => rfl
  | cons x a ih => simp [doubled, ih]

theorem doubled_replicate (n : ℕ) (b : Bool) : doubled (List.replicate n b) = List.replicate (2 * n) b := by
  induction n with
  | zero => rfl
  | succ n ih =>
    rw [List.replicate_succ, doubled, ih, show 2 * (n + 1) = 2 * n + 1 + 1 by ring, List.replicate_succ,
      List.replicate_succ]

theorem doubled_length (l : List Bool) : (doubled l).length = 2 * l.length := by
  induction l with
  | nil => rfl
  | cons x l ih => simp [doubled, ih]; ring

theorem doubled_count (l : List Bool) : (doubled l).count true = 2 * l.count true := by
  induction l with
  | nil => rfl
  | cons x l ih => cases x <;> simp [doubled, ih] ; ring

theorem doubled_getElem? (l : List Bool) : ∀ i : ℕ, (doubled l)[i]? = l[i / 2]? := by
  induction l with
  | nil => intro i; simp [doubled]
  | cons x l ih =>
    intro i
    match i with
    | 0 => rfl
    | 1 => rfl
    | i + 2 =>
      rw [doubled, List.getElem?_cons_succ, List.getElem?_cons_succ, ih, show (i + 2) / 2 = i / 2 + 1 by omega,
        List.getElem?_cons_succ]

theorem hfDet_eq {n o : ℕ} (h : o ≤ n) :
    hfDet (2 * n) (2 * o) = doubled (List.replicate o true ++ List.replicate (n - o) false) := by
  rw [doubled_append, doubled_replicate, doubled_replicate]
  unfold hfDet
  congr 2
  omega

theorem pairing_zero (k : ℕ) : pairing k 0 = List.replicate k false := by
  simp [pairing, pairs10]

theorem pairing_full (k : ℕ) : pairing k k = List.replicate k true := by
  rcases k with _ | k
  · rfl
  · unfold pairing
    rw [show min (k + 1) (k + 1 - (k + 1)) = 0 by omega]
    simp [pairs10]

theorem pairing_step {k m : ℕ} (h1 : 1 ≤ m) (h2 : m + 1 ≤ k) :
    pairing k m = true :: false :: pairing (k - 2) (m - 1) := by
  unfold pairing
  obtain ⟨t, ht⟩ : ∃ t, min m (k - m) = t + 1 := ⟨min m (k - m) - 1, by omega⟩
  rw [ht, show min (m - 1) (k - 2 - (m - 1)) = t by omega, pairs10,
    show k - 2 * (t + 1) = k - 2 - 2 * t by omega,
    show decide (k < 2 * m) = decide (k - 2 < 2 * (m - 1)) from decide_eq_decide.2 (by omega)]
  rfl

theorem pairing_length {k m : ℕ} (h : m ≤ k) : (pairing k m).length = k := by
  have hp : ∀ t, (pairs10 t).length = 2 * t := by
    intro t; induction t with
    | zero => rfl
    | succ t ih => simp [pairs10, ih]; ring
  unfold pairing
  rw [List.length_append, hp, List.length_replicate]
  omega

theorem pairing_count {k m : ℕ} (h : m ≤ k) : (pairing k m).count true = m := by
  have hp : ∀ t, (pairs10 t).count true = t := by
    intro t; induction t with
    | zero => rfl
    | succ t ih => simp [pairs10, ih]
  unfold pairing
  rw [List.count_append, hp]
  by_cases hc : k < 2 * m
  · rw [decide_eq_true hc, List.count_replicate_self]; omega
  · rw [decide_eq_false hc, List.count_replicate, if_neg (by decide)]; omega

theorem ppLoop_tail (n : ℕ) : ∀ (fuel s : ℕ) (det : List Bool), n - s ≤ fuel → s ≤ n →
    ppLoop n fuel s 0 det = .ok (det ++ List.replicate (n - s) false)
  | 0, s, det, h, hs => by
    have : s = n := by omega
    subst this
    simp [ppLoop]
  | fuel + 1, s, det, h, hs => by
    unfold ppLoop
    by_cases hn : s < n
    · rw [if_pos hn, if_neg (by omega), if_pos rfl, ppLoop_tail n fuel (s + 1) _ (by omega) (by omega)]
      rw [show n - s = n - (s + 1) + 1 by omega, List.replicate_succ]
      simp
    · rw [if_neg hn, show n - s = 0 by omega]
      simp

theorem ppLoop_full (n : ℕ) : ∀ (fuel s : ℕ) (det : List Bool), n - s ≤ fuel → s ≤ n →
    ppLoop n fuel s (n - s) det = .ok (det ++ List.replicate (n - s) true)
  | 0, s, det, h, hs => by
    have : s = n := by omega
    subst this
    simp [ppLoop]
  | fuel + 1, s, det, h, hs => by
    unfold ppLoop
    by_cases hn : s < n
    · rw [if_pos hn, if_neg (by omega), if_neg (by omega), show n - s - 1 = n - (s + 1) by omega,
        ppLoop_full n fuel (s + 1) _ (by omega) (by omega)]
      rw [show n - s = n - (s + 1) + 1 by omega, List.replicate_succ]
      simp
    · rw [if_neg hn, show n - s = 0 by omega]
      simp

theorem ppLoop_eq (nA : ℕ) : ∀ (k fuel s m : ℕ) (det : List Bool), nA = s + k → 2 * k ≤ fuel → m ≤ k →
    ppLoop (2 * nA) fuel (2 * s) (2 * m) det = .ok (det ++ doubled (pairing k m)) := by
  intro k
  induction k using Nat.strong_induction_on with
  | _ k ih =>
    intro fuel s m det hs hf hm
    rcases Nat.eq_zero_or_pos m with rfl | hm0
    · rw [pairing_zero, doubled_replicate]
      have := ppLoop_tail (2 * nA) fuel (2 * s) det (by omega) (by omega)
      rw [show 2 * nA - 2 * s = 2 * k by omega] at this
      exact this
    by_cases hmk : m = k
    · subst hmk
      rw [pairing_full, doubled_replicate]
      have := ppLoop_full (2 * nA) fuel (2 * s) det (by omega) (by omega)
      rw [show 2 * nA - 2 * s = 2 * m by omega] at this
      exact this
    · obtain ⟨fuel, rfl⟩ : ∃ f, fuel = f + 1 := ⟨fuel - 1, by omega⟩
      unfold ppLoop
      rw [if_pos (by omega), if_pos (by refine ⟨by omega, by omega, by push_cast; omega⟩),
        show 2 * s + 4 = 2 * (s + 2) by ring, show 2 * m - 2 = 2 * (m - 1) by omega,
        ih (k - 2) (by omega) fuel (s + 2) (m - 1) _ (by omega) (by omega) (by omega),
        pairing_step hm0 (by omega)]
      simp [doubled]

theorem ppDet_eq {nA o : ℕ} (h : o ≤ nA) : ppDet (2 * nA) (2 * o) = .ok (doubled (pairing nA o)) := by
  unfold ppDet
  have := ppLoop_eq nA nA (2 * nA) 0 o [] (by omega) le_rfl h
  rw [show 2 * 0 = 0 from rfl] at this
  rw [this]
  show (if _ then _ else _) = _
  rw [List.nil_append, if_neg]
  rw [doubled_length, doubled_count, pairing_length h, pairing_count h]
  simp

/-! ### Swapping columns -/

theorem mem_differ {hf pp : List Bool} (hl : hf.length = pp.length) {x y : Bool} {i : ℕ} :
    i ∈ differ hf pp x y ↔ hf[i]? = some x ∧ pp[i]? = some y := by
  unfold differ
  simp only [List.mem_map, List.mem_filter, List.mem_zipIdx_iff_getElem?, decide_eq_true_eq]
  constructor
  · rintro ⟨⟨⟨a, b⟩, j⟩, ⟨h1, h2, h3⟩, rfl⟩
    rw [List.getElem?_zip_eq_some] at h1
    simp only at h1 h2 h3 ⊢
    rw [h1.1, h1.2, h2, h3]; simp
  · rintro ⟨h1, h2⟩
    exact ⟨((x, y), i), ⟨by rw [List.getElem?_zip_eq_some]; exact ⟨h1, h2⟩, rfl, rfl⟩, rfl⟩

theorem mem_sortedSpatial {nI : ℕ} {l : List ℕ} {c : ℕ} :
    c ∈ sortedSpatial nI l ↔ ∃ i ∈ l, i / 2 + nI = c := by
  unfold sortedSpatial
  rw [List.mem_mergeSort, List.mem_dedup, List.mem_map]

theorem nodup_sortedSpatial (nI : ℕ) (l : List ℕ) : (sortedSpatial nI l).Nodup := by
  unfold sortedSpatial
  exact (List.mergeSort_perm _ _).nodup_iff.2 (List.nodup_dedup _)

/-- The spatial orbitals where the two occupations differ. -/
theorem mem_diffSpatial {nI : ℕ} {f g : List Bool} (hl : f.length = g.length) {x y : Bool} {c : ℕ} :
    c ∈ sortedSpatial nI (differ (doubled f) (doubled g) x y) ↔
      nI ≤ c ∧ f[c - nI]? = some x ∧ g[c - nI]? = some y := by
  rw [mem_sortedSpatial]
  constructor
  · rintro ⟨i, hi, rfl⟩
    rw [mem_differ (by rw [doubled_length, doubled_length, hl]), doubled_getElem?, doubled_getElem?] at hi
    rw [Nat.add_sub_cancel]
    exact ⟨by omega, hi⟩
  · rintro ⟨h1, h2⟩
    refine ⟨2 * (c - nI), ?_, by omega⟩
    rw [mem_differ (by rw [doubled_length, doubled_length, hl]), doubled_getElem?, doubled_getElem?,
      show 2 * (c - nI) / 2 = c - nI by omega]
    exact h2

theorem count_zip_diff : ∀ (f g : List Bool), f.length = g.length →
    (f.zip g).count (true, false) + g.count true = (f.zip g).count (false, true) + f.count true
  | [], [], _ => rfl
  | x :: f, y :: g, h => by
    have ih := count_zip_diff f g (by simpa using h)
    cases x <;> cases y <;> simp [List.count_cons] at ih ⊢ <;> omega

theorem length_diffSpatial {nI : ℕ} (x y : Bool) : ∀ (f g : List Bool), f.length = g.length →
    (sortedSpatial nI (differ (doubled f) (doubled g) x y)).length = (f.zip g).count (x, y) := by
  intro f g hl
  have e : (sortedSpatial nI (differ (doubled f) (doubled g) x y)).Perm
      (((f.zip g).zipIdx.filter fun t => t.1 = (x, y)).map fun t => t.2 + nI) := by
    refine (List.perm_ext_iff_of_nodup (nodup_sortedSpatial _ _) ?_).2 fun c => ?_
    · rw [show (fun t : (Bool × Bool) × ℕ => t.2 + nI) = (· + nI) ∘ Prod.snd from rfl, ← List.map_map]
      refine List.Nodup.map (fun a b h => by simpa using h) ?_
      refine List.Nodup.sublist (List.Sublist.map _ (List.filter_sublist (p := fun t : (Bool × Bool) × ℕ => decide (t.1 = (x, y))))) ?_
      rw [List.zipIdx_map_snd]
      exact List.nodup_range'
    · rw [mem_diffSpatial hl]
      simp only [List.mem_map, List.mem_filter, List.mem_zipIdx_iff_getElem?, decide_eq_true_eq]
      constructor
      · rintro ⟨h1, h2, h3⟩
        exact ⟨((x, y), c - nI), ⟨by rw [List.getElem?_zip_eq_some]; exact ⟨h2, h3⟩, rfl⟩, by simp; omega⟩
      · rintro ⟨⟨⟨a, b⟩, j⟩, ⟨h1, h2⟩, rfl⟩
        rw [List.getElem?_zip_eq_some] at h1
        simp only [Prod.mk.injEq] at h1 h2 ⊢
        rw [Nat.add_sub_cancel, h1.1, h1.2, h2.1, h2.2]
        exact ⟨by omega, rfl, rfl⟩
  rw [e.length_eq, List.length_map, ← List.countP_eq_length_filter]
  have : (f.zip g) = (f.zip g).zipIdx.map Prod.fst := by rw [List.zipIdx_map_fst]
  conv_rhs => rw [this, List.count, List.countP_map]
  refine List.countP_congr fun t _ => ?_
  simp

theorem lookup_mem {l : List (ℕ × ℕ)} (hn : (l.map Prod.fst).Nodup) {c s : ℕ} :
    l.lookup c = some s ↔ (c, s) ∈ l := by
  induction l with
  | nil => simp
  | cons ds l ih =>
    obtain ⟨d, s'⟩ := ds
    rw [List.map_cons, List.nodup_cons] at hn
    rw [List.lookup_cons, List.mem_cons]
    by_cases h : c = d
    · subst h
      simp only [beq_self_eq_true, Option.some.injEq, Prod.mk.injEq, true_and]
      constructor
      · intro h; exact Or.inl h.symm
      · rintro (h | h)
        · exact h.symm
        · exact absurd (List.mem_map_of_mem (f := Prod.fst) h) hn.1
    · have : (c == d) = false := by simpa using h
      rw [this]
      simp only
      rw [ih hn.2]
      simp [h]

theorem assign_fold {α : Type _} (a : ℕ → α) : ∀ (l : List (ℕ × ℕ)) (b : ℕ → α), (l.map Prod.fst).Nodup →
    l.foldl (fun b ds => fun c => if c = ds.1 then a ds.2 else b c) b
      = fun c => ((l.lookup c).map a).getD (b c)
  | [], b, _ => rfl
  | (d, s) :: l, b, hn => by
    rw [List.map_cons, List.nodup_cons] at hn
    rw [List.foldl_cons, assign_fold a l _ hn.2]
    funext c
    rw [List.lookup_cons]
    by_cases h : c = d
    · subst h
      have : l.lookup c = none := by
        rw [Option.eq_none_iff_forall_ne_some]
        intro s' hs'
        exact hn.1 (List.mem_map.2 ⟨(c, s'), (lookup_mem hn.2).1 hs', rfl⟩)
      simp [this]
    · have : (c == d) = false := by simpa using h
      simp [this, h]

/-- Swapping two lists of columns permutes the columns by an involution. -/
theorem assign_swap {α : Type _} (mo : ℕ → α) (H P : List ℕ) (hn : (H ++ P).Nodup) (hl : H.length = P.length) :
    ∃ σ : ℕ → ℕ, assignColumns mo (H ++ P) (P ++ H) = .ok (fun c => mo (σ c)) ∧ (∀ c, σ (σ c) = c) ∧
      (∀ c ∈ H, σ c ∈ P) ∧ (∀ c ∈ P, σ c ∈ H) ∧ ∀ c, c ∉ H → c ∉ P → σ c = c := by
  have hz : (H ++ P).zip (P ++ H) = H.zip P ++ P.zip H := List.zip_append hl
  have hf : (((H ++ P).zip (P ++ H)).map Prod.fst) = H ++ P := by
    rw [List.map_fst_zip]; simp; omega
  have hn' : (((H ++ P).zip (P ++ H)).map Prod.fst).Nodup := by rw [hf]; exact hn
  have hsym : ∀ c s, (c, s) ∈ (H ++ P).zip (P ++ H) → (s, c) ∈ (H ++ P).zip (P ++ H) := by
    intro c s h
    rw [hz, List.mem_append] at h ⊢
    rcases h with h | h
    · refine Or.inr ?_
      rw [← List.zip_swap]; exact List.mem_map.2 ⟨_, h, rfl⟩
    · refine Or.inl ?_
      rw [← List.zip_swap]; exact List.mem_map.2 ⟨_, h, rfl⟩
  have hlook : ∀ c ∈ H ++ P, ∃ s, (c, s) ∈ (H ++ P).zip (P ++ H) := by
    intro c hc
    rw [← hf, List.mem_map] at hc
    obtain ⟨⟨c', s⟩, h1, rfl⟩ := hc
    exact ⟨s, h1⟩
  have hd : ∀ c ∈ H, c ∉ P := fun c hc hp => (List.nodup_append.1 hn).2.2 c hc c hp rfl
  refine ⟨fun c => (((H ++ P).zip (P ++ H)).lookup c).getD c, ?_, fun c => ?_, fun c hc => ?_, fun c hc => ?_,
    fun c h1 h2 => ?_⟩
  · unfold assignColumns
    rw [if_neg (by simp; omega), assign_fold mo _ _ hn']
    congr 1
    funext c
    beta_reduce
    cases ((H ++ P).zip (P ++ H)).lookup c <;> rfl
  · dsimp only
    cases h : ((H ++ P).zip (P ++ H)).lookup c with
    | none => simp [h]
    | some s =>
      rw [Option.getD_some, (lookup_mem hn').2 (hsym _ _ ((lookup_mem hn').1 h)), Option.getD_some]
  · obtain ⟨s, hs⟩ := hlook c (List.mem_append_left _ hc)
    dsimp only
    rw [(lookup_mem hn').2 hs, Option.getD_some]
    rw [hz, List.mem_append] at hs
    rcases hs with h | h
    · exact (List.of_mem_zip h).2
    · exact absurd (List.of_mem_zip h).1 (hd c hc)
  · obtain ⟨s, hs⟩ := hlook c (List.mem_append_right _ hc)
    dsimp only
    rw [(lookup_mem hn').2 hs, Option.getD_some]
    rw [hz, List.mem_append] at hs
    rcases hs with h | h
    · exact absurd hc (hd c (List.of_mem_zip h).1)
    · exact (List.of_mem_zip h).2
  · have : ((H ++ P).zip (P ++ H)).lookup c = none := by
      rw [Option.eq_none_iff_forall_ne_some]
      intro s hs
      have h3 := List.mem_map_of_mem (f := Prod.fst) ((lookup_mem hn').1 hs)
      rw [hf, List.mem_append] at h3
      exact h3.elim h1 h2
    dsimp only
    rw [this]; rfl

/-! ### The determinant in the space -/

theorem bits_detOf (f : List Bool) :
    bitsToNat (doubled f) = detOf (f.map fun b => if b then 1 else 0) (f.map fun b => if b then 1 else 0) := by
  unfold detOf binVal bitsToNat
  rw [detStr_eq]
  suffices h : ∀ acc : ℕ, (doubled f).foldl (fun n b => 2 * n + if b then 1 else 0) acc =
      (((f.map fun b => if b then 1 else 0).zip (f.map fun b => if b then 1 else 0)).flatMap
        fun p => [p.1, p.2]).foldl (fun acc b => 2 * acc + b) acc from h 0
  induction f with
  | nil => intro acc; rfl
  | cons b f ih =>
    intro acc
    simp only [doubled, List.foldl_cons, List.map_cons, List.zip_cons_cons, List.flatMap_cons, List.foldl_append,
      List.foldl_nil]
    exact ih _

theorem occ_bits (f : List Bool) : Occ (f.map fun b => if b then 1 else 0) := by
  intro x hx
  obtain ⟨b, -, rfl⟩ := List.mem_map.1 hx
  cases b <;> simp

theorem count_bits (f : List Bool) : (f.map fun b => if b then 1 else 0).count 1 = f.count true := by
  induction f with
  | nil => rfl
  | cons b f ih => cases b <;> simp [ih]

end SQ
