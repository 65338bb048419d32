import Verif.Lemmas.Iterators

/-!
# C35: the excitation iterators

`Lists l P`: `l` contains exactly the values with `P`, each once.  `SpinExcitation`, `SaCase`,
`PairFrom`: Spec/Iterators.lean.
-/

namespace SQ

/-! ## C35 -/

/-- C35: `iterate_t1` .. `iterate_t6` yield all `k`-fold excitations from the occupied to the unoccupied
spin orbitals that conserve the numbers of alpha and of beta electrons, each once. -/
theorem C35_spin {occ unocc : List ℕ} (ho : occ.Nodup) (hu : unocc.Nodup) :
    Lists (iterateT1 occ unocc) (SpinExcitation occ unocc 1) ∧
    Lists (iterateT2 occ unocc) (SpinExcitation occ unocc 2) ∧
    Lists (iterateT3 occ unocc) (SpinExcitation occ unocc 3) ∧
    Lists (iterateT4 occ unocc) (SpinExcitation occ unocc 4) ∧
    Lists (iterateT5 occ unocc) (SpinExcitation occ unocc 5) ∧
    Lists (iterateT6 occ unocc) (SpinExcitation occ unocc 6) := by
  rw [iterateT1_eq, iterateT2_eq, iterateT3_eq, iterateT4_eq, iterateT5_eq, iterateT6_eq]
  exact ⟨⟨nodup_excIter ho hu, fun _ => mem_excIter⟩, ⟨nodup_excIter ho hu, fun _ => mem_excIter⟩,
    ⟨nodup_excIter ho hu, fun _ => mem_excIter⟩, ⟨nodup_excIter ho hu, fun _ => mem_excIter⟩,
    ⟨nodup_excIter ho hu, fun _ => mem_excIter⟩, ⟨nodup_excIter ho hu, fun _ => mem_excIter⟩⟩

/-- C35: `iterate_t1_sa` and `iterate_pair_t2` yield all pairs of an occupied and an unoccupied
orbital. -/
theorem C35_sa_singles_pairs {occ unocc : List ℕ} (ho : occ.Nodup) (hu : unocc.Nodup) :
    Lists (iterateT1sa occ unocc) (fun x => x.1 ∈ unocc ∧ x.2.1 ∈ occ ∧ x.2.2 = (Real.sqrt 2)⁻¹) ∧
    Lists (iteratePairT2 occ unocc) (fun x => ∃ a ∈ unocc, ∃ i ∈ occ,
      x = [2 * a, 2 * i, 2 * a + 1, 2 * i + 1]) := by
  refine ⟨⟨?_, fun x => ?_⟩, ⟨?_, fun x => ?_⟩⟩
  · refine nodup_flatMap_key id (fun y => y.2.1) (by simpa using ho) (fun i _ => ?_) fun i _ y hy => ?_
    · exact nodup_flatMap_key id (fun y => y.1) (by simpa using hu) (fun a _ => by simp)
        fun a _ y hy => by rw [List.mem_singleton.1 hy]; rfl
    · obtain ⟨a, -, hy⟩ := List.mem_flatMap.1 hy
      rw [List.mem_singleton.1 hy]; rfl
  · obtain ⟨a, i, f⟩ := x
    simp only [iterateT1sa, List.mem_flatMap, List.mem_singleton, Prod.mk.injEq]
    constructor
    · rintro ⟨i', h1, a', h2, rfl, rfl, rfl⟩; exact ⟨h2, h1, rfl⟩
    · rintro ⟨h1, h2, h3⟩; exact ⟨i, h2, a, h1, rfl, rfl, h3⟩
  · refine nodup_flatMap_key id (fun y => (y.getD 1 0) / 2) (by simpa using ho) (fun i _ => ?_)
      fun i _ y hy => ?_
    · refine nodup_flatMap_key id (fun y => (y.getD 0 0) / 2) (by simpa using hu) (fun a _ => by simp)
        fun a _ y hy => ?_
      rw [List.mem_singleton.1 hy]
      simp
    · obtain ⟨a, -, hy⟩ := List.mem_flatMap.1 hy
      rw [List.mem_singleton.1 hy]
      simp
  · simp only [iteratePairT2, List.mem_flatMap, List.mem_singleton]
    constructor
    · rintro ⟨i, h1, a, h2, h3⟩; exact ⟨a, h2, i, h1, h3⟩
    · rintro ⟨a, h2, i, h1, h3⟩; exact ⟨i, h1, a, h2, h3⟩

theorem mem_t2saBody {i j a b : ℕ} {x : SaDouble} : x ∈ t2saBody i j a b ↔
    x.i = i ∧ x.j = j ∧ x.a = a ∧ x.b = b ∧ SaCase i j a b x.case ∧
      x.fac = if x.case = 5 then 1 / (2 * Real.sqrt 3) else
        1 / 2 * (Real.sqrt ((if a = b then 2 else 1) * (if i = j then 2 else 1)))⁻¹ := by
  obtain ⟨xa, xi, xb, xj, f, c⟩ := x
  unfold t2saBody SaCase
  by_cases h1 : i = j <;> by_cases h2 : a = b
  · subst h1; subst h2
    simp only [and_self, or_self, if_true, List.append_nil, List.mem_singleton, SaDouble.mk.injEq, ne_eq,
      not_true_eq_false, false_and, and_false, or_false, true_and, one_mul]
    constructor
    · rintro ⟨rfl, rfl, rfl, rfl, rfl, rfl⟩; simp
    · rintro ⟨rfl, rfl, rfl, rfl, rfl, rfl⟩; simp
  · subst h1
    simp only [h2, and_false, if_false, true_or, if_true, List.append_nil, List.mem_singleton,
      SaDouble.mk.injEq, ne_eq, not_true_eq_false, false_and, or_false, false_or, not_false_eq_true,
      true_and, one_mul]
    constructor
    · rintro ⟨rfl, rfl, rfl, rfl, rfl, rfl⟩; simp
    · rintro ⟨rfl, rfl, rfl, rfl, rfl, rfl⟩; simp
  · subst h2
    simp only [h1, false_and, if_false, or_true, if_true, List.append_nil, List.mem_singleton,
      SaDouble.mk.injEq, ne_eq, not_true_eq_false, and_false, or_false, false_or, not_false_eq_true,
      true_and, one_mul, mul_one]
    constructor
    · rintro ⟨rfl, rfl, rfl, rfl, rfl, rfl⟩; simp
    · rintro ⟨rfl, rfl, rfl, rfl, rfl, rfl⟩; simp
  · simp only [h1, h2, false_and, if_false, or_false, List.mem_append, List.mem_singleton,
      SaDouble.mk.injEq, ne_eq, false_or, not_false_eq_true, true_and, mul_one]
    constructor
    · rintro (⟨rfl, rfl, rfl, rfl, rfl, rfl⟩ | ⟨rfl, rfl, rfl, rfl, rfl, rfl⟩) <;> simp
    · rintro ⟨rfl, rfl, rfl, rfl, rfl | rfl, rfl⟩ <;> simp

theorem nodup_t2saBody (i j a b : ℕ) : (t2saBody i j a b).Nodup := by
  unfold t2saBody
  by_cases h1 : i = j <;> by_cases h2 : a = b <;> simp [h1, h2]

/-- C35: `iterate_t2_sa` yields for all pairs of occupied and of unoccupied orbitals the spin-adapted
doubles with their case number and normalisation, each once. -/
theorem C35_sa_doubles {occ unocc : List ℕ} (ho : occ.Nodup) (hu : unocc.Nodup) :
    Lists (iterateT2sa occ unocc) (fun x => PairFrom occ x.i x.j ∧ PairFrom unocc x.a x.b ∧
      SaCase x.i x.j x.a x.b x.case ∧
      x.fac = if x.case = 5 then 1 / (2 * Real.sqrt 3) else
        1 / 2 * (Real.sqrt ((if x.a = x.b then 2 else 1) * (if x.i = x.j then 2 else 1)))⁻¹) := by
  refine ⟨?_, fun x => ?_⟩
  · refine nodup_loopFromIncl ho _ SaDouble.i (fun i ni => ?_) fun i ni y hy => ?_
    · refine nodup_loopFromIncl ho _ SaDouble.j (fun j nj => ?_) fun j nj y hy => ?_
      · refine nodup_loopFromIncl hu _ SaDouble.a (fun a na => ?_) fun a na y hy => ?_
        · exact nodup_loopFromIncl hu _ SaDouble.b (fun b nb => nodup_t2saBody _ _ _ _)
            fun b nb y hy => (mem_t2saBody.1 hy).2.2.2.1
        · obtain ⟨_, _, _, _, hy⟩ := mem_loopFromIncl.1 hy
          exact (mem_t2saBody.1 hy).2.2.1
      · obtain ⟨_, _, _, _, hy⟩ := mem_loopFromIncl.1 hy
        obtain ⟨_, _, _, _, hy⟩ := mem_loopFromIncl.1 hy
        exact (mem_t2saBody.1 hy).2.1
    · obtain ⟨_, _, _, _, hy⟩ := mem_loopFromIncl.1 hy
      obtain ⟨_, _, _, _, hy⟩ := mem_loopFromIncl.1 hy
      obtain ⟨_, _, _, _, hy⟩ := mem_loopFromIncl.1 hy
      exact (mem_t2saBody.1 hy).1
  · unfold iterateT2sa PairFrom
    beta_reduce
    rw [← inclPair, ← inclPair]
    constructor
    · intro hx
      obtain ⟨pi, i, -, h1, hx⟩ := mem_loopFromIncl.1 hx
      obtain ⟨pj, j, h2, h3, hx⟩ := mem_loopFromIncl.1 hx
      obtain ⟨pa, a, -, h4, hx⟩ := mem_loopFromIncl.1 hx
      obtain ⟨pb, b, h5, h6, hx⟩ := mem_loopFromIncl.1 hx
      obtain ⟨rfl, rfl, rfl, rfl, hc, hf⟩ := mem_t2saBody.1 hx
      exact ⟨⟨pi, h1, pj, h2, h3⟩, ⟨pa, h4, pb, h5, h6⟩, hc, hf⟩
    · rintro ⟨⟨pi, h1, pj, h2, h3⟩, ⟨pa, h4, pb, h5, h6⟩, hc, hf⟩
      exact mem_loopFromIncl.2 ⟨pi, _, Nat.zero_le _, h1, mem_loopFromIncl.2 ⟨pj, _, h2, h3,
        mem_loopFromIncl.2 ⟨pa, _, Nat.zero_le _, h4, mem_loopFromIncl.2 ⟨pb, _, h5, h6,
          mem_t2saBody.2 ⟨rfl, rfl, rfl, rfl, hc, hf⟩⟩⟩⟩⟩

/-- C35: the generalised single and pair iterators yield all pairs of orbitals, once. -/
theorem C35_generalized_singles (n : ℕ) :
    Lists (iterateT1saGen n) (fun x => x.2.1 < x.1 ∧ x.1 < n ∧ x.2.2 = (Real.sqrt 2)⁻¹) ∧
    Lists (iterateT1Gen n) (fun x => ∃ a i, i < a ∧ a < n ∧ SameSpin [a] [i] ∧ x = [a, i]) ∧
    Lists (iteratePairT2Gen n) (fun x => ∃ a i, i < a ∧ a < n ∧
      x = [2 * a, 2 * i, 2 * a + 1, 2 * i + 1]) := by
  refine ⟨⟨?_, fun x => ?_⟩, ⟨?_, fun x => ?_⟩, ⟨?_, fun x => ?_⟩⟩
  · refine nodup_loopRange (fun y => y.2.1) (fun i => ?_) fun i y hy => ?_
    · exact nodup_loopRange (fun y => y.1) (fun a => by simp) fun a y hy => by
        rw [List.mem_singleton.1 hy]
    · obtain ⟨a, -, -, hy⟩ := mem_loopRange.1 hy
      rw [List.mem_singleton.1 hy]
  · obtain ⟨a, i, f⟩ := x
    simp only [iterateT1saGen, mem_loopRange, List.mem_singleton, Prod.mk.injEq]
    constructor
    · rintro ⟨i', h1, h2, a', h3, h4, rfl, rfl, rfl⟩; exact ⟨by omega, h4, rfl⟩
    · rintro ⟨h1, h2, h3⟩; exact ⟨i, by omega, by omega, a, by omega, h2, rfl, rfl, h3⟩
  · refine nodup_loopRange (fun y => y.getD 1 0) (fun i => ?_) fun i y hy => ?_
    · exact nodup_loopRange (fun y => y.getD 0 0) (fun a => nodup_yieldIf _ _ _) fun a y hy => by
        rw [(mem_yieldIf.1 hy).2]; rfl
    · obtain ⟨a, -, -, hy⟩ := mem_loopRange.1 hy
      rw [(mem_yieldIf.1 hy).2]; rfl
  · simp only [iterateT1Gen, mem_loopRange, mem_yieldIf]
    constructor
    · rintro ⟨i, h1, h2, a, h3, h4, h5, h6⟩; exact ⟨a, i, by omega, h4, h5, h6⟩
    · rintro ⟨a, i, h1, h2, h3, h4⟩; exact ⟨i, by omega, by omega, a, by omega, h2, h3, h4⟩
  · refine nodup_loopRange (fun y => y.getD 1 0 / 2) (fun i => ?_) fun i y hy => ?_
    · exact nodup_loopRange (fun y => y.getD 0 0 / 2) (fun a => by simp) fun a y hy => by
        rw [List.mem_singleton.1 hy]; simp
    · obtain ⟨a, -, -, hy⟩ := mem_loopRange.1 hy
      rw [List.mem_singleton.1 hy]; simp
  · simp only [iteratePairT2Gen, mem_loopRange, List.mem_singleton]
    constructor
    · rintro ⟨i, h1, h2, a, h3, h4, h5⟩; exact ⟨a, i, by omega, h4, h5⟩
    · rintro ⟨a, i, h1, h2, h3⟩; exact ⟨i, by omega, by omega, a, by omega, h2, h3⟩

/-- C35: the generalised double iterators yield, once, the excitations `ij → ab` with
`i ≤ j < a ≤ b`. -/
theorem C35_generalized_doubles (n : ℕ) :
    Lists (iterateT2saGen n) (fun x => x.i ≤ x.j ∧ x.j < x.a ∧ x.a ≤ x.b ∧ x.b < n ∧
      SaCase x.i x.j x.a x.b x.case ∧
      x.fac = if x.case = 5 then 1 / (2 * Real.sqrt 3) else
        1 / 2 * (Real.sqrt ((if x.a = x.b then 2 else 1) * (if x.i = x.j then 2 else 1)))⁻¹) ∧
    Lists (iterateT2Gen n) (fun x => ∃ a i b j, i ≤ j ∧ j < a ∧ a ≤ b ∧ b < n ∧ SameSpin [a, b] [i, j] ∧
      x = [a, i, b, j]) := by
  refine ⟨⟨?_, fun x => ?_⟩, ⟨?_, fun x => ?_⟩⟩
  · refine nodup_loopRange SaDouble.i (fun i => ?_) fun i y hy => ?_
    · refine nodup_loopRange SaDouble.j (fun j => ?_) fun j y hy => ?_
      · refine nodup_loopRange SaDouble.a (fun a => ?_) fun a y hy => ?_
        · exact nodup_loopRange SaDouble.b (fun b => nodup_t2saBody _ _ _ _)
            fun b y hy => (mem_t2saBody.1 hy).2.2.2.1
        · obtain ⟨_, _, _, hy⟩ := mem_loopRange.1 hy
          exact (mem_t2saBody.1 hy).2.2.1
      · obtain ⟨_, _, _, hy⟩ := mem_loopRange.1 hy
        obtain ⟨_, _, _, hy⟩ := mem_loopRange.1 hy
        exact (mem_t2saBody.1 hy).2.1
    · obtain ⟨_, _, _, hy⟩ := mem_loopRange.1 hy
      obtain ⟨_, _, _, hy⟩ := mem_loopRange.1 hy
      obtain ⟨_, _, _, hy⟩ := mem_loopRange.1 hy
      exact (mem_t2saBody.1 hy).1
  · simp only [iterateT2saGen, mem_loopRange]
    constructor
    · rintro ⟨i, h1, h2, j, h3, h4, a, h5, h6, b, h7, h8, hx⟩
      obtain ⟨rfl, rfl, rfl, rfl, hc, hf⟩ := mem_t2saBody.1 hx
      exact ⟨by omega, by omega, by omega, by omega, hc, hf⟩
    · rintro ⟨h1, h2, h3, h4, hc, hf⟩
      exact ⟨x.i, by omega, by omega, x.j, by omega, by omega, x.a, by omega, by omega, x.b, by omega,
        by omega, mem_t2saBody.2 ⟨rfl, rfl, rfl, rfl, hc, hf⟩⟩
  · refine nodup_loopRange (fun y => y.getD 1 0) (fun i => ?_) fun i y hy => ?_
    · refine nodup_loopRange (fun y => y.getD 3 0) (fun j => ?_) fun j y hy => ?_
      · refine nodup_loopRange (fun y => y.getD 0 0) (fun a => ?_) fun a y hy => ?_
        · exact nodup_loopRange (fun y => y.getD 2 0) (fun b => nodup_yieldIf _ _ _)
            fun b y hy => by rw [(mem_yieldIf.1 hy).2]; rfl
        · obtain ⟨_, _, _, hy⟩ := mem_loopRange.1 hy
          rw [(mem_yieldIf.1 hy).2]; rfl
      · obtain ⟨_, _, _, hy⟩ := mem_loopRange.1 hy
        obtain ⟨_, _, _, hy⟩ := mem_loopRange.1 hy
        rw [(mem_yieldIf.1 hy).2]; rfl
    · obtain ⟨_, _, _, hy⟩ := mem_loopRange.1 hy
      obtain ⟨_, _, _, hy⟩ := mem_loopRange.1 hy
      obtain ⟨_, _, _, hy⟩ := mem_loopRange.1 hy
      rw [(mem_yieldIf.1 hy).2]; rfl
  · simp only [iterateT2Gen, mem_loopRange, mem_yieldIf]
    constructor
    · rintro ⟨i, h1, h2, j, h3, h4, a, h5, h6, b, h7, h8, hx, rfl⟩
      exact ⟨a, i, b, j, h3, by omega, h7, h8, hx, rfl⟩
    · rintro ⟨a, i, b, j, h1, h2, h3, h4, h5, rfl⟩
      exact ⟨i, by omega, by omega, j, h1, by omega, a, by omega, by omega, b, h3, h4, h5, rfl⟩

/-- Disagreement: the generalised spin-orbital doubles include excitations of one spin orbital twice,
`(i, i) → (a, a)`, whose operator is zero, and leave out `(0, 6) → (2, 4)` (only excitations with both
annihilated orbitals below both created ones are listed). -/
theorem C35_generalized_doubles_disagree :
    [2, 0, 2, 0] ∈ iterateT2Gen 4 ∧
    (∀ x ∈ iterateT2Gen 8, x ≠ [2, 0, 4, 6] ∧ x ≠ [4, 0, 2, 6] ∧ x ≠ [0, 2, 6, 4] ∧ x ≠ [6, 2, 0, 4]) := by
  refine ⟨by decide +kernel, fun x hx => ?_⟩
  obtain ⟨a, i, b, j, h1, h2, h3, h4, -, rfl⟩ := ((C35_generalized_doubles 8).2.2 x).1 hx
  refine ⟨?_, ?_, ?_, ?_⟩ <;> (intro h; simp only [List.cons.injEq] at h; omega)

/-- Two occupied and two unoccupied orbitals. -/
example : [0, 1, 2, 3].Nodup ∧ [4, 5, 6, 7].Nodup ∧
    (iterateT2 [0, 1, 2, 3] [4, 5, 6, 7]).length = 18 ∧ (iterateT4 [0, 1, 2, 3] [4, 5, 6, 7]).length = 1 := by
  refine ⟨by decide, by decide, by decide +kernel, by decide +kernel⟩

end SQ
