import Verif.Model.Integrals

/-!
# Lemmas: tables filled in place
-/

namespace SQ

theorem fillTable_foldl {κ : Type} [DecidableEq κ] (r : κ → κ → Prop) (hirr : ∀ a, ¬ r a a)
    (has : ∀ a b, r a b → ¬ r b a) (f : (κ → ℝ) → κ → ℝ) (G : κ → ℝ) (all : List κ)
    (h : ∀ k ∈ all, ∀ T : κ → ℝ, (∀ k' ∈ all, r k' k → T k' = G k') → (∀ k' ∉ all, T k' = 0) → f T k = G k) :
    ∀ (post pre : List κ) (T : κ → ℝ), all = pre ++ post → all.Pairwise r → (∀ k ∈ pre, T k = G k) →
      (∀ k ∉ pre, T k = 0) →
      (∀ k ∈ all, post.foldl (fun T k => Function.update T k (f T k)) T k = G k) ∧
      ∀ k ∉ all, post.foldl (fun T k => Function.update T k (f T k)) T k = 0
  | [], pre, T, hall, _, h1, h2 => by
    subst hall
    simpa using ⟨h1, h2⟩
  | k :: post, pre, T, hall, hp, h1, h2 => by
    have hp' := hp
    rw [hall, List.pairwise_append] at hp'
    obtain ⟨_, hp2, hp3⟩ := hp'
    rw [List.pairwise_cons] at hp2
    have hk : k ∈ all := by rw [hall]; simp
    have hkpre : k ∉ pre := fun hm => hirr k (hp3 k hm k (by simp))
    have hf : f T k = G k := by
      refine h k hk T (fun k' hk' hr => h1 k' ?_) (fun k' hk' => h2 k' fun hm => hk' ?_)
      · rw [hall] at hk'
        rcases List.mem_append.1 hk' with hm | hm
        · exact hm
        · rcases List.mem_cons.1 hm with rfl | hm
          · exact absurd hr (hirr _)
          · exact absurd hr (has _ _ (hp2.1 k' hm))
      · rw [hall]; exact List.mem_append_left _ hm
    rw [List.foldl_cons]
    refine fillTable_foldl r hirr has f G all h post (pre ++ [k]) _ (by simp [hall]) hp ?_ ?_
    · intro k' hk'
      by_cases he : k' = k
      · subst he; simp [hf]
      · rw [Function.update_of_ne he]
        refine h1 k' ?_
        simpa [he] using hk'
    · intro k' hk'
      have : k' ≠ k := by rintro rfl; simp at hk'
      rw [Function.update_of_ne this]
      exact h2 k' fun hm => hk' (by simp [hm])

/-- A table filled in an order in which every entry depends on earlier entries only. -/
theorem fillTable_eq {κ : Type} [DecidableEq κ] (r : κ → κ → Prop) (hirr : ∀ a, ¬ r a a)
    (has : ∀ a b, r a b → ¬ r b a) (f : (κ → ℝ) → κ → ℝ) (G : κ → ℝ) (keys : List κ) (hp : keys.Pairwise r)
    (h : ∀ k ∈ keys, ∀ T : κ → ℝ, (∀ k' ∈ keys, r k' k → T k' = G k') → (∀ k' ∉ keys, T k' = 0) → f T k = G k) :
    (∀ k ∈ keys, fillTable keys f k = G k) ∧ ∀ k ∉ keys, fillTable keys f k = 0 :=
  fillTable_foldl r hirr has f G keys h keys [] (fun _ => 0) rfl hp (by simp) (by simp)

/-- Lexicographic order on triples. -/
def lex3 (x y : ℕ × ℕ × ℕ) : Prop :=
  x.1 < y.1 ∨ (x.1 = y.1 ∧ (x.2.1 < y.2.1 ∨ (x.2.1 = y.2.1 ∧ x.2.2 < y.2.2)))

/-- Lexicographic order on quadruples. -/
def lex4 (x y : ℕ × ℕ × ℕ × ℕ) : Prop := x.1 < y.1 ∨ (x.1 = y.1 ∧ lex3 x.2 y.2)

/-- Lexicographic order on pairs. -/
def lex2 (x y : ℕ × ℕ) : Prop := x.1 < y.1 ∨ (x.1 = y.1 ∧ x.2 < y.2)

theorem mem_loop3 {I J T : ℕ} {k : ℕ × ℕ × ℕ} : k ∈ loop3 I J T ↔ k.1 < I ∧ k.2.1 < J ∧ k.2.2 < T := by
  obtain ⟨i, j, t⟩ := k
  simp [loop3]

theorem mem_loop4 {X Y Z N : ℕ} {k : ℕ × ℕ × ℕ × ℕ} :
    k ∈ loop4 X Y Z N ↔ k.1 < X ∧ k.2.1 < Y ∧ k.2.2.1 < Z ∧ k.2.2.2 < N := by
  obtain ⟨t, u, v, n⟩ := k
  simp [loop4]

theorem mem_loopTriangle {E : ℕ} {k : ℕ × ℕ} : k ∈ loopTriangle E ↔ k.1 < E ∧ k.2 ≤ k.1 := by
  obtain ⟨e, t⟩ := k
  simp only [loopTriangle, List.mem_flatMap, List.mem_range, List.mem_map, Prod.mk.injEq]
  constructor
  · rintro ⟨a, ha, b, hb, rfl, rfl⟩; exact ⟨ha, by omega⟩
  · rintro ⟨h1, h2⟩; exact ⟨e, h1, t, by omega, rfl, rfl⟩

theorem loop3_pairwise (I J T : ℕ) : (loop3 I J T).Pairwise lex3 := by
  unfold loop3
  rw [List.pairwise_flatMap]
  refine ⟨fun i _ => ?_, List.pairwise_lt_range.imp fun {a b} hab x hx y hy => ?_⟩
  · rw [List.pairwise_flatMap]
    refine ⟨fun j _ => ?_, List.pairwise_lt_range.imp fun {a b} hab x hx y hy => ?_⟩
    · rw [List.pairwise_map]
      exact List.pairwise_lt_range.imp fun hab => Or.inr ⟨rfl, Or.inr ⟨rfl, hab⟩⟩
    · simp only [List.mem_map, List.mem_range] at hx hy
      obtain ⟨_, _, rfl⟩ := hx
      obtain ⟨_, _, rfl⟩ := hy
      exact Or.inr ⟨rfl, Or.inl hab⟩
  · simp only [List.mem_flatMap, List.mem_map, List.mem_range] at hx hy
    obtain ⟨_, _, _, _, rfl⟩ := hx
    obtain ⟨_, _, _, _, rfl⟩ := hy
    exact Or.inl hab

theorem tableLoop4_eq (X Y Z N : ℕ) :
    loop4 X Y Z N = (List.range X).flatMap fun t => (loop3 Y Z N).map fun k => (t, k) := by
  simp [loop4, loop3, List.map_flatMap]
  rfl

theorem loop4_pairwise (X Y Z N : ℕ) : (loop4 X Y Z N).Pairwise lex4 := by
  rw [tableLoop4_eq, List.pairwise_flatMap]
  refine ⟨fun i _ => ?_, List.pairwise_lt_range.imp fun {a b} hab x hx y hy => ?_⟩
  · rw [List.pairwise_map]
    exact (loop3_pairwise Y Z N).imp fun hab => Or.inr ⟨rfl, hab⟩
  · simp only [List.mem_map] at hx hy
    obtain ⟨_, _, rfl⟩ := hx
    obtain ⟨_, _, rfl⟩ := hy
    exact Or.inl hab

theorem loopTriangle_pairwise (E : ℕ) : (loopTriangle E).Pairwise lex2 := by
  unfold loopTriangle
  rw [List.pairwise_flatMap]
  refine ⟨fun i _ => ?_, List.pairwise_lt_range.imp fun {a b} hab x hx y hy => ?_⟩
  · rw [List.pairwise_map]
    exact List.pairwise_lt_range.imp fun hab => Or.inr ⟨rfl, hab⟩
  · simp only [List.mem_map] at hx hy
    obtain ⟨_, _, rfl⟩ := hx
    obtain ⟨_, _, rfl⟩ := hy
    exact Or.inl hab

theorem lex3_irrefl (a : ℕ × ℕ × ℕ) : ¬ lex3 a a := by unfold lex3; omega
theorem lex3_asymm (a b : ℕ × ℕ × ℕ) (h : lex3 a b) : ¬ lex3 b a := by unfold lex3 at *; omega
theorem lex4_irrefl (a : ℕ × ℕ × ℕ × ℕ) : ¬ lex4 a a := by unfold lex4 lex3; omega
theorem lex4_asymm (a b : ℕ × ℕ × ℕ × ℕ) (h : lex4 a b) : ¬ lex4 b a := by unfold lex4 lex3 at *; omega
theorem lex2_irrefl (a : ℕ × ℕ) : ¬ lex2 a a := by unfold lex2; omega
theorem lex2_asymm (a b : ℕ × ℕ) (h : lex2 a b) : ¬ lex2 b a := by unfold lex2 at *; omega

/-! ## Expansion coefficients -/

/-- Multiplication by `x - A` on the coefficients of Hermite Gaussians. -/
noncomputable def raiseCoeff (p x : ℝ) (s : ℕ → ℝ) (t : ℕ) : ℝ :=
  (if t > 0 then 1 / (2 * p) * s (t - 1) else 0) + x * s t + (t + 1 : ℝ) * s (t + 1)

/-- The coefficients by their recursion. -/
noncomputable def expansionExact (A B a b : ℝ) (i j : ℕ) : ℕ → ℝ :=
  (raiseCoeff (a + b) (productCenter A B a b - A))^[i]
    ((raiseCoeff (a + b) (productCenter A B a b - B))^[j]
      fun t => if t = 0 then Real.exp (-(a * b / (a + b)) * (A - B) ^ 2) else 0)

theorem raiseCoeff_zero {p x : ℝ} {s : ℕ → ℝ} {N : ℕ} (h : ∀ t, N < t → s t = 0) (t : ℕ) (ht : N + 1 < t) :
    raiseCoeff p x s t = 0 := by
  unfold raiseCoeff
  rw [h t (by omega), h (t + 1) (by omega), h (t - 1) (by omega)]
  simp

theorem raiseCoeff_iterate_zero {p x : ℝ} {s : ℕ → ℝ} {N : ℕ} (h : ∀ t, N < t → s t = 0) :
    ∀ (n t : ℕ), N + n < t → ((raiseCoeff p x)^[n] s) t = 0
  | 0, t, ht => h t (by omega)
  | n + 1, t, ht => by
    rw [Function.iterate_succ_apply']
    exact raiseCoeff_zero (N := N + n) (fun t ht => raiseCoeff_iterate_zero h n t ht) t (by omega)

theorem expansionExact_zero {A B a b : ℝ} {i j t : ℕ} (ht : i + j < t) : expansionExact A B a b i j t = 0 := by
  unfold expansionExact
  refine raiseCoeff_iterate_zero (N := j) (fun t ht => ?_) i t (by omega)
  refine raiseCoeff_iterate_zero (N := 0) (fun t ht => ?_) j t (by omega)
  simp; omega

theorem expansionExact_succ_left (A B a b : ℝ) (i j : ℕ) :
    expansionExact A B a b (i + 1) j =
      raiseCoeff (a + b) (productCenter A B a b - A) (expansionExact A B a b i j) := by
  unfold expansionExact
  rw [Function.iterate_succ_apply']

theorem expansionExact_succ_right (A B a b : ℝ) (j : ℕ) :
    expansionExact A B a b 0 (j + 1) =
      raiseCoeff (a + b) (productCenter A B a b - B) (expansionExact A B a b 0 j) := by
  unfold expansionExact
  rw [Function.iterate_succ_apply']
  simp

/-- The table holds the coefficients of the recursion. -/
theorem expansionCoefficients_eq (A B a b : ℝ) (la lb : ℕ) :
    (∀ i j t, i ≤ la → j ≤ lb → t ≤ la + lb →
      expansionCoefficients A B a b la lb (i, j, t) = expansionExact A B a b i j t) ∧
    ∀ i j t, ¬ (i ≤ la ∧ j ≤ lb ∧ t ≤ la + lb) → expansionCoefficients A B a b la lb (i, j, t) = 0 := by
  have key := fillTable_eq lex3 lex3_irrefl lex3_asymm (expansionStep A B a b)
    (fun k => expansionExact A B a b k.1 k.2.1 k.2.2) (loop3 (la + 1) (lb + 1) (la + lb + 1)) (loop3_pairwise _ _ _) ?_
  · refine ⟨fun i j t hi hj ht => key.1 (i, j, t) ?_, fun i j t h => key.2 (i, j, t) ?_⟩
    · rw [mem_loop3]; simp only; omega
    · rw [mem_loop3]; simp only; omega
  · rintro ⟨i, j, t⟩ hk T hT _
    rw [mem_loop3] at hk
    simp only at hk
    have hget : ∀ i' j' t', lex3 (i', j', t') (i, j, t) → i' < la + 1 → j' < lb + 1 → t' < la + lb + 1 →
        T (i', j', t') = expansionExact A B a b i' j' t' := fun i' j' t' hl h1 h2 h3 =>
      hT (i', j', t') (mem_loop3.2 ⟨h1, h2, h3⟩) hl
    simp only [expansionStep]
    rcases i with _ | i
    · rcases j with _ | j
      · rcases t with _ | t
        · simp [expansionExact]
        · rw [if_neg (by omega), expansionExact_zero (by omega)]
          simp
      · rw [if_neg (by omega), if_pos rfl, expansionExact_succ_right]
        unfold raiseCoeff
        congr 1
        · congr 1
          · by_cases h0 : t > 0
            · rw [if_pos ⟨by omega, h0⟩, if_pos h0, hget 0 (j + 1 - 1) (t - 1) (by unfold lex3; simp) (by omega)
                (by omega) (by omega)]
              rfl
            · rw [if_neg (by omega), if_neg h0]
          · rw [if_pos (by omega), hget 0 (j + 1 - 1) t (by unfold lex3; simp) (by omega) (by omega) (by omega)]
            rfl
        · by_cases h0 : t + 1 ≤ 0 + (j + 1)
          · rw [if_pos ⟨by omega, h0⟩, hget 0 (j + 1 - 1) (t + 1) (by unfold lex3; simp) (by omega) (by omega)
              (by omega)]
            rfl
          · rw [if_neg (by omega), expansionExact_zero (by omega), mul_zero]
    · rw [if_neg (by omega), if_neg (by omega), expansionExact_succ_left]
      unfold raiseCoeff
      congr 1
      · congr 1
        · by_cases h0 : t > 0
          · rw [if_pos ⟨by omega, h0⟩, if_pos h0, hget (i + 1 - 1) j (t - 1) (by unfold lex3; simp) (by omega)
              (by omega) (by omega)]
            rfl
          · rw [if_neg (by omega), if_neg h0]
        · rw [if_pos (by omega), hget (i + 1 - 1) j t (by unfold lex3; simp) (by omega) (by omega) (by omega)]
          rfl
      · by_cases h0 : t + 1 ≤ i + 1 + j
        · rw [if_pos ⟨by omega, h0⟩, hget (i + 1 - 1) j (t + 1) (by unfold lex3; simp) (by omega) (by omega)
            (by omega)]
          rfl
        · rw [if_neg (by omega), expansionExact_zero (by omega), mul_zero]

end SQ
