import Verif.Lemmas.FillTable
import Verif.Lemmas.HermiteGaussian

/-!
# Lemmas: products of Cartesian Gaussians
-/

namespace SQ

open MeasureTheory Real

/-- A Cartesian Gaussian in one dimension. -/
noncomputable def cart (A a : ℝ) (i : ℕ) (x : ℝ) : ℝ := (x - A) ^ i * exp (-a * (x - A) ^ 2)

theorem cart_succ (A a : ℝ) (i : ℕ) (x : ℝ) : cart A a (i + 1) x = (x - A) * cart A a i x := by
  unfold cart; ring

theorem cart_continuous (A a : ℝ) (i : ℕ) : Continuous (cart A a i) := by unfold cart; fun_prop

/-- Multiplication of a Hermite Gaussian by a coordinate. -/
theorem mul_hg {p : ℝ} (hp : p ≠ 0) (P C x : ℝ) (t : ℕ) :
    (x - C) * hg p t (P - x) =
      1 / (2 * p) * hg p (t + 1) (P - x) + (P - C) * hg p t (P - x) + t * hg p (t - 1) (P - x) := by
  rw [hg_succ p t]
  field_simp
  ring

theorem raise_sum {p : ℝ} (hp : p ≠ 0) (P A x : ℝ) (s : ℕ → ℝ) (N : ℕ) (hs : ∀ t, N ≤ t → s t = 0) :
    ∑ t ∈ Finset.range (N + 1), raiseCoeff p (P - A) s t * hg p t (P - x) =
      (x - A) * ∑ t ∈ Finset.range N, s t * hg p t (P - x) := by
  have h1 : ∑ t ∈ Finset.range (N + 1), (if t > 0 then 1 / (2 * p) * s (t - 1) else 0) * hg p t (P - x) =
      ∑ t ∈ Finset.range N, s t * (1 / (2 * p) * hg p (t + 1) (P - x)) := by
    rw [Finset.sum_range_succ']
    simp only [gt_iff_lt, lt_self_iff_false, if_false, zero_mul, add_zero]
    refine Finset.sum_congr rfl fun t _ => ?_
    rw [if_pos (by omega), Nat.add_sub_cancel]; ring
  have h2 : ∑ t ∈ Finset.range (N + 1), (P - A) * s t * hg p t (P - x) =
      ∑ t ∈ Finset.range N, s t * ((P - A) * hg p t (P - x)) := by
    rw [Finset.sum_range_succ, hs N le_rfl]
    simp only [mul_zero, zero_mul, add_zero]
    exact Finset.sum_congr rfl fun t _ => by ring
  have h3 : ∑ t ∈ Finset.range (N + 1), (t + 1 : ℝ) * s (t + 1) * hg p t (P - x) =
      ∑ t ∈ Finset.range N, s t * (t * hg p (t - 1) (P - x)) := by
    have e : ∑ t ∈ Finset.range (N + 2), s t * ((t : ℝ) * hg p (t - 1) (P - x)) =
        ∑ t ∈ Finset.range (N + 1), (t + 1 : ℝ) * s (t + 1) * hg p t (P - x) := by
      rw [Finset.sum_range_succ']
      simp only [Nat.cast_zero, zero_mul, mul_zero, add_zero, Nat.add_sub_cancel]
      exact Finset.sum_congr rfl fun t _ => by push_cast; ring
    rw [← e, Finset.sum_range_succ, Finset.sum_range_succ, hs N le_rfl, hs (N + 1) (by omega)]
    ring
  have h0 : ∀ t, raiseCoeff p (P - A) s t * hg p t (P - x) =
      (if t > 0 then 1 / (2 * p) * s (t - 1) else 0) * hg p t (P - x) + (P - A) * s t * hg p t (P - x) +
        (t + 1 : ℝ) * s (t + 1) * hg p t (P - x) := fun t => by unfold raiseCoeff; ring
  rw [Finset.sum_congr rfl fun t _ => h0 t, Finset.sum_add_distrib, Finset.sum_add_distrib]
  rw [h1, h2, h3, ← Finset.sum_add_distrib, ← Finset.sum_add_distrib, Finset.mul_sum]
  refine Finset.sum_congr rfl fun t _ => ?_
  have := mul_hg hp P A x t
  calc _ = s t * (1 / (2 * p) * hg p (t + 1) (P - x) + (P - A) * hg p t (P - x) + t * hg p (t - 1) (P - x)) := by ring
    _ = s t * ((x - A) * hg p t (P - x)) := by rw [this]
    _ = _ := by ring

theorem cart_product {a b : ℝ} (h : a + b ≠ 0) (A B x : ℝ) :
    ∀ i j : ℕ, cart A a i x * cart B b j x =
      ∑ t ∈ Finset.range (i + j + 1), expansionExact A B a b i j t * hg (a + b) t (productCenter A B a b - x)
  | 0, 0 => by
    rw [show 0 + 0 + 1 = 1 from rfl, Finset.sum_range_one]
    simp only [expansionExact, Function.iterate_zero, id, if_true, hg_zero, cart, pow_zero,
      one_mul, ← exp_add, productCenter]
    congr 1
    field_simp
    ring
  | 0, j + 1 => by
    rw [cart_succ, show 0 + (j + 1) + 1 = (0 + j + 1) + 1 by omega, expansionExact_succ_right,
      raise_sum h _ B x _ (0 + j + 1) (fun t ht => expansionExact_zero (by omega)), ← cart_product h A B x 0 j]
    ring
  | i + 1, j => by
    rw [cart_succ, show i + 1 + j + 1 = (i + j + 1) + 1 by omega, expansionExact_succ_left,
      raise_sum h _ A x _ (i + j + 1) (fun t ht => expansionExact_zero (by omega)), ← cart_product h A B x i j]
    ring

/-! ## Multipole moments -/

/-- The multipole moment of a Hermite Gaussian. -/
noncomputable def momentExact (p P C : ℝ) (e t : ℕ) : ℝ := ∫ x : ℝ, (x - C) ^ e * hg p t (P - x)

theorem momentExact_zero {p : ℝ} (hp : 0 < p) (P C : ℝ) (t : ℕ) :
    momentExact p P C 0 t = if t = 0 then √(π / p) else 0 := by
  unfold momentExact
  simp only [pow_zero, one_mul]
  exact hg_integral hp P t

theorem momentExact_succ {p : ℝ} (hp : 0 < p) (P C : ℝ) (e t : ℕ) :
    momentExact p P C (e + 1) t =
      t * momentExact p P C e (t - 1) + (P - C) * momentExact p P C e t + 1 / (2 * p) * momentExact p P C e (t + 1) := by
  unfold momentExact
  rw [← integral_three (hg_pow_integrable hp P C _ _) (hg_pow_integrable hp P C _ _) (hg_pow_integrable hp P C _ _)]
  refine integral_congr_ae (Filter.Eventually.of_forall fun x => ?_)
  simp only
  rw [pow_succ, mul_assoc, mul_hg hp.ne']
  ring

theorem momentExact_high {p : ℝ} (hp : 0 < p) (P C : ℝ) : ∀ (e t : ℕ), e < t → momentExact p P C e t = 0
  | 0, t, h => by rw [momentExact_zero hp, if_neg (by omega)]
  | e + 1, t, h => by
    rw [momentExact_succ hp, momentExact_high hp P C e (t - 1) (by omega), momentExact_high hp P C e t (by omega),
      momentExact_high hp P C e (t + 1) (by omega)]
    ring

theorem hermiteMultipole_eq {a b : ℝ} (h : 0 < a + b) (A B C : ℝ) (order : ℕ) (e t : ℕ) (he : e ≤ order) (ht : t ≤ e) :
    hermiteMultipole A B C a b order (e, t) = momentExact (a + b) (productCenter A B a b) C e t := by
  have key := fillTable_eq lex2 lex2_irrefl lex2_asymm (multipoleStep A B C a b)
    (fun k => momentExact (a + b) (productCenter A B a b) C k.1 k.2) (loopTriangle (order + 1))
    (loopTriangle_pairwise _) ?_
  · exact key.1 (e, t) (mem_loopTriangle.2 ⟨by simp only; omega, ht⟩)
  · rintro ⟨e, t⟩ hk T hT hT0
    rw [mem_loopTriangle] at hk
    simp only at hk
    simp only [multipoleStep]
    rcases e with _ | e
    · have : t = 0 := by omega
      subst this
      rw [if_pos ⟨rfl, rfl⟩, momentExact_zero h, if_pos rfl, sqrt_eq_rpow]
      norm_num
    · rw [if_neg (by omega), if_neg (by omega), momentExact_succ h]
      have hget : ∀ t', t' ≤ e + 1 → T (e + 1 - 1, t') = momentExact (a + b) (productCenter A B a b) C e t' := by
        intro t' ht'
        by_cases hle : t' ≤ e
        · exact hT (e + 1 - 1, t') (mem_loopTriangle.2 ⟨by simp only; omega, by simpa using hle⟩)
            (by unfold lex2; simp)
        · rw [momentExact_high h _ _ e t' (by omega)]
          exact hT0 _ (by rw [mem_loopTriangle]; simp only; omega)
      congr 1
      · congr 1
        · by_cases h0 : t > 0
          · rw [if_pos h0, hget _ (by omega)]
          · have : t = 0 := by omega
            subst this
            simp
        · rw [hget _ (by omega)]
      · by_cases h0 : t + 1 ≤ e + 1 - 1
        · rw [if_pos h0, hget _ (by omega)]
        · rw [if_neg h0, momentExact_high h _ _ e (t + 1) (by omega), mul_zero]

/-! ## Integrals in one dimension -/

theorem cart_pair_integrable {a b : ℝ} (h : 0 < a + b) (A B C : ℝ) (i j e : ℕ) :
    Integrable fun x : ℝ => cart A a i x * cart B b j x * (x - C) ^ e := by
  have : Integrable fun x : ℝ => ∑ t ∈ Finset.range (i + j + 1),
      expansionExact A B a b i j t * ((x - C) ^ e * hg (a + b) t (productCenter A B a b - x)) :=
    integrable_finset_sum _ fun t _ => (hg_pow_integrable h _ C t e).const_mul _
  refine this.congr (Filter.Eventually.of_forall fun x => ?_)
  simp only
  rw [cart_product h.ne', Finset.sum_mul]
  exact Finset.sum_congr rfl fun t _ => by ring

theorem cart_pair_integral {a b : ℝ} (h : 0 < a + b) (A B C : ℝ) (i j e : ℕ) :
    ∫ x : ℝ, cart A a i x * cart B b j x * (x - C) ^ e =
      ∑ t ∈ Finset.range (i + j + 1),
        expansionExact A B a b i j t * momentExact (a + b) (productCenter A B a b) C e t := by
  have : ∀ x : ℝ, cart A a i x * cart B b j x * (x - C) ^ e = ∑ t ∈ Finset.range (i + j + 1),
      expansionExact A B a b i j t * ((x - C) ^ e * hg (a + b) t (productCenter A B a b - x)) := by
    intro x
    rw [cart_product h.ne', Finset.sum_mul]
    exact Finset.sum_congr rfl fun t _ => by ring
  rw [integral_congr_ae (Filter.Eventually.of_forall this),
    integral_finset_sum _ fun t _ => (hg_pow_integrable h _ C t e).const_mul _]
  exact Finset.sum_congr rfl fun t _ => integral_const_mul _ _

theorem cart_pair_integral_table {a b : ℝ} (h : 0 < a + b) (A B C : ℝ) (i j e : ℕ) (la lb : ℕ) (hi : i ≤ la)
    (hj : j ≤ lb) :
    ∑ t ∈ Finset.range (min (i + j) e + 1),
      hermiteMultipole A B C a b e (e, t) * expansionCoefficients A B a b la lb (i, j, t) =
    ∫ x : ℝ, cart A a i x * cart B b j x * (x - C) ^ e := by
  rw [cart_pair_integral h]
  have hsub : Finset.range (min (i + j) e + 1) ⊆ Finset.range (i + j + 1) := by
    intro t ht; simp only [Finset.mem_range] at *; omega
  rw [← Finset.sum_subset hsub (f := fun t => expansionExact A B a b i j t *
    momentExact (a + b) (productCenter A B a b) C e t)]
  · refine Finset.sum_congr rfl fun t ht => ?_
    simp only [Finset.mem_range] at ht
    rw [hermiteMultipole_eq h A B C e e t le_rfl (by omega),
      (expansionCoefficients_eq A B a b la lb).1 i j t hi hj (by omega), mul_comm]
  · intro t ht hnt
    simp only [Finset.mem_range] at *
    rw [momentExact_high h _ _ e t (by omega), mul_zero]

end SQ
