import Mathlib.Analysis.SpecialFunctions.Gaussian.GaussianIntegral
import Mathlib.MeasureTheory.Integral.IntegralEqImproper
import Mathlib.MeasureTheory.Integral.IntervalIntegral.FundThmCalculus
import Verif.Lemmas.Normalization
import Verif.Lemmas.CoulombTable

/-!
# Lemmas: the Boys function
-/

namespace SQ

open MeasureTheory Real Set

theorem boys_integrand_continuous (n : ℕ) (z : ℝ) : Continuous fun s : ℝ => s ^ (2 * n) * exp (-z * s ^ 2) := by fun_prop

/-- Integration by parts. -/
theorem boys_rec (n : ℕ) (z : ℝ) : (2 * n + 1) * boysExact n z = exp (-z) + 2 * z * boysExact (n + 1) z := by
  have hd : ∀ s : ℝ, HasDerivAt (fun s : ℝ => s ^ (2 * n + 1) * exp (-z * s ^ 2))
      ((2 * n + 1) * (s ^ (2 * n) * exp (-z * s ^ 2)) - 2 * z * (s ^ (2 * (n + 1)) * exp (-z * s ^ 2))) s := by
    intro s
    have h1 : HasDerivAt (fun s : ℝ => s ^ (2 * n + 1)) (((2 * n + 1 : ℕ) : ℝ) * s ^ (2 * n)) s := by
      simpa using hasDerivAt_pow (2 * n + 1) s
    have h2 : HasDerivAt (fun s : ℝ => -z * s ^ 2) (-z * (2 * s)) s := by
      simpa using (hasDerivAt_pow 2 s).const_mul (-z)
    have := h1.mul h2.exp
    refine this.congr_deriv ?_
    push_cast
    ring
  have hi : ∀ m : ℕ, IntervalIntegrable (fun s : ℝ => s ^ (2 * m) * exp (-z * s ^ 2)) volume 0 1 := fun m =>
    (boys_integrand_continuous m z).intervalIntegrable _ _
  have h := intervalIntegral.integral_eq_sub_of_hasDerivAt (fun s _ => hd s)
    (((hi n).const_mul (2 * n + 1)).sub ((hi (n + 1)).const_mul (2 * z)))
  rw [intervalIntegral.integral_sub ((hi n).const_mul (2 * n + 1)) ((hi (n + 1)).const_mul (2 * z)),
    intervalIntegral.integral_const_mul, intervalIntegral.integral_const_mul] at h
  simp only [one_pow, mul_one, one_mul, ne_eq, Nat.add_eq_zero_iff, mul_eq_zero, OfNat.ofNat_ne_zero, false_or,
    one_ne_zero, and_false, not_false_eq_true, zero_pow, zero_mul, sub_zero] at h
  unfold boysExact
  linarith

theorem boys_nonneg (n : ℕ) (z : ℝ) : 0 ≤ boysExact n z :=
  intervalIntegral.integral_nonneg zero_le_one fun s _ => mul_nonneg (by rw [pow_mul]; positivity) (exp_pos _).le

theorem boys_le (n : ℕ) {z : ℝ} (hz : 0 ≤ z) : boysExact n z ≤ 1 / (2 * n + 1) := by
  have h : ∫ s in (0 : ℝ)..1, s ^ (2 * n) = 1 / (2 * n + 1) := by
    rw [integral_pow]; simp
  rw [← h]
  refine intervalIntegral.integral_mono_on zero_le_one ((boys_integrand_continuous n z).intervalIntegrable _ _)
    ((continuous_pow _).intervalIntegrable _ _) fun s _ => ?_
  have h1 : exp (-z * s ^ 2) ≤ 1 := exp_le_one_iff.2 (by nlinarith [sq_nonneg s])
  have h2 : 0 ≤ s ^ (2 * n) := by rw [pow_mul]; positivity
  exact mul_le_of_le_one_right h2 h1

theorem boys_ge (n : ℕ) (z : ℝ) : 1 / (2 * n + 1) - z / (2 * n + 3) ≤ boysExact n z := by
  have hint : ∫ s in (0 : ℝ)..1, (s ^ (2 * n) - z * s ^ (2 * n + 2)) = 1 / (2 * n + 1) - z / (2 * n + 3) := by
    rw [intervalIntegral.integral_sub ((continuous_pow _).intervalIntegrable _ _)
      (((continuous_pow _).intervalIntegrable _ _).const_mul _), intervalIntegral.integral_const_mul, integral_pow,
      integral_pow]
    simp only [one_pow, ne_eq, Nat.add_eq_zero_iff, mul_eq_zero, OfNat.ofNat_ne_zero, false_or, one_ne_zero, and_false,
      not_false_eq_true, zero_pow, sub_zero, Nat.cast_add, Nat.cast_mul, Nat.cast_ofNat]
    rw [show (2 * (n : ℝ) + 2 + 1) = 2 * n + 3 by ring]
    ring
  rw [← hint]
  refine intervalIntegral.integral_mono_on zero_le_one
    (((continuous_pow _).sub (continuous_const.mul (continuous_pow _))).intervalIntegrable _ _)
    ((boys_integrand_continuous n z).intervalIntegrable _ _) fun s _ => ?_
  have h2 : 0 ≤ s ^ (2 * n) := by rw [pow_mul]; positivity
  have h7 : 1 - z * s ^ 2 ≤ exp (-z * s ^ 2) := by have := add_one_le_exp (-z * s ^ 2); linarith
  calc s ^ (2 * n) - z * s ^ (2 * n + 2) = s ^ (2 * n) * (1 - z * s ^ 2) := by ring
    _ ≤ _ := mul_le_mul_of_nonneg_left h7 h2

/-! ## The series -/

/-- `(2n-1)!!`. -/
noncomputable def oddFac (n : ℕ) : ℝ := ∏ i ∈ Finset.range n, (2 * (i : ℝ) + 1)

theorem oddFac_succ (n : ℕ) : oddFac (n + 1) = (2 * n + 1) * oddFac n := by
  unfold oddFac; rw [Finset.prod_range_succ, mul_comm]

theorem oddFac_pos (n : ℕ) : 0 < oddFac n := Finset.prod_pos fun i _ => by positivity

theorem oddFac_mono {n m : ℕ} (h : n ≤ m) : oddFac n ≤ oddFac m := by
  induction h with
  | refl => exact le_rfl
  | @step k _ ih =>
    rw [oddFac_succ]
    have := oddFac_pos k
    have hk : (0 : ℝ) ≤ k := by positivity
    nlinarith

theorem oddFac_cast (n : ℕ) : oddFac n = ((∏ i ∈ Finset.range n, (2 * i + 1) : ℕ) : ℝ) := by
  unfold oddFac; push_cast; rfl

theorem factorial2_oddFac (n : ℕ) : factorial2 (2 * (n : ℤ) - 1) = oddFac n := factorial2_odd n

noncomputable def boysTerm (n : ℕ) (z : ℝ) (i : ℕ) : ℝ := (2 * z) ^ i / oddFac (n + i + 1)

theorem boysTerm_eq (n : ℕ) (z : ℝ) (i : ℕ) :
    (2 * z) ^ i / factorial2 (2 * (n : ℤ) + 2 * (i : ℤ) + 1) = boysTerm n z i := by
  unfold boysTerm
  rw [← factorial2_oddFac]
  congr 2
  push_cast
  ring

theorem boys_series (n : ℕ) (z : ℝ) (N : ℕ) :
    boysExact n z = exp (-z) * oddFac n * (∑ j ∈ Finset.range N, boysTerm n z j) +
      oddFac n * ((2 * z) ^ N / oddFac (n + N)) * boysExact (n + N) z := by
  induction N with
  | zero =>
    have := (oddFac_pos n).ne'
    simp [this]
  | succ N ih =>
    rw [ih, Finset.sum_range_succ]
    have h := boys_rec (n + N) z
    have h1 : oddFac (n + N + 1) = (2 * ((n + N : ℕ) : ℝ) + 1) * oddFac (n + N) := oddFac_succ _
    have h2 := (oddFac_pos (n + N)).ne'
    have h3 : (2 * ((n + N : ℕ) : ℝ) + 1) ≠ 0 := by positivity
    unfold boysTerm
    rw [← Nat.add_assoc, h1]
    have e : boysExact (n + N) z = (exp (-z) + 2 * z * boysExact (n + N + 1) z) / (2 * ((n + N : ℕ) : ℝ) + 1) := by
      rw [eq_div_iff h3]; linarith
    rw [e]
    field_simp
    ring

theorem boysLoop_run (n : ℕ) (z : ℝ) (hz : 0 ≤ z) : ∀ (fuel i : ℕ),
    (∃ k, i ≤ k ∧ boysTerm n z k < 1 / 10 ^ 12 ∧ (∀ j, i ≤ j → j < k → ¬ boysTerm n z j < 1 / 10 ^ 12) ∧
      boysLoop n z fuel i (∑ j ∈ Finset.range i, boysTerm n z j) = ∑ j ∈ Finset.range (k + 1), boysTerm n z j) ∨
    ∀ j, i ≤ j → j < i + fuel → ¬ boysTerm n z j < 1 / 10 ^ 12
  | 0, i => Or.inr fun j h1 h2 => by omega
  | fuel + 1, i => by
    have hpos : 0 ≤ boysTerm n z i := div_nonneg (by positivity) (oddFac_pos _).le
    have e : |(∑ j ∈ Finset.range i, boysTerm n z j) - ((∑ j ∈ Finset.range i, boysTerm n z j) + boysTerm n z i)| =
        boysTerm n z i := by
      rw [sub_add_cancel_left, abs_neg, abs_of_nonneg hpos]
    by_cases h : boysTerm n z i < 1 / 10 ^ 12
    · left
      refine ⟨i, le_rfl, h, fun j h1 h2 => by omega, ?_⟩
      rw [boysLoop]
      simp only [boysTerm_eq]
      rw [e, if_pos h, Finset.sum_range_succ]
    · rcases boysLoop_run n z hz fuel (i + 1) with ⟨k, hk, hk2, hk3, hk4⟩ | hk
      · left
        refine ⟨k, by omega, hk2, fun j h1 h2 => ?_, ?_⟩
        · rcases Nat.eq_or_lt_of_le h1 with rfl | h1
          · exact h
          · exact hk3 j h1 h2
        · rw [boysLoop]
          simp only [boysTerm_eq]
          rw [e, if_neg h, ← Finset.sum_range_succ, hk4]
      · right
        intro j h1 h2
        rcases Nat.eq_or_lt_of_le h1 with rfl | h1
        · exact h
        · exact hk j h1 (by omega)

theorem boysTerm_hundred (n : ℕ) {z : ℝ} (hz : 0 ≤ z) (hz' : z ≤ 25) : boysTerm n z 100 < 1 / 10 ^ 12 := by
  have h1 : (50 ^ 100 * 10 ^ 12 : ℕ) < ∏ i ∈ Finset.range 101, (2 * i + 1) := by decide +kernel
  have h2 : (50 : ℝ) ^ 100 * 10 ^ 12 < oddFac 101 := by
    rw [oddFac_cast]
    exact_mod_cast h1
  have h3 : oddFac 101 ≤ oddFac (n + 100 + 1) := oddFac_mono (by omega)
  have h4 : (2 * z) ^ 100 ≤ 50 ^ 100 := pow_le_pow_left₀ (by positivity) (by linarith) _
  unfold boysTerm
  rw [div_lt_div_iff₀ (oddFac_pos _) (by positivity)]
  calc (2 * z) ^ 100 * 10 ^ 12 ≤ 50 ^ 100 * 10 ^ 12 := by gcongr
    _ < 1 * oddFac (n + 100 + 1) := by linarith

/-- The error of the series as the code stops it. -/
theorem boysLoop_error (n : ℕ) {z : ℝ} (hz : 0 ≤ z) (hz' : z ≤ 25) :
    0 ≤ boysExact n z - boysLoop n z 1000 0 0 * (exp (-z) * oddFac n) ∧
      boysExact n z - boysLoop n z 1000 0 0 * (exp (-z) * oddFac n) ≤ oddFac n * (2 * z / (2 * n + 3)) / 10 ^ 12 := by
  rcases boysLoop_run n z hz 1000 0 with ⟨k, _, hk2, _, hk4⟩ | hk
  · simp only [Finset.range_zero, Finset.sum_empty] at hk4
    rw [hk4, boys_series n z (k + 1)]
    have hD := oddFac_pos n
    have hD2 := oddFac_pos (n + k + 1)
    have hb0 := boys_nonneg (n + (k + 1)) z
    have hb := boys_le (n + (k + 1)) hz
    have e : oddFac n * ((2 * z) ^ (k + 1) / oddFac (n + (k + 1))) * boysExact (n + (k + 1)) z =
        oddFac n * (2 * z) * boysTerm n z k * boysExact (n + (k + 1)) z := by
      unfold boysTerm
      rw [← Nat.add_assoc, pow_succ]
      ring
    have hT : 0 ≤ boysTerm n z k := div_nonneg (by positivity) hD2.le
    constructor
    · rw [e]
      have : 0 ≤ oddFac n * (2 * z) * boysTerm n z k * boysExact (n + (k + 1)) z := by positivity
      linarith
    · rw [e]
      have h1 : boysExact (n + (k + 1)) z ≤ 1 / (2 * n + 3) := by
        refine hb.trans (one_div_le_one_div_of_le (by positivity) ?_)
        push_cast
        have : (0 : ℝ) ≤ k := by positivity
        linarith
      calc _ = oddFac n * (2 * z) * (boysTerm n z k * boysExact (n + (k + 1)) z) := by ring
        _ ≤ oddFac n * (2 * z) * (1 / 10 ^ 12 * (1 / (2 * n + 3))) := by
          refine mul_le_mul_of_nonneg_left (mul_le_mul hk2.le h1 hb0 (by positivity)) (by positivity)
        _ = _ := by ring
  · exact absurd (boysTerm_hundred n hz hz') (hk 100 (by omega) (by omega))

theorem boysLoop_short {n : ℕ} (hn : 12 ≤ n) {z : ℝ} (hz : 0 ≤ z) :
    boysLoop n z 1000 0 0 * (exp (-z) * oddFac n) = exp (-z) / (2 * n + 1) := by
  have hT : boysTerm n z 0 < 1 / 10 ^ 12 := by
    have h1 : (10 ^ 12 : ℕ) < ∏ i ∈ Finset.range 13, (2 * i + 1) := by decide +kernel
    have h2 : (10 : ℝ) ^ 12 < oddFac 13 := by rw [oddFac_cast]; exact_mod_cast h1
    have h3 : oddFac 13 ≤ oddFac (n + 0 + 1) := oddFac_mono (by omega)
    unfold boysTerm
    rw [pow_zero]
    exact one_div_lt_one_div_of_lt (by positivity) (by linarith)
  rcases boysLoop_run n z hz 1000 0 with ⟨k, _, _, hk3, hk4⟩ | hk
  · have hk0 : k = 0 := by
      by_contra hne
      exact hk3 0 le_rfl (by omega) hT
    subst hk0
    simp only [Finset.range_zero, Finset.sum_empty, zero_add, Finset.sum_range_one] at hk4
    rw [hk4]
    unfold boysTerm
    rw [pow_zero, Nat.add_zero, oddFac_succ]
    have := (oddFac_pos n).ne'
    have : (2 * (n : ℝ) + 1) ≠ 0 := by positivity
    field_simp
  · exact absurd hT (hk 0 le_rfl (by omega))

theorem boys_two_terms (n : ℕ) {z : ℝ} (hz : 0 ≤ z) :
    exp (-z) / (2 * n + 1) * (1 + 2 * z / (2 * n + 3)) ≤ boysExact n z := by
  have h := boys_rec n z
  have h1 := boys_rec (n + 1) z
  have h2 := boys_nonneg (n + 1 + 1) z
  have h3 : exp (-z) ≤ (2 * n + 3) * boysExact (n + 1) z := by
    push_cast at h1
    have : 0 ≤ 2 * z * boysExact (n + 1 + 1) z := by positivity
    linarith
  have hp1 : (0 : ℝ) < 2 * n + 1 := by positivity
  have hp3 : (0 : ℝ) < 2 * n + 3 := by positivity
  have h4 : exp (-z) / (2 * n + 3) ≤ boysExact (n + 1) z := by rw [div_le_iff₀ hp3]; linarith
  have h5 : 2 * z * (exp (-z) / (2 * n + 3)) ≤ 2 * z * boysExact (n + 1) z :=
    mul_le_mul_of_nonneg_left h4 (by positivity)
  have e : exp (-z) / (2 * n + 1) * (1 + 2 * z / (2 * n + 3)) =
      (exp (-z) + 2 * z * (exp (-z) / (2 * n + 3))) / (2 * n + 1) := by ring
  rw [e, div_le_iff₀ hp1]
  linarith

/-! ## Long range -/

noncomputable def boysLong (n : ℕ) (z : ℝ) : ℝ := oddFac n / 2 ^ (n + 1) * √(π / z ^ (2 * n + 1))

theorem boysLong_succ (n : ℕ) {z : ℝ} (hz : 0 < z) : boysLong (n + 1) z = (2 * n + 1) / (2 * z) * boysLong n z := by
  unfold boysLong
  rw [oddFac_succ, show 2 * (n + 1) + 1 = 2 * n + 1 + 2 from by ring, pow_add z,
    show π / (z ^ (2 * n + 1) * z ^ 2) = π / z ^ (2 * n + 1) * (1 / z) ^ 2 by field_simp,
    sqrt_mul (by positivity), sqrt_sq (by positivity)]
  field_simp
  ring

theorem boysLong_zero {z : ℝ} (hz : 0 < z) :
    0 ≤ boysLong 0 z - boysExact 0 z ∧ boysLong 0 z - boysExact 0 z ≤ exp (-z) / (2 * z) := by
  have hg : IntegrableOn (fun s : ℝ => exp (-z * s ^ 2)) (Ioi 0) := (integrable_exp_neg_mul_sq hz).integrableOn
  have hg1 : IntegrableOn (fun s : ℝ => exp (-z * s ^ 2)) (Ioi 1) := (integrable_exp_neg_mul_sq hz).integrableOn
  have h1 := intervalIntegral.integral_interval_add_Ioi hg hg1
  rw [integral_gaussian_Ioi] at h1
  have e0 : boysLong 0 z = √(π / z) / 2 := by
    simp only [boysLong, oddFac, Finset.range_zero, Finset.prod_empty, zero_add, pow_one, mul_zero]
    ring
  have e1 : boysExact 0 z = ∫ s in (0 : ℝ)..1, exp (-z * s ^ 2) := by simp [boysExact]
  have e2 : boysLong 0 z - boysExact 0 z = ∫ s in Ioi (1 : ℝ), exp (-z * s ^ 2) := by
    rw [e0, e1, ← h1]; ring
  rw [e2]
  refine ⟨setIntegral_nonneg measurableSet_Ioi fun s _ => (exp_pos _).le, ?_⟩
  have hi : IntegrableOn (fun s : ℝ => s * exp (-z * s ^ 2)) (Ioi 1) := (integrable_mul_exp_neg_mul_sq hz).integrableOn
  have h2 : ∫ s in Ioi (1 : ℝ), s * exp (-z * s ^ 2) = 0 - -(1 / (2 * z)) * exp (-z * 1 ^ 2) := by
    refine integral_Ioi_of_hasDerivAt_of_tendsto' (f := fun s : ℝ => -(1 / (2 * z)) * exp (-z * s ^ 2))
      (fun s _ => ?_) hi ?_
    · have h2 : HasDerivAt (fun s : ℝ => -z * s ^ 2) (-z * (2 * s)) s := by
        simpa using (hasDerivAt_pow 2 s).const_mul (-z)
      refine (h2.exp.const_mul (-(1 / (2 * z)))).congr_deriv ?_
      field_simp
    · rw [show (0 : ℝ) = -(1 / (2 * z)) * 0 by ring]
      refine Filter.Tendsto.const_mul _ (tendsto_exp_atBot.comp ?_)
      have := (Filter.tendsto_pow_atTop (α := ℝ) (n := 2) (by norm_num)).const_mul_atTop_of_neg (neg_lt_zero.2 hz)
      exact this
  calc _ ≤ ∫ s in Ioi (1 : ℝ), s * exp (-z * s ^ 2) := by
        refine setIntegral_mono_on hg1 hi measurableSet_Ioi fun s hs => ?_
        have hs' : (1 : ℝ) < s := hs
        nlinarith [exp_pos (-z * s ^ 2)]
    _ = exp (-z) / (2 * z) := by rw [h2]; simp only [one_pow, mul_one]; ring

/-- The error of the long-range approximation. -/
theorem boysLong_error (n : ℕ) {z : ℝ} (hz : 0 < z) (hn : 2 * (n : ℝ) - 1 ≤ z) :
    0 ≤ boysLong n z - boysExact n z ∧ boysLong n z - boysExact n z ≤ exp (-z) / z := by
  induction n with
  | zero =>
    have h := boysLong_zero hz
    refine ⟨h.1, h.2.trans ?_⟩
    have := exp_pos (-z)
    gcongr
    linarith
  | succ n ih =>
    push_cast at hn
    have ih' := ih (by linarith)
    have h := boys_rec n z
    have hE := exp_pos (-z)
    have e : boysLong (n + 1) z - boysExact (n + 1) z =
        ((2 * n + 1) * (boysLong n z - boysExact n z) + exp (-z)) / (2 * z) := by
      rw [boysLong_succ n hz]
      field_simp
      linarith
    have hn1 : (0 : ℝ) ≤ 2 * n + 1 := by positivity
    rw [e]
    constructor
    · have : 0 ≤ (2 * (n : ℝ) + 1) * (boysLong n z - boysExact n z) := mul_nonneg hn1 ih'.1
      positivity
    · have h1 : (2 * (n : ℝ) + 1) * (boysLong n z - boysExact n z) ≤ z * (exp (-z) / z) :=
        mul_le_mul (by linarith) ih'.2 ih'.1 hz.le
      rw [mul_div_cancel₀ _ hz.ne'] at h1
      rw [div_le_div_iff₀ (by positivity) hz]
      nlinarith

/-! ## The function of the code -/

theorem boys_erf {z : ℝ} (hz : 0 < z) : (π / (4 * z)) ^ (0.5 : ℝ) * erfExact (z ^ (0.5 : ℝ)) = boysExact 0 z := by
  have h0 : z ^ (0.5 : ℝ) = √z := by rw [sqrt_eq_rpow]; norm_num
  have h1 : (π / (4 * z)) ^ (0.5 : ℝ) = √π / (2 * √z) := by
    rw [show (0.5 : ℝ) = 1 / 2 by norm_num, ← sqrt_eq_rpow, sqrt_div pi_pos.le, sqrt_mul (by norm_num),
      show (4 : ℝ) = 2 ^ 2 by norm_num, sqrt_sq (by norm_num)]
  have hs : 0 < √z := sqrt_pos.2 hz
  have hp : √π ≠ 0 := (sqrt_pos.2 pi_pos).ne'
  have e : boysExact 0 z = ∫ s in (0 : ℝ)..1, exp (-(√z * s) ^ 2) := by
    simp only [boysExact, mul_zero, pow_zero, one_mul]
    refine intervalIntegral.integral_congr fun s _ => ?_
    simp only [mul_pow, sq_sqrt hz.le]
    ring_nf
  rw [h0, h1, e, intervalIntegral.integral_comp_mul_left (fun t => exp (-t ^ 2)) hs.ne', erfExact]
  simp only [mul_zero, mul_one, smul_eq_mul]
  field_simp

theorem boysLong_code (n : ℕ) (z : ℝ) :
    factorial2 (2 * (n : ℤ) - 1) / 2 ^ ((n : ℝ) + 1) * (π / z ^ (2 * (n : ℝ) + 1)) ^ (0.5 : ℝ) = boysLong n z := by
  unfold boysLong
  rw [factorial2_oddFac, show (0.5 : ℝ) = 1 / 2 by norm_num, ← sqrt_eq_rpow,
    show (n : ℝ) + 1 = ((n + 1 : ℕ) : ℝ) by push_cast; ring, rpow_natCast,
    show 2 * (n : ℝ) + 1 = ((2 * n + 1 : ℕ) : ℝ) by push_cast; ring, rpow_natCast]

end SQ
