import Mathlib.LinearAlgebra.Vandermonde
import Mathlib.MeasureTheory.Measure.OpenPos
import Mathlib.MeasureTheory.Measure.Haar.OfBasis
import Verif.Lemmas.OneElectron

/-!
# Lemmas: normalization of contracted functions
-/

namespace SQ

open MeasureTheory Real

theorem factorial2_odd (l : ℕ) : factorial2 (2 * (l : ℤ) - 1) = ∏ i ∈ Finset.range l, (2 * (i : ℝ) + 1) := by
  have hfold : ∀ (f : ℕ → ℝ) (n : ℕ), (List.range n).foldl (fun out i => out * f i) 1 = ∏ i ∈ Finset.range n, f i := by
    intro f n
    induction n with
    | zero => simp
    | succ n ih => rw [List.range_succ, List.foldl_append, ih, Finset.prod_range_succ]; simp
  unfold factorial2
  rcases l with _ | l
  · simp
  · rw [if_pos (by push_cast; omega)]
    have : ((2 * ((l + 1 : ℕ) : ℤ) - 1 + 1) / 2).toNat = l + 1 := by push_cast; omega
    rw [this, hfold, ← Finset.prod_range_reflect]
    refine Finset.prod_congr rfl fun i hi => ?_
    rw [Finset.mem_range] at hi
    rw [show l + 1 - 1 - i = l - i from rfl, Nat.cast_sub (by omega)]
    push_cast
    ring

theorem factorial2_odd_succ (l : ℕ) :
    factorial2 (2 * ((l + 1 : ℕ) : ℤ) - 1) = (2 * (l : ℝ) + 1) * factorial2 (2 * (l : ℤ) - 1) := by
  rw [factorial2_odd, factorial2_odd, Finset.prod_range_succ, mul_comm]

theorem factorial2_odd_pos (l : ℕ) : 0 < factorial2 (2 * (l : ℤ) - 1) := by
  rw [factorial2_odd]
  exact Finset.prod_pos fun i _ => by positivity

/-- Even moments of a Gaussian. -/
theorem even_moment {γ : ℝ} (h : 0 < γ) (A : ℝ) (l : ℕ) :
    ∫ x : ℝ, cart A γ (2 * l) x = factorial2 (2 * (l : ℤ) - 1) / (2 * γ) ^ l * √(π / γ) := by
  have hint : ∀ n, Integrable (cart A γ n) := fun n => pow_gauss_integrable h A n
  induction l with
  | zero =>
    have : ∀ x, cart A γ (2 * 0) x = exp (-γ * (x - A) ^ 2) := fun x => by simp [cart]
    rw [integral_congr_ae (Filter.Eventually.of_forall this),
      integral_sub_right_eq_self (fun x => exp (-γ * x ^ 2)), integral_gaussian, factorial2_odd]
    simp
  | succ l ih =>
    have h0 := integral_eq_zero_of_hasDerivAt_of_integrable (cart_hasDeriv A γ (2 * l + 1))
      (((hint (2 * l + 1 - 1)).const_mul (((2 * l + 1 : ℕ) : ℝ))).sub ((hint (2 * l + 1 + 1)).const_mul (2 * γ)))
      (hint (2 * l + 1))
    rw [integral_sub ((hint (2 * l + 1 - 1)).const_mul _) ((hint (2 * l + 1 + 1)).const_mul _), integral_const_mul,
      integral_const_mul, Nat.add_sub_cancel, ih] at h0
    rw [show 2 * (l + 1) = 2 * l + 1 + 1 by ring, factorial2_odd_succ]
    generalize (∫ x : ℝ, cart A γ (2 * l + 1 + 1) x) = I at *
    push_cast at h0
    have : I = (2 * (l : ℝ) + 1) * (factorial2 (2 * (l : ℤ) - 1) / (2 * γ) ^ l * √(π / γ)) / (2 * γ) := by
      rw [eq_div_iff (by positivity)]; linarith
    rw [this]
    field_simp
    ring

theorem prim_self_integral {a b : ℝ} (h : 0 < a + b) (R : Fin 3 → ℝ) (l : Fin 3 → ℕ) :
    ∫ r : Fin 3 → ℝ, prim R a l r * prim R b l r =
      π ^ (3 / 2 : ℝ) * factorial2 (2 * (l 0 : ℤ) - 1) * factorial2 (2 * (l 1 : ℤ) - 1) *
        factorial2 (2 * (l 2 : ℤ) - 1) / 2 ^ (l 0 + l 1 + l 2) / (a + b) ^ ((l 0 : ℝ) + l 1 + l 2 + 3 / 2) := by
  have e : ∀ r : Fin 3 → ℝ, prim R a l r * prim R b l r = ∏ d, cart (R d) (a + b) (2 * l d) (r d) := by
    intro r
    unfold prim
    rw [← Finset.prod_mul_distrib]
    refine Finset.prod_congr rfl fun d _ => ?_
    unfold cart
    rw [show -(a + b) * (r d - R d) ^ 2 = -a * (r d - R d) ^ 2 + -b * (r d - R d) ^ 2 by ring, exp_add]
    ring
  rw [integral_congr_ae (Filter.Eventually.of_forall e),
    integral_fintype_prod_volume_eq_prod (fun d x => cart (R d) (a + b) (2 * l d) x), Fin.prod_univ_three,
    even_moment h, even_moment h, even_moment h]
  have h1 : (a + b) ^ ((l 0 : ℝ) + l 1 + l 2 + 3 / 2) = (a + b) ^ (l 0 + l 1 + l 2) * (a + b) ^ (3 / 2 : ℝ) := by
    rw [rpow_add h, ← rpow_natCast]
    push_cast
    rfl
  have h2 : √(π / (a + b)) * √(π / (a + b)) * √(π / (a + b)) = π ^ (3 / 2 : ℝ) / (a + b) ^ (3 / 2 : ℝ) := by
    have hq : 0 ≤ π / (a + b) := (div_pos pi_pos h).le
    rw [← div_rpow pi_pos.le h.le, sqrt_eq_rpow, ← rpow_add_of_nonneg hq (by norm_num) (by norm_num),
      ← rpow_add_of_nonneg hq (by norm_num) (by norm_num)]
    norm_num
  rw [h1, show ∀ x y z s : ℝ, x * s * (y * s) * (z * s) = x * y * z * (s * s * s) by intros; ring, h2]
  have h3 : (a + b) ^ (3 / 2 : ℝ) ≠ 0 := (rpow_pos_of_pos h _).ne'
  rw [mul_pow, mul_pow, mul_pow, pow_add, pow_add, pow_add, pow_add]
  field_simp

/-- The contraction before it is normalised as a whole. -/
noncomputable def rawFunction {N : ℕ} (R : Fin 3 → ℝ) (α c : Fin N → ℝ) (l : Fin 3 → ℕ) (r : Fin 3 → ℝ) : ℝ :=
  ∑ i, c i * primitiveNormalization (α i) (l 0) (l 1) (l 2) * prim R (α i) l r

theorem prim_continuous (R : Fin 3 → ℝ) (α : ℝ) (l : Fin 3 → ℕ) : Continuous (prim R α l) := by
  unfold prim cart; fun_prop

theorem make_eq {N M : ℕ} (R : Fin 3 → ℝ) (α c : Fin N → ℝ) (ang : Fin M → Fin 3 → ℕ) (start : ℕ) (k : Fin M)
    (r : Fin 3 → ℝ) :
    shellFunction (GShell.make R α c ang start) k r =
      contractedNormalization α (fun i => c i * primitiveNormalization (α i) (ang k 0) (ang k 1) (ang k 2)) (ang k 0)
        (ang k 1) (ang k 2) * rawFunction R α c (ang k) r := by
  refine (shellFunction_eq _ _ _).trans ?_
  unfold rawFunction
  rw [Finset.mul_sum]
  refine Finset.sum_congr rfl fun i _ => ?_
  simp only [GShell.make, shellNormalization]
  ring

theorem raw_self_integral {N : ℕ} (R : Fin 3 → ℝ) (α c : Fin N → ℝ) (l : Fin 3 → ℕ) (hα : ∀ i, 0 < α i) :
    (Integrable fun r => rawFunction R α c l r * rawFunction R α c l r) ∧
    ∫ r, rawFunction R α c l r * rawFunction R α c l r =
      (∑ i, ∑ j, (c i * primitiveNormalization (α i) (l 0) (l 1) (l 2)) *
        (c j * primitiveNormalization (α j) (l 0) (l 1) (l 2)) / (α i + α j) ^ ((l 0 : ℝ) + l 1 + l 2 + 3 / 2)) *
      (π ^ (3 / 2 : ℝ) * factorial2 (2 * (l 0 : ℤ) - 1) * factorial2 (2 * (l 1 : ℤ) - 1) *
        factorial2 (2 * (l 2 : ℤ) - 1) / 2 ^ (l 0 + l 1 + l 2)) := by
  have hpos : ∀ i j, 0 < α i + α j := fun i j => add_pos (hα i) (hα j)
  have hint : ∀ i j, Integrable fun r => prim R (α i) l r * prim R (α j) l r := fun i j => by
    simpa using prim_moment_integrable (hpos i j) R R 0 l l 0
  have e : ∀ r, rawFunction R α c l r * rawFunction R α c l r = ∑ i, ∑ j,
      (c i * primitiveNormalization (α i) (l 0) (l 1) (l 2) * (c j * primitiveNormalization (α j) (l 0) (l 1) (l 2))) *
        (prim R (α i) l r * prim R (α j) l r) := by
    intro r
    unfold rawFunction
    rw [Finset.sum_mul_sum]
    exact Finset.sum_congr rfl fun i _ => Finset.sum_congr rfl fun j _ => by ring
  simp only [e]
  refine ⟨integrable_finset_sum _ fun i _ => integrable_finset_sum _ fun j _ => (hint i j).const_mul _, ?_⟩
  rw [integral_finset_sum _ fun i _ => integrable_finset_sum _ fun j _ => (hint i j).const_mul _, Finset.sum_mul]
  refine Finset.sum_congr rfl fun i _ => ?_
  rw [integral_finset_sum _ fun j _ => (hint i j).const_mul _, Finset.sum_mul]
  refine Finset.sum_congr rfl fun j _ => ?_
  rw [integral_const_mul, prim_self_integral (hpos i j)]
  ring

/-- A contraction that is not the zero function is normalised. -/
theorem make_normalised {N M : ℕ} (R : Fin 3 → ℝ) (α c : Fin N → ℝ) (ang : Fin M → Fin 3 → ℕ) (start : ℕ) (k : Fin M)
    (hα : ∀ i, 0 < α i) (hne : ∃ r, rawFunction R α c (ang k) r ≠ 0) :
    ∫ r, shellFunction (GShell.make R α c ang start) k r * shellFunction (GShell.make R α c ang start) k r = 1 := by
  obtain ⟨hint, hval⟩ := raw_self_integral R α c (ang k) hα
  have hcont : Continuous fun r => rawFunction R α c (ang k) r * rawFunction R α c (ang k) r := by
    have : Continuous (rawFunction R α c (ang k)) := by
      unfold rawFunction
      exact continuous_finset_sum _ fun i _ => continuous_const.mul (prim_continuous R (α i) (ang k))
    exact this.mul this
  have hpos : 0 < ∫ r, rawFunction R α c (ang k) r * rawFunction R α c (ang k) r := by
    obtain ⟨r₀, hr₀⟩ := hne
    exact integral_pos_of_integrable_nonneg_nonzero hcont hint (fun r => mul_self_nonneg _) (mul_self_ne_zero.2 hr₀)
  simp only [make_eq]
  rw [show (fun r => contractedNormalization α (fun i => c i * primitiveNormalization (α i) (ang k 0) (ang k 1) (ang k 2))
      (ang k 0) (ang k 1) (ang k 2) * rawFunction R α c (ang k) r * (contractedNormalization α
      (fun i => c i * primitiveNormalization (α i) (ang k 0) (ang k 1) (ang k 2)) (ang k 0) (ang k 1) (ang k 2) *
      rawFunction R α c (ang k) r)) = fun r => contractedNormalization α
      (fun i => c i * primitiveNormalization (α i) (ang k 0) (ang k 1) (ang k 2)) (ang k 0) (ang k 1) (ang k 2) ^ 2 *
      (rawFunction R α c (ang k) r * rawFunction R α c (ang k) r) from by funext r; ring, integral_const_mul]
  unfold contractedNormalization
  rw [← hval]
  generalize (∫ r, rawFunction R α c (ang k) r * rawFunction R α c (ang k) r) = I at *
  rw [← rpow_natCast, ← rpow_mul hpos.le]
  norm_num
  rw [rpow_neg_one, inv_mul_cancel₀ hpos.ne']

theorem primitiveNormalization_pos {α : ℝ} (h : 0 < α) (l m n : ℕ) : 0 < primitiveNormalization α l m n := by
  unfold primitiveNormalization
  have h1 := factorial2_odd_pos l
  have h2 := factorial2_odd_pos m
  have h3 := factorial2_odd_pos n
  have := pi_pos
  positivity

/-- Gaussians with different exponents do not cancel. -/
theorem raw_ne_zero {N : ℕ} (R : Fin 3 → ℝ) (α c : Fin N → ℝ) (l : Fin 3 → ℕ) (hα : ∀ i, 0 < α i)
    (hinj : Function.Injective α) (hc : ∃ i, c i ≠ 0) : ∃ r, rawFunction R α c l r ≠ 0 := by
  by_contra hcon
  push Not at hcon
  obtain ⟨i₀, hi₀⟩ := hc
  have hv : Function.Injective fun i => exp (-α i) := fun i j h => hinj (neg_injective (exp_injective h))
  have key : ∀ n : ℕ, ∑ i, c i * primitiveNormalization (α i) (l 0) (l 1) (l 2) * exp (-α i) * exp (-α i) ^ n = 0 := by
    intro n
    have h0 : (0 : ℝ) ≤ ((n : ℝ) + 1) / 3 := by positivity
    have hq : √(((n : ℝ) + 1) / 3) ≠ 0 := (sqrt_pos.2 (by positivity)).ne'
    have := hcon fun d => R d + √(((n : ℝ) + 1) / 3)
    unfold rawFunction at this
    simp only [prim_eq, add_sub_cancel_left, Finset.sum_const, Finset.card_univ, Fintype.card_fin, sq_sqrt h0,
      nsmul_eq_mul] at this
    have hprod : (∏ d, √(((n : ℝ) + 1) / 3) ^ l d) ≠ 0 := Finset.prod_ne_zero_iff.2 fun d _ => pow_ne_zero _ hq
    rw [show (∑ i, c i * primitiveNormalization (α i) (l 0) (l 1) (l 2) *
        ((∏ d, √(((n : ℝ) + 1) / 3) ^ l d) * exp (-α i * (((3 : ℕ) : ℝ) * (((n : ℝ) + 1) / 3))))) =
        (∏ d, √(((n : ℝ) + 1) / 3) ^ l d) *
        ∑ i, c i * primitiveNormalization (α i) (l 0) (l 1) (l 2) * exp (-α i) * exp (-α i) ^ n from by
      rw [Finset.mul_sum]
      refine Finset.sum_congr rfl fun i _ => ?_
      rw [← exp_nat_mul, show -α i * (((3 : ℕ) : ℝ) * (((n : ℝ) + 1) / 3)) = -α i + n * -α i by push_cast; ring, exp_add]
      ring] at this
    exact (mul_eq_zero.1 this).resolve_left hprod
  have := congrFun (Matrix.eq_zero_of_forall_pow_sum_mul_pow_eq_zero hv fun n : Fin N => key n) i₀
  have h1 := (primitiveNormalization_pos (hα i₀) (l 0) (l 1) (l 2)).ne'
  have h2 := (exp_pos (-α i₀)).ne'
  simp only [Pi.zero_apply, mul_eq_zero] at this
  tauto

end SQ
