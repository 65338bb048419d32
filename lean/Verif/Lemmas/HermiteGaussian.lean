import Mathlib.Analysis.SpecialFunctions.Gaussian.GaussianIntegral
import Mathlib.MeasureTheory.Integral.IntegralEqImproper
import Verif.Spec.Integrals

/-!
# Lemmas: Hermite Gaussians
-/

namespace SQ

open MeasureTheory Real

/-- `d^t/dX^t exp(-w X²)` by its recursion. -/
noncomputable def hg (w : ℝ) : ℕ → ℝ → ℝ
  | 0, X => exp (-w * X ^ 2)
  | 1, X => -2 * w * (X * exp (-w * X ^ 2))
  | t + 2, X => -2 * w * (X * hg w (t + 1) X + (t + 1 : ℝ) * hg w t X)

theorem hg_zero (w X : ℝ) : hg w 0 X = exp (-w * X ^ 2) := by simp only [hg]

theorem hg_succ (w : ℝ) (t : ℕ) (X : ℝ) : hg w (t + 1) X = -2 * w * (X * hg w t X + t * hg w (t - 1) X) := by
  rcases t with _ | t
  · simp only [hg]; simp
  · rw [show t + 1 + 1 = t + 2 from rfl]
    simp only [hg, Nat.add_sub_cancel]
    push_cast
    rfl

theorem hg_hasDeriv (w : ℝ) : ∀ (t : ℕ) (X : ℝ), HasDerivAt (hg w t) (hg w (t + 1) X) X
  | 0, X => by
    have h : HasDerivAt (fun X : ℝ => exp (-w * X ^ 2)) (exp (-w * X ^ 2) * (-w * (2 * X))) X := by
      have := ((hasDerivAt_pow 2 X).const_mul (-w)).exp
      simpa using this
    have e : hg w 0 = fun X : ℝ => exp (-w * X ^ 2) := by funext X; exact hg_zero w X
    rw [e]
    refine h.congr_deriv ?_
    simp only [hg]; ring
  | 1, X => by
    have h0 := hg_hasDeriv w 0 X
    have e : hg w 1 = fun X : ℝ => -2 * w * (X * hg w 0 X) := by
      funext X; simp only [hg]
    rw [e]
    refine (((hasDerivAt_id X).mul h0).const_mul (-2 * w)).congr_deriv ?_
    simp only [hg, id]; push_cast; ring
  | t + 2, X => by
    have h0 := hg_hasDeriv w t X
    have h1 := hg_hasDeriv w (t + 1) X
    have e : hg w (t + 2) = fun X : ℝ => -2 * w * (X * hg w (t + 1) X + (t + 1 : ℝ) * hg w t X) := by
      funext X; simp only [hg]
    rw [e]
    refine ((((hasDerivAt_id X).mul h1).add (h0.const_mul (t + 1 : ℝ))).const_mul (-2 * w)).congr_deriv ?_
    rw [hg_succ w (t + 2) X, show t + 2 - 1 = t + 1 from rfl]
    simp only [id]; push_cast; ring

theorem hg_continuous (w : ℝ) (t : ℕ) : Continuous (hg w t) :=
  continuous_iff_continuousAt.2 fun X => (hg_hasDeriv w t X).continuousAt

theorem gaussianDeriv_eq (w : ℝ) (t : ℕ) (X : ℝ) : gaussianDeriv w t X = hg w t X := by
  unfold gaussianDeriv
  have : ∀ t, iteratedDeriv t (fun y => exp (-w * y ^ 2)) = hg w t := by
    intro t
    induction t with
    | zero => rw [iteratedDeriv_zero]; funext y; exact (hg_zero w y).symm
    | succ t ih => rw [iteratedDeriv_succ, ih]; funext y; exact (hg_hasDeriv w t y).deriv
  rw [this]

theorem hermiteGaussian_eq (p P x : ℝ) (t : ℕ) : hermiteGaussian p P x t = hg p t (P - x) := by
  unfold hermiteGaussian
  have : ∀ t, iteratedDeriv t (fun y => exp (-p * (x - y) ^ 2)) = fun y => hg p t (y - x) := by
    intro t
    induction t with
    | zero =>
      rw [iteratedDeriv_zero]; funext y; rw [hg_zero]; congr 1; ring
    | succ t ih =>
      rw [iteratedDeriv_succ, ih]; funext y
      have := (hg_hasDeriv p t (y - x)).comp y ((hasDerivAt_id y).sub_const x)
      rw [mul_one] at this
      exact this.deriv
  rw [this]

/-! ## Integrability -/

theorem pow_gauss_integrable {p : ℝ} (hp : 0 < p) (P : ℝ) (m : ℕ) :
    Integrable fun x : ℝ => (x - P) ^ m * exp (-p * (x - P) ^ 2) := by
  have h := integrable_rpow_mul_exp_neg_mul_sq hp (s := (m : ℝ)) (by have : (0 : ℝ) ≤ m := by positivity
                                                                     linarith)
  have h' : Integrable fun x : ℝ => x ^ m * exp (-p * x ^ 2) := by
    refine h.congr (Filter.Eventually.of_forall fun x => ?_)
    simp only [rpow_natCast]
  exact h'.comp_sub_right P

theorem pow_pow_gauss_integrable {p : ℝ} (hp : 0 < p) (P C : ℝ) :
    ∀ (k m : ℕ), Integrable fun x : ℝ => (x - C) ^ k * ((x - P) ^ m * exp (-p * (x - P) ^ 2))
  | 0, m => by simpa using pow_gauss_integrable hp P m
  | k + 1, m => by
    have h1 := pow_pow_gauss_integrable hp P C k (m + 1)
    have h2 := (pow_pow_gauss_integrable hp P C k m).const_mul (P - C)
    refine (h1.add h2).congr (Filter.Eventually.of_forall fun x => ?_)
    simp only [Pi.add_apply]; ring

/-- Powers times a Hermite Gaussian times another one. -/
theorem hg_prod_integrable {p w : ℝ} (hp : 0 < p) (hw : 0 ≤ w) (P Q C : ℝ) :
    ∀ (τ t k : ℕ), Integrable fun x : ℝ => (x - C) ^ k * (hg p t (P - x) * hg w τ (Q - x)) := by
  have base : ∀ t k : ℕ, Integrable fun x : ℝ => (x - C) ^ k * hg p t (P - x) := by
    intro t
    induction t using Nat.twoStepInduction with
    | zero =>
      intro k
      refine (pow_pow_gauss_integrable hp P C k 0).congr (Filter.Eventually.of_forall fun x => ?_)
      simp only [hg]
      rw [show (P - x) ^ 2 = (x - P) ^ 2 by ring]; ring
    | one =>
      intro k
      refine ((pow_pow_gauss_integrable hp P C k 1).const_mul (2 * p)).congr
        (Filter.Eventually.of_forall fun x => ?_)
      simp only [hg]
      rw [show (P - x) ^ 2 = (x - P) ^ 2 by ring]; ring
    | more t h0 h1 =>
      intro k
      have := (((h1 k).const_mul (P - C)).sub (h1 (k + 1))).add ((h0 k).const_mul (t + 1 : ℝ))
      refine (this.const_mul (-2 * p)).congr (Filter.Eventually.of_forall fun x => ?_)
      simp only [hg, Pi.add_apply, Pi.sub_apply]; ring
  have base0 : ∀ t k : ℕ, Integrable fun x : ℝ => (x - C) ^ k * (hg p t (P - x) * hg w 0 (Q - x)) := by
    intro t k
    refine (base t k).mono ?_ (Filter.Eventually.of_forall fun x => ?_)
    · refine Continuous.aestronglyMeasurable ?_
      have h1 := hg_continuous p t
      have h2 := hg_continuous w 0
      fun_prop
    · rw [← mul_assoc, norm_mul]
      refine mul_le_of_le_one_right (norm_nonneg _) ?_
      rw [hg_zero, norm_of_nonneg (exp_pos _).le]
      refine exp_le_one_iff.2 ?_
      nlinarith [sq_nonneg (Q - x)]
  intro τ
  induction τ using Nat.twoStepInduction with
  | zero => exact base0
  | one =>
    intro t k
    have := ((base0 t k).const_mul (Q - C)).sub (base0 t (k + 1))
    refine (this.const_mul (-2 * w)).congr (Filter.Eventually.of_forall fun x => ?_)
    simp only [hg, Pi.sub_apply]; ring
  | more τ h0 h1 =>
    intro t k
    have := (((h1 t k).const_mul (Q - C)).sub (h1 t (k + 1))).add ((h0 t k).const_mul (τ + 1 : ℝ))
    refine (this.const_mul (-2 * w)).congr (Filter.Eventually.of_forall fun x => ?_)
    simp only [hg, Pi.add_apply, Pi.sub_apply]; ring

theorem hg_pow_integrable {p : ℝ} (hp : 0 < p) (P C : ℝ) (t k : ℕ) :
    Integrable fun x : ℝ => (x - C) ^ k * hg p t (P - x) := by
  refine (hg_prod_integrable hp le_rfl P 0 C 0 t k).congr (Filter.Eventually.of_forall fun x => ?_)
  simp [hg_zero]

theorem hg_mul_integrable {p w : ℝ} (hp : 0 < p) (hw : 0 ≤ w) (P Q : ℝ) (t τ : ℕ) :
    Integrable fun x : ℝ => hg p t (P - x) * hg w τ (Q - x) := by
  simpa using hg_prod_integrable hp hw P Q 0 τ t 0

theorem hg_integrable {p : ℝ} (hp : 0 < p) (P : ℝ) (t : ℕ) : Integrable fun x : ℝ => hg p t (P - x) := by
  simpa using hg_pow_integrable hp P 0 t 0

theorem hg_hasDeriv_sub (w : ℝ) (t : ℕ) (P x : ℝ) : HasDerivAt (fun x => hg w t (P - x)) (-hg w (t + 1) (P - x)) x := by
  have := (hg_hasDeriv w t (P - x)).comp x ((hasDerivAt_id x).const_sub P)
  rw [mul_neg_one] at this
  exact this

/-- Linear combinations of three functions. -/
theorem integral_three {f g h : ℝ → ℝ} (hf : Integrable f) (hg : Integrable g) (hh : Integrable h) (a b c : ℝ) :
    ∫ x, (a * f x + b * g x + c * h x) = a * (∫ x, f x) + b * (∫ x, g x) + c * ∫ x, h x := by
  have h1 : Integrable fun x => a * f x + b * g x := (hf.const_mul a).add (hg.const_mul b)
  rw [integral_add h1 (hh.const_mul c), integral_add (hf.const_mul a) (hg.const_mul b), integral_const_mul,
    integral_const_mul, integral_const_mul]

/-! ## Integrals -/

/-- A derivative with respect to one center is minus the derivative with respect to the other. -/
theorem hg_integral_shift {p w : ℝ} (hp : 0 < p) (hw : 0 ≤ w) (P Q : ℝ) (t τ : ℕ) :
    ∫ x : ℝ, hg p t (P - x) * hg w (τ + 1) (Q - x) = -∫ x : ℝ, hg p (t + 1) (P - x) * hg w τ (Q - x) := by
  have hd : ∀ x : ℝ, HasDerivAt (fun x => hg p t (P - x) * hg w τ (Q - x))
      (-hg p (t + 1) (P - x) * hg w τ (Q - x) + hg p t (P - x) * -hg w (τ + 1) (Q - x)) x := fun x =>
    (hg_hasDeriv_sub p t P x).mul (hg_hasDeriv_sub w τ Q x)
  have i1 := hg_mul_integrable hp hw P Q (t + 1) τ
  have i2 := hg_mul_integrable hp hw P Q t (τ + 1)
  have hi : Integrable fun x : ℝ =>
      -hg p (t + 1) (P - x) * hg w τ (Q - x) + hg p t (P - x) * -hg w (τ + 1) (Q - x) := by
    refine (i1.neg.add i2.neg).congr (Filter.Eventually.of_forall fun x => ?_)
    simp only [Pi.add_apply, Pi.neg_apply]; ring
  have h0 := integral_eq_zero_of_hasDerivAt_of_integrable hd hi (hg_mul_integrable hp hw P Q t τ)
  have : ∫ x : ℝ, (-hg p (t + 1) (P - x) * hg w τ (Q - x) + hg p t (P - x) * -hg w (τ + 1) (Q - x)) =
      -(∫ x : ℝ, hg p (t + 1) (P - x) * hg w τ (Q - x)) - ∫ x : ℝ, hg p t (P - x) * hg w (τ + 1) (Q - x) := by
    have h3 := integral_three i1 i2 i2 (-1) (-1) 0
    rw [zero_mul, add_zero] at h3
    rw [neg_one_mul, neg_one_mul, ← sub_eq_add_neg] at h3
    rw [← h3]
    refine integral_congr_ae (Filter.Eventually.of_forall fun x => ?_)
    simp only; ring
  rw [this] at h0
  linarith

theorem gauss_gauss_integral {p w : ℝ} (hp : 0 < p) (hw : 0 ≤ w) (P C : ℝ) :
    ∫ x : ℝ, hg p 0 (P - x) * hg w 0 (C - x) = √(π / (p + w)) * hg (p * w / (p + w)) 0 (P - C) := by
  have hpw : 0 < p + w := by linarith
  have e : ∀ x : ℝ, hg p 0 (P - x) * hg w 0 (C - x) =
      hg (p * w / (p + w)) 0 (P - C) * exp (-(p + w) * (x - (p * P + w * C) / (p + w)) ^ 2) := by
    intro x
    rw [hg_zero, hg_zero, hg_zero, ← exp_add, ← exp_add]
    congr 1
    field_simp
    ring
  rw [integral_congr_ae (Filter.Eventually.of_forall e), integral_const_mul,
    integral_sub_right_eq_self (fun x => exp (-(p + w) * x ^ 2)), integral_gaussian, mul_comm]

/-- Convolution of a Hermite Gaussian with a Gaussian. -/
theorem hg_gauss_integral {p w : ℝ} (hp : 0 < p) (hw : 0 ≤ w) (P C : ℝ) (t : ℕ) :
    ∫ x : ℝ, hg p t (P - x) * hg w 0 (C - x) = √(π / (p + w)) * hg (p * w / (p + w)) t (P - C) := by
  have hpw : 0 < p + w := by linarith
  have step : ∀ t : ℕ, (∫ x : ℝ, hg p (t + 1) (P - x) * hg w 0 (C - x)) =
      -2 * (p * w / (p + w)) * ((P - C) * (∫ x : ℝ, hg p t (P - x) * hg w 0 (C - x)) +
        t * ∫ x : ℝ, hg p (t - 1) (P - x) * hg w 0 (C - x)) := by
    intro t
    have h1 := hg_integral_shift hp hw P C t 0
    have i0 := hg_mul_integrable hp hw P C t 0
    have i1 := hg_mul_integrable hp hw P C (t + 1) 0
    have i2 := hg_mul_integrable hp hw P C (t - 1) 0
    have e : ∀ x : ℝ, hg p t (P - x) * hg w (0 + 1) (C - x) =
        2 * w * ((P - C) * (hg p t (P - x) * hg w 0 (C - x)) + (1 / (2 * p)) * (hg p (t + 1) (P - x) * hg w 0 (C - x)) +
          t * (hg p (t - 1) (P - x) * hg w 0 (C - x))) := by
      intro x
      rw [hg_succ w 0, hg_succ p t]
      field_simp
      push_cast
      ring
    rw [integral_congr_ae (Filter.Eventually.of_forall e), integral_const_mul,
      integral_three i0 i1 i2] at h1
    generalize (∫ x : ℝ, hg p t (P - x) * hg w 0 (C - x)) = a at *
    generalize (∫ x : ℝ, hg p (t + 1) (P - x) * hg w 0 (C - x)) = b at *
    generalize (∫ x : ℝ, hg p (t - 1) (P - x) * hg w 0 (C - x)) = c at *
    have h2 : b * (p + w) = -2 * (p * w) * ((P - C) * a + t * c) := by
      have h3 : 2 * w * ((P - C) * a + t * c) * p + w * b = -b * p := by
        have : 2 * w * ((P - C) * a + 1 / (2 * p) * b + t * c) * p = -b * p := by rw [h1]
        field_simp at this
        linarith
      linarith
    field_simp
    linarith
  induction t using Nat.twoStepInduction with
  | zero => exact gauss_gauss_integral hp hw P C
  | one =>
    rw [step 0, gauss_gauss_integral hp hw P C, hg_succ _ 0]
    push_cast
    ring
  | more t h0 h1 =>
    rw [step (t + 1), h1, show t + 1 - 1 = t from rfl, h0, hg_succ _ (t + 1), show t + 1 - 1 = t from rfl]
    ring

/-- The integral of a product of two Hermite Gaussians. -/
theorem hg_hg_integral {p w : ℝ} (hp : 0 < p) (hw : 0 ≤ w) (P Q : ℝ) (τ : ℕ) : ∀ t : ℕ,
    ∫ x : ℝ, hg p t (P - x) * hg w τ (Q - x) =
      √(π / (p + w)) * ((-1) ^ τ * hg (p * w / (p + w)) (t + τ) (P - Q)) := by
  induction τ with
  | zero => intro t; rw [hg_gauss_integral hp hw]; simp
  | succ τ ih =>
    intro t
    rw [hg_integral_shift hp hw, ih (t + 1), show t + 1 + τ = t + (τ + 1) by omega, pow_succ]
    ring

theorem hg_integral {p : ℝ} (hp : 0 < p) (P : ℝ) (t : ℕ) :
    ∫ x : ℝ, hg p t (P - x) = if t = 0 then √(π / p) else 0 := by
  have h := hg_gauss_integral hp le_rfl P 0 t
  have e : ∀ x : ℝ, hg p t (P - x) * hg 0 0 (0 - x) = hg p t (P - x) := by intro x; simp [hg_zero]
  rw [integral_congr_ae (Filter.Eventually.of_forall e)] at h
  rw [h]
  rcases t with _ | t
  · simp [hg_zero]
  · rw [mul_zero, zero_div, hg_succ]; simp

end SQ
