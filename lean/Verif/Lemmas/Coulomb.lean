import Mathlib.Analysis.SpecialFunctions.ImproperIntegrals
import Mathlib.MeasureTheory.Function.JacobianOneDim
import Mathlib.MeasureTheory.Integral.Prod
import Verif.Lemmas.CoulombTable
import Verif.Lemmas.OneElectron

/-!
# Lemmas: integrals with the Coulomb potential
-/

namespace SQ

open MeasureTheory Real Set

/-! ## Bounds -/

theorem pow_gauss_bound {c : ℝ} (hc : 0 < c) (k : ℕ) : ∃ K : ℝ, 0 ≤ K ∧ ∀ y : ℝ, |y| ^ k * exp (-c * y ^ 2) ≤ K := by
  refine ⟨1 + (k.factorial : ℝ) / c ^ k, by positivity, fun y => ?_⟩
  have h1 : |y| ^ k ≤ 1 + y ^ (2 * k) := by
    rw [pow_mul, ← sq_abs y, ← pow_mul, mul_comm 2 k, pow_mul]
    nlinarith [sq_nonneg (|y| ^ k - 1), sq_nonneg (|y| ^ k)]
  have h2 : y ^ (2 * k) * exp (-c * y ^ 2) ≤ (k.factorial : ℝ) / c ^ k := by
    have := pow_div_factorial_le_exp (x := c * y ^ 2) (by positivity) k
    rw [mul_pow, ← pow_mul] at this
    have hf : (0 : ℝ) < k.factorial := by positivity
    have hck : 0 < c ^ k := by positivity
    rw [neg_mul, exp_neg, ← div_eq_mul_inv, div_le_div_iff₀ (exp_pos _) hck]
    rw [div_le_iff₀ hf] at this
    linarith
  have h3 : exp (-c * y ^ 2) ≤ 1 := exp_le_one_iff.2 (by nlinarith [sq_nonneg y])
  calc |y| ^ k * exp (-c * y ^ 2) ≤ (1 + y ^ (2 * k)) * exp (-c * y ^ 2) :=
        mul_le_mul_of_nonneg_right h1 (exp_pos _).le
    _ = exp (-c * y ^ 2) + y ^ (2 * k) * exp (-c * y ^ 2) := by ring
    _ ≤ _ := add_le_add h3 h2

theorem cart_bound {a : ℝ} (ha : 0 < a) (A : ℝ) (i : ℕ) :
    ∃ K : ℝ, 0 ≤ K ∧ ∀ x : ℝ, |cart A a i x| ≤ K * exp (-(a / 2) * (x - A) ^ 2) := by
  obtain ⟨K, hK, h⟩ := pow_gauss_bound (half_pos ha) i
  refine ⟨K, hK, fun x => ?_⟩
  unfold cart
  rw [abs_mul, abs_pow, abs_of_pos (exp_pos _),
    show -a * (x - A) ^ 2 = -(a / 2) * (x - A) ^ 2 + -(a / 2) * (x - A) ^ 2 by ring, exp_add, ← mul_assoc]
  exact mul_le_mul_of_nonneg_right (h _) (exp_pos _).le

theorem cart_pair_bound {a b : ℝ} (ha : 0 < a) (hb : 0 < b) (A B : ℝ) (i j : ℕ) :
    ∃ K : ℝ, 0 ≤ K ∧ ∀ x : ℝ, |cart A a i x * cart B b j x| ≤ K * exp (-(a / 2) * (x - A) ^ 2) := by
  obtain ⟨K, hK, h⟩ := cart_bound ha A i
  obtain ⟨L, hL, h'⟩ := cart_bound hb B j
  refine ⟨K * L, by positivity, fun x => ?_⟩
  have h3 : |cart B b j x| ≤ L := by
    refine (h' x).trans (mul_le_of_le_one_right hL (exp_le_one_iff.2 ?_))
    nlinarith [sq_nonneg (x - B)]
  rw [abs_mul]
  calc |cart A a i x| * |cart B b j x| ≤ (K * exp (-(a / 2) * (x - A) ^ 2)) * L :=
        mul_le_mul (h x) h3 (abs_nonneg _) (by positivity)
    _ = _ := by ring

theorem hg_zero_le_one {w : ℝ} (hw : 0 ≤ w) (X : ℝ) : hg w 0 X ≤ 1 := by
  rw [hg_zero]
  exact exp_le_one_iff.2 (by nlinarith [sq_nonneg X])

theorem hg_zero_nonneg (w X : ℝ) : 0 ≤ hg w 0 X := by
  rw [hg_zero]; exact (exp_pos _).le

/-- The potential of a bounded distribution. -/
theorem potential_bound {f : ℝ → ℝ} (hf : Continuous f) {K γ A : ℝ} (hK : 0 ≤ K) (hγ : 0 < γ)
    (hb : ∀ x, |f x| ≤ K * exp (-γ * (x - A) ^ 2)) (C u : ℝ) :
    (Integrable fun x => f x * hg (u ^ 2) 0 (C - x)) ∧
      ∫ x, |f x * hg (u ^ 2) 0 (C - x)| ≤ K * √(π / (γ + u ^ 2)) := by
  have hi := (hg_mul_integrable hγ (sq_nonneg u) A C 0 0).const_mul K
  have hle : ∀ x, |f x * hg (u ^ 2) 0 (C - x)| ≤ K * (hg γ 0 (A - x) * hg (u ^ 2) 0 (C - x)) := by
    intro x
    rw [abs_mul, abs_of_nonneg (hg_zero_nonneg _ _), ← mul_assoc]
    refine mul_le_mul_of_nonneg_right ?_ (hg_zero_nonneg _ _)
    refine (hb x).trans_eq ?_
    rw [hg_zero, show (A - x) ^ 2 = (x - A) ^ 2 by ring]
  have hint : Integrable fun x => f x * hg (u ^ 2) 0 (C - x) := by
    refine hi.mono' ?_ (Filter.Eventually.of_forall fun x => ?_)
    · refine Continuous.aestronglyMeasurable ?_
      have := hg_continuous (u ^ 2) 0
      fun_prop
    · rw [norm_eq_abs]; exact hle x
  refine ⟨hint, ?_⟩
  calc ∫ x, |f x * hg (u ^ 2) 0 (C - x)| ≤ ∫ x, K * (hg γ 0 (A - x) * hg (u ^ 2) 0 (C - x)) :=
        integral_mono hint.abs hi hle
    _ = K * (√(π / (γ + u ^ 2)) * hg (γ * u ^ 2 / (γ + u ^ 2)) 0 (A - C)) := by
        rw [integral_const_mul, hg_gauss_integral hγ (sq_nonneg u)]
    _ ≤ K * √(π / (γ + u ^ 2)) :=
        mul_le_mul_of_nonneg_left (mul_le_of_le_one_right (sqrt_nonneg _) (hg_zero_le_one (by positivity) _)) hK

/-! ## Exchanging the integrals -/

theorem integrable_inv_add_sq {γ : ℝ} (hγ : 0 < γ) : Integrable fun u : ℝ => (γ + u ^ 2)⁻¹ := by
  refine (integrable_inv_one_add_sq.const_mul (min γ 1)⁻¹).mono' ?_ (Filter.Eventually.of_forall fun u => ?_)
  · refine Continuous.aestronglyMeasurable ?_
    exact Continuous.inv₀ (by fun_prop) fun u => (by positivity : 0 < γ + u ^ 2).ne'
  · have hm : 0 < min γ 1 := lt_min hγ one_pos
    rw [norm_eq_abs, abs_of_pos (by positivity), ← mul_inv]
    refine inv_anti₀ (by positivity) ?_
    have h1 := min_le_left γ 1
    have h2 := min_le_right γ 1
    nlinarith [sq_nonneg u]

theorem swap3 (h : Fin 3 → ℝ → ℝ → ℝ) (hc : ∀ d, Continuous fun z : ℝ × ℝ => h d z.1 z.2)
    (hi : ∀ d u, Integrable (h d u)) (K : Fin 3 → ℝ) (hK : ∀ d, 0 ≤ K d) {γ : ℝ} (hγ : 0 < γ)
    (hb : ∀ d u, ∫ x, |h d u x| ≤ K d * √(π / (γ + u ^ 2))) :
    (Integrable fun r : Fin 3 → ℝ => ∫ u in Ioi (0 : ℝ), ∏ d, h d u (r d)) ∧
    ∫ r : Fin 3 → ℝ, ∫ u in Ioi (0 : ℝ), ∏ d, h d u (r d) = ∫ u in Ioi (0 : ℝ), ∏ d, ∫ x, h d u x := by
  have hcont : Continuous fun z : (Fin 3 → ℝ) × ℝ => ∏ d, h d z.2 (z.1 d) :=
    continuous_finset_prod _ fun d _ => (hc d).comp
      (by fun_prop : Continuous fun z : (Fin 3 → ℝ) × ℝ => (z.2, z.1 d))
  have hprod : Integrable (fun z : (Fin 3 → ℝ) × ℝ => ∏ d, h d z.2 (z.1 d))
      ((volume : Measure (Fin 3 → ℝ)).prod (volume.restrict (Ioi (0 : ℝ)))) := by
    rw [integrable_prod_iff' hcont.aestronglyMeasurable]
    refine ⟨Filter.Eventually.of_forall fun u => Integrable.fintype_prod fun d => hi d u, ?_⟩
    have hval : ∀ u : ℝ, ∫ r : Fin 3 → ℝ, ‖∏ d, h d u (r d)‖ = ∏ d, ∫ x, |h d u x| := by
      intro u
      simp only [norm_eq_abs, Finset.abs_prod]
      exact integral_fintype_prod_volume_eq_prod (fun d x => |h d u x|)
    have hdom : Integrable (fun u : ℝ => (K 0 * K 1 * K 2 * √(π / γ) * π) * (γ + u ^ 2)⁻¹)
        (volume.restrict (Ioi (0 : ℝ))) := ((integrable_inv_add_sq hγ).const_mul _).integrableOn
    refine hdom.mono' ?_ (Filter.Eventually.of_forall fun u => ?_)
    · exact (hcont.norm.stronglyMeasurable.integral_prod_left').aestronglyMeasurable
    · simp only
      rw [hval, norm_eq_abs, abs_of_nonneg (Finset.prod_nonneg fun d _ => integral_nonneg fun x => abs_nonneg _),
        Fin.prod_univ_three]
      have hpos : 0 < γ + u ^ 2 := by positivity
      have hn : ∀ d, 0 ≤ ∫ x, |h d u x| := fun d => integral_nonneg fun x => abs_nonneg _
      have hs := sqrt_nonneg (π / (γ + u ^ 2))
      have hle : √(π / (γ + u ^ 2)) ≤ √(π / γ) := by
        refine sqrt_le_sqrt ?_
        exact div_le_div_of_nonneg_left pi_pos.le hγ (by nlinarith [sq_nonneg u])
      calc (∫ x, |h 0 u x|) * (∫ x, |h 1 u x|) * ∫ x, |h 2 u x|
          ≤ (K 0 * √(π / (γ + u ^ 2))) * (K 1 * √(π / (γ + u ^ 2))) * (K 2 * √(π / (γ + u ^ 2))) :=
            mul_le_mul (mul_le_mul (hb 0 u) (hb 1 u) (hn 1) (mul_nonneg (hK 0) hs)) (hb 2 u) (hn 2)
              (mul_nonneg (mul_nonneg (hK 0) hs) (mul_nonneg (hK 1) hs))
        _ = K 0 * K 1 * K 2 * √(π / (γ + u ^ 2)) * (√(π / (γ + u ^ 2)) * √(π / (γ + u ^ 2))) := by ring
        _ = K 0 * K 1 * K 2 * √(π / (γ + u ^ 2)) * (π / (γ + u ^ 2)) := by
            rw [mul_self_sqrt (div_nonneg pi_pos.le hpos.le)]
        _ ≤ K 0 * K 1 * K 2 * √(π / γ) * (π / (γ + u ^ 2)) := by
            refine mul_le_mul_of_nonneg_right ?_ (div_nonneg pi_pos.le hpos.le)
            exact mul_le_mul_of_nonneg_left hle (mul_nonneg (mul_nonneg (hK 0) (hK 1)) (hK 2))
        _ = _ := by rw [div_eq_mul_inv]; ring
  refine ⟨hprod.integral_prod_left, ?_⟩
  rw [integral_integral_swap hprod]
  refine integral_congr_ae (Filter.Eventually.of_forall fun u => ?_)
  exact integral_fintype_prod_volume_eq_prod (fun d x => h d u x)

/-! ## Substitution -/

theorem coulomb_substitution {c : ℝ} (hc : 0 < c) (G : ℝ → ℝ) :
    ∫ u in Ioi (0 : ℝ), √(1 / (c + u ^ 2)) ^ 3 * G (c * u ^ 2 / (c + u ^ 2)) =
      1 / c * ∫ s in (0 : ℝ)..1, G (c * s ^ 2) := by
  have hpos : ∀ u : ℝ, 0 < c + u ^ 2 := fun u => by positivity
  have hd : ∀ u : ℝ, HasDerivAt (fun u : ℝ => u / √(c + u ^ 2)) (c * √(1 / (c + u ^ 2)) ^ 3) u := by
    intro u
    have h1 : HasDerivAt (fun u : ℝ => c + u ^ 2) (2 * u) u := by
      simpa using (hasDerivAt_pow 2 u).const_add c
    have h2 := h1.sqrt (hpos u).ne'
    have h3 := (hasDerivAt_id' u).fun_div h2 (sqrt_pos.2 (hpos u)).ne'
    refine h3.congr_deriv ?_
    have hs : 0 < √(c + u ^ 2) := sqrt_pos.2 (hpos u)
    rw [sqrt_div zero_le_one, sqrt_one]
    have hsq : √(c + u ^ 2) ^ 2 = c + u ^ 2 := sq_sqrt (hpos u).le
    field_simp
    rw [hsq]
    ring
  have himg : (fun u : ℝ => u / √(c + u ^ 2)) '' Ioi 0 = Ioo 0 1 := by
    ext s
    simp only [mem_image, mem_Ioi, mem_Ioo]
    constructor
    · rintro ⟨u, hu, rfl⟩
      have hs : 0 < √(c + u ^ 2) := sqrt_pos.2 (hpos u)
      refine ⟨div_pos hu hs, (div_lt_one hs).2 ?_⟩
      exact lt_sqrt_of_sq_lt (by linarith)
    · rintro ⟨h0, h1⟩
      have hq : 0 < 1 - s ^ 2 := by nlinarith
      refine ⟨s * √(c / (1 - s ^ 2)), by positivity, ?_⟩
      have e : c + (s * √(c / (1 - s ^ 2))) ^ 2 = c / (1 - s ^ 2) := by
        rw [mul_pow, sq_sqrt (by positivity)]
        field_simp
        ring
      rw [e, mul_div_assoc, div_self (sqrt_pos.2 (by positivity)).ne', mul_one]
  have hinj : InjOn (fun u : ℝ => u / √(c + u ^ 2)) (Ioi 0) := by
    have hmono : StrictMono fun u : ℝ => u / √(c + u ^ 2) := by
      refine strictMono_of_hasDerivAt_pos hd fun u => ?_
      have : 0 < √(1 / (c + u ^ 2)) := sqrt_pos.2 (one_div_pos.2 (hpos u))
      positivity
    exact hmono.injective.injOn
  have key := integral_image_eq_integral_abs_deriv_smul (s := Ioi (0 : ℝ)) measurableSet_Ioi
    (fun u _ => (hd u).hasDerivWithinAt) hinj (fun s => G (c * s ^ 2))
  rw [himg] at key
  rw [intervalIntegral.integral_of_le zero_le_one, ← integral_Ioc_eq_integral_Ioo] at *
  rw [key, ← integral_const_mul]
  refine integral_congr_ae (Filter.Eventually.of_forall fun u => ?_)
  simp only [smul_eq_mul]
  have hs : 0 < √(1 / (c + u ^ 2)) := sqrt_pos.2 (one_div_pos.2 (hpos u))
  rw [abs_of_pos (by positivity), div_pow, sq_sqrt (hpos u).le, mul_div_assoc]
  field_simp

theorem inv_dist (r C : Fin 3 → ℝ) :
    (dist3 r C)⁻¹ = 2 / √π * ∫ u in Ioi (0 : ℝ), ∏ d, hg (u ^ 2) 0 (C d - r d) := by
  have e : ∀ u : ℝ, ∏ d, hg (u ^ 2) 0 (C d - r d) = exp (-(∑ d, (r d - C d) ^ 2) * u ^ 2) := by
    intro u
    simp only [hg_zero]
    rw [← exp_sum]
    congr 1
    rw [neg_mul, Finset.sum_mul, ← Finset.sum_neg_distrib]
    exact Finset.sum_congr rfl fun d _ => by ring
  simp only [e]
  rw [integral_gaussian_Ioi, sqrt_div pi_pos.le]
  unfold dist3
  have : √π ≠ 0 := (sqrt_pos.2 pi_pos).ne'
  rw [inv_eq_one_div]
  field_simp

end SQ
