import Verif.Lemmas.RandomMats
import Mathlib.Probability.Independence.Integration

/-!
# Lemmas: variances of products of independent estimates, and of sums with weights
-/

namespace SQ

open MeasureTheory ProbabilityTheory

variable {Ω : Type} [MeasurableSpace Ω] {μ : Measure Ω} [IsProbabilityMeasure μ] {X Y Z : Ω → ℝ}

/-- The product of two independent numbers has the variance of the formula in `run_std`. -/
theorem prod_var (hX : MemLp X 2 μ) (hY : MemLp Y 2 μ) (h : IndepFun X Y μ) :
    MemLp (X * Y) 2 μ ∧ variance (X * Y) μ = (( ∫ ω, X ω ∂μ) ^ 2 + variance X μ) *
      ((∫ ω, Y ω ∂μ) ^ 2 + variance Y μ) - (∫ ω, X ω ∂μ) ^ 2 * (∫ ω, Y ω ∂μ) ^ 2 := by
  have sq : IndepFun (X ^ 2) (Y ^ 2) μ := by
    have := h.comp (φ := fun x : ℝ => x ^ 2) (ψ := fun x : ℝ => x ^ 2) (by fun_prop) (by fun_prop)
    exact this
  have iX := hX.integrable_sq
  have iY := hY.integrable_sq
  have e : ((X * Y) ^ 2 : Ω → ℝ) = X ^ 2 * Y ^ 2 := mul_pow X Y 2
  have i2 : Integrable ((X * Y) ^ 2 : Ω → ℝ) μ := by
    rw [e]
    exact sq.integrable_mul iX iY
  have hm : MemLp (X * Y) 2 μ :=
    (memLp_two_iff_integrable_sq (hX.aestronglyMeasurable.mul hY.aestronglyMeasurable)).2 i2
  refine ⟨hm, ?_⟩
  have vX := variance_eq_sub hX
  have vY := variance_eq_sub hY
  rw [variance_eq_sub hm, e, sq.integral_mul_eq_mul_integral iX.aestronglyMeasurable iY.aestronglyMeasurable,
    h.integral_mul_eq_mul_integral hX.aestronglyMeasurable hY.aestronglyMeasurable, vX, vY]
  ring

/-- The number `X` has at most the variance `p * s`. -/
structure Spread (μ : Measure Ω) (p : ℝ) (X : Ω → ℝ) (s : ℝ) : Prop where
  pos : 0 < p
  mem : MemLp X 2 μ
  le : variance X μ ≤ p * s

theorem Spread.add {p q s t : ℝ} (hX : Spread μ p X s) (hY : Spread μ q Y t) :
    Spread μ (p + q) (fun ω => X ω + Y ω) (s + t) := by
  have hp := hX.pos
  have hq := hY.pos
  refine ⟨by positivity, hX.mem.add hY.mem, ?_⟩
  have e := variance_add hX.mem hY.mem
  have e' : variance (fun ω => X ω + Y ω) μ = variance X μ + 2 * covariance X Y μ + variance Y μ := e
  have n : 0 ≤ variance (fun ω => q * X ω + -p * Y ω + 0 * Y ω) μ := variance_nonneg _ _
  rw [var_comb hX.mem hY.mem hY.mem] at n
  have hc : 2 * (p * q) * covariance X Y μ ≤ q ^ 2 * variance X μ + p ^ 2 * variance Y μ := by nlinarith [n]
  rw [e']
  have hpq : 0 < p * q := by positivity
  have a := mul_le_mul_of_nonneg_left hX.le (show 0 ≤ q * (p + q) by positivity)
  have b := mul_le_mul_of_nonneg_left hY.le (show 0 ≤ p * (p + q) by positivity)
  refine le_of_mul_le_mul_left ?_ hpq
  nlinarith

omit [IsProbabilityMeasure μ] in
theorem Spread.smul {p s : ℝ} (c : ℝ) (hc : c ≠ 0) (hX : Spread μ p X s) :
    Spread μ (c ^ 2 * p) (fun ω => c * X ω) s := by
  refine ⟨mul_pos (by positivity) hX.pos, hX.mem.const_mul c, ?_⟩
  have e : variance (fun ω => c * X ω) μ = c ^ 2 * variance X μ := variance_smul c X μ
  rw [e, mul_assoc]
  exact mul_le_mul_of_nonneg_left hX.le (sq_nonneg c)

omit [IsProbabilityMeasure μ] in
theorem Spread.weigh {p s q t : ℝ} (hX : Spread μ p X s) (hq : 0 < q) (h : p * s = q * t) : Spread μ q X t :=
  ⟨hq, hX.mem, hX.le.trans h.le⟩

omit [IsProbabilityMeasure μ] in
theorem spread_self (hX : MemLp X 2 μ) : Spread μ 1 X (variance X μ) := ⟨one_pos, hX, by rw [one_mul]⟩

end SQ
