import Mathlib.Analysis.CStarAlgebra.Matrix
import Mathlib.Analysis.Normed.Algebra.MatrixExponential
import Mathlib.Analysis.SpecialFunctions.Exponential
import Mathlib.MeasureTheory.Integral.IntervalIntegral.FundThmCalculus
import Mathlib.Analysis.SpecialFunctions.Integrals.Basic

/-! # The exponential of an antisymmetric matrix under a small change of the exponent -/

namespace SQ

open NormedSpace

section
variable {𝔸 : Type*} [NormedRing 𝔸] [NormedAlgebra ℝ 𝔸] [CompleteSpace 𝔸]

/-- The derivative along the path from `exp Y` to `exp X`. -/
theorem exp_path (X Y : 𝔸) (s : ℝ) :
    HasDerivAt (fun s : ℝ => exp (s • X) * exp ((1 - s) • Y)) (exp (s • X) * (X - Y) * exp ((1 - s) • Y)) s := by
  have h1 := hasDerivAt_exp_smul_const (𝕂 := ℝ) X s
  have h2 : HasDerivAt (fun s : ℝ => exp ((1 - s) • Y)) (-(Y * exp ((1 - s) • Y))) s := by
    have := (hasDerivAt_exp_smul_const' (𝕂 := ℝ) Y (1 - s)).scomp s ((hasDerivAt_id s).const_sub 1)
    simpa [Function.comp_def] using this
  have h3 := h1.mul h2
  rwa [show exp (s • X) * X * exp ((1 - s) • Y) + exp (s • X) * -(Y * exp ((1 - s) • Y))
    = exp (s • X) * (X - Y) * exp ((1 - s) • Y) by noncomm_ring] at h3

theorem exp_cont (X Y Z : 𝔸) : Continuous fun s : ℝ => exp (s • X) * Y * exp ((1 - s) • Z) := by
  have h : ∀ W : 𝔸, Continuous fun s : ℝ => exp (s • W) := fun W =>
    continuous_iff_continuousAt.2 fun s => (hasDerivAt_exp_smul_const (𝕂 := ℝ) W s).continuousAt
  exact ((h X).mul continuous_const).mul ((h Z).comp (by fun_prop : Continuous fun s : ℝ => 1 - s))

/-- The derivative of `exp` at `A` in the direction `B`. -/
noncomputable def expDir (A B : 𝔸) : 𝔸 := ∫ s in (0 : ℝ)..1, exp (s • A) * B * exp ((1 - s) • A)

variable {S : Submodule ℝ 𝔸} (hS : ∀ x ∈ S, ‖exp x‖ ≤ 1)

include hS

theorem exp_sub_norm {X Y : 𝔸} (hX : X ∈ S) (hY : Y ∈ S) : ‖exp X - exp Y‖ ≤ ‖X - Y‖ := by
  have := norm_image_sub_le_of_norm_deriv_le_segment_01' (f := fun s : ℝ => exp (s • X) * exp ((1 - s) • Y))
    (f' := fun s => exp (s • X) * (X - Y) * exp ((1 - s) • Y)) (C := ‖X - Y‖)
    (fun s _ => (exp_path X Y s).hasDerivWithinAt) (fun s _ => by
      have h1 := hS _ (S.smul_mem s hX)
      have h2 := hS _ (S.smul_mem (1 - s) hY)
      calc _ ≤ ‖exp (s • X) * (X - Y)‖ * ‖exp ((1 - s) • Y)‖ := norm_mul_le _ _
        _ ≤ (‖exp (s • X)‖ * ‖X - Y‖) * ‖exp ((1 - s) • Y)‖ := by gcongr; exact norm_mul_le _ _
        _ ≤ (1 * ‖X - Y‖) * 1 := by gcongr
        _ = ‖X - Y‖ := by ring)
  simpa using this

/-- Second-order remainder of `exp` along a line. -/
theorem exp_remainder {A B : 𝔸} (hA : A ∈ S) (hB : B ∈ S) (h : ℝ) :
    ‖exp (A + h • B) - exp A - h • expDir A B‖ ≤ h ^ 2 * ‖B‖ ^ 2 / 2 := by
  have hX := S.add_mem hA (S.smul_mem h hB)
  set X := A + h • B with hXd
  have hd : X - A = h • B := by rw [hXd]; abel
  have e1 : exp X - exp A = ∫ s in (0 : ℝ)..1, exp (s • X) * (h • B) * exp ((1 - s) • A) := by
    have := intervalIntegral.integral_eq_sub_of_hasDerivAt (a := 0) (b := 1) (fun s _ => exp_path X A s)
      ((exp_cont X (X - A) A).intervalIntegrable _ _)
    rw [hd] at this
    rw [this]
    simp
  have e2 : h • expDir A B = ∫ s in (0 : ℝ)..1, exp (s • A) * (h • B) * exp ((1 - s) • A) := by
    unfold expDir
    rw [← intervalIntegral.integral_smul]
    congr 1
    funext s
    rw [mul_smul_comm, smul_mul_assoc]
  rw [e1, e2, ← intervalIntegral.integral_sub ((exp_cont X _ A).intervalIntegrable _ _) ((exp_cont A _ A).intervalIntegrable _ _)]
  have bound : ∀ s ∈ Set.Ioc (0 : ℝ) 1, ‖exp (s • X) * (h • B) * exp ((1 - s) • A) - exp (s • A) * (h • B) * exp ((1 - s) • A)‖
      ≤ s * (h ^ 2 * ‖B‖ ^ 2) := by
    intro s hs
    have h1 := exp_sub_norm hS (S.smul_mem s hX) (S.smul_mem s hA)
    have h2 := hS _ (S.smul_mem (1 - s) hA)
    have h3 : ‖s • X - s • A‖ = s * (|h| * ‖B‖) := by
      rw [← smul_sub, hd, norm_smul, norm_smul, Real.norm_eq_abs, Real.norm_eq_abs, abs_of_pos hs.1]
    rw [h3] at h1
    have h0 : 0 ≤ s * (|h| * ‖B‖) := mul_nonneg hs.1.le (by positivity)
    rw [← sub_mul, ← sub_mul]
    calc _ ≤ ‖(exp (s • X) - exp (s • A)) * (h • B)‖ * ‖exp ((1 - s) • A)‖ := norm_mul_le _ _
      _ ≤ (‖exp (s • X) - exp (s • A)‖ * ‖h • B‖) * ‖exp ((1 - s) • A)‖ := by gcongr; exact norm_mul_le _ _
      _ ≤ ((s * (|h| * ‖B‖)) * (|h| * ‖B‖)) * 1 := by
        rw [norm_smul, Real.norm_eq_abs]
        refine mul_le_mul (mul_le_mul_of_nonneg_right h1 (by positivity)) h2 (norm_nonneg _) (by positivity)
      _ = s * (|h| ^ 2 * ‖B‖ ^ 2) := by ring
      _ = s * (h ^ 2 * ‖B‖ ^ 2) := by rw [sq_abs]
  have := intervalIntegral.norm_integral_le_of_norm_le (μ := MeasureTheory.volume) (zero_le_one (α := ℝ))
    (MeasureTheory.ae_of_all _ bound) (Continuous.intervalIntegrable (by fun_prop) 0 1)
  refine this.trans (le_of_eq ?_)
  rw [intervalIntegral.integral_mul_const, integral_id]
  ring

theorem exp_line_deriv {A B : 𝔸} (hA : A ∈ S) (hB : B ∈ S) (t : ℝ) :
    HasDerivAt (fun t : ℝ => exp (A + t • B)) (expDir (A + t • B) B) t := by
  have hX := S.add_mem hA (S.smul_mem t hB)
  rw [hasDerivAt_iff_isLittleO]
  refine Asymptotics.IsBigO.trans_isLittleO (g := fun u : ℝ => (u - t) ^ 2) ?_ ?_
  · refine Asymptotics.IsBigO.of_bound (‖B‖ ^ 2 / 2) (Filter.Eventually.of_forall fun u => ?_)
    have := exp_remainder hS hX hB (u - t)
    rw [show A + t • B + (u - t) • B = A + u • B by rw [sub_smul]; abel] at this
    rw [Real.norm_eq_abs, abs_of_nonneg (sq_nonneg _)]
    linarith
  · exact (Asymptotics.isLittleO_pow_id (𝕜 := ℝ) (n := 2) (by norm_num)).comp_tendsto
      (show Filter.Tendsto (fun u : ℝ => u - t) (nhds t) (nhds 0) by
        have : Filter.Tendsto (fun u : ℝ => u - t) (nhds t) (nhds (t - t)) := (continuous_id.sub continuous_const).tendsto t
        rwa [sub_self] at this)

end

section
open scoped Matrix.Norms.L2Operator

variable {n : ℕ}

/-- Antisymmetric matrices. -/
def skewMats (n : ℕ) : Submodule ℝ (Matrix (Fin n) (Fin n) ℝ) where
  carrier := {A | A.transpose = -A}
  add_mem' {A B} h k := by
    have h : A.transpose = -A := h
    have k : B.transpose = -B := k
    show (A + B).transpose = -(A + B)
    rw [Matrix.transpose_add, h, k, neg_add]
  zero_mem' := by
    show (0 : Matrix (Fin n) (Fin n) ℝ).transpose = -0
    simp
  smul_mem' s A h := by
    have h : A.transpose = -A := h
    show (s • A).transpose = -(s • A)
    rw [Matrix.transpose_smul, h, smul_neg]

theorem exp_skew_norm (A : Matrix (Fin n) (Fin n) ℝ) (h : A ∈ skewMats n) : ‖exp A‖ ≤ 1 := by
  have ht : A.transpose = -A := h
  have h0 : (exp A).transpose * exp A = 1 := by
    rw [← Matrix.exp_transpose, ht, ← Matrix.exp_add_of_commute _ _ (Commute.neg_left (Commute.refl A)), neg_add_cancel, exp_zero]
  have h1 := Matrix.l2_opNorm_conjTranspose_mul_self (exp A)
  rw [Matrix.conjTranspose_eq_transpose_of_trivial, h0] at h1
  have h2 : ‖(1 : Matrix (Fin n) (Fin n) ℝ)‖ ≤ 1 := by
    rw [Matrix.l2_opNorm_def]
    refine ContinuousLinearMap.opNorm_le_bound _ zero_le_one fun x => ?_
    simp
  nlinarith [norm_nonneg (exp A)]

theorem opNorm_le_of {B : Matrix (Fin n) (Fin n) ℝ} {b : ℝ} (hb : ∀ x : Fin n → ℝ, B.mulVec x ⬝ᵥ B.mulVec x ≤ b ^ 2 * (x ⬝ᵥ x)) :
    ‖B‖ ≤ |b| := by
  rw [Matrix.l2_opNorm_def]
  refine ContinuousLinearMap.opNorm_le_bound _ (abs_nonneg _) fun x => ?_
  refine abs_le_of_sq_le_sq' ?_ (by positivity) |>.2
  rw [mul_pow, sq_abs, EuclideanSpace.norm_sq_eq, EuclideanSpace.norm_sq_eq]
  have := hb x.ofLp
  simp only [dotProduct, ← pow_two] at this
  simpa using this

theorem bilin_le (M : Matrix (Fin n) (Fin n) ℝ) (v w : Fin n → ℝ) :
    |w ⬝ᵥ M.mulVec v| ≤ ‖M‖ * √(v ⬝ᵥ v) * √(w ⬝ᵥ w) := by
  have e : ∀ x : Fin n → ℝ, ‖WithLp.toLp 2 x‖ = √(x ⬝ᵥ x) := fun x => by
    rw [EuclideanSpace.norm_eq]
    simp [dotProduct, pow_two]
  have h1 := Matrix.l2_opNorm_mulVec M (WithLp.toLp 2 v)
  have h2 : |w ⬝ᵥ M.mulVec v| ≤ ‖WithLp.toLp 2 w‖ * ‖WithLp.toLp 2 (M.mulVec v)‖ := by
    have := abs_real_inner_le_norm (WithLp.toLp 2 w) (WithLp.toLp 2 (M.mulVec v))
    rw [EuclideanSpace.inner_toLp_toLp] at this
    simpa [dotProduct_comm] using this
  rw [e] at h2
  have h3 : ‖WithLp.toLp 2 (M.mulVec v)‖ ≤ ‖M‖ * √(v ⬝ᵥ v) := by
    rw [← e v]
    exact h1
  calc _ ≤ √(w ⬝ᵥ w) * ‖WithLp.toLp 2 (M.mulVec v)‖ := h2
    _ ≤ √(w ⬝ᵥ w) * (‖M‖ * √(v ⬝ᵥ v)) := by gcongr
    _ = _ := by ring

/-- The change of `exp A v` under a change of the exponent: there is a derivative, and the remainder is of second order. -/
theorem exp_line {A B : Matrix (Fin n) (Fin n) ℝ} (hA : A.transpose = -A) (hB : B.transpose = -B) (t : ℝ) (v : Fin n → ℝ) :
    ∃ u : Fin n → ℝ, (∀ i, HasDerivAt (fun t : ℝ => (exp (A + t • B)).mulVec v i) (u i) t) ∧
      ∀ b : ℝ, (∀ x : Fin n → ℝ, B.mulVec x ⬝ᵥ B.mulVec x ≤ b ^ 2 * (x ⬝ᵥ x)) → ∀ (h : ℝ) (w : Fin n → ℝ),
        |(exp (A + (t + h) • B)).mulVec v ⬝ᵥ w - (exp (A + t • B)).mulVec v ⬝ᵥ w - h * (u ⬝ᵥ w)| ≤
          h ^ 2 * b ^ 2 / 2 * √(v ⬝ᵥ v) * √(w ⬝ᵥ w) := by
  have hA' : A ∈ skewMats n := hA
  have hB' : B ∈ skewMats n := hB
  refine ⟨(expDir (A + t • B) B).mulVec v, fun i => ?_, fun b hb h w => ?_⟩
  · have h1 := exp_line_deriv exp_skew_norm hA' hB' t
    let l : Matrix (Fin n) (Fin n) ℝ →ₗ[ℝ] ℝ :=
      { toFun := fun M => M.mulVec v i
        map_add' := fun M N => by rw [Matrix.add_mulVec]; rfl
        map_smul' := fun c M => by rw [Matrix.smul_mulVec]; rfl }
    exact ((LinearMap.toContinuousLinearMap l).hasFDerivAt.comp_hasDerivAt t h1)
  · have h1 := exp_remainder exp_skew_norm ((skewMats n).add_mem hA' ((skewMats n).smul_mem t hB')) hB' h
    have e0 : A + (t + h) • B = A + t • B + h • B := by rw [add_smul]; abel
    have h2 := bilin_le (exp (A + t • B + h • B) - exp (A + t • B) - h • expDir (A + t • B) B) v w
    have e : w ⬝ᵥ (exp (A + t • B + h • B) - exp (A + t • B) - h • expDir (A + t • B) B).mulVec v
        = (exp (A + (t + h) • B)).mulVec v ⬝ᵥ w - (exp (A + t • B)).mulVec v ⬝ᵥ w - h * ((expDir (A + t • B) B).mulVec v ⬝ᵥ w) := by
      rw [Matrix.sub_mulVec, Matrix.sub_mulVec, Matrix.smul_mulVec, dotProduct_sub, dotProduct_sub, dotProduct_smul, e0,
        dotProduct_comm w, dotProduct_comm w, dotProduct_comm w, smul_eq_mul]
    rw [e] at h2
    refine h2.trans ?_
    have h3 : ‖B‖ ^ 2 ≤ b ^ 2 := by
      rw [← sq_abs b]
      exact pow_le_pow_left₀ (norm_nonneg _) (opNorm_le_of hb) 2
    gcongr
    exact h1.trans (by gcongr)

end

end SQ
