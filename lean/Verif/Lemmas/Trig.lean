import Verif.Spec.Trig
import Verif.Model.Optimizers
import Mathlib.Analysis.SpecialFunctions.Complex.Log
import Mathlib.Analysis.SpecialFunctions.Trigonometric.Deriv

/-! # Lemmas: sums of sines and cosines at equidistant points -/

namespace SQ

open Complex (I)

/-- A geometric sum around the circle. -/
theorem circle_sum (N : ℕ) (α β : ℝ) (h1 : ∀ n : ℤ, β ≠ n * (2 * Real.pi)) (h2 : ∃ n : ℤ, β * N = n * (2 * Real.pi)) :
    ∑ j ∈ Finset.range N, Complex.exp (((α + β * j : ℝ) : ℂ) * I) = 0 := by
  have hw : Complex.exp ((β : ℂ) * I) ≠ 1 := by
    intro h
    obtain ⟨n, hn⟩ := Complex.exp_eq_one_iff.1 h
    apply h1 n
    have : (β : ℂ) * I = ((n * (2 * Real.pi) : ℝ) : ℂ) * I := by rw [hn]; push_cast; ring
    exact_mod_cast mul_right_cancel₀ Complex.I_ne_zero this
  have hN : Complex.exp ((β : ℂ) * I) ^ N = 1 := by
    obtain ⟨n, hn⟩ := h2
    rw [← Complex.exp_nat_mul, Complex.exp_eq_one_iff]
    refine ⟨n, ?_⟩
    have : ((β * N : ℝ) : ℂ) = ((n * (2 * Real.pi) : ℝ) : ℂ) := by rw [hn]
    push_cast at this
    calc (N : ℂ) * (β * I) = (β * N) * I := by ring
      _ = n * (2 * Real.pi * I) := by rw [this]; ring
  have hs : ∀ j ∈ Finset.range N, Complex.exp (((α + β * j : ℝ) : ℂ) * I) =
      Complex.exp ((α : ℂ) * I) * Complex.exp ((β : ℂ) * I) ^ j := by
    intro j _
    rw [← Complex.exp_nat_mul, ← Complex.exp_add]
    congr 1
    push_cast
    ring
  rw [Finset.sum_congr rfl hs, ← Finset.mul_sum]
  have := geom_sum_mul (Complex.exp ((β : ℂ) * I)) N
  rw [hN, sub_self] at this
  rcases mul_eq_zero.1 this with h | h
  · rw [h, mul_zero]
  · exact absurd (sub_eq_zero.1 h) hw

theorem circle_cos (N : ℕ) (α β : ℝ) (h1 : ∀ n : ℤ, β ≠ n * (2 * Real.pi)) (h2 : ∃ n : ℤ, β * N = n * (2 * Real.pi)) :
    ∑ j ∈ Finset.range N, Real.cos (α + β * j) = 0 ∧ ∑ j ∈ Finset.range N, Real.sin (α + β * j) = 0 := by
  have := circle_sum N α β h1 h2
  constructor
  · have h := congrArg Complex.re this
    rw [Complex.re_sum, Complex.zero_re] at h
    rw [← h]
    exact Finset.sum_congr rfl fun j _ => (Complex.exp_ofReal_mul_I_re _).symm
  · have h := congrArg Complex.im this
    rw [Complex.im_sum, Complex.zero_im] at h
    rw [← h]
    exact Finset.sum_congr rfl fun j _ => (Complex.exp_ofReal_mul_I_im _).symm

/-! ### The reconstruction kernel -/

/-- `1 + 2 cos y + ... + 2 cos (R y)`. -/
noncomputable def dirichlet (R : ℕ) (y : ℝ) : ℝ := 1 + 2 * ∑ k ∈ Finset.range R, Real.cos ((k + 1 : ℕ) * y)

theorem dirichlet_mul (R : ℕ) (y : ℝ) : Real.sin (y / 2) * dirichlet R y = Real.sin ((2 * R + 1) / 2 * y) := by
  induction R with
  | zero => simp [dirichlet]; congr 1; ring
  | succ R ih =>
    have : dirichlet (R + 1) y = dirichlet R y + 2 * Real.cos ((R + 1 : ℕ) * y) := by
      unfold dirichlet; rw [Finset.sum_range_succ]; ring
    rw [this, mul_add, ih]
    have h := Real.sin_sub_sin ((2 * ((R + 1 : ℕ) : ℝ) + 1) / 2 * y) ((2 * R + 1) / 2 * y)
    have e1 : ((2 * ((R + 1 : ℕ) : ℝ) + 1) / 2 * y - (2 * R + 1) / 2 * y) / 2 = y / 2 := by push_cast; ring
    have e2 : ((2 * ((R + 1 : ℕ) : ℝ) + 1) / 2 * y + (2 * R + 1) / 2 * y) / 2 = (R + 1 : ℕ) * y := by push_cast; ring
    rw [e1, e2] at h
    linarith

theorem half_sin_ne {y : ℝ} (h0 : y ≠ 0) (hy : |y| < 2 * Real.pi) : Real.sin (y / 2) ≠ 0 := by
  intro h
  rw [abs_lt] at hy
  have := (Real.sin_eq_zero_iff_of_lt_of_lt (by linarith) (by linarith)).1 h
  exact h0 (by linarith)

/-- The code's kernel is the Dirichlet kernel. -/
theorem kernelF_eq (R : ℕ) {y : ℝ} (hy : y = 0 ∨ Real.sin (y / 2) ≠ 0) : kernelF R y = dirichlet R y / (2 * R + 1) := by
  have hpi := Real.pi_pos
  have hN : (0 : ℝ) < 2 * R + 1 := by positivity
  unfold kernelF npSinc
  rcases hy with h0 | hs
  · subst h0
    simp [dirichlet]
    field_simp
    ring
  · have h0 : y ≠ 0 := by rintro rfl; simp at hs
    have hu : (2 * (R : ℝ) + 1) / 2 * y / Real.pi ≠ 0 := by positivity
    have hv : 1 / 2 * y / Real.pi ≠ 0 := by positivity
    rw [if_neg hu, if_neg hv]
    have e1 : Real.pi * ((2 * (R : ℝ) + 1) / 2 * y / Real.pi) = (2 * R + 1) / 2 * y := by field_simp
    have e2 : Real.pi * (1 / 2 * y / Real.pi) = y / 2 := by field_simp
    rw [e1, e2, ← dirichlet_mul]
    field_simp

theorem xMu_bound {R j : ℕ} (hj : j < 2 * R + 1) : |xMu R j| < Real.pi := by
  have hpi := Real.pi_pos
  have hN : (0 : ℝ) < 2 * R + 1 := by positivity
  have h1 : (j : ℝ) ≤ 2 * R := by
    have : j ≤ 2 * R := by omega
    exact_mod_cast this
  have h0 : (0 : ℝ) ≤ j := Nat.cast_nonneg j
  unfold xMu
  rw [abs_lt]
  have a : 2 * ((j : ℝ) - R) / (2 * R + 1) < 1 := by rw [div_lt_one hN]; linarith
  have b : -1 < 2 * ((j : ℝ) - R) / (2 * R + 1) := by rw [lt_div_iff₀ hN]; linarith
  constructor
  · have := mul_lt_mul_of_pos_right b hpi; linarith
  · have := mul_lt_mul_of_pos_right a hpi; linarith

theorem in_period {R j : ℕ} (hj : j < 2 * R + 1) {x : ℝ} (hx : |x| ≤ Real.pi) :
    x - xMu R j = 0 ∨ Real.sin ((x - xMu R j) / 2) ≠ 0 := by
  by_cases h : x - xMu R j = 0
  · exact Or.inl h
  · refine Or.inr (half_sin_ne h ?_)
    have h1 := abs_lt.1 (xMu_bound hj)
    have h2 := abs_le.1 hx
    rw [abs_lt]
    constructor <;> linarith

/-- Sum over the sampling points. -/
theorem sample_sum (R : ℕ) (d : ℤ) (h0 : d ≠ 0) (h1 : |d| < 2 * R + 1) (α : ℝ) :
    ∑ j ∈ Finset.range (2 * R + 1), Real.cos (α + d * xMu R j) = 0 ∧
    ∑ j ∈ Finset.range (2 * R + 1), Real.sin (α + d * xMu R j) = 0 := by
  have hN : (2 * (R : ℝ) + 1) ≠ 0 := by positivity
  have hpi := Real.pi_pos
  have e : ∀ j : ℕ, α + d * xMu R j = (α - d * (2 * R / (2 * R + 1) * Real.pi)) + (d * (2 / (2 * R + 1) * Real.pi)) * j := by
    intro j
    unfold xMu
    field_simp
    ring
  simp only [e]
  refine circle_cos _ _ _ (fun n hn => ?_) ⟨d, by push_cast; field_simp⟩
  have : (d : ℝ) = n * (2 * R + 1) := by
    field_simp at hn
    linarith
  have hz : d = n * (2 * R + 1) := by exact_mod_cast this
  rcases eq_or_ne n 0 with rfl | hn0
  · simp at hz; exact h0 hz
  · rw [hz, abs_mul] at h1
    have a1 : 1 ≤ |n| := Int.one_le_abs hn0
    have a2 : |(2 * (R : ℤ) + 1)| = 2 * R + 1 := abs_of_pos (by positivity)
    rw [a2] at h1
    nlinarith

/-- The reconstruction of `cos (m x)` and `sin (m x)`. -/
theorem sample_kernel (R m : ℕ) (hm : m ≤ R) (φ x : ℝ) :
    ∑ j ∈ Finset.range (2 * R + 1), Real.cos (m * xMu R j + φ) * dirichlet R (x - xMu R j) = (2 * R + 1) * Real.cos (m * x + φ) := by
  -- one summand of the kernel
  have term : ∀ k : ℕ, k < R →
      ∑ j ∈ Finset.range (2 * R + 1), Real.cos (m * xMu R j + φ) * (2 * Real.cos ((k + 1 : ℕ) * (x - xMu R j))) =
        if m = k + 1 then (2 * R + 1) * Real.cos (m * x + φ) else 0 := by
    intro k hk
    have e : ∀ j : ℕ, Real.cos (m * xMu R j + φ) * (2 * Real.cos ((k + 1 : ℕ) * (x - xMu R j))) =
        Real.cos ((φ + (k + 1 : ℕ) * x) + ((m : ℤ) - (k + 1 : ℕ) : ℤ) * xMu R j) +
        Real.cos ((φ - (k + 1 : ℕ) * x) + ((m : ℤ) + (k + 1 : ℕ) : ℤ) * xMu R j) := by
      intro j
      have h := Real.two_mul_cos_mul_cos (m * xMu R j + φ) ((k + 1 : ℕ) * (x - xMu R j))
      have : Real.cos (m * xMu R j + φ) * (2 * Real.cos ((k + 1 : ℕ) * (x - xMu R j))) =
          2 * Real.cos (m * xMu R j + φ) * Real.cos ((k + 1 : ℕ) * (x - xMu R j)) := by ring
      rw [this, h, add_comm]
      congr 1 <;> (congr 1; push_cast; ring)
    simp only [e]
    rw [Finset.sum_add_distrib, (sample_sum R ((m : ℤ) + (k + 1 : ℕ)) (by omega) (by rw [abs_of_nonneg (by positivity)]; omega) _).1, add_zero]
    by_cases hmk : m = k + 1
    · rw [if_pos hmk]
      subst hmk
      simp only [sub_self, Int.cast_zero, zero_mul, add_zero, Finset.sum_const, Finset.card_range, nsmul_eq_mul]
      push_cast
      rw [add_comm φ]
    · rw [if_neg hmk]
      exact (sample_sum R ((m : ℤ) - (k + 1 : ℕ)) (by omega) (by rw [abs_lt]; constructor <;> omega) _).1
  have e : ∀ j : ℕ, Real.cos (m * xMu R j + φ) * dirichlet R (x - xMu R j) = Real.cos (m * xMu R j + φ) +
      ∑ k ∈ Finset.range R, Real.cos (m * xMu R j + φ) * (2 * Real.cos ((k + 1 : ℕ) * (x - xMu R j))) := by
    intro j
    unfold dirichlet
    rw [mul_add, mul_one, Finset.mul_sum, Finset.mul_sum]
  simp only [e]
  rw [Finset.sum_add_distrib, Finset.sum_comm, Finset.sum_congr rfl fun k hk => term k (Finset.mem_range.1 hk)]
  rcases Nat.eq_zero_or_pos m with rfl | hpos
  · simp
  · have h1 : ∑ j ∈ Finset.range (2 * R + 1), Real.cos (m * xMu R j + φ) = 0 := by
      have := (sample_sum R m (by omega) (by rw [abs_of_nonneg (by positivity)]; omega) φ).1
      rw [← this]
      refine Finset.sum_congr rfl fun j _ => ?_
      congr 1
      push_cast
      ring
    rw [h1, zero_add, Finset.sum_eq_single (m - 1)]
    · rw [if_pos (by omega)]
    · intro k _ hk
      rw [if_neg (by omega)]
    · intro h
      exact absurd (Finset.mem_range.2 (by omega)) h

theorem list_sum_zipIdx {α : Type} (g : α → ℕ → ℝ) (h : ℕ → α) (n : ℕ) :
    ((((List.range n).map h).zipIdx).map fun ei => g ei.1 ei.2).sum = ∑ j ∈ Finset.range n, g (h j) j := by
  induction n with
  | zero => simp
  | succ n ih =>
    rw [List.range_succ, List.map_append, List.zipIdx_append, List.map_append, List.sum_append, ih, Finset.sum_range_succ]
    simp

/-- Every trigonometric polynomial is reproduced by the Dirichlet kernel. -/
theorem trig_kernel {R : ℕ} {E : ℝ → ℝ} (h : TrigPoly R E) (x : ℝ) :
    ∑ j ∈ Finset.range (2 * R + 1), E (xMu R j) * (dirichlet R (x - xMu R j) / (2 * R + 1)) = E x := by
  obtain ⟨a, b, hE⟩ := h
  have hN : (2 * (R : ℝ) + 1) ≠ 0 := by positivity
  have hsin : ∀ t : ℝ, Real.sin t = Real.cos (t + -(Real.pi / 2)) := by
    intro t; rw [← sub_eq_add_neg, Real.cos_sub_pi_div_two]
  have e : ∀ j : ℕ, E (xMu R j) * (dirichlet R (x - xMu R j) / (2 * R + 1)) =
      ∑ k ∈ Finset.range (R + 1), (a k / (2 * R + 1) * (Real.cos (k * xMu R j + 0) * dirichlet R (x - xMu R j)) +
        b k / (2 * R + 1) * (Real.cos (k * xMu R j + -(Real.pi / 2)) * dirichlet R (x - xMu R j))) := by
    intro j
    rw [hE, Finset.sum_mul]
    refine Finset.sum_congr rfl fun k _ => ?_
    rw [hsin (k * xMu R j), add_zero]
    ring
  simp only [e]
  rw [Finset.sum_comm, hE]
  refine Finset.sum_congr rfl fun k hk => ?_
  rw [Finset.sum_add_distrib, ← Finset.mul_sum, ← Finset.mul_sum,
    sample_kernel R k (by have := Finset.mem_range.1 hk; omega), sample_kernel R k (by have := Finset.mem_range.1 hk; omega),
    ← hsin, add_zero]
  field_simp

/-! ### The shift rule -/

theorem shift_bounds {R j : ℕ} (hj : j < 2 * R) : 0 < 1 / 2 * xShift R j ∧ 1 / 2 * xShift R j < Real.pi := by
  have hR : (0 : ℝ) < R := by
    have : 0 < R := by omega
    exact_mod_cast this
  have hpi := Real.pi_pos
  have h2 : ((j : ℝ) + 1) ≤ 2 * R := by exact_mod_cast hj
  unfold xShift
  constructor
  · have : (0 : ℝ) < 2 * ((j : ℝ) + 1) - 1 := by have := Nat.cast_nonneg (α := ℝ) j; linarith
    positivity
  · have h3 : (2 * ((j : ℝ) + 1) - 1) / (2 * R) < 2 := by
      rw [div_lt_iff₀ (by positivity)]; linarith
    have := mul_lt_mul_of_pos_right h3 hpi
    linarith

theorem shift_sin_ne {R j : ℕ} (hj : j < 2 * R) : Real.sin (1 / 2 * xShift R j) ≠ 0 :=
  (Real.sin_pos_of_pos_of_lt_pi (shift_bounds hj).1 (shift_bounds hj).2).ne'

/-- Weight of the `j`-th shifted value. -/
noncomputable def shiftWeight (R j : ℕ) : ℝ := (-1) ^ j / (4 * R * Real.sin (1 / 2 * xShift R j) ^ 2)

theorem shift_sum (R k : ℕ) (h0 : 0 < k) (h1 : k < 2 * R) : ∑ j ∈ Finset.range (2 * R), Real.cos (k * xShift R j) = 0 := by
  have hR : (R : ℝ) ≠ 0 := by have : R ≠ 0 := by omega
                              exact_mod_cast this
  have hpi := Real.pi_pos
  have e : ∀ j : ℕ, (k : ℝ) * xShift R j = k / (2 * R) * Real.pi + (k / R * Real.pi) * j := by
    intro j; unfold xShift; field_simp; ring
  simp only [e]
  refine (circle_cos _ _ _ (fun n hn => ?_) ⟨k, by push_cast; field_simp⟩).1
  have : (k : ℝ) = n * (2 * R) := by field_simp at hn; linarith
  have hz : (k : ℤ) = n * (2 * R) := by exact_mod_cast this
  have hn1 : n < 1 := by
    by_contra h
    have : (1 : ℤ) ≤ n := by omega
    nlinarith
  have hn0 : 0 < n := by
    by_contra h
    have : n ≤ 0 := by omega
    nlinarith
  omega

theorem shift_alt (R k : ℕ) (h1 : k < R) : ∑ j ∈ Finset.range (2 * R), (-1) ^ j * Real.sin (k * xShift R j) = 0 := by
  have hR : (R : ℝ) ≠ 0 := by have : R ≠ 0 := by omega
                              exact_mod_cast this
  have hpi := Real.pi_pos
  have e : ∀ j : ℕ, (-1) ^ j * Real.sin (k * xShift R j) = Real.sin (k / (2 * R) * Real.pi + (k / R * Real.pi + Real.pi) * j) := by
    intro j
    have : k / (2 * R) * Real.pi + (k / R * Real.pi + Real.pi) * j = k * xShift R j + j * Real.pi := by
      unfold xShift; field_simp; ring
    rw [this, Real.sin_add_nat_mul_pi]
  simp only [e]
  refine (circle_cos _ _ _ (fun n hn => ?_) ⟨k + R, by push_cast; field_simp⟩).2
  have : (k : ℝ) + R = n * (2 * R) := by field_simp at hn; linarith
  have hz : (k : ℤ) + R = n * (2 * R) := by exact_mod_cast this
  have hn1 : n < 1 := by
    by_contra h
    have : (1 : ℤ) ≤ n := by omega
    nlinarith
  have hn0 : 0 < n := by
    by_contra h
    have : n ≤ 0 := by omega
    nlinarith
  omega

/-- `sin (R x) cot (x/2) = 1 + 2 cos x + ... + 2 cos ((R-1) x) + cos (R x)`. -/
theorem sin_cot (R : ℕ) (x : ℝ) :
    Real.sin (x / 2) * (dirichlet R x - Real.cos (R * x)) = Real.sin (R * x) * Real.cos (x / 2) := by
  rw [mul_sub, dirichlet_mul]
  have : (2 * (R : ℝ) + 1) / 2 * x = R * x + x / 2 := by ring
  rw [this, Real.sin_add]
  ring

theorem shift_sinR {R j : ℕ} (hR : 0 < R) : Real.sin (R * xShift R j) = (-1) ^ j ∧ Real.cos (R * xShift R j) = 0 := by
  have hR' : (R : ℝ) ≠ 0 := by exact_mod_cast hR.ne'
  have : (R : ℝ) * xShift R j = Real.pi / 2 + j * Real.pi := by unfold xShift; field_simp; ring
  rw [this, Real.sin_add_nat_mul_pi, Real.cos_add_nat_mul_pi]
  simp

theorem weight_sin_one {R : ℕ} (hR : 0 < R) : ∑ j ∈ Finset.range (2 * R), shiftWeight R j * Real.sin (xShift R j) = 1 := by
  have hR' : (R : ℝ) ≠ 0 := by exact_mod_cast hR.ne'
  have e : ∀ j ∈ Finset.range (2 * R), shiftWeight R j * Real.sin (xShift R j) = 1 / (2 * R) * dirichlet R (xShift R j) := by
    intro j hj
    have hs := shift_sin_ne (Finset.mem_range.1 hj)
    have hx : (1 : ℝ) / 2 * xShift R j = xShift R j / 2 := by ring
    rw [hx] at hs
    have h1 := sin_cot R (xShift R j)
    rw [(shift_sinR hR).1, (shift_sinR hR).2, sub_zero] at h1
    have h2 : Real.sin (xShift R j) = 2 * Real.sin (xShift R j / 2) * Real.cos (xShift R j / 2) := by
      rw [← Real.sin_two_mul]; congr 1; ring
    unfold shiftWeight
    rw [hx, h2]
    have h3 : dirichlet R (xShift R j) = (-1) ^ j * Real.cos (xShift R j / 2) / Real.sin (xShift R j / 2) := by
      rw [eq_div_iff hs, mul_comm]; exact h1
    rw [h3]
    field_simp
    ring
  rw [Finset.sum_congr rfl e, ← Finset.mul_sum]
  have hD : ∑ j ∈ Finset.range (2 * R), dirichlet R (xShift R j) = 2 * R := by
    unfold dirichlet
    rw [Finset.sum_add_distrib, ← Finset.mul_sum, Finset.sum_comm]
    have hz : ∀ k ∈ Finset.range R, ∑ j ∈ Finset.range (2 * R), Real.cos ((k + 1 : ℕ) * xShift R j) = 0 := fun k hk =>
      shift_sum R (k + 1) (by omega) (by have := Finset.mem_range.1 hk; omega)
    rw [Finset.sum_congr rfl hz]
    simp
  rw [hD]
  field_simp

theorem weight_cos (R k : ℕ) : ∑ j ∈ Finset.range (2 * R), shiftWeight R j * Real.cos (k * xShift R j) = 0 := by
  have href := Finset.sum_range_reflect (fun j => shiftWeight R j * Real.cos (k * xShift R j)) (2 * R)
  have hneg : ∀ j ∈ Finset.range (2 * R), shiftWeight R (2 * R - 1 - j) * Real.cos (k * xShift R (2 * R - 1 - j)) =
      -(shiftWeight R j * Real.cos (k * xShift R j)) := by
    intro j hj
    have hj' := Finset.mem_range.1 hj
    have hR : (R : ℝ) ≠ 0 := by have : R ≠ 0 := by omega
                                exact_mod_cast this
    have hx : xShift R (2 * R - 1 - j) = 2 * Real.pi - xShift R j := by
      unfold xShift
      have : ((2 * R - 1 - j : ℕ) : ℝ) = 2 * R - 1 - j := by
        rw [Nat.sub_sub, Nat.cast_sub (by omega)]; push_cast; ring
      rw [this]
      field_simp
      ring
    have hc : Real.cos (k * xShift R (2 * R - 1 - j)) = Real.cos (k * xShift R j) := by
      rw [hx, mul_sub, Real.cos_nat_mul_two_pi_sub]
    have hs : Real.sin (1 / 2 * xShift R (2 * R - 1 - j)) = Real.sin (1 / 2 * xShift R j) := by
      rw [hx, show 1 / 2 * (2 * Real.pi - xShift R j) = Real.pi - 1 / 2 * xShift R j by ring, Real.sin_pi_sub]
    have hp : (-1 : ℝ) ^ (2 * R - 1 - j) = -(-1) ^ j := by
      have h := pow_add (-1 : ℝ) (2 * R - 1 - j) (j + 1)
      rw [show 2 * R - 1 - j + (j + 1) = 2 * R by omega, pow_mul] at h
      have hsq : ((-1 : ℝ) ^ j) * (-1) ^ j = 1 := by rw [← mul_pow]; norm_num
      simp only [even_two, Even.neg_pow, one_pow] at h
      rw [pow_succ (-1 : ℝ) j] at h
      calc (-1 : ℝ) ^ (2 * R - 1 - j) = (-1) ^ (2 * R - 1 - j) * ((-1) ^ j * (-1) ^ j) := by rw [hsq, mul_one]
        _ = ((-1) ^ (2 * R - 1 - j) * (-1) ^ j) * (-1) ^ j := by ring
        _ = -(-1) ^ j := by
          have : ((-1 : ℝ) ^ (2 * R - 1 - j) * (-1) ^ j) = -1 := by linarith
          rw [this]; ring
    unfold shiftWeight
    rw [hc, hs, hp]
    ring
  rw [Finset.sum_congr rfl hneg, Finset.sum_neg_distrib] at href
  linarith

theorem weight_sin {R : ℕ} (hR : 0 < R) : ∀ k, k ≤ R →
    ∑ j ∈ Finset.range (2 * R), shiftWeight R j * Real.sin (k * xShift R j) = k := by
  have hR' : (R : ℝ) ≠ 0 := by exact_mod_cast hR.ne'
  intro k
  induction k using Nat.strong_induction_on with
  | _ k ih =>
    intro hk
    match k, ih, hk with
    | 0, _, _ => simp
    | 1, _, _ => simpa using weight_sin_one hR
    | k + 2, ih, hk =>
      have i1 := ih (k + 1) (by omega) (by omega)
      have i0 := ih k (by omega) (by omega)
      have hz := shift_alt R (k + 1) (by omega)
      have e : ∀ j ∈ Finset.range (2 * R), shiftWeight R j * Real.sin ((k + 2 : ℕ) * xShift R j) =
          2 * (shiftWeight R j * Real.sin ((k + 1 : ℕ) * xShift R j)) - shiftWeight R j * Real.sin (k * xShift R j) -
            1 / R * ((-1) ^ j * Real.sin ((k + 1 : ℕ) * xShift R j)) := by
        intro j hj
        have hs := shift_sin_ne (Finset.mem_range.1 hj)
        set x := xShift R j with hx
        have h1 : Real.sin ((k + 2 : ℕ) * x) + Real.sin (k * x) = 2 * Real.sin ((k + 1 : ℕ) * x) * Real.cos x := by
          rw [show ((k + 2 : ℕ) : ℝ) * x = (k + 1 : ℕ) * x + x by push_cast; ring,
            show (k : ℝ) * x = (k + 1 : ℕ) * x - x by push_cast; ring, Real.sin_add, Real.sin_sub]
          ring
        have h2 : Real.cos x = 1 - 2 * Real.sin (1 / 2 * x) ^ 2 := by
          have := Real.cos_sq' (1 / 2 * x)
          have h3 := Real.cos_two_mul (1 / 2 * x)
          rw [show 2 * (1 / 2 * x) = x by ring] at h3
          rw [h3, this]; ring
        have h4 : shiftWeight R j * Real.sin (1 / 2 * x) ^ 2 = (-1) ^ j / (4 * R) := by
          unfold shiftWeight
          rw [← hx]
          generalize Real.sin (1 / 2 * x) = s at hs ⊢
          field_simp
        have h5 : Real.sin ((k + 2 : ℕ) * x) = 2 * Real.sin ((k + 1 : ℕ) * x) * (1 - 2 * Real.sin (1 / 2 * x) ^ 2) - Real.sin (k * x) := by
          rw [← h2]; linarith
        rw [h5]
        calc shiftWeight R j * (2 * Real.sin ((k + 1 : ℕ) * x) * (1 - 2 * Real.sin (1 / 2 * x) ^ 2) - Real.sin (k * x))
            = 2 * (shiftWeight R j * Real.sin ((k + 1 : ℕ) * x)) - shiftWeight R j * Real.sin (k * x)
              - 4 * (shiftWeight R j * Real.sin (1 / 2 * x) ^ 2) * Real.sin ((k + 1 : ℕ) * x) := by ring
          _ = _ := by rw [h4]; field_simp
      rw [Finset.sum_congr rfl e, Finset.sum_sub_distrib, Finset.sum_sub_distrib, ← Finset.mul_sum, ← Finset.mul_sum, hz, i1, i0]
      push_cast
      ring

/-! ### The derivative of the kernel -/

theorem npSinc_deriv {t : ℝ} (h : |t| > 1 / 10 ^ 12) : HasDerivAt npSinc (sincDerivative t) t := by
  have hpi := Real.pi_ne_zero
  have ht : t ≠ 0 := by rintro rfl; rw [abs_zero] at h; norm_num at h
  have h1 : HasDerivAt (fun t => Real.sin (Real.pi * t) / (Real.pi * t)) (sincDerivative t) t := by
    have hm : HasDerivAt (fun t : ℝ => Real.pi * t) Real.pi t := by simpa using (hasDerivAt_id t).const_mul Real.pi
    have hs : HasDerivAt (fun t : ℝ => Real.sin (Real.pi * t)) (Real.cos (Real.pi * t) * Real.pi) t := hm.sin
    have hd := hs.div hm (by positivity)
    have e : sincDerivative t = (Real.cos (Real.pi * t) * Real.pi * (Real.pi * t) - Real.sin (Real.pi * t) * Real.pi) / (Real.pi * t) ^ 2 := by
      unfold sincDerivative
      rw [if_pos h]
      field_simp
    rw [e]
    exact hd
  refine h1.congr_of_eventuallyEq ?_
  filter_upwards [isOpen_ne.mem_nhds ht] with u hu
  unfold npSinc
  rw [if_neg hu]

theorem dirichlet_deriv (R : ℕ) (y : ℝ) :
    HasDerivAt (dirichlet R) (2 * ∑ k ∈ Finset.range R, -(Real.sin ((k + 1 : ℕ) * y) * (k + 1 : ℕ))) y := by
  have h : ∀ k ∈ Finset.range R, HasDerivAt (fun y : ℝ => Real.cos ((k + 1 : ℕ) * y)) (-(Real.sin ((k + 1 : ℕ) * y) * (k + 1 : ℕ))) y := by
    intro k _
    have hm : HasDerivAt (fun t : ℝ => ((k + 1 : ℕ) : ℝ) * t) (k + 1 : ℕ) y := by
      simpa using (hasDerivAt_id y).const_mul ((k + 1 : ℕ) : ℝ)
    have := hm.cos
    rwa [neg_mul] at this
  exact ((HasDerivAt.fun_sum h).const_mul 2).const_add 1

theorem kernelF_deriv (R : ℕ) {y : ℝ} (hy : y = 0 ∨ (Real.sin (y / 2) ≠ 0 ∧ |1 / 2 * y / Real.pi| > 1 / 10 ^ 12)) :
    HasDerivAt (kernelF R) (kernelD R y) y := by
  have hpi := Real.pi_pos
  rcases hy with rfl | ⟨hs, hv⟩
  · have hz : kernelD R 0 = 0 := by simp [kernelD, sincDerivative]
    rw [hz]
    have hd := (dirichlet_deriv R 0).div_const (2 * (R : ℝ) + 1)
    have : (2 * ∑ k ∈ Finset.range R, -(Real.sin ((k + 1 : ℕ) * (0 : ℝ)) * (k + 1 : ℕ))) / (2 * (R : ℝ) + 1) = 0 := by simp
    rw [this] at hd
    refine hd.congr_of_eventuallyEq ?_
    have hn : Set.Ioo (-(2 * Real.pi)) (2 * Real.pi) ∈ nhds (0 : ℝ) := Ioo_mem_nhds (by linarith) (by linarith)
    filter_upwards [hn] with u hu
    refine kernelF_eq R ?_
    by_cases h0 : u = 0
    · exact Or.inl h0
    · exact Or.inr (half_sin_ne h0 (abs_lt.2 ⟨hu.1, hu.2⟩))
  · have h0 : y ≠ 0 := by rintro rfl; simp at hs
    have hu : |(2 * (R : ℝ) + 1) / 2 * y / Real.pi| > 1 / 10 ^ 12 := by
      refine lt_of_lt_of_le hv ?_
      have e : (2 * (R : ℝ) + 1) / 2 * y / Real.pi = (2 * R + 1) * (1 / 2 * y / Real.pi) := by ring
      rw [e, abs_mul]
      have h1 : (1 : ℝ) ≤ |2 * (R : ℝ) + 1| := by
        rw [abs_of_pos (by positivity)]
        have := Nat.cast_nonneg (α := ℝ) R
        linarith
      nlinarith [abs_nonneg (1 / 2 * y / Real.pi)]
    have hne : npSinc (1 / 2 * y / Real.pi) ≠ 0 := by
      unfold npSinc
      rw [if_neg (by positivity)]
      have e2 : Real.pi * (1 / 2 * y / Real.pi) = y / 2 := by field_simp
      rw [e2]
      exact div_ne_zero hs (by positivity)
    have d1 : HasDerivAt (fun y : ℝ => (2 * (R : ℝ) + 1) / 2 * y / Real.pi) ((2 * (R : ℝ) + 1) / 2 / Real.pi) y := by
      simpa using ((hasDerivAt_id y).const_mul ((2 * (R : ℝ) + 1) / 2)).div_const Real.pi
    have d2 : HasDerivAt (fun y : ℝ => 1 / 2 * y / Real.pi) (1 / 2 / Real.pi) y := by
      simpa using ((hasDerivAt_id y).const_mul (1 / 2 : ℝ)).div_const Real.pi
    have c1 := (npSinc_deriv hu).comp y d1
    have c2 := (npSinc_deriv hv).comp y d2
    exact c1.div c2 hne

end SQ
