import Verif.Spec.UccEnv
import Verif.Lemmas.Excitations
import Mathlib.Algebra.QuadraticDiscriminant

/-! # Lengths of states and bounds of operators -/

namespace SQ

theorem inner_self_nonneg (x : Fock ℝ) : 0 ≤ inner x x := by
  unfold inner
  refine Finset.sum_nonneg fun S _ => ?_
  exact mul_self_nonneg (coeff x S)

theorem inner_le (x y : Fock ℝ) : inner x y ≤ fockNorm x * fockNorm y := by
  have h : ∀ t : ℝ, 0 ≤ inner y y * (t * t) + 2 * inner x y * t + inner x x := fun t => by
    have := inner_self_nonneg (x + t • y)
    rw [inner_add_left, inner_add_right, inner_add_right, inner_smul_left, inner_smul_left, inner_smul_right,
      inner_smul_right, inner_comm y x] at this
    linarith
  have hd := discrim_le_zero h
  unfold discrim at hd
  unfold fockNorm
  rw [← Real.sqrt_mul (inner_self_nonneg x)]
  refine Real.le_sqrt_of_sq_le ?_
  nlinarith

theorem fockNorm_sq (x : Fock ℝ) : fockNorm x ^ 2 = inner x x := Real.sq_sqrt (inner_self_nonneg x)

theorem fockNorm_nonneg (x : Fock ℝ) : 0 ≤ fockNorm x := Real.sqrt_nonneg _

theorem fockNorm_add (x y : Fock ℝ) : fockNorm (x + y) ≤ fockNorm x + fockNorm y := by
  refine le_of_sq_le_sq ?_ (add_nonneg (fockNorm_nonneg x) (fockNorm_nonneg y))
  rw [fockNorm_sq, inner_add_left, inner_add_right, inner_add_right, inner_comm y x, add_sq, fockNorm_sq, fockNorm_sq]
  have := inner_le x y
  linarith

theorem fockNorm_smul (c : ℝ) (x : Fock ℝ) : fockNorm (c • x) = |c| * fockNorm x := by
  unfold fockNorm
  rw [inner_smul_left, inner_smul_right, ← mul_assoc, Real.sqrt_mul (mul_self_nonneg c), Real.sqrt_mul_self_eq_abs]

/-- A vector that has the same product with itself as with `y` is not longer than `y`. -/
theorem inner_proj_le {x y : Fock ℝ} (h : inner x x = inner x y) : inner x x ≤ inner y y := by
  have := inner_self_nonneg (x - y)
  rw [inner_sub_left, inner_sub_right, inner_sub_right, inner_comm y x, ← h] at this
  linarith

/-- The operator makes no state longer than `b` times its length. -/
def OpBound (T : FOp ℝ) (b : ℝ) : Prop := 0 ≤ b ∧ ∀ x : Fock ℝ, fockNorm (T x) ≤ b * fockNorm x

theorem OpBound.mono {T : FOp ℝ} {a b : ℝ} (h : OpBound T a) (hb : a ≤ b) : OpBound T b :=
  ⟨h.1.trans hb, fun x => (h.2 x).trans (mul_le_mul_of_nonneg_right hb (fockNorm_nonneg x))⟩

theorem OpBound.add {S T : FOp ℝ} {a b : ℝ} (h : OpBound S a) (k : OpBound T b) : OpBound (S + T) (a + b) :=
  ⟨add_nonneg h.1 k.1, fun x => by
    rw [LinearMap.add_apply, add_mul]
    exact (fockNorm_add _ _).trans (add_le_add (h.2 x) (k.2 x))⟩

theorem OpBound.smul {T : FOp ℝ} {b : ℝ} (h : OpBound T b) (c : ℝ) : OpBound (c • T) (|c| * b) :=
  ⟨mul_nonneg (abs_nonneg c) h.1, fun x => by
    rw [LinearMap.smul_apply, fockNorm_smul, mul_assoc]
    exact mul_le_mul_of_nonneg_left (h.2 x) (abs_nonneg c)⟩

theorem OpBound.sub {S T : FOp ℝ} {a b : ℝ} (h : OpBound S a) (k : OpBound T b) : OpBound (S - T) (a + b) := by
  have := h.add (k.smul (-1))
  rw [abs_neg, abs_one, one_mul] at this
  have e : S - T = S + (-1 : ℝ) • T := by rw [neg_smul, one_smul, sub_eq_add_neg]
  rwa [e]

theorem OpBound.mul {S T : FOp ℝ} {a b : ℝ} (h : OpBound S a) (k : OpBound T b) : OpBound (S * T) (a * b) :=
  ⟨mul_nonneg h.1 k.1, fun x => by
    rw [Module.End.mul_apply, mul_assoc]
    exact (h.2 _).trans (mul_le_mul_of_nonneg_left (k.2 x) h.1)⟩

theorem ladder_norm (p : ℕ) (x : Fock ℝ) : inner (cr p x) (cr p x) + inner (an p x) (an p x) = inner x x := by
  have h1 : inner (cr p x) (cr p x) = inner x ((an p * cr p : FOp ℝ) x) := adjoint_cr p x _
  have h2 : inner (an p x) (an p x) = inner x ((cr p * an p : FOp ℝ) x) := adjoint_an p x _
  rw [h1, h2, ← inner_add_right, ← LinearMap.add_apply, an_cr_self, sub_add_cancel]
  rfl

theorem opBound_cr (p : ℕ) : OpBound (cr p) 1 :=
  ⟨zero_le_one, fun x => by
    rw [one_mul]
    exact Real.sqrt_le_sqrt (by have := ladder_norm p x; have := inner_self_nonneg (an p x); linarith)⟩

theorem opBound_an (p : ℕ) : OpBound (an p) 1 :=
  ⟨zero_le_one, fun x => by
    rw [one_mul]
    exact Real.sqrt_le_sqrt (by have := ladder_norm p x; have := inner_self_nonneg (cr p x); linarith)⟩

theorem opBound_one : OpBound 1 1 := ⟨zero_le_one, fun x => by rw [one_mul]; rfl⟩

theorem opBound_prod {l : List (FOp ℝ)} (h : ∀ T ∈ l, OpBound T 1) : OpBound l.prod 1 := by
  induction l with
  | nil => exact opBound_one
  | cons T l ih =>
    rw [List.prod_cons]
    have := (h T List.mem_cons_self).mul (ih fun S hS => h S (List.mem_cons_of_mem _ hS))
    rwa [one_mul] at this

theorem opBound_excite (C A : List ℕ) : OpBound (excite C A) 1 := by
  have h1 : OpBound (C.map (cr (R := ℝ))).prod 1 := opBound_prod fun T hT => by
    obtain ⟨p, -, rfl⟩ := List.mem_map.1 hT
    exact opBound_cr p
  have h2 : OpBound (A.map (an (R := ℝ))).prod 1 := opBound_prod fun T hT => by
    obtain ⟨p, -, rfl⟩ := List.mem_map.1 hT
    exact opBound_an p
  have := h1.mul h2
  rwa [one_mul] at this

theorem opBound_E (p q : ℕ) : OpBound (E p q) 2 := by
  unfold E
  refine (((opBound_cr _).mul (opBound_an _)).add ((opBound_cr _).mul (opBound_an _))).mono (by norm_num)

/-- Every operator of a layout, with the prefactor of the UCC operator, is bounded by 8. -/
theorem excitation_bound {off n : ℕ} {ty : String} {ix : List ℕ} {T : FOp ℝ} (h : Excitation off n ty ix T) :
    OpBound (uccFactor ty • T) 8 := by
  have hf : |uccFactor ty| ≤ 1 := by
    unfold uccFactor
    split_ifs
    · rw [abs_of_nonneg (by positivity)]
      exact inv_le_one_of_one_le₀ (Real.one_le_sqrt.2 (by norm_num))
    · simp
  have key : ∀ {b}, OpBound T b → b ≤ 8 → OpBound (uccFactor ty • T) 8 := fun {b} hb h8 =>
    (hb.smul _).mono (by
      calc |uccFactor ty| * b ≤ 1 * b := mul_le_mul_of_nonneg_right hf hb.1
        _ ≤ 8 := by rw [one_mul]; exact h8)
  have h2 : |(Real.sqrt 2)⁻¹| ≤ 1 := by
    rw [abs_of_nonneg (by positivity)]
    exact inv_le_one_of_one_le₀ (Real.one_le_sqrt.2 (by norm_num))
  have h3 : |1 / (2 * Real.sqrt 3)| ≤ 1 / 2 := by
    rw [abs_of_nonneg (by positivity)]
    have : (1 : ℝ) ≤ Real.sqrt 3 := Real.one_le_sqrt.2 (by norm_num)
    exact one_div_le_one_div_of_le (by norm_num) (by linarith)
  have EE : ∀ a b c d : ℕ, OpBound (E a b * E c d) 4 := fun a b c d =>
    ((opBound_E a b).mul (opBound_E c d)).mono (by norm_num)
  clear hf
  cases h with
  | spin k hk I A hI hA hr hs => exact key ((opBound_excite _ _).sub (opBound_excite _ _)) (by norm_num)
  | saSingle i a hr => exact key ((opBound_E _ _).sub (opBound_E _ _)) (by norm_num)
  | saDouble1 i a hd hr => exact key (((EE _ _ _ _).sub (EE _ _ _ _)).smul _) (by norm_num)
  | saDouble2 i a b hd hr => exact key (((EE _ _ _ _).sub (EE _ _ _ _)).smul _) (by linarith)
  | saDouble3 i j a hd hr => exact key (((EE _ _ _ _).sub (EE _ _ _ _)).smul _) (by linarith)
  | saDouble4 i j a b hd hr =>
    exact key ((((EE _ _ _ _).add (EE _ _ _ _)).sub ((EE _ _ _ _).add (EE _ _ _ _))).smul _) (by norm_num)
  | saDouble5 i j a b hd hr =>
    exact key ((((EE _ _ _ _).sub (EE _ _ _ _)).sub ((EE _ _ _ _).sub (EE _ _ _ _))).smul _) (by linarith)

end SQ
