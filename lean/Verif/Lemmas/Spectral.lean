import Verif.Spec.Exponential
import Verif.Lemmas.Fock
import Mathlib.Analysis.SpecialFunctions.Trigonometric.Series
import Mathlib.Topology.Algebra.InfiniteSum.NatInt

/-! # Exponentials of operators with finitely many frequencies -/

namespace SQ

/-- `T` is the sum of the operators `Q k`, on each of which `T²` acts as `-(s k)²`. -/
structure Freq {m : ℕ} (T : FOp ℝ) (s : Fin m → ℝ) (Q : Fin m → FOp ℝ) : Prop where
  ne : ∀ k, s k ≠ 0
  distinct : ∀ k l, k ≠ l → s k ^ 2 ≠ s l ^ 2
  sum : ∑ k, Q k = T
  sq : ∀ k, T * (T * Q k) = -(s k ^ 2) • Q k
  comm : ∀ k, Q k * T = T * Q k

/-- The closed form of the exponential. -/
noncomputable def uSpec {m : ℕ} (T : FOp ℝ) (s : Fin m → ℝ) (Q : Fin m → FOp ℝ) (θ : ℝ) : FOp ℝ :=
  1 + ∑ k, ((Real.sin (s k * θ) / s k) • Q k + ((1 - Real.cos (s k * θ)) / s k ^ 2) • (T * Q k))

variable {m : ℕ} {T : FOp ℝ} {s : Fin m → ℝ} {Q : Fin m → FOp ℝ}

theorem Freq.pow_odd (h : Freq T s Q) (j : ℕ) : T ^ (2 * j + 1) = ∑ k, (-(s k ^ 2)) ^ j • Q k := by
  induction j with
  | zero => simp [h.sum]
  | succ j ih =>
    rw [show 2 * (j + 1) + 1 = (2 * j + 1) + 1 + 1 by ring, pow_succ', pow_succ', ih,
      Finset.mul_sum, Finset.mul_sum]
    refine Finset.sum_congr rfl fun k _ => ?_
    rw [mul_smul_comm, mul_smul_comm, h.sq, smul_smul, ← pow_succ]

theorem Freq.pow_even (h : Freq T s Q) (j : ℕ) :
    T ^ (2 * j + 2) = ∑ k, (-(s k ^ 2)) ^ j • (T * Q k) := by
  rw [show 2 * j + 2 = (2 * j + 1) + 1 by ring, pow_succ', h.pow_odd, Finset.mul_sum]
  refine Finset.sum_congr rfl fun k _ => ?_
  rw [mul_smul_comm]

theorem coeff_fsum {ι : Type*} (t : Finset ι) (f : ι → Fock ℝ) (S : Finset ℕ) :
    coeff (∑ i ∈ t, f i) S = ∑ i ∈ t, coeff (f i) S := by
  classical
  induction t using Finset.induction_on with
  | empty => simp [coeff_zero]
  | insert a t ha ih => rw [Finset.sum_insert ha, Finset.sum_insert ha, coeff_add, ih]

theorem hasSum_sin_div {a : ℝ} (ha : a ≠ 0) (θ : ℝ) :
    HasSum (fun j : ℕ => θ ^ (2 * j + 1) / ((2 * j + 1).factorial : ℝ) * (-(a ^ 2)) ^ j)
      (Real.sin (a * θ) / a) := by
  have := (Real.hasSum_sin (a * θ)).div_const a
  refine (congrArg (HasSum · _) (funext fun j => ?_)).mpr this
  have : (-(a ^ 2)) ^ j = (-1) ^ j * a ^ (2 * j) := by
    rw [neg_eq_neg_one_mul, mul_pow, pow_mul]
  rw [this, mul_pow, pow_succ a (2 * j)]
  field_simp

theorem hasSum_cos_div {a : ℝ} (ha : a ≠ 0) (θ : ℝ) :
    HasSum (fun j : ℕ => θ ^ (2 * j + 2) / ((2 * j + 2).factorial : ℝ) * (-(a ^ 2)) ^ j)
      ((1 - Real.cos (a * θ)) / a ^ 2) := by
  have h0 := Real.hasSum_cos (a * θ)
  have h1 := (hasSum_nat_add_iff' 1).2 h0
  simp only [Finset.range_one, Finset.sum_singleton, mul_zero, pow_zero, Nat.factorial_zero,
    Nat.cast_one, mul_one, div_one] at h1
  have h2 := h1.neg.div_const (a ^ 2)
  rw [neg_sub] at h2
  refine (congrArg (HasSum · _) (funext fun j => ?_)).mpr h2
  have : (-(a ^ 2)) ^ j = (-1) ^ j * a ^ (2 * j) := by
    rw [neg_eq_neg_one_mul, mul_pow, pow_mul]
  rw [this, mul_pow, show 2 * (j + 1) = 2 * j + 2 by ring, pow_add a (2 * j) 2, pow_succ (-1 : ℝ) j]
  field_simp

theorem Freq.isExp (h : Freq T s Q) (θ : ℝ) : IsExp T θ (uSpec T s Q θ) := by
  intro x S
  set f : ℕ → ℝ := fun k => θ ^ k / (k.factorial : ℝ) * coeff ((T ^ k) x) S with hf
  have hodd : HasSum (fun j : ℕ => f (2 * j + 1))
      (∑ k, (Real.sin (s k * θ) / s k) * coeff (Q k x) S) := by
    have : (fun j : ℕ => f (2 * j + 1)) = fun j : ℕ => ∑ k, θ ^ (2 * j + 1) /
        ((2 * j + 1).factorial : ℝ) * (-(s k ^ 2)) ^ j * coeff (Q k x) S := by
      funext j
      simp only [hf]
      rw [h.pow_odd, LinearMap.sum_apply, coeff_fsum, Finset.mul_sum]
      refine Finset.sum_congr rfl fun k _ => ?_
      rw [LinearMap.smul_apply, coeff_smul]; ring
    rw [this]
    exact hasSum_sum fun k _ => (hasSum_sin_div (h.ne k) θ).mul_right _
  have heven : HasSum (fun j : ℕ => f (2 * j + 2))
      (∑ k, ((1 - Real.cos (s k * θ)) / s k ^ 2) * coeff ((T * Q k) x) S) := by
    have : (fun j : ℕ => f (2 * j + 2)) = fun j : ℕ => ∑ k, θ ^ (2 * j + 2) /
        ((2 * j + 2).factorial : ℝ) * (-(s k ^ 2)) ^ j * coeff ((T * Q k) x) S := by
      funext j
      simp only [hf]
      rw [h.pow_even, LinearMap.sum_apply, coeff_fsum, Finset.mul_sum]
      refine Finset.sum_congr rfl fun k _ => ?_
      rw [LinearMap.smul_apply, coeff_smul]; ring
    rw [this]
    exact hasSum_sum fun k _ => (hasSum_cos_div (h.ne k) θ).mul_right _
  have htail : HasSum (fun n => f (n + 1)) ((∑ k, (Real.sin (s k * θ) / s k) * coeff (Q k x) S)
      + ∑ k, ((1 - Real.cos (s k * θ)) / s k ^ 2) * coeff ((T * Q k) x) S) := by
    refine HasSum.even_add_odd (f := fun n => f (n + 1)) hodd ?_
    simpa only [add_assoc] using heven
  have hall := (hasSum_nat_add_iff 1).1 htail
  have e0 : f 0 = coeff x S := by simp [hf]
  refine (congrArg (HasSum f) ?_).mpr hall
  rw [Finset.range_one, Finset.sum_singleton, e0, uSpec, LinearMap.add_apply, Module.End.one_apply,
    coeff_add, LinearMap.sum_apply, coeff_fsum, ← Finset.sum_add_distrib, add_comm]
  congr 1

theorem Freq.orth (h : Freq T s Q) {k l : Fin m} (hkl : k ≠ l) : Q k * Q l = 0 := by
  have e1 : T * (T * (Q k * Q l)) = -(s k ^ 2) • (Q k * Q l) := by
    rw [← mul_assoc T (Q k), ← mul_assoc T, h.sq, smul_mul_assoc]
  have e2 : T * (T * (Q k * Q l)) = -(s l ^ 2) • (Q k * Q l) := by
    rw [← mul_assoc T (Q k), ← h.comm k, mul_assoc, ← mul_assoc T (Q k), ← h.comm k, mul_assoc, h.sq,
      mul_smul_comm]
  have e3 : (s k ^ 2 - s l ^ 2) • (Q k * Q l) = 0 := by
    rw [sub_smul, sub_eq_zero]
    have := e1.symm.trans e2
    rw [neg_smul, neg_smul, neg_inj] at this
    exact this
  rcases smul_eq_zero.1 e3 with h0 | h0
  · exact absurd (sub_eq_zero.1 h0) (h.distinct k l hkl)
  · exact h0

theorem Freq.self (h : Freq T s Q) (k : Fin m) : Q k * Q k = T * Q k := by
  rw [← h.comm k, ← h.sum, Finset.mul_sum, Finset.sum_eq_single k]
  · intro l _ hl; exact h.orth hl.symm
  · simp

/-- Contribution of one frequency. -/
noncomputable def uPart (T : FOp ℝ) (a : ℝ) (q : FOp ℝ) (θ : ℝ) : FOp ℝ :=
  (Real.sin (a * θ) / a) • q + ((1 - Real.cos (a * θ)) / a ^ 2) • (T * q)

theorem uSpec_eq (θ : ℝ) : uSpec T s Q θ = 1 + ∑ k, uPart T (s k) (Q k) θ := rfl

theorem Freq.part_orth (h : Freq T s Q) {k l : Fin m} (hkl : k ≠ l) (θ φ : ℝ) :
    uPart T (s k) (Q k) θ * uPart T (s l) (Q l) φ = 0 := by
  have o := h.orth hkl
  have o1 : Q k * (T * Q l) = 0 := by rw [← mul_assoc, h.comm, mul_assoc, o, mul_zero]
  have o2 : (T * Q k) * Q l = 0 := by rw [mul_assoc, o, mul_zero]
  have o3 : (T * Q k) * (T * Q l) = 0 := by rw [mul_assoc, o1, mul_zero]
  unfold uPart
  rw [mul_add, add_mul, add_mul]
  simp only [smul_mul_smul_comm, o, o1, o2, o3, smul_zero, add_zero]

theorem Freq.part_mul (h : Freq T s Q) (k : Fin m) (θ φ : ℝ) :
    uPart T (s k) (Q k) θ * uPart T (s k) (Q k) φ
      = uPart T (s k) (Q k) (θ + φ) - uPart T (s k) (Q k) θ - uPart T (s k) (Q k) φ := by
  have o := h.self k
  have o1 : Q k * (T * Q k) = -(s k ^ 2) • Q k := by
    rw [← mul_assoc, h.comm, mul_assoc, o, h.sq]
  have o2 : (T * Q k) * Q k = -(s k ^ 2) • Q k := by rw [mul_assoc, o, h.sq]
  have o3 : (T * Q k) * (T * Q k) = -(s k ^ 2) • (T * Q k) := by
    rw [mul_assoc, o1, mul_smul_comm]
  unfold uPart
  rw [mul_add, add_mul, add_mul]
  simp only [smul_mul_smul_comm, o, o1, o2, o3, smul_smul, mul_add (s k), Real.sin_add, Real.cos_add]
  have hk := h.ne k
  have e : ∀ a b c d e f g h' : ℝ, a = g - c - e → b = h' - d - f →
      a • Q k + b • (T * Q k) = g • Q k + h' • (T * Q k) - (c • Q k + d • (T * Q k))
        - (e • Q k + f • (T * Q k)) := by
    intro a b c d e f g h' ha hb
    subst ha hb
    module
  have e2 : ∀ a b c d : ℝ, a • (T * Q k) + b • Q k + (c • Q k + d • (T * Q k))
      = (b + c) • Q k + (a + d) • (T * Q k) := by intros; module
  rw [e2]
  apply e
  · field_simp; ring
  · field_simp; ring

/-- One-parameter group. -/
theorem Freq.group (h : Freq T s Q) (θ φ : ℝ) :
    uSpec T s Q θ * uSpec T s Q φ = uSpec T s Q (θ + φ) := by
  have e : (∑ k, uPart T (s k) (Q k) θ) * (∑ k, uPart T (s k) (Q k) φ)
      = ∑ k, uPart T (s k) (Q k) (θ + φ) - ∑ k, uPart T (s k) (Q k) θ - ∑ k, uPart T (s k) (Q k) φ := by
    rw [← Finset.sum_sub_distrib, ← Finset.sum_sub_distrib, Finset.sum_mul]
    refine Finset.sum_congr rfl fun k _ => ?_
    rw [Finset.mul_sum, Finset.sum_eq_single k, h.part_mul]
    · intro l _ hl; exact h.part_orth hl.symm θ φ
    · simp
  rw [uSpec_eq, uSpec_eq, uSpec_eq]
  generalize (∑ k, uPart T (s k) (Q k) θ) = A at *
  generalize (∑ k, uPart T (s k) (Q k) φ) = B at *
  generalize (∑ k, uPart T (s k) (Q k) (θ + φ)) = C at *
  rw [mul_add, add_mul, add_mul, e, one_mul, mul_one, one_mul]
  abel

theorem uSpec_zero : uSpec T s Q 0 = 1 := by simp [uSpec]

theorem isAdjoint_sum {ι : Type*} (t : Finset ι) (f g : ι → FOp ℝ)
    (h : ∀ i ∈ t, IsAdjoint (f i) (g i)) : IsAdjoint (∑ i ∈ t, f i) (∑ i ∈ t, g i) := by
  classical
  induction t using Finset.induction_on with
  | empty => simpa using isAdjoint_zero
  | insert a t ha ih =>
    rw [Finset.sum_insert ha, Finset.sum_insert ha]
    exact (h a (by simp)).add (ih fun i hi => h i (by simp [hi]))

/-- The adjoint is the exponential of the opposite angle. -/
theorem Freq.adjoint (h : Freq T s Q) (hT : IsAdjoint T (-T)) (hQ : ∀ k, IsAdjoint (Q k) (-Q k))
    (θ : ℝ) : IsAdjoint (uSpec T s Q θ) (uSpec T s Q (-θ)) := by
  unfold uSpec
  refine isAdjoint_one.add (isAdjoint_sum _ _ _ fun k _ => ?_)
  have h1 : IsAdjoint (T * Q k) (T * Q k) := by
    have := hT.mul (hQ k)
    rwa [neg_mul_neg, h.comm] at this
  have h2 := ((hQ k).smul (Real.sin (s k * θ) / s k)).add
    (h1.smul ((1 - Real.cos (s k * θ)) / s k ^ 2))
  simpa only [mul_neg, Real.sin_neg, Real.cos_neg, neg_div, neg_smul, smul_neg] using h2

end SQ
