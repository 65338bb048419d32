import Verif.Lemmas.Fock
import Verif.Spec.Excitations

/-! # Lemmas about excitation operators -/

namespace SQ

variable {R : Type*} [CommRing R]

theorem four_ladder (p q r s : ℕ) :
    (cr p * an q * (cr r * an s) : FOp R)
      = (if q = r then cr p * an s else 0) + cr p * cr r * an s * an q := by
  have h1 : (cr p * an q * (cr r * an s) : FOp R) = cr p * (an q * cr r) * an s := by
    simp only [mul_assoc]
  have h2 : (cr p * cr r * an s * an q : FOp R) = - (cr p * cr r * (an q * an s)) := by
    rw [an_an q s]; simp only [mul_assoc, mul_neg, neg_neg]
  rw [h1, an_cr, h2]
  split
  · simp only [mul_sub, sub_mul, mul_one, mul_assoc]; abel
  · simp only [mul_sub, sub_mul, mul_zero, zero_mul, mul_assoc]; abel

theorem E_mul_E (p q r s : ℕ) : (E p q * E r s : FOp R) = e p q r s + (delta q r : R) • E p s := by
  unfold E e delta
  simp only [add_mul, mul_add, four_ladder]
  by_cases h : q = r
  · subst h
    have h1 : ¬ (2 * q = 2 * q + 1) := by omega
    have h2 : ¬ (2 * q + 1 = 2 * q) := by omega
    simp only [if_true, h1, h2, if_false, one_smul]
    abel
  · have h1 : ¬ (2 * q = 2 * r) := by omega
    have h2 : ¬ (2 * q + 1 = 2 * r) := by omega
    have h3 : ¬ (2 * q = 2 * r + 1) := by omega
    have h4 : ¬ (2 * q + 1 = 2 * r + 1) := by omega
    simp only [h, h1, h2, h3, h4, if_false, zero_smul]
    abel

theorem pair_swap (p q r s : ℕ) :
    (cr p * cr r * an s * an q : FOp R) = cr r * cr p * an q * an s := by
  rw [cr_cr p r]
  have : (an s * an q : FOp R) = - (an q * an s) := an_an s q
  simp only [mul_assoc, neg_mul, this, mul_neg, neg_neg]

/-- `e_pqrs = e_rspq`. -/
theorem e_symm (p q r s : ℕ) : (e p q r s : FOp R) = e r s p q := by
  unfold e
  rw [pair_swap (2 * p) (2 * q) (2 * r) (2 * s), pair_swap (2 * p) (2 * q) (2 * r + 1) (2 * s + 1),
    pair_swap (2 * p + 1) (2 * q + 1) (2 * r) (2 * s),
    pair_swap (2 * p + 1) (2 * q + 1) (2 * r + 1) (2 * s + 1)]
  abel

/-- `[E_pq, E_rs] = δ_qr E_ps - δ_ps E_rq`. -/
theorem E_comm (p q r s : ℕ) :
    (E p q * E r s - E r s * E p q : FOp R) = (delta q r : R) • E p s - (delta s p : R) • E r q := by
  rw [E_mul_E, E_mul_E, e_symm r s p q]; abel

theorem adjoint_E (p q : ℕ) : IsAdjoint (E p q : FOp R) (E q p) := by
  unfold E
  exact ((adjoint_cr _).mul (adjoint_an _)).add ((adjoint_cr _).mul (adjoint_an _))

theorem adjoint_e (p q r s : ℕ) : IsAdjoint (e p q r s : FOp R) (e q p s r) := by
  have h := ((adjoint_E (R := R) p q).mul (adjoint_E r s)).sub ((adjoint_E p s).smul (delta q r : R))
  have e1 : (E p q * E r s - (delta q r : R) • E p s : FOp R) = e p q r s := by rw [E_mul_E]; abel
  have e2 : (E s r * E q p - (delta q r : R) • E s p : FOp R) = e q p s r := by
    rw [E_mul_E, e_symm]
    have : (delta r q : R) = delta q r := by simp [delta, eq_comm]
    rw [this]; abel
  rw [e1, e2] at h; exact h

/-! ### Weights -/

/-- `T` changes the weight of every determinant by exactly `d`. -/
def Shift (w : ℕ → ℤ) (T : FOp R) (d : ℤ) : Prop :=
  ∀ S S' : Finset ℕ, coeff (T (sgl S 1)) S' ≠ 0 → weight w S' = weight w S + d

theorem shift_an (w : ℕ → ℤ) (p : ℕ) : Shift w (an p : FOp R) (- w p) := by
  intro S S' h
  rw [an_single] at h
  split at h
  · next hp =>
    rw [coeff_sgl] at h
    split at h
    · next e =>
      subst e
      unfold weight
      have := Finset.sum_erase_add S w hp
      omega
    · simp at h
  · simp at h

theorem shift_cr (w : ℕ → ℤ) (p : ℕ) : Shift w (cr p : FOp R) (w p) := by
  intro S S' h
  rw [cr_single] at h
  split at h
  · simp at h
  · next hp =>
    rw [coeff_sgl] at h
    split at h
    · next e =>
      subst e
      unfold weight
      rw [Finset.sum_insert hp]; omega
    · simp at h

/-- Coefficient functional. -/
noncomputable def coeffL (S : Finset ℕ) : Fock R →ₗ[R] R where
  toFun x := coeff x S
  map_add' x y := coeff_add x y S
  map_smul' c x := by simp

/-- If all determinants of `x` are mapped by `T` to vectors with vanishing `S'` coefficient then so
is `x`. -/
theorem coeff_apply_eq_zero {T : FOp R} {x : Fock R} {S' : Finset ℕ}
    (h : ∀ S, coeff x S ≠ 0 → coeff (T (sgl S 1)) S' = 0) : coeff (T x) S' = 0 := by
  have key : ∀ y : Finset ℕ →₀ R, (∀ S, y S ≠ 0 → coeff (T (sgl S 1)) S' = 0) →
      coeff (T (show Fock R from y)) S' = 0 := by
    intro y hy
    have e : (show Fock R from y) = ∑ S ∈ y.support, (y S) • (sgl S 1 : Fock R) := by
      have h2 : y = ∑ S ∈ y.support, Finsupp.single S (y S) := (Finsupp.sum_single y).symm
      have h3 : ∀ S, ((y S) • (sgl S 1 : Fock R)) = (Finsupp.single S (y S) : Finset ℕ →₀ R) := by
        intro S; rw [smul_sgl, mul_one]; rfl
      simp only [h3]
      exact h2
    rw [e, map_sum]
    have : coeff (∑ S ∈ y.support, T ((y S) • sgl S 1)) S'
        = ∑ S ∈ y.support, coeff (T ((y S) • (sgl S 1 : Fock R))) S' :=
      map_sum (coeffL (R := R) S') _ _
    rw [this]
    apply Finset.sum_eq_zero
    intro S hS
    rw [map_smul, coeff_smul, hy S (by simpa using hS), mul_zero]
  exact key x h

theorem Shift.mul {w : ℕ → ℤ} {A B : FOp R} {a b : ℤ} (hA : Shift w A a) (hB : Shift w B b) :
    Shift w (A * B) (a + b) := by
  intro S S' h
  by_contra hne
  apply h
  rw [Module.End.mul_apply]
  apply coeff_apply_eq_zero
  intro T hT
  by_contra h2
  have h3 := hB S T hT
  have h4 := hA T S' h2
  omega

theorem Shift.add {w : ℕ → ℤ} {A B : FOp R} {a : ℤ} (hA : Shift w A a) (hB : Shift w B a) :
    Shift w (A + B) a := by
  intro S S' h
  rw [LinearMap.add_apply, coeff_add] at h
  by_cases h1 : coeff (A (sgl S 1)) S' = 0
  · exact hB S S' (by rw [h1, zero_add] at h; exact h)
  · exact hA S S' h1

theorem Shift.smul {w : ℕ → ℤ} {A : FOp R} {a : ℤ} (c : R) (hA : Shift w A a) :
    Shift w (c • A) a := by
  intro S S' h
  rw [LinearMap.smul_apply, coeff_smul] at h
  exact hA S S' (right_ne_zero_of_mul h)

theorem Shift.neg {w : ℕ → ℤ} {A : FOp R} {a : ℤ} (hA : Shift w A a) : Shift w (-A) a := by
  have := hA.smul (-1); simpa using this

theorem Shift.sub {w : ℕ → ℤ} {A B : FOp R} {a : ℤ} (hA : Shift w A a) (hB : Shift w B a) :
    Shift w (A - B) a := by rw [sub_eq_add_neg]; exact hA.add hB.neg

theorem shift_zero (w : ℕ → ℤ) (a : ℤ) : Shift w (0 : FOp R) a := by
  intro S S' h; simp at h

theorem shift_one (w : ℕ → ℤ) : Shift w (1 : FOp R) 0 := by
  intro S S' h
  rw [Module.End.one_apply, coeff_sgl] at h
  split at h
  · next e => subst e; omega
  · simp at h

/-- Weight change of a string. -/
def strWeight (w : ℕ → ℤ) (s : List (ℕ × Bool)) : ℤ :=
  (s.map fun o => if o.2 then w o.1 else - w o.1).sum

theorem shift_strOp (w : ℕ → ℤ) (s : List (ℕ × Bool)) : Shift w (strOp s : FOp R) (strWeight w s) := by
  induction s with
  | nil => simpa [strWeight] using shift_one w
  | cons o t ih =>
    rw [strOp_cons]
    have : strWeight w (o :: t) = (if o.2 then w o.1 else - w o.1) + strWeight w t := by
      simp [strWeight]
    rw [this]
    refine Shift.mul ?_ ih
    unfold ladder
    split
    · exact shift_cr w _
    · exact shift_an w _

/-- Matrix elements between states of the wrong weights vanish. -/
theorem inner_eq_zero_of_shift {w : ℕ → ℤ} {T : FOp R} {d a b : ℤ} (hT : Shift w T d)
    {x y : Fock R} (hx : ∀ S, coeff x S ≠ 0 → weight w S = a)
    (hy : ∀ S, coeff y S ≠ 0 → weight w S = b) (hne : a ≠ b + d) : inner x (T y) = 0 := by
  unfold inner
  apply Finset.sum_eq_zero
  intro S hS
  have h1 : coeff x S ≠ 0 := Finsupp.mem_support_iff.1 hS
  have : coeff (T y) S = 0 := by
    apply coeff_apply_eq_zero
    intro S0 h0
    by_contra h2
    have := hT S0 S h2
    rw [hx S h1, hy S0 h0] at this
    exact hne this
  change (_ : R) * coeff (T y) S = 0
  rw [this, mul_zero]

theorem shift_E (w : ℕ → ℤ) (p q : ℕ) (hp : w (2 * p + 1) = w (2 * p)) (hq : w (2 * q + 1) = w (2 * q)) :
    Shift w (E p q : FOp R) (w (2 * p) - w (2 * q)) := by
  unfold E
  refine Shift.add ?_ ?_
  · exact (shift_cr w _).mul (shift_an w _)
  · have := (shift_cr (R := R) w (2 * p + 1)).mul (shift_an w (2 * q + 1))
    rw [hp, hq] at this; exact this

theorem shift_E_spin (w : ℕ → ℤ) (p q : ℕ) (h0 : w (2 * p) = w (2 * q))
    (h1 : w (2 * p + 1) = w (2 * q + 1)) : Shift w (E p q : FOp R) 0 := by
  unfold E
  refine Shift.add ?_ ?_
  · have := (shift_cr (R := R) w (2 * p)).mul (shift_an w (2 * q))
    rw [h0] at this; simpa using this
  · have := (shift_cr (R := R) w (2 * p + 1)).mul (shift_an w (2 * q + 1))
    rw [h1] at this; simpa using this

end SQ
