import Verif.Spec.Fock
import Mathlib.Tactic.Ring
import Mathlib.Tactic.Abel
import Mathlib.Tactic.LinearCombination
import Mathlib.Tactic.NoncommRing
import Mathlib.Algebra.Group.Nat.Even
import Mathlib.LinearAlgebra.BilinearMap

/-! # Anticommutation relations of the Fock-space operators -/

namespace SQ

variable {R : Type*} [CommRing R]

theorem liftOp_single (f : Finset ℕ → Fock R) (S : Finset ℕ) (c : R) :
    liftOp f (sgl S c) = c • f S :=
  Finsupp.linearCombination_single R c S

@[simp] theorem smul_sgl (c d : R) (S : Finset ℕ) : c • (sgl S d : Fock R) = sgl S (c * d) :=
  Finsupp.smul_single c S d

theorem sgl_neg (S : Finset ℕ) (d : R) : (sgl S (-d) : Fock R) = - sgl S d :=
  Finsupp.single_neg S d

@[simp] theorem sgl_zero (S : Finset ℕ) : (sgl S 0 : Fock R) = 0 := Finsupp.single_zero S

theorem sgl_add (S : Finset ℕ) (c d : R) : (sgl S (c + d) : Fock R) = sgl S c + sgl S d :=
  Finsupp.single_add S c d

@[simp] theorem coeff_add (x y : Fock R) (S) : coeff (x + y) S = coeff x S + coeff y S := rfl
@[simp] theorem coeff_smul (c : R) (x : Fock R) (S) : coeff (c • x) S = c * coeff x S := rfl
@[simp] theorem coeff_zero (S) : coeff (0 : Fock R) S = 0 := rfl
@[simp] theorem coeff_neg (x : Fock R) (S) : coeff (-x) S = - coeff x S := rfl
@[simp] theorem coeff_sub (x y : Fock R) (S) : coeff (x - y) S = coeff x S - coeff y S := by
  rw [sub_eq_add_neg, coeff_add, coeff_neg, sub_eq_add_neg]
theorem coeff_sgl (S T : Finset ℕ) (c : R) : coeff (sgl S c) T = if S = T then c else 0 :=
  Finsupp.single_apply

theorem fock_ext {x y : Fock R} (h : ∀ S, coeff x S = coeff y S) : x = y := Finsupp.ext h

theorem an_single (p : ℕ) (S : Finset ℕ) (c : R) :
    an p (sgl S c) = if p ∈ S then sgl (S.erase p) (c * phase S p) else 0 := by
  unfold an
  rw [liftOp_single]
  split <;> simp

theorem cr_single (p : ℕ) (S : Finset ℕ) (c : R) :
    cr p (sgl S c) = if p ∈ S then 0 else sgl (insert p S) (c * phase S p) := by
  unfold cr
  rw [liftOp_single]
  split <;> simp

/-- Linear maps out of Fock space agree when they agree on determinants. -/
theorem fhom_ext {M : Type*} [AddCommGroup M] [Module R M] {A B : Fock R →ₗ[R] M}
    (h : ∀ S : Finset ℕ, A (sgl S 1) = B (sgl S 1)) : A = B := by
  have : (show (Finset ℕ →₀ R) →ₗ[R] M from A) = (show (Finset ℕ →₀ R) →ₗ[R] M from B) := by
    apply Finsupp.lhom_ext'
    intro S
    apply LinearMap.ext_ring
    exact h S
  exact this

theorem fop_ext {A B : FOp R} (h : ∀ S : Finset ℕ, A (sgl S 1) = B (sgl S 1)) :
    A = B := fhom_ext h

theorem phase_sq (S : Finset ℕ) (p : ℕ) : (phase S p : R) * phase S p = 1 := by
  unfold phase; rw [← mul_pow]; simp

theorem filter_lt_erase_self (S : Finset ℕ) (p q : ℕ) (h : ¬ p < q) :
    (S.erase p).filter (· < q) = S.filter (· < q) := by
  ext x; simp only [Finset.mem_filter, Finset.mem_erase]
  constructor
  · rintro ⟨⟨_, h1⟩, h2⟩; exact ⟨h1, h2⟩
  · rintro ⟨h1, h2⟩; exact ⟨⟨fun e => h (e ▸ h2), h1⟩, h2⟩

theorem phase_erase_ge (S : Finset ℕ) (p q : ℕ) (h : ¬ p < q) :
    (phase (S.erase p) q : R) = phase S q := by
  unfold phase; rw [filter_lt_erase_self S p q h]

theorem phase_erase_lt (S : Finset ℕ) (p q : ℕ) (hp : p ∈ S) (h : p < q) :
    (phase (S.erase p) q : R) = - phase S q := by
  unfold phase
  have h1 : (S.erase p).filter (· < q) = (S.filter (· < q)).erase p := by
    ext x; simp only [Finset.mem_filter, Finset.mem_erase]; tauto
  have h2 : p ∈ S.filter (· < q) := by simp [hp, h]
  have h3 := Finset.card_erase_add_one h2
  rw [h1, ← h3, pow_succ]; ring

theorem phase_insert_ge (S : Finset ℕ) (p q : ℕ) (h : ¬ p < q) :
    (phase (insert p S) q : R) = phase S q := by
  unfold phase
  congr 2
  ext x; simp only [Finset.mem_filter, Finset.mem_insert]
  constructor
  · rintro ⟨h1 | h1, h2⟩
    · subst h1; exact absurd h2 h
    · exact ⟨h1, h2⟩
  · rintro ⟨h1, h2⟩; exact ⟨Or.inr h1, h2⟩

theorem phase_insert_lt (S : Finset ℕ) (p q : ℕ) (hp : p ∉ S) (h : p < q) :
    (phase (insert p S) q : R) = - phase S q := by
  have := phase_erase_lt (R := R) (insert p S) p q (Finset.mem_insert_self _ _) h
  rw [Finset.erase_insert hp] at this
  rw [this]; ring

/-- `a_p a_q = - a_q a_p`. -/
theorem an_an (p q : ℕ) : (an p * an q : FOp R) = - (an q * an p) := by
  apply fop_ext; intro S
  simp only [Module.End.mul_apply, LinearMap.neg_apply, an_single]
  by_cases hpq : p = q
  · subst hpq
    by_cases hp : p ∈ S <;> simp [hp, an_single]
  · by_cases hp : p ∈ S <;> by_cases hq : q ∈ S <;>
      simp [hp, hq, an_single, Ne.symm hpq, hpq, Finset.mem_erase]
    rw [Finset.erase_right_comm, ← sgl_neg]
    congr 1
    rcases lt_or_gt_of_ne hpq with h | h
    · rw [phase_erase_ge S q p (by omega), phase_erase_lt S p q hp h]; ring
    · rw [phase_erase_ge S p q (by omega), phase_erase_lt S q p hq h]; ring

theorem cr_cr (p q : ℕ) : (cr p * cr q : FOp R) = - (cr q * cr p) := by
  apply fop_ext; intro S
  simp only [Module.End.mul_apply, LinearMap.neg_apply, cr_single]
  by_cases hpq : p = q
  · subst hpq
    by_cases hp : p ∈ S <;> simp [hp, cr_single]
  · by_cases hp : p ∈ S <;> by_cases hq : q ∈ S <;>
      simp [hp, hq, cr_single, Ne.symm hpq, hpq]
    rw [Finset.insert_comm, ← sgl_neg]
    congr 1
    rcases lt_or_gt_of_ne hpq with h | h
    · rw [phase_insert_ge S q p (by omega), phase_insert_lt S p q hp h]; ring
    · rw [phase_insert_ge S p q (by omega), phase_insert_lt S q p hq h]; ring

theorem an_self (p : ℕ) : (an p * an p : FOp R) = 0 := by
  apply fop_ext; intro S
  simp only [Module.End.mul_apply, an_single]
  by_cases hp : p ∈ S <;> simp [hp, an_single]

theorem cr_self (p : ℕ) : (cr p * cr p : FOp R) = 0 := by
  apply fop_ext; intro S
  simp only [Module.End.mul_apply, cr_single]
  by_cases hp : p ∈ S <;> simp [hp, cr_single]

theorem an_cr_self (p : ℕ) : (an p * cr p : FOp R) = 1 - cr p * an p := by
  apply fop_ext; intro S
  simp only [Module.End.mul_apply, LinearMap.sub_apply, Module.End.one_apply, cr_single, an_single]
  by_cases hp : p ∈ S
  · simp [hp, cr_single, phase_erase_ge, phase_sq]
  · simp [hp, an_single, phase_insert_ge, phase_sq]

theorem an_cr_ne {p q : ℕ} (hpq : p ≠ q) : (an p * cr q : FOp R) = - (cr q * an p) := by
  apply fop_ext; intro S
  simp only [Module.End.mul_apply, LinearMap.neg_apply, cr_single, an_single]
  by_cases hp : p ∈ S <;> by_cases hq : q ∈ S <;>
    simp [hp, hq, cr_single, an_single, Ne.symm hpq, hpq, Finset.mem_erase]
  rw [Finset.erase_insert_of_ne (Ne.symm hpq), ← sgl_neg]
  congr 1
  rcases lt_or_gt_of_ne hpq with h | h
  · rw [phase_insert_ge S q p (by omega), phase_erase_lt S p q hp h]; ring
  · rw [phase_erase_ge S p q (by omega), phase_insert_lt S q p hq h]; ring

theorem an_cr (p q : ℕ) : (an p * cr q : FOp R) = (if p = q then 1 else 0) - cr q * an p := by
  split
  · next h => subst h; exact an_cr_self p
  · next h => rw [an_cr_ne h, zero_sub]

@[simp] theorem strOp_nil : (strOp [] : FOp R) = 1 := rfl
@[simp] theorem strOp_cons (o : ℕ × Bool) (s : List (ℕ × Bool)) :
    (strOp (o :: s) : FOp R) = ladder o * strOp s := by simp [strOp]
@[simp] theorem strOp_append (s t : List (ℕ × Bool)) :
    (strOp (s ++ t) : FOp R) = strOp s * strOp t := by simp [strOp]

@[simp] theorem sumOp_nil : (sumOp [] : FOp R) = 0 := rfl
@[simp] theorem sumOp_cons (kv : List (ℕ × Bool) × R) (d : List (List (ℕ × Bool) × R)) :
    (sumOp (kv :: d) : FOp R) = kv.2 • strOp kv.1 + sumOp d := by simp [sumOp]
@[simp] theorem sumOp_append (d e : List (List (ℕ × Bool) × R)) :
    (sumOp (d ++ e) : FOp R) = sumOp d + sumOp e := by simp [sumOp]

theorem inner_add_left (x y z : Fock R) : inner (x + y) z = inner x z + inner y z :=
  Finsupp.sum_add_index' (f := x) (g := y) (h := fun S c => c * coeff z S)
    (by simp) (by intros; ring)

theorem inner_smul_left (c : R) (x z : Fock R) : inner (c • x) z = c * inner x z := by
  have h := Finsupp.sum_smul_index' (g := x) (b := c) (h := fun S c => c * coeff z S) (by simp)
  have h2 := Finsupp.mul_sum (b := c) (s := x) (f := fun S c => c * coeff z S)
  refine h.trans (Eq.trans ?_ h2.symm)
  simp [mul_assoc]

theorem inner_add_right (x y z : Fock R) : inner x (y + z) = inner x y + inner x z := by
  unfold inner
  simp only [coeff_add, mul_add]
  exact Finsupp.sum_add

theorem inner_smul_right (c : R) (x z : Fock R) : inner x (c • z) = c * inner x z := by
  unfold inner
  rw [Finsupp.mul_sum]
  simp only [coeff_smul]
  congr 1; ext; ring

@[simp] theorem inner_zero_left (z : Fock R) : inner (0 : Fock R) z = 0 := by
  have := inner_smul_left 0 0 z; simpa using this
@[simp] theorem inner_zero_right (z : Fock R) : inner z (0 : Fock R) = 0 := by
  have := inner_smul_right 0 z 0; simpa using this

theorem inner_neg_left (x z : Fock R) : inner (-x) z = - inner x z := by
  have := inner_smul_left (-1) x z; simpa using this
theorem inner_neg_right (x z : Fock R) : inner x (-z) = - inner x z := by
  have := inner_smul_right (-1) x z; simpa using this
theorem inner_sub_left (x y z : Fock R) : inner (x - y) z = inner x z - inner y z := by
  rw [sub_eq_add_neg, inner_add_left, inner_neg_left]; ring
theorem inner_sub_right (x y z : Fock R) : inner x (y - z) = inner x y - inner x z := by
  rw [sub_eq_add_neg, inner_add_right, inner_neg_right]; ring

theorem inner_single_single (S T : Finset ℕ) (a b : R) :
    inner (sgl S a) (sgl T b) = if S = T then a * b else 0 := by
  unfold inner
  rw [show (sgl S a : Fock R) = (Finsupp.single S a : Finset ℕ →₀ R) from rfl,
    Finsupp.sum_single_index (by simp), coeff_sgl]
  by_cases h : S = T
  · simp [h]
  · simp [h, Ne.symm h]

/-- Inner product as a bilinear map. -/
noncomputable def innerB : Fock R →ₗ[R] Fock R →ₗ[R] R :=
  LinearMap.mk₂ R inner inner_add_left inner_smul_left inner_add_right inner_smul_right

@[simp] theorem innerB_apply (x y : Fock R) : innerB x y = inner x y := rfl

theorem isAdjoint_iff_single {A B : FOp R} :
    IsAdjoint A B ↔ ∀ S T : Finset ℕ,
      inner (A (sgl S 1)) (sgl T 1)
        = inner (sgl S 1) (B (sgl T 1)) := by
  constructor
  · intro h S T; exact h _ _
  · intro h x y
    have : (innerB (R := R)).comp A = (LinearMap.lcomp R R B).comp innerB := by
      apply fhom_ext; intro S
      apply fhom_ext; intro T
      simpa using h S T
    have h2 := congrArg (fun f => f x y) this
    simpa using h2

theorem inner_comm (x y : Fock R) : inner x y = inner y x := by
  have : (innerB (R := R)) = innerB.flip := by
    apply fhom_ext; intro S
    apply fhom_ext; intro T
    simp [inner_single_single, eq_comm]
  have h2 := congrArg (fun f => f x y) this
  simpa using h2

theorem adjoint_an (p : ℕ) : IsAdjoint (an p : FOp R) (cr p) := by
  rw [isAdjoint_iff_single]; intro S T
  rw [an_single, cr_single]
  by_cases hp : p ∈ S <;> by_cases hq : p ∈ T <;> simp [hp, hq, inner_single_single]
  · intro h; exact absurd (h ▸ hq) (by simp)
  · by_cases h : S.erase p = T
    · subst h
      simp [hp, phase_erase_ge]
    · have : S ≠ insert p T := by
        rintro rfl; exact h (Finset.erase_insert hq)
      simp [h, this]
  · intro h; exact absurd (h ▸ (Finset.mem_insert_self p T)) hp

theorem IsAdjoint.symm {A B : FOp R} (h : IsAdjoint A B) : IsAdjoint B A := by
  intro x y; rw [inner_comm, ← h, inner_comm]

theorem adjoint_cr (p : ℕ) : IsAdjoint (cr p : FOp R) (an p) := (adjoint_an p).symm

theorem IsAdjoint.mul {A A' B B' : FOp R} (h : IsAdjoint A A') (k : IsAdjoint B B') :
    IsAdjoint (A * B) (B' * A') := by
  intro x y; simp only [Module.End.mul_apply]; rw [h, k]

theorem IsAdjoint.add {A A' B B' : FOp R} (h : IsAdjoint A A') (k : IsAdjoint B B') :
    IsAdjoint (A + B) (A' + B') := by
  intro x y; simp only [LinearMap.add_apply, inner_add_left, inner_add_right]; rw [h, k]

theorem IsAdjoint.sub {A A' B B' : FOp R} (h : IsAdjoint A A') (k : IsAdjoint B B') :
    IsAdjoint (A - B) (A' - B') := by
  intro x y; simp only [LinearMap.sub_apply, inner_sub_left, inner_sub_right]; rw [h, k]

theorem IsAdjoint.smul {A A' : FOp R} (c : R) (h : IsAdjoint A A') : IsAdjoint (c • A) (c • A') := by
  intro x y; simp only [LinearMap.smul_apply, inner_smul_left, inner_smul_right]; rw [h]

theorem isAdjoint_one : IsAdjoint (1 : FOp R) 1 := fun _ _ => rfl
theorem isAdjoint_zero : IsAdjoint (0 : FOp R) 0 := by intro x y; simp

theorem inner_ket_left (S : Finset ℕ) (y : Fock R) : inner (sgl S 1) y = coeff y S := by
  unfold inner
  rw [show (sgl S 1 : Fock R) = (Finsupp.single S 1 : Finset ℕ →₀ R) from rfl,
    Finsupp.sum_single_index (by simp), one_mul]

theorem IsAdjoint.unique {A B C : FOp R} (h : IsAdjoint A B) (k : IsAdjoint A C) : B = C := by
  apply fop_ext; intro T
  apply fock_ext; intro S
  have h1 := h (sgl S 1) (sgl T 1)
  have h2 := k (sgl S 1) (sgl T 1)
  rw [h1] at h2
  simpa [inner_ket_left] using h2

/-- Adjoint of one ladder operator. -/
theorem adjoint_ladder (o : ℕ × Bool) : IsAdjoint (ladder o : FOp R) (ladder (o.1, !o.2)) := by
  obtain ⟨p, b⟩ := o
  cases b
  · simpa [ladder] using adjoint_an p
  · simpa [ladder] using adjoint_cr p

/-- Adjoint of a string: reversed with daggers flipped. -/
theorem adjoint_strOp (s : List (ℕ × Bool)) :
    IsAdjoint (strOp s : FOp R) (strOp ((s.map fun o => (o.1, !o.2)).reverse)) := by
  induction s with
  | nil => simpa using isAdjoint_one
  | cons o s ih =>
    simp only [strOp_cons, List.map_cons, List.reverse_cons, strOp_append, strOp_nil, mul_one]
    exact (adjoint_ladder o).mul ih

end SQ
