import Verif.Lemmas.OperatorsSem
import Verif.Spec.Excitations
import Mathlib.Algebra.BigOperators.Group.Finset.Basic
import Mathlib.Algebra.BigOperators.Ring.Finset

/-! # Repeated indices, conservation laws, matrix elements between active states -/

namespace SQ

variable {R : Type*} [CommRing R]

/-! ### Repeated indices -/

theorem cr_move (p : ℕ) (C : List ℕ) :
    (cr p * strOp (C.map fun p => (p, true)) : FOp R)
      = (-1 : R) ^ C.length • (strOp (C.map fun p => (p, true)) * cr p) := by
  induction C with
  | nil => simp
  | cons q C ih =>
    simp only [List.map_cons, strOp_cons, ladder, if_true, List.length_cons]
    rw [← mul_assoc, cr_cr p q, neg_mul, mul_assoc, ih, pow_succ]
    simp [mul_assoc]

theorem an_move (p : ℕ) (C : List ℕ) :
    (an p * strOp (C.map fun p => (p, false)) : FOp R)
      = (-1 : R) ^ C.length • (strOp (C.map fun p => (p, false)) * an p) := by
  induction C with
  | nil => simp
  | cons q C ih =>
    simp only [List.map_cons, strOp_cons, ladder, Bool.false_eq_true, if_false, List.length_cons]
    rw [← mul_assoc, an_an p q, neg_mul, mul_assoc, ih, pow_succ]
    simp [mul_assoc]

theorem strOp_cr_dup (C : List ℕ) (h : ¬ C.Nodup) :
    (strOp (C.map fun p => (p, true)) : FOp R) = 0 := by
  induction C with
  | nil => simp at h
  | cons p C ih =>
    by_cases hp : p ∈ C
    · obtain ⟨l1, l2, rfl⟩ := List.append_of_mem hp
      simp only [List.map_cons, List.map_append, strOp_cons, strOp_append, ladder, if_true]
      rw [← mul_assoc, cr_move, ← mul_assoc]
      simp only [smul_mul_assoc, mul_assoc]
      rw [← mul_assoc (cr p) (cr p), cr_self]; simp
    · rw [List.map_cons, strOp_cons, ih (fun hn => h (by simp [hp, hn])), mul_zero]

theorem strOp_an_dup (C : List ℕ) (h : ¬ C.Nodup) :
    (strOp (C.map fun p => (p, false)) : FOp R) = 0 := by
  induction C with
  | nil => simp at h
  | cons p C ih =>
    by_cases hp : p ∈ C
    · obtain ⟨l1, l2, rfl⟩ := List.append_of_mem hp
      simp only [List.map_cons, List.map_append, strOp_cons, strOp_append, ladder,
        Bool.false_eq_true, if_false]
      rw [← mul_assoc, an_move, ← mul_assoc]
      simp only [smul_mul_assoc, mul_assoc]
      rw [← mul_assoc (an p) (an p), an_self]; simp
    · rw [List.map_cons, strOp_cons, ih (fun hn => h (by simp [hp, hn])), mul_zero]

/-! ### Conservation -/

theorem Shift.list_sum {w : ℕ → ℤ} {ι : Type*} (l : List ι) (f : ι → FOp R) (a : ℤ)
    (h : ∀ i ∈ l, Shift w (f i) a) : Shift w (l.map f).sum a := by
  induction l with
  | nil => simpa using shift_zero w a
  | cons i l ih =>
    rw [List.map_cons, List.sum_cons]
    exact (h i (by simp)).add (ih fun j hj => h j (by simp [hj]))

def wAlpha (p : ℕ) : ℤ := if p % 2 = 0 then 1 else 0
def wBeta (p : ℕ) : ℤ := if p % 2 = 1 then 1 else 0

theorem weight_alpha (S : Finset ℕ) : weight wAlpha S = numAlpha S := by
  unfold weight numAlpha wAlpha
  rw [Finset.card_filter]; push_cast; rfl

theorem weight_beta (S : Finset ℕ) : weight wBeta S = numBeta S := by
  unfold weight numBeta wBeta
  rw [Finset.card_filter]; push_cast; rfl

/-- Weights that depend on the spin only. -/
def SpinW (w : ℕ → ℤ) : Prop := ∀ p, w (2 * p) = w 0 ∧ w (2 * p + 1) = w 1

theorem spinW_alpha : SpinW wAlpha := by
  intro p
  have h1 : 2 * p % 2 = 0 := by omega
  have h2 : (2 * p + 1) % 2 = 1 := by omega
  simp [wAlpha, h1, h2]

theorem spinW_beta : SpinW wBeta := by
  intro p
  have h1 : 2 * p % 2 = 0 := by omega
  have h2 : (2 * p + 1) % 2 = 1 := by omega
  simp [wBeta, h1, h2]

theorem SpinW.E {w : ℕ → ℤ} (h : SpinW w) (p q : ℕ) : Shift w (E p q : FOp R) 0 :=
  shift_E_spin w p q (by rw [(h p).1, (h q).1]) (by rw [(h p).2, (h q).2])

theorem SpinW.e {w : ℕ → ℤ} (h : SpinW w) (p q r s : ℕ) : Shift w (e p q r s : FOp R) 0 := by
  have h1 : (SQ.e p q r s : FOp R) = SQ.E p q * SQ.E r s - (delta q r : R) • SQ.E p s := by
    rw [E_mul_E]; abel
  rw [h1]
  exact ((h.E p q).mul (h.E r s)).sub ((h.E p s).smul _)

theorem conservesSpin_of {T : FOp R} (h : ∀ w, SpinW w → Shift w T 0) : ConservesSpin T := by
  intro S S' hc
  have h1 := h _ spinW_alpha S S' hc
  have h2 := h _ spinW_beta S S' hc
  rw [weight_alpha, weight_alpha] at h1
  rw [weight_beta, weight_beta] at h2
  omega

theorem conservesNumber_of {T : FOp R} (h : Shift (fun _ => 1) T 0) : ConservesNumber T := by
  intro S S' hc
  have := h S S' hc
  simp [weight] at this
  omega

/-! ### Matrix elements -/

/-- Matrix element `⟨x|T|y⟩` as a linear functional of `T`. -/
noncomputable def mel (x y : Fock R) : FOp R →ₗ[R] R where
  toFun T := inner x (T y)
  map_add' A B := by rw [LinearMap.add_apply, inner_add_right]
  map_smul' c A := by rw [LinearMap.smul_apply, inner_smul_right]; rfl

@[simp] theorem mel_apply (x y : Fock R) (T : FOp R) : mel x y T = inner x (T y) := rfl

/-- A nonvanishing matrix element connects a determinant of `y` with one of `x`. -/
theorem mel_ne_zero {x y : Fock R} {T : FOp R} (h : inner x (T y) ≠ 0) :
    ∃ S S', coeff x S ≠ 0 ∧ coeff y S' ≠ 0 ∧ coeff (T (ket S')) S ≠ 0 := by
  by_contra hne
  push Not at hne
  apply h
  unfold inner
  apply Finset.sum_eq_zero
  intro S hS
  have h1 : coeff x S ≠ 0 := Finsupp.mem_support_iff.1 hS
  have : coeff (T y) S = 0 := coeff_apply_eq_zero fun S' h' => hne S S' h1 h'
  show _ * coeff (T y) S = 0
  rw [this, mul_zero]

theorem an_ket_ne {p : ℕ} {S S' : Finset ℕ} {c : R} (h : coeff (an p (sgl S' c)) S ≠ 0) :
    p ∈ S' ∧ S = S'.erase p := by
  rw [an_single] at h
  split at h
  · next hp =>
    rw [coeff_sgl] at h
    split at h
    · next he => exact ⟨hp, he.symm⟩
    · simp at h
  · simp at h

theorem cr_ket_ne {p : ℕ} {S S' : Finset ℕ} {c : R} (h : coeff (cr p (sgl S' c)) S ≠ 0) :
    p ∉ S' ∧ S = insert p S' := by
  rw [cr_single] at h
  split at h
  · simp at h
  · next hp =>
    rw [coeff_sgl] at h
    split at h
    · next he => exact ⟨hp, he.symm⟩
    · simp at h

/-- If `A B |S'⟩` has a component on `S`, then some `S''` in between is connected by both. -/
theorem mul_ket_ne {A B : FOp R} {S S' : Finset ℕ} (h : coeff ((A * B) (ket S')) S ≠ 0) :
    ∃ S'', coeff (B (ket S')) S'' ≠ 0 ∧ coeff (A (ket S'')) S ≠ 0 := by
  by_contra hne
  push Not at hne
  apply h
  rw [Module.End.mul_apply]
  exact coeff_apply_eq_zero fun S'' h' => hne S'' h'

theorem add_ket_ne {A B : FOp R} {S S' : Finset ℕ} (h : coeff ((A + B) (ket S')) S ≠ 0) :
    coeff (A (ket S')) S ≠ 0 ∨ coeff (B (ket S')) S ≠ 0 := by
  by_contra hne
  push Not at hne
  apply h
  rw [LinearMap.add_apply, coeff_add, hne.1, hne.2, add_zero]

theorem one_ket_ne {p q : ℕ} {S S' : Finset ℕ} (h : coeff ((cr p * an q : FOp R) (ket S')) S ≠ 0) :
    q ∈ S' ∧ p ∈ S := by
  obtain ⟨S1, h1, h2⟩ := mul_ket_ne h
  have := an_ket_ne h1
  have g := cr_ket_ne h2
  exact ⟨this.1, by rw [g.2]; simp⟩

theorem two_ket_ne {p q r s : ℕ} {S S' : Finset ℕ}
    (h : coeff ((cr p * cr r * an s * an q : FOp R) (ket S')) S ≠ 0) :
    q ∈ S' ∧ s ∈ S' ∧ q ≠ s ∧ p ∈ S ∧ r ∈ S ∧ p ≠ r := by
  obtain ⟨S1, h1, h2⟩ := mul_ket_ne h
  obtain ⟨S2, h3, h4⟩ := mul_ket_ne h2
  obtain ⟨S3, h5, h6⟩ := mul_ket_ne h4
  obtain ⟨a1, a2⟩ := an_ket_ne h1
  obtain ⟨b1, b2⟩ := an_ket_ne h3
  obtain ⟨c1, c2⟩ := cr_ket_ne h5
  obtain ⟨d1, d2⟩ := cr_ket_ne h6
  subst a2; subst b2; subst c2; subst d2
  simp only [Finset.mem_erase, Finset.mem_insert, ne_eq, not_or, not_and] at *
  exact ⟨a1, b1.2, fun h => b1.1 h.symm, Or.inl trivial, Or.inr (Or.inl trivial), d1.1⟩

/-- The spatial orbital of a spin orbital. -/
def spat (p : ℕ) : ℕ := p / 2

theorem E_ket_ne {p q : ℕ} {S S' : Finset ℕ} (h : coeff ((E p q : FOp R) (ket S')) S ≠ 0) :
    (∃ q' ∈ S', spat q' = q) ∧ (∃ p' ∈ S, spat p' = p) := by
  rcases add_ket_ne h with h | h <;> have := one_ket_ne h
  · exact ⟨⟨_, this.1, by unfold spat; omega⟩, ⟨_, this.2, by unfold spat; omega⟩⟩
  · exact ⟨⟨_, this.1, by unfold spat; omega⟩, ⟨_, this.2, by unfold spat; omega⟩⟩

theorem e_ket_ne {p q r s : ℕ} {S S' : Finset ℕ} (h : coeff ((e p q r s : FOp R) (ket S')) S ≠ 0) :
    (∃ q' ∈ S', ∃ s' ∈ S', q' ≠ s' ∧ spat q' = q ∧ spat s' = s) ∧
    (∃ p' ∈ S, ∃ r' ∈ S, p' ≠ r' ∧ spat p' = p ∧ spat r' = r) := by
  unfold e at h
  rcases add_ket_ne h with h | h
  · rcases add_ket_ne h with h | h
    · rcases add_ket_ne h with h | h
      all_goals
        obtain ⟨a, b, c, d, e, f⟩ := two_ket_ne h
        exact ⟨⟨_, a, _, b, c, by unfold spat; omega, by unfold spat; omega⟩,
          ⟨_, d, _, e, f, by unfold spat; omega, by unfold spat; omega⟩⟩
    · obtain ⟨a, b, c, d, e, f⟩ := two_ket_ne h
      exact ⟨⟨_, a, _, b, c, by unfold spat; omega, by unfold spat; omega⟩,
        ⟨_, d, _, e, f, by unfold spat; omega, by unfold spat; omega⟩⟩
  · obtain ⟨a, b, c, d, e, f⟩ := two_ket_ne h
    exact ⟨⟨_, a, _, b, c, by unfold spat; omega, by unfold spat; omega⟩,
      ⟨_, d, _, e, f, by unfold spat; omega, by unfold spat; omega⟩⟩

/-- Weights that depend on the spatial orbital only. -/
theorem shift_e (v : ℕ → ℤ) (p q r s : ℕ) :
    Shift (fun o => v (spat o)) (e p q r s : FOp R) (v p + v r - v q - v s) := by
  have a0 : ∀ p, spat (2 * p) = p := fun p => by unfold spat; omega
  have a1 : ∀ p, spat (2 * p + 1) = p := fun p => by unfold spat; omega
  have key : ∀ p' q' r' s', Shift (fun o => v (spat o)) (cr p' * cr r' * an s' * an q' : FOp R)
      (v (spat p') + v (spat r') - v (spat s') - v (spat q')) := by
    intro p' q' r' s'
    exact (((shift_cr _ p').mul (shift_cr _ r')).mul (shift_an _ s')).mul (shift_an _ q')
  have k1 := key (2 * p) (2 * q) (2 * r) (2 * s)
  have k2 := key (2 * p) (2 * q) (2 * r + 1) (2 * s + 1)
  have k3 := key (2 * p + 1) (2 * q + 1) (2 * r) (2 * s)
  have k4 := key (2 * p + 1) (2 * q + 1) (2 * r + 1) (2 * s + 1)
  simp only [a0, a1] at k1 k2 k3 k4
  have : v p + v r - v q - v s = v p + v r - v s - v q := by ring
  rw [this]
  exact ((k1.add k2).add k3).add k4

theorem shift_E_spat (v : ℕ → ℤ) (p q : ℕ) :
    Shift (fun o => v (spat o)) (E p q : FOp R) (v p - v q) := by
  have a0 : ∀ p, spat (2 * p) = p := fun p => by unfold spat; omega
  have a1 : ∀ p, spat (2 * p + 1) = p := fun p => by unfold spat; omega
  have := shift_E (R := R) (fun o => v (spat o)) p q (by simp [a0, a1]) (by simp [a0, a1])
  simpa [a0] using this

/-- Occupation of spatial orbital `k`. -/
def occ (k : ℕ) (S : Finset ℕ) : ℤ := weight (fun o => if spat o = k then 1 else 0) S

theorem occ_full {k : ℕ} {S : Finset ℕ} (h0 : 2 * k ∈ S) (h1 : 2 * k + 1 ∈ S) : occ k S = 2 := by
  unfold occ weight
  have : ∑ o ∈ S, (if spat o = k then (1 : ℤ) else 0) = ∑ o ∈ ({2 * k, 2 * k + 1} : Finset ℕ), 1 := by
    rw [← Finset.sum_filter]
    congr 1
    ext o
    rw [Finset.mem_filter]
    simp only [Finset.mem_insert, Finset.mem_singleton]
    constructor
    · rintro ⟨_, h⟩; unfold spat at h; omega
    · rintro (rfl | rfl)
      · exact ⟨h0, by unfold spat; omega⟩
      · exact ⟨h1, by unfold spat; omega⟩
  rw [this]; simp

theorem ActiveState.occ {nI nA k : ℕ} {x : Fock R} (h : ActiveState nI nA x) (hk : k < nI)
    {S : Finset ℕ} (hS : coeff x S ≠ 0) : SQ.occ k S = 2 :=
  occ_full ((h S hS).1 _ (by omega)) ((h S hS).1 _ (by omega))

theorem active_E {nI nA : ℕ} {x y : Fock R} (hx : ActiveState nI nA x) (hy : ActiveState nI nA y)
    {p q : ℕ} (h : inner x (E p q y) ≠ 0) :
    p < nI + nA ∧ q < nI + nA ∧ ∀ k < nI, (p = k ↔ q = k) := by
  obtain ⟨S, S', h1, h2, h3⟩ := mel_ne_zero h
  obtain ⟨⟨q', hq, rfl⟩, p', hp, rfl⟩ := E_ket_ne h3
  have a := (hx S h1).2 p' hp
  have b := (hy S' h2).2 q' hq
  refine ⟨by unfold spat; omega, by unfold spat; omega, fun k hk => ?_⟩
  have := shift_E_spat (R := R) (fun o => if o = k then 1 else 0) (spat p') (spat q') S' S h3
  have e1 := hx.occ hk h1
  have e2 := hy.occ hk h2
  unfold occ at e1 e2
  rw [e1, e2] at this
  by_cases c1 : spat p' = k <;> by_cases c2 : spat q' = k <;> simp_all

theorem active_e {nI nA : ℕ} {x y : Fock R} (hx : ActiveState nI nA x) (hy : ActiveState nI nA y)
    {p q r s : ℕ} (h : inner x (e p q r s y) ≠ 0) :
    p < nI + nA ∧ q < nI + nA ∧ r < nI + nA ∧ s < nI + nA ∧
    ∀ k < nI, ((if p = k then 1 else 0) + (if r = k then 1 else 0) : ℤ)
      = (if q = k then 1 else 0) + (if s = k then 1 else 0) := by
  obtain ⟨S, S', h1, h2, h3⟩ := mel_ne_zero h
  obtain ⟨⟨q', hq, s', hs, _, rfl, rfl⟩, p', hp, r', hr, _, rfl, rfl⟩ := e_ket_ne h3
  have a := (hx S h1).2 p' hp
  have b := (hy S' h2).2 q' hq
  have a' := (hx S h1).2 r' hr
  have b' := (hy S' h2).2 s' hs
  refine ⟨by unfold spat; omega, by unfold spat; omega, by unfold spat; omega, by unfold spat; omega,
    fun k hk => ?_⟩
  have := shift_e (R := R) (fun o => if o = k then 1 else 0) (spat p') (spat q') (spat r') (spat s')
    S' S h3
  have e1 := hx.occ hk h1
  have e2 := hy.occ hk h2
  unfold occ at e1 e2
  rw [e1, e2] at this
  linarith

/-! ### Restricted sums -/

/-- Indicator. -/
def ind {K : Type*} [Zero K] [One K] (P : Prop) [Decidable P] : K := if P then 1 else 0

section
variable {K : Type*} [CommRing K]

theorem sum_inact {n nI : ℕ} (h : nI ≤ n) (f : ℕ → K) :
    ∑ i ∈ Finset.range nI, f i = ∑ p ∈ Finset.range n, ind (p < nI) * f p := by
  have h1 : ∀ p, (ind (p < nI) * f p : K) = if p < nI then f p else 0 := by
    intro p; unfold ind; split <;> simp
  simp only [h1]
  rw [← Finset.sum_filter]
  congr 1; ext p; simp; omega

theorem sum_act {n nI nA : ℕ} (h : nI + nA ≤ n) (f : ℕ → K) :
    ∑ i ∈ Finset.range nA, f (nI + i)
      = ∑ p ∈ Finset.range n, ind (nI ≤ p ∧ p < nI + nA) * f p := by
  have h1 : ∀ p, (ind (nI ≤ p ∧ p < nI + nA) * f p : K)
      = if nI ≤ p ∧ p < nI + nA then f p else 0 := by
    intro p; unfold ind; split <;> simp
  simp only [h1]
  rw [← Finset.sum_filter]
  have : (Finset.range n).filter (fun p => nI ≤ p ∧ p < nI + nA)
      = (Finset.range nA).image (nI + ·) := by
    ext p; simp only [Finset.mem_filter, Finset.mem_range, Finset.mem_image]
    constructor
    · rintro ⟨_, h1, h2⟩; exact ⟨p - nI, by omega, by omega⟩
    · rintro ⟨a, h1, rfl⟩; omega
  rw [this, Finset.sum_image (by intro a _ b _ h; simpa using h)]

theorem sum_point {n a : ℕ} (h : a < n) (f : ℕ → K) :
    f a = ∑ p ∈ Finset.range n, ind (p = a) * f p := by
  have h1 : ∀ p, (ind (p = a) * f p : K) = if p = a then f p else 0 := by
    intro p; unfold ind; split <;> simp
  simp only [h1]
  rw [Finset.sum_ite_eq', if_pos (by simpa using h)]

end

end SQ
