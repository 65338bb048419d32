import Verif.Lemmas.ClosedSpace

/-! # A string minus its adjoint satisfies `T³ = -T` -/

namespace SQ

variable {R : Type*} [CommRing R]

/-- Diagonal in the determinants. -/
def IsDiag (D : FOp R) : Prop := ∀ S : Finset ℕ, ∃ c : R, D (sgl S 1) = sgl S c

theorem isDiag_one : IsDiag (1 : FOp R) := fun S => ⟨1, rfl⟩

theorem op_sgl (A : FOp R) (S : Finset ℕ) (c : R) : A (sgl S c) = c • A (sgl S 1) := by
  rw [← map_smul, smul_sgl, mul_one]

theorem IsDiag.comm {A B : FOp R} (hA : IsDiag A) (hB : IsDiag B) : A * B = B * A := by
  apply fop_ext
  intro S
  obtain ⟨a, ha⟩ := hA S
  obtain ⟨b, hb⟩ := hB S
  rw [Module.End.mul_apply, Module.End.mul_apply, ha, hb, op_sgl, ha, op_sgl B, hb, smul_sgl, smul_sgl,
    mul_comm]

/-- The opposite ladder operator. -/
def opp (o : Lad) : Lad := (o.1, !o.2)

theorem ladder_diag {D : FOp R} (hD : IsDiag D) (o : Lad) : IsDiag (ladder o * D * ladder (opp o)) := by
  intro S
  obtain ⟨p, b⟩ := o
  cases b
  · show ∃ c : R, (an p * D * cr p : FOp R) (sgl S 1) = sgl S c
    rw [Module.End.mul_apply, Module.End.mul_apply, cr_single]
    split
    · exact ⟨0, by simp⟩
    · next h =>
      obtain ⟨d, hd⟩ := hD (insert p S)
      rw [op_sgl, hd, smul_sgl, an_single, if_pos (by simp), Finset.erase_insert h]
      exact ⟨_, rfl⟩
  · show ∃ c : R, (cr p * D * an p : FOp R) (sgl S 1) = sgl S c
    rw [Module.End.mul_apply, Module.End.mul_apply, an_single]
    split
    · next h =>
      obtain ⟨d, hd⟩ := hD (S.erase p)
      rw [op_sgl, hd, smul_sgl, cr_single, if_neg (by simp), Finset.insert_erase h]
      exact ⟨_, rfl⟩
    · exact ⟨0, by simp⟩

theorem ladder_cube (o : Lad) : (ladder o * ladder (opp o) * ladder o : FOp R) = ladder o := by
  obtain ⟨p, b⟩ := o
  cases b
  · show (an p * cr p * an p : FOp R) = an p
    rw [an_cr_self, sub_mul, one_mul, mul_assoc, an_self, mul_zero, sub_zero]
  · show (cr p * an p * cr p : FOp R) = cr p
    rw [mul_assoc, an_cr_self, mul_sub, mul_one, ← mul_assoc, cr_self, zero_mul, sub_zero]

theorem adjStr_cons (o : Lad) (s : Str) : (strOp (adjStr (o :: s)) : FOp R)
    = strOp (adjStr s) * ladder (opp o) := by
  unfold adjStr
  rw [List.map_cons, List.reverse_cons, strOp_append]
  simp [strOp, opp]

theorem str_diag (s : Str) : IsDiag (strOp s * strOp (adjStr s) : FOp R) := by
  induction s with
  | nil => simpa [adjStr] using isDiag_one (R := R)
  | cons o s ih =>
    have : (strOp (o :: s) * strOp (adjStr (o :: s)) : FOp R)
        = ladder o * (strOp s * strOp (adjStr s)) * ladder (opp o) := by
      rw [adjStr_cons, strOp_cons]; simp only [mul_assoc]
    rw [this]; exact ladder_diag ih o

theorem adjStr_adjStr (s : Str) : adjStr (adjStr s) = s := by
  unfold adjStr
  rw [List.map_reverse, List.reverse_reverse, List.map_map]
  simp [Function.comp_def]

theorem str_cube (s : Str) : (strOp s * strOp (adjStr s) * strOp s : FOp R) = strOp s := by
  induction s with
  | nil => simp [adjStr]
  | cons o s ih =>
    have d1 : IsDiag (ladder (opp o) * ladder o : FOp R) := by
      have := ladder_diag (isDiag_one (R := R)) (opp o)
      have e : opp (opp o) = o := by obtain ⟨p, b⟩ := o; simp [opp]
      rwa [mul_one, e] at this
    rw [adjStr_cons, strOp_cons]
    calc (ladder o * strOp s * (strOp (adjStr s) * ladder (opp o)) * (ladder o * strOp s) : FOp R)
        = ladder o * ((strOp s * strOp (adjStr s)) * (ladder (opp o) * ladder o)) * strOp s := by
          simp only [mul_assoc]
      _ = ladder o * ((ladder (opp o) * ladder o) * (strOp s * strOp (adjStr s))) * strOp s := by
          rw [(str_diag s).comm d1]
      _ = (ladder o * ladder (opp o) * ladder o) * (strOp s * strOp (adjStr s) * strOp s) := by
          simp only [mul_assoc]
      _ = ladder o * strOp s := by rw [ladder_cube, ih]

/-- Occupation of one orbital as a weight. -/
def wOne (p : ℕ) (q : ℕ) : ℤ := if q = p then 1 else 0

theorem weight_one (p : ℕ) (S : Finset ℕ) : weight (wOne p) S = if p ∈ S then 1 else 0 := by
  unfold weight wOne
  rw [Finset.sum_ite_eq']

/-- A string either squares to zero or equals its adjoint. -/
theorem str_sq_or (s : Str) : (strOp s * strOp s : FOp R) = 0 ∨ (strOp (adjStr s) : FOp R) = strOp s := by
  by_cases h : ∃ p, strWeight (wOne p) s ≠ 0
  · left
    obtain ⟨p, hp⟩ := h
    have hsh := (shift_strOp (R := R) (wOne p) s).mul (shift_strOp (R := R) (wOne p) s)
    apply fop_ext
    intro S
    apply fock_ext
    intro S'
    by_contra hne
    have := hsh S S' (by simpa using hne)
    have h1 : ∃ S1, coeff (strOp s (ket S) : Fock R) S1 ≠ 0 := by
      by_contra hall
      push Not at hall
      apply hne
      rw [Module.End.mul_apply]
      have : (strOp s (sgl S 1) : Fock R) = 0 := fock_ext fun S1 => hall S1
      rw [this]; simp
    obtain ⟨S1, h1⟩ := h1
    have h2 := shift_strOp (R := R) (wOne p) s S S1 h1
    rw [weight_one, weight_one] at this h2
    split at this <;> split at this <;> split at h2 <;> omega
  · right
    push Not at h
    have hd : ∀ S S', coeff (strOp s (ket S) : Fock R) S' ≠ 0 → S' = S := by
      intro S S' hc
      ext p
      have := shift_strOp (R := R) (wOne p) s S S' hc
      rw [h p, weight_one, weight_one] at this
      by_cases h1 : p ∈ S' <;> by_cases h2 : p ∈ S <;> simp [h1, h2] at this ⊢
    apply fop_ext
    intro S
    apply fock_ext
    intro S'
    have e : ∀ S S', coeff (strOp (adjStr s) (sgl S 1) : Fock R) S' = coeff (strOp s (ket S')) S := by
      intro S S'
      rw [coeff_strOp_adj s S (ket S')]
      have : inner (strOp (adjStr s) (ket S)) (ket S' : Fock R)
          = inner (sgl S' 1) (strOp (adjStr s) (sgl S 1)) := inner_comm _ _
      rw [this, inner_ket_left]
    rw [e]
    by_cases hS : S = S'
    · subst hS; rfl
    · have h1 : coeff (strOp s (ket S') : Fock R) S = 0 := by
        by_contra hne; exact hS (hd _ _ hne)
      have h2 : coeff (strOp s (sgl S 1) : Fock R) S' = 0 := by
        by_contra hne; exact hS (hd S S' hne).symm
      rw [h1, h2]

/-- `(X - X†)³ = -(X - X†)` for every string `X`. -/
theorem cube_string (s : Str) : ((strOp s - strOp (adjStr s)) * ((strOp s - strOp (adjStr s)) *
    (strOp s - strOp (adjStr s))) : FOp R) = -(strOp s - strOp (adjStr s)) := by
  rcases str_sq_or (R := R) s with h | h
  · have h' : (strOp (adjStr s) * strOp (adjStr s) : FOp R) = 0 := by
      have a := (adj_isAdjoint (R := R) s).mul (adj_isAdjoint s)
      rw [h] at a
      exact a.unique isAdjoint_zero
    have c1 := str_cube (R := R) s
    have c2 := str_cube (R := R) (adjStr s)
    rw [adjStr_adjStr] at c2
    set X : FOp R := strOp s
    set Y : FOp R := strOp (adjStr s)
    have e1 : X * (X * Y) = 0 := by rw [← mul_assoc, h, zero_mul]
    have e2 : Y * (Y * X) = 0 := by rw [← mul_assoc, h', zero_mul]
    rw [mul_assoc] at c1 c2
    simp only [sub_mul, mul_sub, h, h', e1, e2, c1, c2, mul_zero]
    abel
  · rw [h]; simp

end SQ
