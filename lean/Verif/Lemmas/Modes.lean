import Verif.Lemmas.StringCube

/-!
# Identities between operators on finitely many orbitals, by computation

A determinant is, up to sign, a product of creation operators of chosen orbitals `ps` applied to a
determinant without these orbitals.  On such vectors the ladder operators of `ps` act by the
occupation bits only, so an identity between polynomials in them holds on Fock space as soon as it
holds on the `2^n` bit masks.
-/

namespace SQ

variable {R : Type*} [CommRing R]

/-- `∏ cr p` over the orbitals `p` of `ps` selected by the bits of `m`, applied to `H`. -/
noncomputable def modeVec : List ℕ → ℕ → Finset ℕ → Fock R
  | [], _, H => ket H
  | p :: ps, m, H => if m % 2 = 1 then cr p (modeVec ps (m / 2) H) else modeVec ps (m / 2) H

/-- Action of a ladder operator of the `k`-th orbital on a mask: sign and new mask. -/
def modeAct : ℕ → Bool → ℕ → ℤ × ℕ
  | 0, dag, m => if m % 2 = 1 then (if dag then (0, 0) else (1, m - 1))
      else (if dag then (1, m + 1) else (0, 0))
  | k + 1, dag, m =>
    ((if m % 2 = 1 then -(modeAct k dag (m / 2)).1 else (modeAct k dag (m / 2)).1),
      2 * (modeAct k dag (m / 2)).2 + m % 2)

theorem an_modeVec (p : ℕ) (ps : List ℕ) (hp : p ∉ ps) (m : ℕ) (H : Finset ℕ) (hH : p ∉ H) :
    (an p (modeVec ps m H) : Fock R) = 0 := by
  induction ps generalizing m with
  | nil =>
    show an p (sgl H 1) = 0
    rw [an_single, if_neg hH]
  | cons q ps ih =>
    unfold modeVec
    have hpq : p ≠ q := by rintro rfl; simp at hp
    have := ih (by intro h; exact hp (by simp [h])) (m / 2)
    split
    · have e : an p (cr q (modeVec ps (m / 2) H)) = (an p * cr q : FOp R) (modeVec ps (m / 2) H) := rfl
      rw [e, an_cr_ne hpq, LinearMap.neg_apply, Module.End.mul_apply, this, map_zero, neg_zero]
    · exact this

theorem ladder_cr_ne {o : Lad} {q : ℕ} (h : o.1 ≠ q) (x : Fock R) :
    ladder o (cr q x) = -cr q (ladder o x) := by
  obtain ⟨p, b⟩ := o
  cases b
  · have e : (an p * cr q : FOp R) x = (-(cr q * an p) : FOp R) x := by rw [an_cr_ne h]
    exact e
  · have e : (cr p * cr q : FOp R) x = (-(cr q * cr p) : FOp R) x := by rw [cr_cr p q]
    exact e

theorem modeAct_sound (ps : List ℕ) (hn : ps.Nodup) (H : Finset ℕ) (hH : ∀ p ∈ ps, p ∉ H) :
    ∀ (k : ℕ) (hk : k < ps.length) (dag : Bool) (m : ℕ),
      (ladder (ps[k], dag) (modeVec ps m H) : Fock R)
        = (modeAct k dag m).1 • modeVec ps (modeAct k dag m).2 H := by
  induction ps with
  | nil => intro k hk; simp at hk
  | cons p ps ih =>
    intro k hk dag m
    have hp : p ∉ ps := (List.nodup_cons.1 hn).1
    cases k with
    | zero =>
      rcases Nat.mod_two_eq_zero_or_one m with h | h
      · have e : (modeVec (p :: ps) m H : Fock R) = modeVec ps (m / 2) H := by
          conv_lhs => unfold modeVec
          rw [if_neg (by omega)]
        rw [e]
        cases dag
        · have : (modeAct 0 false m) = (0, 0) := by simp [modeAct, h]
          rw [this, zero_smul]
          exact an_modeVec p ps hp _ H (hH p (by simp))
        · have : (modeAct 0 true m) = (1, m + 1) := by simp [modeAct, h]
          rw [this, one_smul]
          conv_rhs => unfold modeVec
          rw [if_pos (by omega), show (m + 1) / 2 = m / 2 by omega]
          rfl
      · have e : (modeVec (p :: ps) m H : Fock R) = cr p (modeVec ps (m / 2) H) := by
          conv_lhs => unfold modeVec
          rw [if_pos h]
        rw [e]
        cases dag
        · have : (modeAct 0 false m) = (1, m - 1) := by simp [modeAct, h]
          rw [this, one_smul]
          conv_rhs => unfold modeVec
          rw [if_neg (by omega), show (m - 1) / 2 = m / 2 by omega]
          have e2 : (an p * cr p : FOp R) (modeVec ps (m / 2) H) = modeVec ps (m / 2) H := by
            rw [an_cr_self, LinearMap.sub_apply, Module.End.one_apply, Module.End.mul_apply,
              an_modeVec p ps hp _ H (hH p (by simp)), map_zero, sub_zero]
          exact e2
        · have : (modeAct 0 true m) = (0, 0) := by simp [modeAct, h]
          rw [this, zero_smul]
          have e2 : (cr p * cr p : FOp R) (modeVec ps (m / 2) H) = 0 := by rw [cr_self]; rfl
          exact e2
    | succ k =>
      have hk' : k < ps.length := by simpa using hk
      have hne : ps[k] ≠ p := by
        intro h; exact hp (h ▸ List.getElem_mem hk')
      have ih' := ih (List.nodup_cons.1 hn).2 (fun q hq => hH q (by simp [hq])) k hk' dag (m / 2)
      set r := modeAct k dag (m / 2) with hr
      have e0 : (p :: ps)[k + 1] = ps[k] := rfl
      have ea : modeAct (k + 1) dag m = ((if m % 2 = 1 then -r.1 else r.1), 2 * r.2 + m % 2) := rfl
      rw [ea, e0]
      dsimp only
      rcases Nat.mod_two_eq_zero_or_one m with h | h
      · have e : (modeVec (p :: ps) m H : Fock R) = modeVec ps (m / 2) H := by
          conv_lhs => unfold modeVec
          rw [if_neg (by omega)]
        rw [e, ih', if_neg (show ¬ m % 2 = 1 by omega)]
        conv_rhs => unfold modeVec
        rw [if_neg (by omega), show (2 * r.2 + m % 2) / 2 = r.2 by omega]
      · have e : (modeVec (p :: ps) m H : Fock R) = cr p (modeVec ps (m / 2) H) := by
          conv_lhs => unfold modeVec
          rw [if_pos h]
        rw [e, ladder_cr_ne hne, ih', if_pos h, map_zsmul, neg_smul]
        conv_rhs => unfold modeVec
        rw [if_pos (by omega), show (2 * r.2 + m % 2) / 2 = r.2 by omega]

/-- Every determinant is such a product, up to sign. -/
theorem modeVec_surj (ps : List ℕ) (S : Finset ℕ) :
    ∃ (m : ℕ) (u : ℤ), m < 2 ^ ps.length ∧
      (ket S : Fock R) = u • modeVec ps m (S \ ps.toFinset) := by
  induction ps generalizing S with
  | nil => exact ⟨0, 1, by simp, by simp [modeVec]⟩
  | cons p ps ih =>
    obtain ⟨m, u, h1, h3⟩ := ih (S.erase p)
    have hH : S.erase p \ ps.toFinset = S \ (p :: ps).toFinset := by
      ext q; simp only [Finset.mem_sdiff, Finset.mem_erase, List.mem_toFinset, List.mem_cons]; tauto
    rw [hH] at h3
    by_cases hS : p ∈ S
    · have e : (ket S : Fock R) = (phase S p : ℤ) • cr p (ket (S.erase p)) := by
        show sgl S 1 = (phase S p : ℤ) • cr p (sgl (S.erase p) 1)
        rw [cr_single, if_neg (by simp), Finset.insert_erase hS, phase_erase_ge _ _ _ (by simp)]
        unfold phase
        rcases Nat.even_or_odd ((S.filter (· < p)).card) with he | ho
        · rw [he.neg_one_pow, he.neg_one_pow, one_smul, one_mul]
        · rw [ho.neg_one_pow, ho.neg_one_pow, neg_one_smul, one_mul, sgl_neg, neg_neg]
      refine ⟨2 * m + 1, phase S p * u, ?_, ?_⟩
      · rw [List.length_cons, pow_succ]; omega
      · rw [e, h3, map_zsmul, mul_smul]
        conv_rhs => unfold modeVec
        rw [if_pos (by omega), show (2 * m + 1) / 2 = m by omega]
    · refine ⟨2 * m, u, ?_, ?_⟩
      · rw [List.length_cons, pow_succ]; omega
      · rw [Finset.erase_eq_of_notMem hS] at h3
        rw [h3]
        conv_rhs => unfold modeVec
        rw [if_neg (by omega), show 2 * m / 2 = m by omega]

end SQ
