import Verif.Lemmas.Uncore
import Verif.Lemmas.AnsatzLayout
import Verif.Lemmas.DensityFill

/-!
# The same ansatz in the active space and in a space that also has the inactive orbitals
-/

namespace SQ

theorem coeff_core (m : ℕ) (x : Fock ℝ) (S : Finset ℕ) :
    coeff (core m x) S = if Finset.range m ⊆ S then coeff x ((S \ Finset.range m).image (· - m)) else 0 := by
  have key : ∀ z : Fock ℝ, ∀ T, coeff z T = inner (ket T) z := fun z T => (inner_ket_left T z).symm
  rw [key, inner_comm, uncore_adjoint m x (ket S), inner_comm]
  unfold uncore
  rw [ket, liftOp_single, one_smul]
  split_ifs
  · rw [← key]
  · exact inner_zero_left _

/-- `T'` does on `|I,x⟩` what `T` does on `x`. -/
def Lifts (m : ℕ) (T T' : FOp ℝ) : Prop := ∀ x, T' (core m x) = core m (T x)

theorem Lifts.mul {m : ℕ} {A A' B B' : FOp ℝ} (h : Lifts m A A') (k : Lifts m B B') : Lifts m (A * B) (A' * B') :=
  fun x => by rw [Module.End.mul_apply, Module.End.mul_apply, k, h]

theorem Lifts.sub {m : ℕ} {A A' B B' : FOp ℝ} (h : Lifts m A A') (k : Lifts m B B') : Lifts m (A - B) (A' - B') :=
  fun x => by rw [LinearMap.sub_apply, LinearMap.sub_apply, k, h, map_sub]

theorem Lifts.add {m : ℕ} {A A' B B' : FOp ℝ} (h : Lifts m A A') (k : Lifts m B B') : Lifts m (A + B) (A' + B') :=
  fun x => by rw [LinearMap.add_apply, LinearMap.add_apply, k, h, map_add]

theorem Lifts.smul {m : ℕ} {A A' : FOp ℝ} (h : Lifts m A A') (c : ℝ) : Lifts m (c • A) (c • A') :=
  fun x => by rw [LinearMap.smul_apply, LinearMap.smul_apply, h, map_smul]

theorem Lifts.one (m : ℕ) : Lifts m 1 1 := fun _ => rfl

theorem Lifts.pow {m : ℕ} {A A' : FOp ℝ} (h : Lifts m A A') (k : ℕ) : Lifts m (A ^ k) (A' ^ k) := by
  induction k with
  | zero => rw [pow_zero, pow_zero]; exact .one m
  | succ k ih => rw [pow_succ, pow_succ]; exact ih.mul h

theorem Lifts.E (nI p q : ℕ) : Lifts (2 * nI) (SQ.E (p + 0) (q + 0)) (SQ.E (p + nI) (q + nI)) := fun x => by
  rw [add_comm p, add_comm q, E_core, add_zero, add_zero]

theorem lifts_lad (nI : ℕ) (b : Bool) (l : List ℕ) :
    Lifts (2 * nI) ((l.map fun p => ladder (p, b)).prod) (((l.map (· + 2 * nI)).map fun p => ladder (p, b)).prod) := by
  induction l with
  | nil => exact .one _
  | cons p t ih =>
    simp only [List.map_cons, List.prod_cons]
    refine Lifts.mul (fun x => ?_) ih
    rw [add_comm p]
    exact ladder_core (even_two_mul nI) (p, b) x

theorem Lifts.excite (nI : ℕ) (C A : List ℕ) :
    Lifts (2 * nI) (SQ.excite C A) (SQ.excite (C.map (· + 2 * nI)) (A.map (· + 2 * nI))) := by
  have c := lifts_lad nI true C
  have a := lifts_lad nI false A
  simp only [ladder, if_true, Bool.false_eq_true, if_false] at c a
  exact c.mul a

theorem Excitation.unshift {n : ℕ} {ty : String} {ix : List ℕ} {T : FOp ℝ} {nI : ℕ} (h : Excitation nI n ty ix T) :
    ∃ T', Excitation 0 n ty ix T' ∧ Lifts (2 * nI) T' T := by
  have e := Lifts.E nI
  cases h with
  | spin k hk I A hI hA hr hs =>
    refine ⟨_, .spin k hk I A hI hA hr hs, ?_⟩
    have h0 : ∀ l : List ℕ, l.map (· + 2 * 0) = l := fun l => by simp
    rw [h0, h0, ← List.map_reverse, ← List.map_reverse]
    exact (Lifts.excite nI A I.reverse).sub (Lifts.excite nI I A.reverse)
  | saSingle i a hr => exact ⟨_, .saSingle i a hr, (e _ _).sub (e _ _)⟩
  | saDouble1 i a hd hr =>
    exact ⟨_, .saDouble1 i a hd hr, (((e _ _).mul (e _ _)).sub ((e _ _).mul (e _ _))).smul _⟩
  | saDouble2 i a b hd hr =>
    exact ⟨_, .saDouble2 i a b hd hr, (((e _ _).mul (e _ _)).sub ((e _ _).mul (e _ _))).smul _⟩
  | saDouble3 i j a hd hr =>
    exact ⟨_, .saDouble3 i j a hd hr, (((e _ _).mul (e _ _)).sub ((e _ _).mul (e _ _))).smul _⟩
  | saDouble4 i j a b hd hr =>
    exact ⟨_, .saDouble4 i j a b hd hr, ((((e _ _).mul (e _ _)).add ((e _ _).mul (e _ _))).sub
      (((e _ _).mul (e _ _)).add ((e _ _).mul (e _ _)))).smul _⟩
  | saDouble5 i j a b hd hr =>
    exact ⟨_, .saDouble5 i j a b hd hr, ((((e _ _).mul (e _ _)).sub ((e _ _).mul (e _ _))).sub
      (((e _ _).mul (e _ _)).sub ((e _ _).mul (e _ _)))).smul _⟩

theorem Layout.unshift {n : ℕ} {types : List String} {indices : List (List ℕ)} {Ts : List (FOp ℝ)}
    {nI : ℕ} (h : Layout nI n types indices Ts) :
    ∃ Ts', Layout 0 n types indices Ts' ∧ List.Forall₂ (Lifts (2 * nI)) Ts' Ts := by
  induction h with
  | nil => exact ⟨[], .nil, .nil⟩
  | cons h1 _ ih =>
    obtain ⟨Ts', k1, k2⟩ := ih
    obtain ⟨T', e1, e2⟩ := h1.unshift
    exact ⟨T' :: Ts', .cons e1 k1, .cons e2 k2⟩

theorem ExpTo.core {m : ℕ} {T T' : FOp ℝ} (h : Lifts m T T') {θ : ℝ} {x y : Fock ℝ} (k : ExpTo T θ x y) :
    ExpTo T' θ (core m x) (core m y) := by
  intro S
  simp only [h.pow _ _, coeff_core]
  split_ifs
  · exact k _
  · simp

theorem ExpChain.core {m : ℕ} {Ts Ts' : List (FOp ℝ)} (h : List.Forall₂ (Lifts m) Ts Ts') (th : List ℝ) {x y : Fock ℝ}
    (k : ExpChain (Ts.zip th) x y) : ExpChain (Ts'.zip th) (SQ.core m x) (SQ.core m y) := by
  induction h generalizing th x with
  | nil => cases k; exact .nil _
  | cons h1 _ ih =>
    cases th with
    | nil => cases k; exact .nil _
    | cons t th =>
      cases k with
      | cons k1 k2 => exact .cons (k1.core h1) (ih th k2)

end SQ
