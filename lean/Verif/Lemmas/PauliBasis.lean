import Verif.Lemmas.JWMap
import Verif.Spec.QubitMap
import Mathlib.Algebra.BigOperators.Pi
import Mathlib.Algebra.BigOperators.Ring.Finset

/-!
# Lemmas: an operator determines its coefficients in terms of Pauli strings
-/

namespace SQ

open Finset

variable {n : ℕ}

theorem sigma_trace {l m : Char} (hl : l = 'I' ∨ l = 'X' ∨ l = 'Y' ∨ l = 'Z') (hm : m = 'I' ∨ m = 'X' ∨ m = 'Y' ∨ m = 'Z') :
    ∑ x, (sigma l * sigma m) x x = if l = m then 2 else 0 := by
  rcases hl with rfl | rfl | rfl | rfl <;> rcases hm with rfl | rfl | rfl | rfl <;>
    simp [sigma, sigmaX, sigmaY, sigmaZ, Matrix.mul_apply] <;> norm_num

theorem tensor_basis (M : Fin n → Matrix Bool Bool ℂ) (b : Fin n → Bool) :
    tensor M (basis b) b = ∏ i, M i (b i) (b i) := by
  unfold tensor basis
  simp

theorem tensor_trace (M : Fin n → Matrix Bool Bool ℂ) : ∑ b, tensor M (basis b) b = ∏ i, ∑ x, M i x x := by
  rw [Finset.prod_univ_sum, Fintype.piFinset_univ]
  exact Finset.sum_congr rfl fun b _ => tensor_basis M b

theorem letter_label {p : List Char} (hp : PauliLabel n p) (i : Fin n) :
    letter p i = 'I' ∨ letter p i = 'X' ∨ letter p i = 'Y' ∨ letter p i = 'Z' := by
  unfold letter
  have hi : (i : ℕ) < p.reverse.length := by rw [List.length_reverse, hp.1]; exact i.2
  rw [List.getElem?_eq_getElem hi, Option.getD_some]
  exact hp.2 _ (List.mem_reverse.1 (List.getElem_mem hi))

theorem letters_inj {p q : List Char} (hp : PauliLabel n p) (hq : PauliLabel n q)
    (h : ∀ i : Fin n, letter p i = letter q i) : p = q := by
  rw [← List.reverse_inj]
  refine List.ext_getElem (by rw [List.length_reverse, List.length_reverse, hp.1, hq.1]) fun i h1 h2 => ?_
  have := h ⟨i, by rw [List.length_reverse, hp.1] at h1; exact h1⟩
  unfold letter at this
  dsimp only at this
  rwa [List.getElem?_eq_getElem h1, List.getElem?_eq_getElem h2, Option.getD_some, Option.getD_some] at this

theorem pauli_trace {p q : List Char} (hp : PauliLabel n p) (hq : PauliLabel n q) :
    ∑ b, pauliOp n q (pauliOp n p (basis b)) b = if p = q then 2 ^ n else 0 := by
  unfold pauliOp
  simp only [tensor_tensor]
  rw [tensor_trace]
  by_cases h : p = q
  · subst h
    rw [if_pos rfl, Finset.prod_congr rfl fun i _ => by
      rw [sigma_trace (letter_label hp i) (letter_label hp i), if_pos rfl]]
    simp
  · rw [if_neg h]
    obtain ⟨i, hi⟩ : ∃ i : Fin n, letter q i ≠ letter p i := by
      by_contra hc
      push Not at hc
      exact h (letters_inj hp hq fun i => (hc i).symm)
    refine Finset.prod_eq_zero (Finset.mem_univ i) ?_
    rw [sigma_trace (letter_label hq i) (letter_label hp i), if_neg hi]

/-- The coefficient of the label `q`. -/
noncomputable def labelCoeff (obs : List (List Char × ℂ)) (q : List Char) : ℂ := (obs.map fun pc => if pc.1 = q then pc.2 else 0).sum

theorem obs_trace {obs : List (List Char × ℂ)} (ho : ∀ pc ∈ obs, PauliLabel n pc.1) {q : List Char} (hq : PauliLabel n q) :
    ∑ b, pauliOp n q (obsOp n obs (basis b)) b = 2 ^ n * labelCoeff obs q := by
  induction obs with
  | nil =>
    have : ∀ b : Fin n → Bool, pauliLin n q 0 b = 0 := fun b => by rw [map_zero]; rfl
    unfold labelCoeff obsOp
    simp only [List.map_nil, List.sum_nil, mul_zero]
    exact Finset.sum_eq_zero fun b _ => this b
  | cons x o ih =>
    have e : ∀ b : Fin n → Bool, pauliOp n q (obsOp n (x :: o) (basis b)) b =
        x.2 * pauliOp n q (pauliOp n x.1 (basis b)) b + pauliOp n q (obsOp n o (basis b)) b := by
      intro b
      rw [obsOp_cons]
      change pauliLin n q (x.2 • pauliOp n x.1 (basis b) + obsOp n o (basis b)) b = _
      rw [map_add, map_smul]
      rfl
    rw [Finset.sum_congr rfl fun b _ => e b, Finset.sum_add_distrib, ← Finset.mul_sum,
      ih fun y hy => ho y (by simp [hy]), pauli_trace (ho x (by simp)) hq]
    unfold labelCoeff
    rw [List.map_cons, List.sum_cons]
    by_cases h : x.1 = q
    · rw [if_pos h, if_pos h]; ring
    · rw [if_neg h, if_neg h]; ring

/-- Labels with coefficients of the same operator have the same coefficients. -/
theorem labelCoeff_unique {o1 o2 : List (List Char × ℂ)} (h1 : ∀ pc ∈ o1, PauliLabel n pc.1) (h2 : ∀ pc ∈ o2, PauliLabel n pc.1)
    (h : ∀ b : Fin n → Bool, obsOp n o1 (basis b) = obsOp n o2 (basis b)) (q : List Char) : labelCoeff o1 q = labelCoeff o2 q := by
  by_cases hq : PauliLabel n q
  · have := (obs_trace h1 hq).symm.trans ((Finset.sum_congr rfl fun b _ => by rw [h]).trans (obs_trace h2 hq))
    exact mul_left_cancel₀ (pow_ne_zero n two_ne_zero) this
  · have z : ∀ {o : List (List Char × ℂ)}, (∀ pc ∈ o, PauliLabel n pc.1) → labelCoeff o q = 0 := by
      intro o ho
      unfold labelCoeff
      refine List.sum_eq_zero fun x hx => ?_
      obtain ⟨pc, hp, rfl⟩ := List.mem_map.1 hx
      exact if_neg fun (e : pc.1 = q) => hq (e ▸ ho pc hp)
    rw [z h1, z h2]

theorem labelCoeff_ne {o : List (List Char × ℂ)} {q : List Char} (h : q ∉ o.map Prod.fst) : labelCoeff o q = 0 := by
  unfold labelCoeff
  refine List.sum_eq_zero fun x hx => ?_
  obtain ⟨pc, hp, rfl⟩ := List.mem_map.1 hx
  exact if_neg fun (e : pc.1 = q) => h (e ▸ List.mem_map_of_mem hp)

theorem valueWith_coeff (v : List Char → ℝ) (o : List (List Char × ℂ)) {Q : Finset (List Char)}
    (hQ : ∀ pc ∈ o, pc.1 ∈ Q) : valueWith v o = ∑ q ∈ Q, (labelCoeff o q).re * v q := by
  induction o with
  | nil => simp [valueWith, labelCoeff]
  | cons x o ih =>
    have e : ∀ q, labelCoeff (x :: o) q = (if x.1 = q then x.2 else 0) + labelCoeff o q := fun q => by
      unfold labelCoeff
      rw [List.map_cons, List.sum_cons]
    have s : valueWith v (x :: o) = x.2.re * v x.1 + valueWith v o := by
      unfold valueWith
      rw [List.map_cons, List.sum_cons]
    have t : ∀ q, (if x.1 = q then x.2 else 0).re * v q = if x.1 = q then x.2.re * v x.1 else 0 := fun q => by
      by_cases h : x.1 = q
      · rw [if_pos h, if_pos h, h]
      · rw [if_neg h, if_neg h, Complex.zero_re, zero_mul]
    rw [s, ih fun y hy => hQ y (by simp [hy])]
    simp only [e, Complex.add_re, add_mul, Finset.sum_add_distrib, t]
    rw [Finset.sum_ite_eq, if_pos (hQ x (by simp))]

/-- The number obtained for an operator only depends on the values of the labels in any form of it. -/
theorem valueWith_same {o1 o2 : List (List Char × ℂ)} (h : ∀ q, labelCoeff o1 q = labelCoeff o2 q) {v v' : List Char → ℝ}
    (hv : ∀ p ∈ o2.map Prod.fst, v p = v' p) : valueWith v o1 = valueWith v' o1 := by
  classical
  have hQ : ∀ pc ∈ o1, pc.1 ∈ (o1.map Prod.fst).toFinset := fun pc hp => List.mem_toFinset.2 (List.mem_map_of_mem hp)
  rw [valueWith_coeff v o1 hQ, valueWith_coeff v' o1 hQ]
  refine Finset.sum_congr rfl fun q _ => ?_
  by_cases c : q ∈ o2.map Prod.fst
  · rw [hv q c]
  · rw [h, labelCoeff_ne c, Complex.zero_re, zero_mul, zero_mul]

end SQ
