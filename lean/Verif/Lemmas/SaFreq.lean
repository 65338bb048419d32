import Verif.Lemmas.ModeTables
import Verif.Lemmas.Spectral
import Mathlib.Tactic.Module
import Mathlib.Tactic.LinearCombination
import Mathlib.Tactic.FieldSimp
import Mathlib.Tactic.FinCases

/-! # Frequencies of the spin-adapted doubles -/

namespace SQ

variable {R : Type*} [CommRing R]

theorem mDen_append (ps : List ℕ) (X Y : MOp) :
    (mDen ps (X ++ Y) : FOp R) = mDen ps X + mDen ps Y := by simp [mDen]

theorem mDen_mEE (ps : List ℕ) (c : ℤ) (p q r s P Q U W : ℕ)
    (h1 : ps.getD (2 * p) 0 = 2 * P) (h2 : ps.getD (2 * p + 1) 0 = 2 * P + 1)
    (h3 : ps.getD (2 * q) 0 = 2 * Q) (h4 : ps.getD (2 * q + 1) 0 = 2 * Q + 1)
    (h5 : ps.getD (2 * r) 0 = 2 * U) (h6 : ps.getD (2 * r + 1) 0 = 2 * U + 1)
    (h7 : ps.getD (2 * s) 0 = 2 * W) (h8 : ps.getD (2 * s + 1) 0 = 2 * W + 1) :
    (mDen ps (mEE c p q r s) : FOp R) = c • (E P Q * E U W) := by
  unfold mDen mEE mLads
  simp only [List.map_cons, List.map_nil, List.sum_cons, List.sum_nil, h1, h2, h3, h4, h5, h6, h7, h8]
  have st : ∀ a b c d : ℕ, (strOp [(a, true), (b, false), (c, true), (d, false)] : FOp R)
      = cr a * an b * (cr c * an d) := by
    intro a b c d
    simp [strOp, ladder, mul_assoc]
  rw [st, st, st, st]
  simp only [E, add_mul, mul_add, smul_add]
  abel

theorem spinOrbs_nodup {os : List ℕ} (h : os.Nodup) : (spinOrbs os).Nodup := by
  unfold spinOrbs
  rw [List.nodup_flatMap]
  refine ⟨fun o _ => by simp, h.imp ?_⟩
  intro a b hab
  simp only [Function.onFun, List.disjoint_left, List.mem_cons, List.not_mem_nil, or_false]
  rintro x (rfl | rfl) <;> omega

/-- `X = E_ai E_bj ± E_aj E_bi - h.c.` for four different orbitals. -/
theorem den_X45 (i j a b : ℕ) (s : ℤ) : (mDen (spinOrbs [i, j, a, b]) (X45 s) : FOp R)
    = E a i * E b j + s • (E a j * E b i) - (E j b * E i a + s • (E i b * E j a)) := by
  unfold X45
  rw [mDen_append, mDen_append, mDen_append,
    mDen_mEE _ 1 2 0 3 1 a i b j rfl rfl rfl rfl rfl rfl rfl rfl,
    mDen_mEE _ s 2 1 3 0 a j b i rfl rfl rfl rfl rfl rfl rfl rfl,
    mDen_mEE _ (-1) 1 3 0 2 j b i a rfl rfl rfl rfl rfl rfl rfl rfl,
    mDen_mEE _ (-s) 0 3 1 2 i b j a rfl rfl rfl rfl rfl rfl rfl rfl]
  simp only [one_smul, neg_smul]; abel

theorem den_X2 (i j a : ℕ) : (mDen (spinOrbs [i, j, a]) X2 : FOp R)
    = E a i * E a j - E j a * E i a := by
  unfold X2
  rw [mDen_append, mDen_mEE _ 1 2 0 2 1 a i a j rfl rfl rfl rfl rfl rfl rfl rfl,
    mDen_mEE _ (-1) 1 2 0 2 j a i a rfl rfl rfl rfl rfl rfl rfl rfl]
  simp only [one_smul, neg_smul]; abel

theorem den_X3 (i a b : ℕ) : (mDen (spinOrbs [i, a, b]) X3 : FOp R)
    = E a i * E b i - E i b * E i a := by
  unfold X3
  rw [mDen_append, mDen_mEE _ 1 1 0 2 0 a i b i rfl rfl rfl rfl rfl rfl rfl rfl,
    mDen_mEE _ (-1) 0 2 0 1 i b i a rfl rfl rfl rfl rfl rfl rfl rfl]
  simp only [one_smul, neg_smul]; abel

theorem den_X1 (i a : ℕ) : (mDen (spinOrbs [i, a]) X1 : FOp R)
    = E a i * E a i - E i a * E i a := by
  unfold X1
  rw [mDen_append, mDen_mEE _ 1 1 0 1 0 a i a i rfl rfl rfl rfl rfl rfl rfl rfl,
    mDen_mEE _ (-1) 0 1 0 1 i a i a rfl rfl rfl rfl rfl rfl rfl rfl]
  simp only [one_smul, neg_smul]; abel

theorem mCheck_len {ps : List ℕ} {n N : ℕ} (hl : ps.length = n) (hn : ps.Nodup) {X : MOp}
    (hX : X.InRange n) (hN : 2 ^ n = N) {cs : List ℤ} (h : mCheck X cs N = true) :
    (mDen ps X * prodSq (mDen ps X) cs : FOp R) = 0 := by
  subst hN; subst hl
  exact mCheck_sound ps hn X hX cs h

theorem range1 : X1.InRange 4 := by decide
theorem range2 : X2.InRange 6 := by decide
theorem range3 : X3.InRange 6 := by decide
theorem range4 : (X45 1).InRange 8 := by decide +kernel
theorem range5 : (X45 (-1)).InRange 8 := by decide +kernel

theorem min1 {i a : ℕ} (h : i ≠ a) (X : FOp ℝ) (hX : X = E a i * E a i - E i a * E i a) :
    X * prodSq X [4] = 0 := by
  rw [hX, ← den_X1]
  exact mCheck_len rfl (spinOrbs_nodup (os := [i, a]) (by simp [h])) range1 (n := 4) (by norm_num) check1

theorem min2 {i j a : ℕ} (h : [i, j, a].Nodup) (X : FOp ℝ)
    (hX : X = E a i * E a j - E j a * E i a) : X * prodSq X [2, 1] = 0 := by
  rw [hX, ← den_X2]
  exact mCheck_len rfl (spinOrbs_nodup h) range2 (n := 6) (by norm_num) check2

theorem min3 {i a b : ℕ} (h : [i, a, b].Nodup) (X : FOp ℝ)
    (hX : X = E a i * E b i - E i b * E i a) : X * prodSq X [2, 1] = 0 := by
  rw [hX, ← den_X3]
  exact mCheck_len rfl (spinOrbs_nodup h) range3 (n := 6) (by norm_num) check3

theorem min4 {i j a b : ℕ} (h : [i, j, a, b].Nodup) (X : FOp ℝ)
    (hX : X = E a i * E b j + E a j * E b i - (E j b * E i a + E i b * E j a)) :
    X * prodSq X [4, 8, 2, 1] = 0 := by
  have := den_X45 (R := ℝ) i j a b 1
  rw [one_smul, one_smul] at this
  rw [hX, ← this]
  exact mCheck_len rfl (spinOrbs_nodup h) range4 (n := 8) (by norm_num) check4

theorem min5 {i j a b : ℕ} (h : [i, j, a, b].Nodup) (X : FOp ℝ)
    (hX : X = E a i * E b j - E a j * E b i - (E j b * E i a - E i b * E j a)) :
    X * prodSq X [24, 6, 4, 9, 1] = 0 := by
  have := den_X45 (R := ℝ) i j a b (-1)
  rw [neg_one_smul, neg_one_smul, ← sub_eq_add_neg, ← sub_eq_add_neg] at this
  rw [hX, ← this]
  exact mCheck_len rfl (spinOrbs_nodup h) range5 (n := 8) (by norm_num) check5

/-! ### From the minimal polynomial to the frequencies -/

/-- Powers of a scaled operator. -/
theorem exp_prodSq (T : FOp ℝ) (z : ℝ) (cs : List ℤ) (h : (z • T) * prodSq (z • T) cs = 0)
    (hz : z ≠ 0) : T * (cs.map fun c : ℤ => T * T + ((c : ℝ) / z ^ 2) • (1 : FOp ℝ)).prod = 0 := by
  have key : prodSq (z • T) cs
      = (z ^ 2) ^ cs.length • (cs.map fun c : ℤ => T * T + ((c : ℝ) / z ^ 2) • (1 : FOp ℝ)).prod := by
    clear h
    induction cs with
    | nil => simp [prodSq]
    | cons c cs ih =>
      have e : prodSq (z • T) (c :: cs)
          = ((z • T) * (z • T) + c • (1 : FOp ℝ)) * prodSq (z • T) cs := by simp [prodSq]
      have e2 : (z • T) * (z • T) + c • (1 : FOp ℝ)
          = z ^ 2 • (T * T + ((c : ℝ) / z ^ 2) • (1 : FOp ℝ)) := by
        rw [smul_mul_smul_comm, smul_add, smul_smul, ← Int.cast_smul_eq_zsmul ℝ c]
        congr 2
        · ring
        · field_simp
      rw [e, e2, ih, List.map_cons, List.prod_cons, List.length_cons, smul_mul_smul_comm, pow_succ]
      congr 1; ring
  rw [key, smul_mul_smul_comm] at h
  exact (smul_eq_zero.1 h).resolve_left (by positivity)

/-- The operators `Q k` for `sa_double_2` and `sa_double_3`. -/
noncomputable def Q23 (T : FOp ℝ) : Fin 2 → FOp ℝ :=
  ![(-1 : ℝ) • T ^ 1 + (-2 : ℝ) • T ^ 3,
  (2 : ℝ) • T ^ 1 + (2 : ℝ) • T ^ 3]

open Real in
/-- Frequencies for `sa_double_2` and `sa_double_3`. -/
noncomputable def s23 : Fin 2 → ℝ := ![1, √2 / 2]

theorem s23_sq : (fun k => s23 k ^ 2) = ![1, 1/2] := by
  funext k; fin_cases k <;> simp [s23, div_pow] <;> norm_num

/-- The operators `Q k` for `sa_double_4`. -/
noncomputable def Q4 (T : FOp ℝ) : Fin 4 → FOp ℝ :=
  ![(2/3 : ℝ) • T ^ 1 + (13/3 : ℝ) • T ^ 3 + (22/3 : ℝ) • T ^ 5 + (8/3 : ℝ) • T ^ 7,
  (-1/21 : ℝ) • T ^ 1 + (-1/3 : ℝ) • T ^ 3 + (-2/3 : ℝ) • T ^ 5 + (-8/21 : ℝ) • T ^ 7,
  (-8/3 : ℝ) • T ^ 1 + (-44/3 : ℝ) • T ^ 3 + (-52/3 : ℝ) • T ^ 5 + (-16/3 : ℝ) • T ^ 7,
  (64/21 : ℝ) • T ^ 1 + (32/3 : ℝ) • T ^ 3 + (32/3 : ℝ) • T ^ 5 + (64/21 : ℝ) • T ^ 7]

open Real in
/-- Frequencies for `sa_double_4`. -/
noncomputable def s4 : Fin 4 → ℝ := ![1, √2, √2 / 2, 1 / 2]

theorem s4_sq : (fun k => s4 k ^ 2) = ![1, 2, 1/2, 1/4] := by
  funext k; fin_cases k <;> simp [s4, div_pow] <;> norm_num

/-- The operators `Q k` for `sa_double_5`. -/
noncomputable def Q5 (T : FOp ℝ) : Fin 5 → FOp ℝ :=
  ![(1/575 : ℝ) • T ^ 1 + (11/345 : ℝ) • T ^ 3 + (266/1725 : ℝ) • T ^ 5 + (32/115 : ℝ) • T ^ 7 + (96/575 : ℝ) • T ^ 9,
  (8/5 : ℝ) • T ^ 1 + (404/15 : ℝ) • T ^ 3 + (308/3 : ℝ) • T ^ 5 + (608/5 : ℝ) • T ^ 7 + (192/5 : ℝ) • T ^ 9,
  (-54/25 : ℝ) • T ^ 1 + (-171/5 : ℝ) • T ^ 3 + (-2718/25 : ℝ) • T ^ 5 + (-576/5 : ℝ) • T ^ 7 + (-864/25 : ℝ) • T ^ 9,
  (-8/25 : ℝ) • T ^ 1 + (-28/5 : ℝ) • T ^ 3 + (-596/25 : ℝ) • T ^ 5 + (-168/5 : ℝ) • T ^ 7 + (-288/25 : ℝ) • T ^ 9,
  (216/115 : ℝ) • T ^ 1 + (1476/115 : ℝ) • T ^ 3 + (684/23 : ℝ) • T ^ 5 + (3096/115 : ℝ) • T ^ 7 + (864/115 : ℝ) • T ^ 9]

open Real in
/-- Frequencies for `sa_double_5`. -/
noncomputable def s5 : Fin 5 → ℝ := ![√2, √2 / 2, √3 / 3, √3 / 2, √3 / 6]

theorem s5_sq : (fun k => s5 k ^ 2) = ![2, 1/2, 1/3, 3/4, 1/12] := by
  funext k; fin_cases k <;> simp [s5, div_pow] <;> norm_num

theorem tt (T : FOp ℝ) (n : ℕ) : T * (T * T ^ n) = T ^ (n + 2) := by
  rw [← pow_succ', ← pow_succ']

theorem pcomm (T : FOp ℝ) (n : ℕ) : T ^ n * T = T * T ^ n := by rw [← pow_succ, ← pow_succ']

theorem freq23 (T : FOp ℝ) (h : T ^ 5 + (3/2 : ℝ) • T ^ 3 + (1/2 : ℝ) • T ^ 1 = 0) :
    Freq T s23 (Q23 T) where
  ne k := by fin_cases k <;> simp [s23]
  distinct := by
    have := fun k => congrFun s23_sq k
    simp only [this]
    intro k l; fin_cases k <;> fin_cases l <;> simp <;> norm_num
  sum := by
    rw [Fin.sum_univ_two]
    show ((-1 : ℝ) • T ^ 1 + (-2 : ℝ) • T ^ 3) + ((2 : ℝ) • T ^ 1 + (2 : ℝ) • T ^ 3) = T
    conv_rhs => rw [← pow_one T]
    module
  sq k := by
    rw [congrFun s23_sq k]
    fin_cases k
    · show T * (T * ((-1 : ℝ) • T ^ 1 + (-2 : ℝ) • T ^ 3)) = -(1 : ℝ) • ((-1 : ℝ) • T ^ 1 + (-2 : ℝ) • T ^ 3)
      simp only [mul_add, mul_smul_comm, tt, Nat.reduceAdd]
      linear_combination (norm := module) (-2 : ℝ) • h
    · show T * (T * ((2 : ℝ) • T ^ 1 + (2 : ℝ) • T ^ 3)) = -(1/2 : ℝ) • ((2 : ℝ) • T ^ 1 + (2 : ℝ) • T ^ 3)
      simp only [mul_add, mul_smul_comm, tt, Nat.reduceAdd]
      linear_combination (norm := module) (2 : ℝ) • h
  comm k := by
    fin_cases k
    · show ((-1 : ℝ) • T ^ 1 + (-2 : ℝ) • T ^ 3) * T = T * ((-1 : ℝ) • T ^ 1 + (-2 : ℝ) • T ^ 3)
      simp only [mul_add, add_mul, mul_smul_comm, smul_mul_assoc, pcomm]
    · show ((2 : ℝ) • T ^ 1 + (2 : ℝ) • T ^ 3) * T = T * ((2 : ℝ) • T ^ 1 + (2 : ℝ) • T ^ 3)
      simp only [mul_add, add_mul, mul_smul_comm, smul_mul_assoc, pcomm]

theorem freq4 (T : FOp ℝ) (h : T ^ 9 + (15/4 : ℝ) • T ^ 7 + (35/8 : ℝ) • T ^ 5 + (15/8 : ℝ) • T ^ 3 + (1/4 : ℝ) • T ^ 1 = 0) :
    Freq T s4 (Q4 T) where
  ne k := by fin_cases k <;> simp [s4]
  distinct := by
    have := fun k => congrFun s4_sq k
    simp only [this]
    intro k l; fin_cases k <;> fin_cases l <;> simp <;> norm_num
  sum := by
    rw [Fin.sum_univ_four]
    show ((2/3 : ℝ) • T ^ 1 + (13/3 : ℝ) • T ^ 3 + (22/3 : ℝ) • T ^ 5 + (8/3 : ℝ) • T ^ 7) + ((-1/21 : ℝ) • T ^ 1 + (-1/3 : ℝ) • T ^ 3 + (-2/3 : ℝ) • T ^ 5 + (-8/21 : ℝ) • T ^ 7) + ((-8/3 : ℝ) • T ^ 1 + (-44/3 : ℝ) • T ^ 3 + (-52/3 : ℝ) • T ^ 5 + (-16/3 : ℝ) • T ^ 7) + ((64/21 : ℝ) • T ^ 1 + (32/3 : ℝ) • T ^ 3 + (32/3 : ℝ) • T ^ 5 + (64/21 : ℝ) • T ^ 7) = T
    conv_rhs => rw [← pow_one T]
    module
  sq k := by
    rw [congrFun s4_sq k]
    fin_cases k
    · show T * (T * ((2/3 : ℝ) • T ^ 1 + (13/3 : ℝ) • T ^ 3 + (22/3 : ℝ) • T ^ 5 + (8/3 : ℝ) • T ^ 7)) = -(1 : ℝ) • ((2/3 : ℝ) • T ^ 1 + (13/3 : ℝ) • T ^ 3 + (22/3 : ℝ) • T ^ 5 + (8/3 : ℝ) • T ^ 7)
      simp only [mul_add, mul_smul_comm, tt, Nat.reduceAdd]
      linear_combination (norm := module) (8/3 : ℝ) • h
    · show T * (T * ((-1/21 : ℝ) • T ^ 1 + (-1/3 : ℝ) • T ^ 3 + (-2/3 : ℝ) • T ^ 5 + (-8/21 : ℝ) • T ^ 7)) = -(2 : ℝ) • ((-1/21 : ℝ) • T ^ 1 + (-1/3 : ℝ) • T ^ 3 + (-2/3 : ℝ) • T ^ 5 + (-8/21 : ℝ) • T ^ 7)
      simp only [mul_add, mul_smul_comm, tt, Nat.reduceAdd]
      linear_combination (norm := module) (-8/21 : ℝ) • h
    · show T * (T * ((-8/3 : ℝ) • T ^ 1 + (-44/3 : ℝ) • T ^ 3 + (-52/3 : ℝ) • T ^ 5 + (-16/3 : ℝ) • T ^ 7)) = -(1/2 : ℝ) • ((-8/3 : ℝ) • T ^ 1 + (-44/3 : ℝ) • T ^ 3 + (-52/3 : ℝ) • T ^ 5 + (-16/3 : ℝ) • T ^ 7)
      simp only [mul_add, mul_smul_comm, tt, Nat.reduceAdd]
      linear_combination (norm := module) (-16/3 : ℝ) • h
    · show T * (T * ((64/21 : ℝ) • T ^ 1 + (32/3 : ℝ) • T ^ 3 + (32/3 : ℝ) • T ^ 5 + (64/21 : ℝ) • T ^ 7)) = -(1/4 : ℝ) • ((64/21 : ℝ) • T ^ 1 + (32/3 : ℝ) • T ^ 3 + (32/3 : ℝ) • T ^ 5 + (64/21 : ℝ) • T ^ 7)
      simp only [mul_add, mul_smul_comm, tt, Nat.reduceAdd]
      linear_combination (norm := module) (64/21 : ℝ) • h
  comm k := by
    fin_cases k
    · show ((2/3 : ℝ) • T ^ 1 + (13/3 : ℝ) • T ^ 3 + (22/3 : ℝ) • T ^ 5 + (8/3 : ℝ) • T ^ 7) * T = T * ((2/3 : ℝ) • T ^ 1 + (13/3 : ℝ) • T ^ 3 + (22/3 : ℝ) • T ^ 5 + (8/3 : ℝ) • T ^ 7)
      simp only [mul_add, add_mul, mul_smul_comm, smul_mul_assoc, pcomm]
    · show ((-1/21 : ℝ) • T ^ 1 + (-1/3 : ℝ) • T ^ 3 + (-2/3 : ℝ) • T ^ 5 + (-8/21 : ℝ) • T ^ 7) * T = T * ((-1/21 : ℝ) • T ^ 1 + (-1/3 : ℝ) • T ^ 3 + (-2/3 : ℝ) • T ^ 5 + (-8/21 : ℝ) • T ^ 7)
      simp only [mul_add, add_mul, mul_smul_comm, smul_mul_assoc, pcomm]
    · show ((-8/3 : ℝ) • T ^ 1 + (-44/3 : ℝ) • T ^ 3 + (-52/3 : ℝ) • T ^ 5 + (-16/3 : ℝ) • T ^ 7) * T = T * ((-8/3 : ℝ) • T ^ 1 + (-44/3 : ℝ) • T ^ 3 + (-52/3 : ℝ) • T ^ 5 + (-16/3 : ℝ) • T ^ 7)
      simp only [mul_add, add_mul, mul_smul_comm, smul_mul_assoc, pcomm]
    · show ((64/21 : ℝ) • T ^ 1 + (32/3 : ℝ) • T ^ 3 + (32/3 : ℝ) • T ^ 5 + (64/21 : ℝ) • T ^ 7) * T = T * ((64/21 : ℝ) • T ^ 1 + (32/3 : ℝ) • T ^ 3 + (32/3 : ℝ) • T ^ 5 + (64/21 : ℝ) • T ^ 7)
      simp only [mul_add, add_mul, mul_smul_comm, smul_mul_assoc, pcomm]

theorem freq5 (T : FOp ℝ) (h : T ^ 11 + (11/3 : ℝ) • T ^ 9 + (613/144 : ℝ) • T ^ 7 + (587/288 : ℝ) • T ^ 5 + (113/288 : ℝ) • T ^ 3 + (1/48 : ℝ) • T ^ 1 = 0) :
    Freq T s5 (Q5 T) where
  ne k := by fin_cases k <;> simp [s5]
  distinct := by
    have := fun k => congrFun s5_sq k
    simp only [this]
    intro k l; fin_cases k <;> fin_cases l <;> simp <;> norm_num
  sum := by
    rw [Fin.sum_univ_five]
    show ((1/575 : ℝ) • T ^ 1 + (11/345 : ℝ) • T ^ 3 + (266/1725 : ℝ) • T ^ 5 + (32/115 : ℝ) • T ^ 7 + (96/575 : ℝ) • T ^ 9) + ((8/5 : ℝ) • T ^ 1 + (404/15 : ℝ) • T ^ 3 + (308/3 : ℝ) • T ^ 5 + (608/5 : ℝ) • T ^ 7 + (192/5 : ℝ) • T ^ 9) + ((-54/25 : ℝ) • T ^ 1 + (-171/5 : ℝ) • T ^ 3 + (-2718/25 : ℝ) • T ^ 5 + (-576/5 : ℝ) • T ^ 7 + (-864/25 : ℝ) • T ^ 9) + ((-8/25 : ℝ) • T ^ 1 + (-28/5 : ℝ) • T ^ 3 + (-596/25 : ℝ) • T ^ 5 + (-168/5 : ℝ) • T ^ 7 + (-288/25 : ℝ) • T ^ 9) + ((216/115 : ℝ) • T ^ 1 + (1476/115 : ℝ) • T ^ 3 + (684/23 : ℝ) • T ^ 5 + (3096/115 : ℝ) • T ^ 7 + (864/115 : ℝ) • T ^ 9) = T
    conv_rhs => rw [← pow_one T]
    module
  sq k := by
    rw [congrFun s5_sq k]
    fin_cases k
    · show T * (T * ((1/575 : ℝ) • T ^ 1 + (11/345 : ℝ) • T ^ 3 + (266/1725 : ℝ) • T ^ 5 + (32/115 : ℝ) • T ^ 7 + (96/575 : ℝ) • T ^ 9)) = -(2 : ℝ) • ((1/575 : ℝ) • T ^ 1 + (11/345 : ℝ) • T ^ 3 + (266/1725 : ℝ) • T ^ 5 + (32/115 : ℝ) • T ^ 7 + (96/575 : ℝ) • T ^ 9)
      simp only [mul_add, mul_smul_comm, tt, Nat.reduceAdd]
      linear_combination (norm := module) (96/575 : ℝ) • h
    · show T * (T * ((8/5 : ℝ) • T ^ 1 + (404/15 : ℝ) • T ^ 3 + (308/3 : ℝ) • T ^ 5 + (608/5 : ℝ) • T ^ 7 + (192/5 : ℝ) • T ^ 9)) = -(1/2 : ℝ) • ((8/5 : ℝ) • T ^ 1 + (404/15 : ℝ) • T ^ 3 + (308/3 : ℝ) • T ^ 5 + (608/5 : ℝ) • T ^ 7 + (192/5 : ℝ) • T ^ 9)
      simp only [mul_add, mul_smul_comm, tt, Nat.reduceAdd]
      linear_combination (norm := module) (192/5 : ℝ) • h
    · show T * (T * ((-54/25 : ℝ) • T ^ 1 + (-171/5 : ℝ) • T ^ 3 + (-2718/25 : ℝ) • T ^ 5 + (-576/5 : ℝ) • T ^ 7 + (-864/25 : ℝ) • T ^ 9)) = -(1/3 : ℝ) • ((-54/25 : ℝ) • T ^ 1 + (-171/5 : ℝ) • T ^ 3 + (-2718/25 : ℝ) • T ^ 5 + (-576/5 : ℝ) • T ^ 7 + (-864/25 : ℝ) • T ^ 9)
      simp only [mul_add, mul_smul_comm, tt, Nat.reduceAdd]
      linear_combination (norm := module) (-864/25 : ℝ) • h
    · show T * (T * ((-8/25 : ℝ) • T ^ 1 + (-28/5 : ℝ) • T ^ 3 + (-596/25 : ℝ) • T ^ 5 + (-168/5 : ℝ) • T ^ 7 + (-288/25 : ℝ) • T ^ 9)) = -(3/4 : ℝ) • ((-8/25 : ℝ) • T ^ 1 + (-28/5 : ℝ) • T ^ 3 + (-596/25 : ℝ) • T ^ 5 + (-168/5 : ℝ) • T ^ 7 + (-288/25 : ℝ) • T ^ 9)
      simp only [mul_add, mul_smul_comm, tt, Nat.reduceAdd]
      linear_combination (norm := module) (-288/25 : ℝ) • h
    · show T * (T * ((216/115 : ℝ) • T ^ 1 + (1476/115 : ℝ) • T ^ 3 + (684/23 : ℝ) • T ^ 5 + (3096/115 : ℝ) • T ^ 7 + (864/115 : ℝ) • T ^ 9)) = -(1/12 : ℝ) • ((216/115 : ℝ) • T ^ 1 + (1476/115 : ℝ) • T ^ 3 + (684/23 : ℝ) • T ^ 5 + (3096/115 : ℝ) • T ^ 7 + (864/115 : ℝ) • T ^ 9)
      simp only [mul_add, mul_smul_comm, tt, Nat.reduceAdd]
      linear_combination (norm := module) (864/115 : ℝ) • h
  comm k := by
    fin_cases k
    · show ((1/575 : ℝ) • T ^ 1 + (11/345 : ℝ) • T ^ 3 + (266/1725 : ℝ) • T ^ 5 + (32/115 : ℝ) • T ^ 7 + (96/575 : ℝ) • T ^ 9) * T = T * ((1/575 : ℝ) • T ^ 1 + (11/345 : ℝ) • T ^ 3 + (266/1725 : ℝ) • T ^ 5 + (32/115 : ℝ) • T ^ 7 + (96/575 : ℝ) • T ^ 9)
      simp only [mul_add, add_mul, mul_smul_comm, smul_mul_assoc, pcomm]
    · show ((8/5 : ℝ) • T ^ 1 + (404/15 : ℝ) • T ^ 3 + (308/3 : ℝ) • T ^ 5 + (608/5 : ℝ) • T ^ 7 + (192/5 : ℝ) • T ^ 9) * T = T * ((8/5 : ℝ) • T ^ 1 + (404/15 : ℝ) • T ^ 3 + (308/3 : ℝ) • T ^ 5 + (608/5 : ℝ) • T ^ 7 + (192/5 : ℝ) • T ^ 9)
      simp only [mul_add, add_mul, mul_smul_comm, smul_mul_assoc, pcomm]
    · show ((-54/25 : ℝ) • T ^ 1 + (-171/5 : ℝ) • T ^ 3 + (-2718/25 : ℝ) • T ^ 5 + (-576/5 : ℝ) • T ^ 7 + (-864/25 : ℝ) • T ^ 9) * T = T * ((-54/25 : ℝ) • T ^ 1 + (-171/5 : ℝ) • T ^ 3 + (-2718/25 : ℝ) • T ^ 5 + (-576/5 : ℝ) • T ^ 7 + (-864/25 : ℝ) • T ^ 9)
      simp only [mul_add, add_mul, mul_smul_comm, smul_mul_assoc, pcomm]
    · show ((-8/25 : ℝ) • T ^ 1 + (-28/5 : ℝ) • T ^ 3 + (-596/25 : ℝ) • T ^ 5 + (-168/5 : ℝ) • T ^ 7 + (-288/25 : ℝ) • T ^ 9) * T = T * ((-8/25 : ℝ) • T ^ 1 + (-28/5 : ℝ) • T ^ 3 + (-596/25 : ℝ) • T ^ 5 + (-168/5 : ℝ) • T ^ 7 + (-288/25 : ℝ) • T ^ 9)
      simp only [mul_add, add_mul, mul_smul_comm, smul_mul_assoc, pcomm]
    · show ((216/115 : ℝ) • T ^ 1 + (1476/115 : ℝ) • T ^ 3 + (684/23 : ℝ) • T ^ 5 + (3096/115 : ℝ) • T ^ 7 + (864/115 : ℝ) • T ^ 9) * T = T * ((216/115 : ℝ) • T ^ 1 + (1476/115 : ℝ) • T ^ 3 + (684/23 : ℝ) • T ^ 5 + (3096/115 : ℝ) • T ^ 7 + (864/115 : ℝ) • T ^ 9)
      simp only [mul_add, add_mul, mul_smul_comm, smul_mul_assoc, pcomm]


end SQ
