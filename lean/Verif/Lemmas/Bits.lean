import Verif.Spec.CIState
import Mathlib.Data.Nat.Bitwise
import Mathlib.Tactic.Ring
import Mathlib.Tactic.Linarith
import Mathlib.Data.Finset.Card

/-! # Bit-level lemmas -/

namespace SQ

theorem bitcount_zero : bitcount 0 = 0 := by rw [bitcount]; simp

theorem bitcount_pos {x : ℕ} (h : 0 < x) : bitcount x = bitcount (x &&& (x - 1)) + 1 := by
  conv_lhs => rw [bitcount]
  rw [dif_pos h]

theorem land_even (y : ℕ) (hy : 0 < y) : (2 * y) &&& (2 * y - 1) = 2 * (y &&& (y - 1)) := by
  have h : 2 * y - 1 = 2 * (y - 1) + 1 := by omega
  rw [h]
  apply Nat.eq_of_testBit_eq
  intro i
  cases i with
  | zero => simp
  | succ i =>
    rw [Nat.testBit_and]
    simp only [Nat.testBit_succ]
    rw [show 2 * y / 2 = y by omega, show (2 * (y - 1) + 1) / 2 = y - 1 by omega,
      show 2 * (y &&& (y - 1)) / 2 = y &&& (y - 1) by omega, Nat.testBit_and]

theorem land_odd (y : ℕ) : (2 * y + 1) &&& (2 * y + 1 - 1) = 2 * y := by
  apply Nat.eq_of_testBit_eq
  intro i
  rw [Nat.testBit_and]
  cases i with
  | zero => simp
  | succ i =>
    simp only [Nat.testBit_succ]
    rw [show (2 * y + 1) / 2 = y by omega, show (2 * y + 1 - 1) / 2 = y by omega,
      show 2 * y / 2 = y by omega, Bool.and_self]

theorem bitcount_double (y : ℕ) : bitcount (2 * y) = bitcount y := by
  induction y using Nat.strong_induction_on with
  | _ y ih =>
    rcases Nat.eq_zero_or_pos y with rfl | hy
    · rfl
    · rw [bitcount_pos (show 0 < 2 * y by omega), land_even y hy, bitcount_pos hy,
        ih _ (lt_of_le_of_lt Nat.and_le_right (by omega))]

theorem bitcount_double_add (y : ℕ) : bitcount (2 * y + 1) = bitcount y + 1 := by
  rw [bitcount_pos (show 0 < 2 * y + 1 by omega), land_odd, bitcount_double]

theorem bitcount_eq (m : ℕ) : ∀ x, x < 2 ^ m →
    bitcount x = ((Finset.range m).filter fun i => x.testBit i).card := by
  induction m with
  | zero =>
    intro x hx
    have : x = 0 := by simpa using hx
    subst this; simp [bitcount_zero]
  | succ m ih =>
    intro x hx
    have h2 : x / 2 < 2 ^ m := by rw [pow_succ] at hx; omega
    have hshift : ((Finset.range (m + 1)).filter fun i => x.testBit i).card
        = ((Finset.range m).filter fun i => (x / 2).testBit i).card + (if x % 2 = 1 then 1 else 0) := by
      rw [Finset.card_filter, Finset.card_filter, Finset.sum_range_succ']
      congr 1
      · refine Finset.sum_congr rfl fun i _ => ?_
        rw [Nat.testBit_succ]
      · simp only [Nat.testBit_zero, decide_eq_true_eq]
    rw [hshift, ← ih _ h2]
    rcases Nat.mod_two_eq_zero_or_one x with h | h
    · rw [if_neg (by omega), add_zero]
      conv_lhs => rw [show x = 2 * (x / 2) by omega]
      exact bitcount_double _
    · rw [if_pos h]
      conv_lhs => rw [show x = 2 * (x / 2) + 1 by omega]
      exact bitcount_double_add _

/-! ### Masks -/

theorem one_shl_testBit (k j : ℕ) : (1 <<< k).testBit j = decide (j = k) := by
  rw [Nat.shiftLeft_eq, one_mul, Nat.testBit_two_pow]
  simp [eq_comm]

theorem maskOf_testBit (m : ℕ) (l : List ℕ) (j : ℕ) :
    (maskOf m l).testBit j = true ↔ ∃ o ∈ l, j = m - o := by
  have key : ∀ (l : List ℕ) (acc : ℕ), (l.foldl (fun acc o => acc ||| (1 <<< (m - o))) acc).testBit j = true
      ↔ acc.testBit j = true ∨ ∃ o ∈ l, j = m - o := by
    intro l
    induction l with
    | nil => intro acc; simp
    | cons o t ih =>
      intro acc
      rw [List.foldl_cons, ih, Nat.testBit_or, one_shl_testBit]
      simp [or_assoc]
  unfold maskOf
  rw [key]; simp

theorem mem_decode {n det p : ℕ} : p ∈ decode n det ↔ p < 2 * n ∧ det.testBit (2 * n - 1 - p) = true := by
  unfold decode; simp

/-- The mask test `(det & mask) == mask`. -/
theorem mask_all {n det : ℕ} {l : List ℕ} (hl : ∀ o ∈ l, o < 2 * n) :
    det &&& maskOf (2 * n - 1) l = maskOf (2 * n - 1) l ↔ ∀ o ∈ l, o ∈ decode n det := by
  constructor
  · intro h o ho
    have h1 : (maskOf (2 * n - 1) l).testBit (2 * n - 1 - o) = true := (maskOf_testBit _ _ _).2 ⟨o, ho, rfl⟩
    rw [← h, Nat.testBit_and, Bool.and_eq_true] at h1
    exact mem_decode.2 ⟨hl o ho, h1.1⟩
  · intro h
    apply Nat.eq_of_testBit_eq
    intro j
    rw [Nat.testBit_and]
    cases hm : (maskOf (2 * n - 1) l).testBit j with
    | false => simp
    | true =>
      obtain ⟨o, ho, rfl⟩ := (maskOf_testBit _ _ _).1 hm
      rw [(mem_decode.1 (h o ho)).2]; rfl

/-- The mask test `(det & mask) == 0`. -/
theorem mask_none {n det : ℕ} {l : List ℕ} (hl : ∀ o ∈ l, o < 2 * n) :
    det &&& maskOf (2 * n - 1) l = 0 ↔ ∀ o ∈ l, o ∉ decode n det := by
  constructor
  · intro h o ho hd
    have h1 : (maskOf (2 * n - 1) l).testBit (2 * n - 1 - o) = true := (maskOf_testBit _ _ _).2 ⟨o, ho, rfl⟩
    have h2 : (det &&& maskOf (2 * n - 1) l).testBit (2 * n - 1 - o) = true := by
      rw [Nat.testBit_and, h1, (mem_decode.1 hd).2]; rfl
    rw [h] at h2; simp at h2
  · intro h
    apply Nat.eq_of_testBit_eq
    intro j
    rw [Nat.testBit_and, Nat.zero_testBit]
    cases hm : (maskOf (2 * n - 1) l).testBit j with
    | false => simp
    | true =>
      obtain ⟨o, ho, rfl⟩ := (maskOf_testBit _ _ _).1 hm
      have := h o ho
      rw [mem_decode] at this
      have h3 : det.testBit (2 * n - 1 - o) ≠ true := fun hc => this ⟨hl o ho, hc⟩
      simpa using h3

/-! ### Parity masks -/

theorem parityCheck_getD (n k : ℕ) (hk : k ≤ 2 * n) :
    (parityCheck n).getD k 0 = (2 ^ k - 1) * 2 ^ (2 * n - k) := by
  -- after handling `i = 2n-1, ..., 2n-j` entries `0..j` are filled
  have key : ∀ j, j ≤ 2 * n → ∃ arr : List ℕ,
      ((List.range (2 * n)).reverse.take j).foldl
        (fun (st : ℕ × List ℕ) i => (st.1 + 2 ^ i, st.2.set (2 * n - i) (st.1 + 2 ^ i)))
        (0, List.replicate (2 * n + 1) 0) = ((2 ^ j - 1) * 2 ^ (2 * n - j), arr) ∧
      arr.length = 2 * n + 1 ∧ ∀ k, k ≤ j → arr.getD k 0 = (2 ^ k - 1) * 2 ^ (2 * n - k) := by
    intro j
    induction j with
    | zero =>
      intro _
      refine ⟨List.replicate (2 * n + 1) 0, by simp, by simp, ?_⟩
      intro k hk
      have : k = 0 := by omega
      subst this; simp
    | succ j ih =>
      intro hj
      obtain ⟨arr, h1, h2, h3⟩ := ih (by omega)
      have hlen : j < (List.range (2 * n)).reverse.length := by simp; omega
      rw [List.take_succ_eq_append_getElem hlen, List.foldl_append, h1]
      have hget : (List.range (2 * n)).reverse[j] = 2 * n - 1 - j := by
        rw [List.getElem_reverse]; simp
      simp only [List.foldl_cons, List.foldl_nil, hget]
      have hval : (2 ^ j - 1) * 2 ^ (2 * n - j) + 2 ^ (2 * n - 1 - j)
          = (2 ^ (j + 1) - 1) * 2 ^ (2 * n - (j + 1)) := by
        have e : 2 * n - j = (2 * n - (j + 1)) + 1 := by omega
        have e2 : 2 * n - 1 - j = 2 * n - (j + 1) := by omega
        rw [e2, e, pow_succ 2 (2 * n - (j + 1)), pow_succ 2 j]
        have hp : 1 ≤ 2 ^ j := Nat.one_le_two_pow
        generalize 2 ^ j = a at *
        obtain ⟨a', rfl⟩ : ∃ a', a = a' + 1 := ⟨a - 1, by omega⟩
        rw [show (a' + 1) * 2 - 1 = 2 * a' + 1 by omega, show a' + 1 - 1 = a' by omega]
        ring
      refine ⟨_, by rw [hval], by simp [h2], ?_⟩
      intro k hk
      rw [show 2 * n - (2 * n - 1 - j) = j + 1 by omega]
      by_cases hkj : k = j + 1
      · subst hkj
        rw [List.getD_eq_getElem?_getD, List.getElem?_set_self (by omega), Option.getD_some]
      · rw [List.getD_eq_getElem?_getD, List.getElem?_set_ne (by omega), ← List.getD_eq_getElem?_getD,
          h3 k (by omega)]
  obtain ⟨arr, h1, h2, h3⟩ := key (2 * n) le_rfl
  unfold parityCheck
  rw [List.take_of_length_le (by simp)] at h1
  rw [h1]
  exact h3 k hk

theorem parity_testBit {n k j : ℕ} (hk : k ≤ 2 * n) :
    ((parityCheck n).getD k 0).testBit j = decide (2 * n - k ≤ j ∧ j < 2 * n) := by
  rw [parityCheck_getD n k hk, Nat.testBit_mul_two_pow, Nat.testBit_two_pow_sub_one]
  by_cases h : 2 * n - k ≤ j
  · simp [h]; omega
  · simp [h]

/-- The phase count is the number of occupied spin orbitals below. -/
theorem bitcount_parity {n det o : ℕ} (ho : o ≤ 2 * n) :
    bitcount (det &&& (parityCheck n).getD o 0) = ((decode n det).filter (· < o)).card := by
  have hlt : det &&& (parityCheck n).getD o 0 < 2 ^ (2 * n) := by
    apply Nat.lt_pow_two_of_testBit
    intro i hi
    rw [Nat.testBit_and, parity_testBit ho]
    have : ¬ (2 * n - o ≤ i ∧ i < 2 * n) := by omega
    rw [decide_eq_false this, Bool.and_false]
  rw [bitcount_eq _ _ hlt]
  apply Finset.card_nbij' (fun j => 2 * n - 1 - j) (fun p => 2 * n - 1 - p)
  · intro j hj
    simp only [Finset.coe_filter, Finset.mem_range, Set.mem_setOf_eq, Nat.testBit_and,
      parity_testBit ho, Bool.and_eq_true, decide_eq_true_eq] at hj
    simp only [Finset.coe_filter, Set.mem_setOf_eq, mem_decode]
    refine ⟨⟨by omega, ?_⟩, by omega⟩
    rw [show 2 * n - 1 - (2 * n - 1 - j) = j by omega]; exact hj.2.1
  · intro p hp
    simp only [Finset.coe_filter, Set.mem_setOf_eq, mem_decode] at hp
    simp only [Finset.coe_filter, Finset.mem_range, Set.mem_setOf_eq, Nat.testBit_and,
      parity_testBit ho, Bool.and_eq_true, decide_eq_true_eq]
    exact ⟨by omega, hp.1.2, by omega, by omega⟩
  · intro j hj
    simp only [Finset.coe_filter, Finset.mem_range, Set.mem_setOf_eq] at hj
    simp only; omega
  · intro p hp
    simp only [Finset.coe_filter, Set.mem_setOf_eq, mem_decode] at hp
    simp only; omega

/-! ### Flips -/

theorem mem_decode_xor {n det o p : ℕ} (ho : o < 2 * n) :
    p ∈ decode n (det ^^^ (1 <<< (2 * n - 1 - o))) ↔
      if p = o then o ∉ decode n det else p ∈ decode n det := by
  rw [mem_decode, Nat.testBit_xor, one_shl_testBit]
  by_cases hp : p = o
  · subst hp
    rw [if_pos rfl, mem_decode]
    simp [ho]
  · rw [if_neg hp, mem_decode]
    constructor
    · rintro ⟨h1, h2⟩
      have : ¬ (2 * n - 1 - p = 2 * n - 1 - o) := by omega
      simpa [h1, this] using h2
    · rintro ⟨h1, h2⟩
      have : ¬ (2 * n - 1 - p = 2 * n - 1 - o) := by omega
      simpa [h1, this] using h2

theorem decode_xor_mem {n det o : ℕ} (ho : o ∈ decode n det) :
    decode n (det ^^^ (1 <<< (2 * n - 1 - o))) = (decode n det).erase o := by
  ext p
  rw [mem_decode_xor (mem_decode.1 ho).1, Finset.mem_erase]
  by_cases hp : p = o
  · subst hp; simp [ho]
  · simp [hp]

theorem decode_xor_notMem {n det o : ℕ} (ho : o < 2 * n) (h : o ∉ decode n det) :
    decode n (det ^^^ (1 <<< (2 * n - 1 - o))) = insert o (decode n det) := by
  ext p
  rw [mem_decode_xor ho, Finset.mem_insert]
  by_cases hp : p = o
  · subst hp; simp [h]
  · simp [hp]

theorem xor_lt {n det o : ℕ} (hd : det < 2 ^ (2 * n)) (ho : o < 2 * n) :
    det ^^^ (1 <<< (2 * n - 1 - o)) < 2 ^ (2 * n) := by
  apply Nat.xor_lt_two_pow hd
  rw [Nat.shiftLeft_eq, one_mul]
  exact Nat.pow_lt_pow_right (by norm_num) (by omega)

theorem decode_inj {n d e : ℕ} (hd : d < 2 ^ (2 * n)) (he : e < 2 ^ (2 * n))
    (h : decode n d = decode n e) : d = e := by
  apply Nat.eq_of_testBit_eq
  intro j
  by_cases hj : j < 2 * n
  · have h1 : (2 * n - 1 - j) ∈ decode n d ↔ (2 * n - 1 - j) ∈ decode n e := by rw [h]
    rw [mem_decode, mem_decode, show 2 * n - 1 - (2 * n - 1 - j) = j by omega] at h1
    have h2 : 2 * n - 1 - j < 2 * n := by omega
    simp only [h2, true_and] at h1
    exact Bool.eq_iff_iff.2 h1
  · rw [Nat.testBit_lt_two_pow (lt_of_lt_of_le hd (Nat.pow_le_pow_right (by norm_num) (by omega))),
      Nat.testBit_lt_two_pow (lt_of_lt_of_le he (Nat.pow_le_pow_right (by norm_num) (by omega)))]

end SQ
