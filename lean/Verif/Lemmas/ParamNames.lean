import Verif.Lemmas.Structures

/-! # The order of parameter names -/

namespace SQ

/-- `w` digits. -/
def padW : ℕ → ℕ → List Char
  | 0, _ => []
  | w + 1, n => padW w (n / 10) ++ [Nat.digitChar (n % 10)]

theorem padW_length (w n : ℕ) : (padW w n).length = w := by
  induction w generalizing n with
  | zero => rfl
  | succ w ih => simp [padW, ih]

theorem pad_eq (w : ℕ) : ∀ n, n < 10 ^ (w + 1) →
    List.replicate (w + 1 - (Nat.toDigits 10 n).length) '0' ++ Nat.toDigits 10 n = padW (w + 1) n := by
  induction w with
  | zero =>
    intro n hn
    have hn : n < 10 := by simpa using hn
    rw [Nat.toDigits_of_lt_base hn]
    simp [padW, Nat.mod_eq_of_lt hn]
  | succ w ih =>
    intro n hn
    by_cases h : n < 10
    · have := ih 0 (by positivity)
      rw [Nat.toDigits_zero] at this
      rw [Nat.toDigits_of_lt_base h, padW, Nat.div_eq_of_lt h, ← this, Nat.mod_eq_of_lt h]
      simp only [List.length_cons, List.length_nil]
      congr 1
      rw [show w + 1 + 1 - (0 + 1) = w + 1 by omega, show w + 1 - (0 + 1) = w by omega, List.replicate_succ']
    · rw [Nat.toDigits_of_base_le (by omega) (by omega), padW, ← ih (n / 10) (by rw [Nat.div_lt_iff_lt_mul (by omega)]; rw [pow_succ] at hn; exact hn)]
      rw [List.append_assoc]
      congr 2
      simp

theorem lt_append {a b : List Char} (h : a < b) (hl : a.length = b.length) (c d : List Char) : a ++ c < b ++ d := by
  induction a generalizing b with
  | nil =>
    cases b with
    | nil => exact absurd h (by simp)
    | cons y b => simp at hl
  | cons x a ih =>
    cases b with
    | nil => simp at hl
    | cons y b =>
      rw [List.cons_append, List.cons_append, List.cons_lt_cons_iff] at *
      rcases h with h | ⟨h1, h2⟩
      · exact .inl h
      · exact .inr ⟨h1, ih h2 (by simpa using hl)⟩

theorem append_lt (a : List Char) {c d : List Char} (h : c < d) : a ++ c < a ++ d := by
  induction a with
  | nil => exact h
  | cons x a ih => rw [List.cons_append, List.cons_append, List.cons_lt_cons_iff]; exact .inr ⟨rfl, ih⟩

theorem digit_lt {m n : ℕ} (h : m < n) (hn : n < 10) : Nat.digitChar m < Nat.digitChar n := by
  interval_cases n <;> interval_cases m <;> decide

theorem padW_lt (w : ℕ) : ∀ {m n : ℕ}, m < n → n < 10 ^ w → padW w m < padW w n := by
  induction w with
  | zero => intro m n h hn; simp at hn; omega
  | succ w ih =>
    intro m n h hn
    unfold padW
    rcases Nat.lt_or_ge (m / 10) (n / 10) with h1 | h1
    · exact lt_append (ih h1 (by rw [Nat.div_lt_iff_lt_mul (by omega)]; rw [pow_succ] at hn; exact hn)) (by simp [padW_length]) _ _
    · have e : m / 10 = n / 10 := by omega
      rw [e]
      refine append_lt _ ?_
      rw [List.cons_lt_cons_iff]
      exact .inl (digit_lt (by omega) (by omega))

theorem pname_lt {m n : ℕ} (h : m < n) (hn : n < 10 ^ 9) : pname m < pname n := by
  unfold pname
  rw [pad_eq 8 m (by omega), pad_eq 8 n hn]
  show (String.ofList _).toList < (String.ofList _).toList
  rw [String.toList_ofList, String.toList_ofList, List.cons_lt_cons_iff]
  exact .inr ⟨rfl, padW_lt 9 h hn⟩

end SQ
