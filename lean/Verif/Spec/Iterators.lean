import Mathlib.Data.List.Basic

/-!
# Specification: lists of excitations
-/

namespace SQ

/-- As many even (alpha) and as many odd (beta) entries. -/
def SameSpin (A I : List ℕ) : Prop :=
  A.countP (· % 2 = 0) = I.countP (· % 2 = 0) ∧ A.countP (· % 2 = 1) = I.countP (· % 2 = 1)

/-- `a, i, b, j, ...` from `a, b, ...` and `i, j, ...`. -/
def interleave : List ℕ → List ℕ → List ℕ
  | a :: A, i :: I => a :: i :: interleave A I
  | _, _ => []

/-- `l` lists exactly the values with `P`, each once. -/
def Lists {α : Type _} (l : List α) (P : α → Prop) : Prop := l.Nodup ∧ ∀ x, x ∈ l ↔ P x

/-- The `k`-fold spin-conserving excitations: `k` of the orbitals `unocc` in the order of that list,
`k` of the orbitals `occ` in the order of that list, as many of each spin. -/
def SpinExcitation (occ unocc : List ℕ) (k : ℕ) (x : List ℕ) : Prop :=
  ∃ A I, A.Sublist unocc ∧ I.Sublist occ ∧ A.length = k ∧ I.length = k ∧ SameSpin A I ∧
    x = interleave A I

/-- Two entries of the list, in list order, possibly the same one. -/
def PairFrom (L : List ℕ) (x y : ℕ) : Prop := (x = y ∧ x ∈ L) ∨ [x, y].Sublist L

/-- The numbering of the spin-adapted doubles `ij → ab`: 1 both pairs equal, 2 only `i = j`, 3 only
`a = b`, 4 and 5 neither (the two couplings). -/
def SaCase (i j a b : ℕ) (c : ℕ) : Prop :=
  (i = j ∧ a = b ∧ c = 1) ∨ (i = j ∧ a ≠ b ∧ c = 2) ∨ (i ≠ j ∧ a = b ∧ c = 3) ∨
  (i ≠ j ∧ a ≠ b ∧ (c = 4 ∨ c = 5))

end SQ
