import Mathlib.Data.Int.Notation
import Mathlib.Data.Nat.Notation

/-!
# Model of the spin-orbital order conventions
(`slowquant/qiskit_interface/util.py`: `f2q`, `get_reordering_sign`)
-/

namespace SQ

/-- `f2q`, lines 976-1000. -/
def f2q (i numOrbs : ℕ) : ℕ := if i % 2 = 0 then i / 2 else i / 2 + numOrbs

/-- The loop of `get_reordering_sign`, lines 1106-1115, at position `i` of `det[::-1]`. -/
def reorderLoop : ℕ → List Char → ℕ → ℤ → ℤ
  | _, [], _, sign => sign
  | i, occ :: t, alphas, sign =>
    if i % 2 = 1 ∧ occ = '1' then reorderLoop (i + 1) t (alphas + 1) sign
    else if i % 2 = 0 ∧ occ = '1' then
      if alphas % 2 = 1 then reorderLoop (i + 1) t alphas (sign * (-1))
      else reorderLoop (i + 1) t alphas sign
    else reorderLoop (i + 1) t alphas sign

/-- `get_reordering_sign`, lines 1095-1116. -/
def getReorderingSign (det : List Char) : ℤ := reorderLoop 0 det.reverse 0 1

end SQ
