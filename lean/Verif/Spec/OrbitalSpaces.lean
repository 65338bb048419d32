import Mathlib.Data.Nat.Notation
import Mathlib.Data.List.Basic

/-!
# Specification: active spaces
-/

namespace SQ

/-- The active space of `cas0` electrons in `cas1` orbitals fits a closed-shell molecule with `numElec`
electrons and `numOrbs` spatial orbitals. -/
structure CasFits (numOrbs numElec cas0 cas1 : ℕ) : Prop where
  evenElec : numElec % 2 = 0
  evenActive : cas0 % 2 = 0
  enoughElec : cas0 ≤ numElec
  enoughActive : cas0 ≤ 2 * cas1
  enoughOrbs : numElec - cas0 + 2 * cas1 ≤ 2 * numOrbs

/-- Rotating orbitals `p < q` can change the energy: `nI` inactive orbitals, then `nA` active ones;
active-active rotations only when asked for. -/
def Rotates (nI nA : ℕ) (includeActive : Bool) (pq : ℕ × ℕ) : Prop :=
  ¬ (pq.1 < nI ∧ pq.2 < nI) ∧ ¬ (nI + nA ≤ pq.1 ∧ nI + nA ≤ pq.2) ∧
    (includeActive = true ∨ ¬ ((nI ≤ pq.1 ∧ pq.1 < nI + nA) ∧ (nI ≤ pq.2 ∧ pq.2 < nI + nA)))

/-- The two spin orbitals of every spatial orbital hold what that spatial orbital holds. -/
def doubled : List Bool → List Bool
  | [] => []
  | b :: l => b :: b :: doubled l

/-- Pairs of a filled and an empty orbital, `t` of them. -/
def pairs10 : ℕ → List Bool
  | 0 => []
  | t + 1 => true :: false :: pairs10 t

/-- The perfect-pairing occupation of `n` spatial orbitals with `o` electron pairs: as many filled-empty
pairs as possible, the orbitals left over all filled or all empty. -/
def pairing (n o : ℕ) : List Bool :=
  pairs10 (min o (n - o)) ++ List.replicate (n - 2 * min o (n - o)) (decide (n < 2 * o))

end SQ
