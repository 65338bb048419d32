import Mathlib.Algebra.BigOperators.Group.Finset.Basic
import Mathlib.Data.Nat.Bitwise
import Mathlib.Order.Interval.Finset.Nat

/-!
# Specification: electron numbers of a measured integer

`occ k` is the occupation of spin orbital `k`, all alpha orbitals in front of all beta orbitals.
-/

namespace SQ

/-- Electrons in the `m` alpha orbitals. -/
def alphaCount (m : ℕ) (occ : ℕ → Bool) : ℕ := ((Finset.range m).filter fun k => occ k = true).card

/-- Electrons in the `m` beta orbitals. -/
def betaCount (m : ℕ) (occ : ℕ → Bool) : ℕ := ((Finset.range m).filter fun k => occ (m + k) = true).card

/-- Parity of the occupations `0, ..., k`: what qubit `k` of the parity mapping holds. -/
def parityUpTo (occ : ℕ → Bool) (k : ℕ) : Bool :=
  decide (((Finset.range (k + 1)).filter fun i => occ i = true).card % 2 = 1)

/-- `v` is the outcome for the determinant `occ` under the parity mapping of `m` spatial orbitals
without its last alpha and last beta qubit (`2 m - 2` qubits). -/
def ReducedParity (m v : ℕ) (occ : ℕ → Bool) : Prop :=
  (∀ q < m - 1, v.testBit q = parityUpTo occ q) ∧ ∀ q < m - 1, v.testBit (m - 1 + q) = parityUpTo occ (m + q)

/-- `v` is the outcome for the determinant `occ` under the parity mapping with all `2 m` qubits. -/
def FullParity (m v : ℕ) (occ : ℕ → Bool) : Prop := ∀ q < 2 * m, v.testBit q = parityUpTo occ q

end SQ
