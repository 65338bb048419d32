import Verif.Spec.Qubits

/-!
# Specification: determinants on a qubit register

A determinant is a string of '0' and '1' over spin orbitals `0α 0β 1α 1β ...`; the register holds all
alpha orbitals in front of all beta orbitals.
-/

namespace SQ

/-- The spin orbital that qubit `q` holds. -/
def modeOf (norb q : ℕ) : ℕ := if q < norb then 2 * q else 2 * (q - norb) + 1

/-- The bits of a determinant on the register. -/
def detBits (norb : ℕ) (det : List Char) : Fin (2 * norb) → Bool := fun q => decide (det[modeOf norb q]? = some '1')

/-- Occupation strings for `norb` spatial orbitals. -/
def IsDet (norb : ℕ) (det : List Char) : Prop := det.length = 2 * norb ∧ ∀ c ∈ det, c = '0' ∨ c = '1'

/-- The register with every qubit in `|0⟩`. -/
noncomputable def zeroState (n : ℕ) : QState n := basis fun _ => false

/-- Pairs of an occupied alpha orbital behind an occupied beta orbital. -/
def crossings (det : List Char) : Finset (ℕ × ℕ) :=
  (Finset.range det.length ×ˢ Finset.range det.length).filter fun p =>
    p.1 < p.2 ∧ p.1 % 2 = 1 ∧ p.2 % 2 = 0 ∧ det[p.1]? = some '1' ∧ det[p.2]? = some '1'

/-- The state of a linear combination of determinants on the register, with the sign for moving all
alpha operators to the front. -/
noncomputable def csfState (norb : ℕ) (coeffs : List ℝ) (dets : List (List Char)) : QState (2 * norb) :=
  ((coeffs.zip dets).map fun cd =>
    (((cd.1 * (-1) ^ (crossings cd.2).card : ℝ) : ℂ)) • basis (detBits norb cd.2)).sum

end SQ
