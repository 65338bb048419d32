import Verif.Spec.Fock
import Verif.Model.QiskitOrder

/-!
# Specification: from interleaved to spin-blocked order
-/

namespace SQ

variable {R : Type*} [CommRing R]

/-- The occupation string `"1100..."` of a determinant over `m` spin orbitals. -/
def occString (m : ℕ) (S : Finset ℕ) : List Char :=
  (List.range m).map fun p => if p ∈ S then '1' else '0'

/-- Change of basis: `|S⟩` (interleaved) to `get_reordering_sign(S)` times the determinant whose
spin orbitals are renumbered to blocked order. -/
noncomputable def toBlocked (n : ℕ) : FOp R :=
  liftOp fun S => sgl (S.image fun p => f2q p n) ((getReorderingSign (occString (2 * n) S) : ℤ) : R)

end SQ
