import Verif.Spec.Fock

/-!
# Specification: states with a filled core

`|S⟩` of the active orbitals becomes `|I,S⟩`: spin orbitals `0..m-1` filled, active spin orbital `p`
at position `m + p`.
-/

namespace SQ

variable {R : Type*} [CommRing R]

/-- The determinant `|I,S⟩`. -/
def withCore (m : ℕ) (S : Finset ℕ) : Finset ℕ := Finset.range m ∪ S.image (m + ·)

/-- `|x⟩ ↦ |I,x⟩`. -/
noncomputable def core (m : ℕ) : Fock R →ₗ[R] Fock R := liftOp fun S => sgl (withCore m S) 1

/-- The state uses spin orbitals `0..n-1` only. -/
def Below (n : ℕ) (x : Fock R) : Prop := ∀ S, coeff x S ≠ 0 → ∀ p ∈ S, p < n

end SQ
