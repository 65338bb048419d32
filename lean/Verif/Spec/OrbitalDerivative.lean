import Verif.Spec.Density
import Verif.Spec.WaveFunction

/-!
# Specification: the energy as a function of the orbitals
-/

namespace SQ

variable {N : ℕ}

/-- A matrix as an array indexed by numbers (zero outside). -/
def natMat (h : Matrix (Fin N) (Fin N) ℝ) : ℕ → ℕ → ℝ := fun p q =>
  if hpq : p < N ∧ q < N then h ⟨p, hpq.1⟩ ⟨q, hpq.2⟩ else 0

/-- A four-index tensor as an array indexed by numbers (zero outside). -/
def natTen (g : Tensor4 (Fin N)) : ℕ → ℕ → ℕ → ℕ → ℝ := fun p q r s =>
  if h : (p < N ∧ q < N) ∧ (r < N ∧ s < N) then g ⟨p, h.1.1⟩ ⟨q, h.1.2⟩ ⟨r, h.2.1⟩ ⟨s, h.2.2⟩ else 0

/-- The mean energy of the states `Ψs` with the orbitals `C`: the Hamiltonian has the integrals over the
atomic orbitals transformed with `C`. -/
noncomputable def orbitalEnergy (hAo : Matrix (Fin N) (Fin N) ℝ) (gAo : Tensor4 (Fin N)) (Ψs : List (Fock ℝ))
    (C : Matrix (Fin N) (Fin N) ℝ) : ℝ :=
  mean Ψs (electronic (natMat (oneTransform C hAo)) (natTen (twoTransform C gAo)) N)

/-- Integrals over atomic orbitals with the symmetries of real orbitals. -/
structure RealAo (hAo : Matrix (Fin N) (Fin N) ℝ) (gAo : Tensor4 (Fin N)) : Prop where
  one : ∀ a b, hAo a b = hAo b a
  two : ∀ a b c d, gAo a b c d = gAo c d a b
  real : ∀ a b c d, gAo a b c d = gAo b a d c

/-- `k + t d`. -/
def shiftBy (k d : List ℝ) (t : ℝ) : List ℝ := List.zipWith (fun x y => x + t * y) k d

/-- The scalar product of two lists. -/
def listDot (a b : List ℝ) : ℝ := (List.zipWith (· * ·) a b).sum

end SQ
