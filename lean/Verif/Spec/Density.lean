import Verif.Spec.Excitations
import Mathlib.Analysis.SpecialFunctions.Sqrt

/-!
# Specification: density matrices and orbital rotations
-/

namespace SQ

/-- Mean expectation value of `T` over a list of states. -/
noncomputable def mean (Ψs : List (Fock ℝ)) (T : FOp ℝ) : ℝ :=
  (Ψs.map fun Ψ => inner Ψ (T Ψ)).sum / Ψs.length

/-- `[A,B]`. -/
noncomputable def comm (A B : FOp ℝ) : FOp ℝ := A * B - B * A

/-- The electronic Hamiltonian `Σ h_pq E_pq + 1/2 Σ g_pqrs e_pqrs`. -/
noncomputable def electronic (h : ℕ → ℕ → ℝ) (g : ℕ → ℕ → ℕ → ℕ → ℝ) (n : ℕ) : FOp ℝ :=
  oneOp h n + (1 / 2 : ℝ) • twoOp g n

/-- States with the inactive orbitals filled and the virtual orbitals empty, normalised on average
(in particular: each normalised). -/
structure Reference (nI nA : ℕ) (Ψs : List (Fock ℝ)) : Prop where
  active : ∀ Ψ ∈ Ψs, ActiveState nI nA Ψ
  norm : mean Ψs 1 = 1

/-- `rdm1`, `rdm2` are the density matrices of the active orbitals. -/
structure IsRdm (nI nA : ℕ) (Ψs : List (Fock ℝ)) (rdm1 : ℕ → ℕ → ℝ) (rdm2 : ℕ → ℕ → ℕ → ℕ → ℝ) :
    Prop where
  one : ∀ p q, p < nA → q < nA → rdm1 p q = mean Ψs (E (nI + p) (nI + q))
  two : ∀ p q r s, p < nA → q < nA → r < nA → s < nA →
    rdm2 p q r s = mean Ψs (e (nI + p) (nI + q) (nI + r) (nI + s))

/-- Symmetric one-electron integrals, and two-electron integrals with the symmetry of an exchange of the
two electrons and of real orbitals. -/
structure RealIntegrals (h : ℕ → ℕ → ℝ) (g : ℕ → ℕ → ℕ → ℕ → ℝ) : Prop where
  one : ∀ p q, h p q = h q p
  two : ∀ p q r s, g p q r s = g r s p q
  real : ∀ p q r s, g p q r s = g q p s r

/-- The orbital excitation operator `q_mn = E_mn / √2`. -/
noncomputable def qOp (m n : ℕ) : FOp ℝ := (Real.sqrt 2)⁻¹ • E m n

/-- The excitation operator of a response vector: `O = Σ_k Z_k q_k + Y_k q_k†`, where the pair
`k = (m, n)` of orbitals, `m` below `n`, has the excitation `q_k = q_nm`. -/
noncomputable def respOp (pairs : List (ℕ × ℕ)) (Z Y : ℕ → ℝ) : FOp ℝ :=
  (pairs.zipIdx.map fun k => Z k.2 • qOp k.1.2 k.1.1 + Y k.2 • qOp k.1.1 k.1.2).sum

/-- The pair rotates an inactive with an active, an inactive with a virtual, or an active with a virtual
orbital. -/
def NonRedundant (nI nA : ℕ) (mn : ℕ × ℕ) : Prop :=
  (mn.1 < nI ∧ nI ≤ mn.2) ∨ (nI ≤ mn.1 ∧ mn.1 < nI + nA ∧ nI + nA ≤ mn.2)

end SQ
