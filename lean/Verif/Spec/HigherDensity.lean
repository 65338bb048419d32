import Verif.Spec.Density

/-!
# Specification: density matrices of any order
-/

namespace SQ

variable {R : Type*} [CommRing R]

/-- `Σ_{σ₁…σₖ} a†_{p₁σ₁} … a†_{pₖσₖ} a_{qₖσₖ} … a_{q₁σ₁}` for the pairs `(p₁,q₁), …, (pₖ,qₖ)`. For one and two pairs
this is `E_pq` and `e_pqrs`. -/
noncomputable def excN : List (ℕ × ℕ) → FOp R
  | [] => 1
  | x :: l => cr (2 * x.1) * excN l * an (2 * x.2) + cr (2 * x.1 + 1) * excN l * an (2 * x.2 + 1)

/-- `D` is the `k`-electron density matrix of the active orbitals: all its elements. -/
def IsRdmN (nI nA : ℕ) (Ψs : List (Fock ℝ)) (k : ℕ) (D : List (ℕ × ℕ) → ℝ) : Prop :=
  ∀ l : List (ℕ × ℕ), l.length = k → (∀ x ∈ l, x.1 < nA ∧ x.2 < nA) →
    D l = mean Ψs (excN (l.map fun x => (nI + x.1, nI + x.2)))

/-- The trace `Σ_{i₁…iₖ} D_{i₁i₁…iₖiₖ}` over the `nA` active orbitals, after fixing the pairs `l`. -/
noncomputable def traceN (nA : ℕ) (D : List (ℕ × ℕ) → ℝ) : ℕ → List (ℕ × ℕ) → ℝ
  | 0, l => D l
  | k + 1, l => ∑ i ∈ Finset.range nA, traceN nA D k ((i, i) :: l)

end SQ
