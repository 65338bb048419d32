import Verif.Spec.OrbitalSpaces

/-!
# Specification: orbitals and starting determinant of a wave function object
-/

namespace SQ

/-- Column `c` of the orbitals of the object is column `σ c` of the given ones, and of the `nA` active orbitals after the
`nI` inactive ones the object fills those with `f`.  Columns are exchanged in pairs, others than active ones stay, and
filled are the `o` active orbitals that come first among the given ones. -/
def FillsLowest (nI nA o : ℕ) (f : List Bool) (σ : ℕ → ℕ) : Prop :=
  (∀ c, σ (σ c) = c) ∧ (∀ c, ¬ (nI ≤ c ∧ c < nI + nA) → σ c = c) ∧
    ∀ c, nI ≤ c ∧ c < nI + nA → (f[c - nI]? = some true ↔ nI ≤ σ c ∧ σ c < nI + o)

end SQ
