import Verif.Model.SaEnv
import Verif.Spec.UpsEnv
import Verif.Spec.StateAverage

/-! # Spec: a state-averaged wave function object -/

namespace SQ

/-- The object is set up: exact cut-offs and eigenvalue solver, a complete space of active determinants, a layout of
excitation operators `Ts`, orthonormal reference states (at least one), integrals with the symmetry of real orbitals, each
rotation listed once. -/
structure SaData.Ready (D : SaData) (Ts : List (FOp ℝ)) : Prop where
  tiny : ∀ x, D.tiny x = true ↔ x = 0
  big : ∀ x, D.big x = false ↔ x = 0
  threads : D.th.Fair D.ci.idx2det.length
  eig : EigOK D.eig
  space : AnsatzSpace D.ci D.ci.nA
  layout : Layout D.ci.offset D.ci.nA D.st.types D.st.indices Ts
  some : 0 < D.nS
  ortho : ∀ a b, a < D.nS → b < D.nS → dot D.ci.idx2det.length (D.csf a) (D.csf b) = if a = b then 1 else 0
  orbs : D.n = D.ci.nI + D.ci.nA + D.ci.nV
  real : RealAo D.hAo D.gAo
  kappa : ValidKappa D.kappaIdx

/-- The Hamiltonian over the orbitals `C`. -/
noncomputable def SaData.ham (D : SaData) (C : Matrix (Fin D.n) (Fin D.n) ℝ) : FOp ℝ :=
  electronic (natMat (oneTransform C D.hAo)) (natTen (twoTransform C D.gAo)) D.n

/-- The mean over the states of the energies `⟨ψₐ|H|ψₐ⟩`, inactive orbitals filled. -/
noncomputable def SaData.energyOf (D : SaData) (C : Matrix (Fin D.n) (Fin D.n) ℝ) (ψ : ℕ → Fock ℝ) : ℝ :=
  (∑ a ∈ Finset.range D.nS, inner (core (2 * D.ci.nI) (ψ a)) (D.ham C (core (2 * D.ci.nI) (ψ a)))) / D.nS

end SQ
