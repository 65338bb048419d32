import Verif.Model.UpsEnv
import Verif.Spec.Ansatz
import Verif.Spec.Embed
import Verif.Spec.Operators

/-! # Spec: a wave function object with a complete active space and a layout of excitations -/

namespace SQ

/-- The object is set up: exact cut-offs, a complete space of active determinants, a layout of excitation operators `Ts`, a
normalised reference, integrals with the symmetry of real orbitals, each rotation listed once. -/
structure UpsData.Ready (D : UpsData) (Ts : List (FOp ℝ)) : Prop where
  tiny : ExactTiny D.tiny
  big : ExactBig D.big
  threads : D.th.Fair D.ci.idx2det.length
  space : AnsatzSpace D.ci D.ci.nA
  layout : Layout D.ci.offset D.ci.nA D.st.types D.st.indices Ts
  norm : dot D.ci.idx2det.length D.csf D.csf = 1
  orbs : D.n = D.ci.nI + D.ci.nA + D.ci.nV
  real : RealAo D.hAo D.gAo
  kappa : ValidKappa D.kappaIdx

/-- The energy `⟨ψ|H|ψ⟩` of the active state `ψ` with the inactive orbitals filled, `H` being the full electronic
Hamiltonian over the orbitals `C`. -/
noncomputable def UpsData.energyOf (D : UpsData) (C : Matrix (Fin D.n) (Fin D.n) ℝ) (ψ : Fock ℝ) : ℝ :=
  inner (core (2 * D.ci.nI) ψ)
    (electronic (natMat (oneTransform C D.hAo)) (natTen (twoTransform C D.gAo)) D.n (core (2 * D.ci.nI) ψ))

end SQ
