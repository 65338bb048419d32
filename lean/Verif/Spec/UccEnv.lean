import Verif.Model.UccEnv
import Verif.Spec.Ansatz
import Verif.Spec.Embed
import Verif.Spec.Operators

/-! # Spec: a UCC wave function object -/

namespace SQ

/-- The object is set up: exact cut-offs, a complete space of active determinants, a layout of excitation operators `Ts`, a
normalised reference in the space, integrals with the symmetry of real orbitals, each rotation listed once. -/
structure UccData.Ready (D : UccData) (Ts : List (FOp ℝ)) : Prop where
  tiny : ExactTiny D.tiny
  big : ExactBig D.big
  threads : D.th.Fair D.ci.idx2det.length
  space : AnsatzSpace D.ci D.ci.nA
  offset : D.ci.offset = 0
  layout : Layout D.ci.offset D.ci.nA D.st.types D.st.indices Ts
  norm : dot D.ci.idx2det.length D.csf D.csf = 1
  inside : ∀ i, D.ci.idx2det.length ≤ i → D.csf i = 0
  orbs : D.n = D.ci.nI + D.ci.nA + D.ci.nV
  real : RealAo D.hAo D.gAo
  kappa : ValidKappa D.kappaIdx

/-- The Hamiltonian over the orbitals `C`. -/
noncomputable def UccData.ham (D : UccData) (C : Matrix (Fin D.n) (Fin D.n) ℝ) : FOp ℝ :=
  electronic (natMat (oneTransform C D.hAo)) (natTen (twoTransform C D.gAo)) D.n

/-- The length of a state. -/
noncomputable def fockNorm (x : Fock ℝ) : ℝ := √(inner x x)

end SQ
