import Verif.Model.SaCircEnv
import Verif.Spec.CircEnv
import Verif.Spec.Sampler
import Verif.Spec.StateAverage

/-! # Spec: a state-averaged circuit wave function object with an interface in use -/

namespace SQ

/-- The object is set up: exact cut-offs and eigenvalue solver, a complete space of active determinants, a circuit for the
layout of excitation operators `Ts`, the Jordan-Wigner mapping, for each parameter the number of shifts of its type, at least one
state, the states orthonormal and in the space, integrals with the symmetry of real orbitals, each rotation listed once. -/
structure SaCircData.Ready (D : SaCircData) (ansatz : List ℝ → List (PGate (2 * D.norb))) (st : AnsatzStruct)
    (Ts : List (FOp ℝ)) : Prop where
  tiny : ExactTiny D.tiny
  big : ExactBig D.big
  eig : EigOK D.eig
  space : AnsatzSpace D.ci D.ci.nA
  norb : D.norb = D.ci.nA
  pos : 0 < D.norb
  layout : Layout 0 D.ci.nA st.types st.indices Ts
  circuits : CircuitLayout D.ci.nA st.types st.indices Ts
  ansatz : LayoutAnsatz D.norb st.types st.indices ansatz
  mapping : JWMapper (2 * D.norb) D.bench.map
  jw : D.bench.mapper = .jordanWigner
  electrons : D.bench.numElec.1 + D.bench.numElec.2 ≤ 2 * D.norb
  start : runCircuit D.bench.state (zeroState _) = basis (detBits D.norb (defaultDet D.norb D.bench.numElec))
  nonempty : 0 < D.states.length
  good : ∀ s ∈ D.states, Csf.Good D.norb s ∧ s.Electrons
  mem : ∀ s ∈ D.states, ∃ v : Vec ℝ, csfFock s = stateOf D.ci v
  ortho : ∀ i j : Fin D.states.length,
    inner (csfFock (D.states.get i)) (csfFock (D.states.get j) : Fock ℝ) = if i = j then 1 else 0
  count : D.names.length = st.types.length
  shifts : ∀ (k : ℕ) (ty : String), st.types[k]? = some ty → ∃ s, D.names[k]? = some s ∧ D.R.lookup s = gradR ty
  orbs : D.n = D.ci.nI + D.ci.nA + D.ci.nV
  real : RealAo D.hAo D.gAo
  kappa : ValidKappa D.kappaIdx

/-- The interface at any evaluation is one that was constructed and used in any way with an ideal device, without mitigation,
and holds the parameters set. -/
def SaCircData.InUse (D : SaCircData) (ansatz : List ℝ → List (PGate (2 * D.norb))) : Prop :=
  ∀ dev θ x s A t, Ideal dev ansatz → θ.length = D.names.length →
    (D.on dev).Reached (D.qi dev θ x s A t) ∧ (D.qi dev θ x s A t).flags.isEnabled = false ∧
      (D.qi dev θ x s A t).params = θ

/-- The Hamiltonian over the orbitals `C`. -/
noncomputable def SaCircData.ham (D : SaCircData) (C : Matrix (Fin D.n) (Fin D.n) ℝ) : FOp ℝ :=
  electronic (natMat (oneTransform C D.hAo)) (natTen (twoTransform C D.gAo)) D.n

/-- The states with the inactive orbitals filled. -/
noncomputable def SaCircData.full (D : SaCircData) (ψ : Fin D.states.length → Fock ℝ) : Fin D.states.length → Fock ℝ :=
  fun a => core (2 * D.ci.nI) (ψ a)

/-- The mean over the states of the energies `⟨ψₐ|H|ψₐ⟩`, inactive orbitals filled. -/
noncomputable def SaCircData.energyOf (D : SaCircData) (C : Matrix (Fin D.n) (Fin D.n) ℝ) (ψ : Fin D.states.length → Fock ℝ) : ℝ :=
  (∑ a, inner (D.full ψ a) (D.ham C (D.full ψ a))) / D.states.length

end SQ
