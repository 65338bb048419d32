import Verif.Model.CircEnv
import Verif.Spec.FromUps
import Verif.Spec.Structures
import Verif.Spec.UpsEnv
import Verif.Spec.QuantumTransfer

/-! # Spec: a circuit wave function object with an interface in use -/

namespace SQ

/-- The object is set up: exact cut-offs, a complete space of active determinants, a circuit for the layout of excitation
operators `Ts` behind a circuit that prepares the determinant `d`, the Jordan-Wigner mapping, for each parameter the number of
shifts of its type, integrals with the symmetry of real orbitals, each rotation listed once. -/
structure CircData.Ready (D : CircData) (ansatz : List ℝ → List (PGate (2 * D.norb))) (d : List Char) (st : AnsatzStruct)
    (Ts : List (FOp ℝ)) : Prop where
  tiny : ExactTiny D.tiny
  big : ExactBig D.big
  space : AnsatzSpace D.ci D.ci.nA
  norb : D.norb = D.ci.nA
  pos : 0 < D.norb
  layout : Layout 0 D.ci.nA st.types st.indices Ts
  circuits : CircuitLayout D.ci.nA st.types st.indices Ts
  ansatz : LayoutAnsatz D.norb st.types st.indices ansatz
  mapping : JWMapper (2 * D.norb) D.bench.map
  electrons : D.bench.numElec.1 + D.bench.numElec.2 ≤ 2 * D.norb
  det : IsDet D.norb d
  start : runCircuit D.bench.state (zeroState _) = basis (detBits D.norb d)
  mem : ∃ v : Vec ℝ, stateOf D.ci v = ket (detSet d)
  count : D.names.length = st.types.length
  shifts : ∀ (k : ℕ) (ty : String), st.types[k]? = some ty → ∃ s, D.names[k]? = some s ∧ D.R.lookup s = gradR ty
  orbs : D.n = D.ci.nI + D.ci.nA + D.ci.nV
  real : RealAo D.hAo D.gAo
  kappa : ValidKappa D.kappaIdx

/-- The interface at any evaluation is one that was constructed and used in any way with an ideal device (calls for
superpositions apart), without mitigation, and holds the parameters set. -/
def CircData.InUse (D : CircData) (ansatz : List ℝ → List (PGate (2 * D.norb))) : Prop :=
  ∀ dev θ x A, Ideal dev ansatz → θ.length = D.names.length →
    (D.on dev).ReachedSimply (D.qi dev θ x A) ∧ (D.qi dev θ x A).flags.isEnabled = false ∧
      (D.qi dev θ x A).params = θ

/-- The energy `⟨ψ|H|ψ⟩` of the active state `ψ` with the inactive orbitals filled, `H` being the full electronic
Hamiltonian over the orbitals `C`. -/
noncomputable def CircData.energyOf (D : CircData) (C : Matrix (Fin D.n) (Fin D.n) ℝ) (ψ : Fock ℝ) : ℝ :=
  inner (core (2 * D.ci.nI) ψ)
    (electronic (natMat (oneTransform C D.hAo)) (natTen (twoTransform C D.gAo)) D.n (core (2 * D.ci.nI) ψ))

end SQ
