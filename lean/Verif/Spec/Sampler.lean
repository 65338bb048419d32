import Verif.Model.Sampler
import Verif.Spec.Interface
import Verif.Spec.Circuits
import Verif.Spec.DetCircuits
import Verif.Spec.Operators
import Verif.Model.Circuits

/-!
# Specification: an ideal sampler and the Jordan-Wigner mapping
-/

namespace SQ

/-- Amplitudes on the register of a state of electrons whose modes are numbered as the qubits. -/
noncomputable def amps (n : ℕ) (X : Fock ℝ) : QState n := fun b => ((coeff X (occupied b) : ℝ) : ℂ)

/-- The distribution of an ideal sampler that measures `ψ` after the circuit for `head`: each outcome once and with its
probability; outcomes that cannot occur may be missing. -/
structure ExactDistr (n : ℕ) (ψ : QState n) (head : List Char) (d : Distr) : Prop where
  nonempty : d ≠ []
  nodup : (d.map Prod.fst).Nodup
  value : ∀ kv ∈ d, kv.1 < 2 ^ n ∧ kv.2 = prob (runCircuit (toCBS n head) ψ) kv.1
  rest : ∀ b, b < 2 ^ n → b ∉ d.map Prod.fst → prob (runCircuit (toCBS n head) ψ) b = 0

/-- The device measures the state that the circuit prepares, with the ansatz `ansatz p` for the parameters `p`. -/
def Ideal {norb : ℕ} (dev : Device (List (Gate (2 * norb)))) (ansatz : List ℝ → List (PGate (2 * norb))) : Prop :=
  ∀ run s head, ExactDistr (2 * norb) (runPCircuit (ansatz s.params) (runCircuit s.circuit (zeroState _))) head
    (dev.measure run s head)

/-- The operator of labels with coefficients. -/
noncomputable def obsOp (n : ℕ) (obs : List (List Char × ℂ)) (ψ : QState n) : QState n :=
  (obs.map fun pc => pc.2 • pauliOp n pc.1 ψ).sum

/-- An operator string in Qiskit's text form: `"+_0 -_3"`. -/
def qiskitText (s : Str) : List Char :=
  List.intercalate [' '] (s.map fun o => (if o.2 then '+' else '-') :: '_' :: pyStr o.1)

/-- What is relied on of `JordanWignerMapper.map(FermionicOp(terms, n))`: at least one label, all on `n` qubits; and the
operator of the labels is the given one, qubit `q` holding mode `q`. -/
structure JWMapper (n : ℕ) (map : SDict ℝ → Res (List (List Char × ℂ))) : Prop where
  labels : ∀ terms obs, map terms = .ok obs → obs ≠ [] ∧ ∀ pc ∈ obs, PauliLabel n pc.1
  exact : ∀ T : Dict ℝ, WF T → (∀ kv ∈ T, ∀ o ∈ kv.1, o.1 < n) →
    ∃ obs, map (T.map fun kv => (qiskitText kv.1, kv.2)) = .ok obs ∧
      ∀ X : Fock ℝ, Below n X → obsOp n obs (amps n X) = amps n (sumOp T X)

/-! ### Interfaces in use -/

variable {norb : ℕ}

/-- The state the register holds when the initial circuit `c` and the ansatz with the parameters `p` have run. -/
noncomputable def prepared (ansatz : List ℝ → List (PGate (2 * norb))) (p : List ℝ) (c : List (Gate (2 * norb))) :
    QState (2 * norb) := runPCircuit (ansatz p) (runCircuit c (zeroState _))

/-- Occupation strings with at least one electron. -/
def FullDet (norb : ℕ) (d : List Char) : Prop := IsDet norb d ∧ '1' ∈ d

/-- The interface has an ideal device and the Jordan-Wigner mapping, and its initial circuit prepares the determinant
that `quantum_expectation_value` files data under. -/
structure Bench.Sound (B : Bench norb) (ansatz : List ℝ → List (PGate (2 * norb))) : Prop where
  orbitals : 0 < norb
  device : Ideal B.dev ansatz
  mapping : JWMapper (2 * norb) B.map
  jw : B.mapper = .jordanWigner
  electrons : B.numElec.1 + B.numElec.2 ≤ 2 * norb
  start : runCircuit B.state (zeroState _) = basis (detBits norb (defaultDet norb B.numElec))

/-- Determinants handed over have an electron; labels handed over are Pauli labels on all qubits, at least one. -/
def BenchOp.Full (norb : ℕ) : BenchOp → Prop
  | .csfs _ _ _ bra _ ket => (∀ d ∈ bra.2, FullDet norb d) ∧ ∀ d ∈ ket.2, FullDet norb d
  | .labels obs => obs ≠ [] ∧ ∀ pc ∈ obs, PauliLabel (2 * norb) pc.1
  | _ => True

/-- `q` is an interface after construction and any sequence of calls. -/
def Bench.Reached (B : Bench norb) (q : QI) : Prop :=
  ∃ v2 mx s f np q0, ∃ ops : List BenchOp, QI.init v2 mx s f np = .ok q0 ∧ (∀ op ∈ ops, op.Full norb) ∧
    q = ops.foldl (BenchOp.run B) q0

/-- The ansatz circuit is built from an UPS layout (`construct_circuit`). -/
def LayoutAnsatz (norb : ℕ) (types : List String) (indices : List (List ℕ)) (ansatz : List ℝ → List (PGate (2 * norb))) :
    Prop := ∀ p, ∃ names, upslayout2circuit norb types indices (fun k => p.getD k 0) = .ok (ansatz p, names)

end SQ
