import Verif.Spec.Sampler

/-!
# Specification: interfaces that start from any determinant
-/

namespace SQ

variable {norb : ℕ}

/-- The interface has an ideal device and the Jordan-Wigner mapping; its initial circuit may be any (for
`Bench.Sound` it prepares the Hartree-Fock determinant). -/
structure Bench.Plain (B : Bench norb) (ansatz : List ℝ → List (PGate (2 * norb))) : Prop where
  orbitals : 0 < norb
  device : Ideal B.dev ansatz
  mapping : JWMapper (2 * norb) B.map
  electrons : B.numElec.1 + B.numElec.2 ≤ 2 * norb

/-- Calls other than of `quantum_expectation_value_csfs`; labels handed over are Pauli labels on all qubits, at least one. -/
def BenchOp.Simple (norb : ℕ) : BenchOp → Prop
  | .csfs .. => False
  | .labels obs => obs ≠ [] ∧ ∀ pc ∈ obs, PauliLabel (2 * norb) pc.1
  | _ => True

/-- `q` is an interface after construction and any sequence of such calls. -/
def Bench.ReachedSimply (B : Bench norb) (q : QI) : Prop :=
  ∃ v2 mx s f np q0, ∃ ops : List BenchOp, QI.init v2 mx s f np = .ok q0 ∧ (∀ op ∈ ops, op.Simple norb) ∧
    q = ops.foldl (BenchOp.run B) q0

end SQ
