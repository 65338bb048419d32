import Verif.Spec.Response
import Verif.Spec.Operators
import Verif.Model.QuantumResponse

/-!
# Specification: linear response with a quantum computer
-/

namespace SQ

/-- The interface evaluates expectation values exactly: for every number-conserving operator on the active
orbitals it returns the expectation value in the state prepared by the circuit (as on an ideal simulator), which has
the amplitudes `c`. -/
def ExactQuantum (ci : CIInfo) (c : Vec ℝ) (qev : Dict ℝ → Res ℝ) : Prop :=
  ∀ A, NumCons A → (∀ kv ∈ A, ∀ o ∈ kv.1, o.1 < 2 * ci.nA) → qev A = .ok (expv (stateOf ci c) (sumOp A))

end SQ
