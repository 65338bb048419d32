import Verif.Spec.Fock
import Mathlib.Topology.Algebra.InfiniteSum.Defs
import Mathlib.Data.Nat.Factorial.Basic
import Mathlib.Analysis.Real.Sqrt

/-!
# Specification: the exponential of an operator
-/

namespace SQ

/-- `U = exp(θ T)`: every coefficient of `U x` is the sum of the exponential series. -/
def IsExp (T : FOp ℝ) (θ : ℝ) (U : FOp ℝ) : Prop :=
  ∀ (x : Fock ℝ) (S : Finset ℕ),
    HasSum (fun k : ℕ => θ ^ k / (k.factorial : ℝ) * coeff ((T ^ k) x) S) (coeff (U x) S)

end SQ
