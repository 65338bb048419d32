import Verif.Spec.QuantumResponse
import Verif.Model.QuantumStd
import Mathlib.Probability.Moments.Variance
import Mathlib.Probability.Moments.Covariance

/-!
# Specification: measurements with a finite number of shots

The outcomes of all measurements form a probability space; the estimate of the expectation value of a (folded)
operator is a random variable `est A` on it.  It may depend on the estimates of other operators, for example when
results are kept and used again.
-/

namespace SQ

open MeasureTheory ProbabilityTheory

variable {Ω : Type} [MeasurableSpace Ω]

/-- Every estimate has a mean and a variance. -/
def FiniteVariance (μ : Measure Ω) (est : Dict ℝ → Ω → ℝ) : Prop := ∀ A, MemLp (est A) 2 μ

/-- The estimates of different operators are not correlated. -/
def Uncorr (μ : Measure Ω) (est : Dict ℝ → Ω → ℝ) : Prop := ∀ A B, A ≠ B → cov[est A, est B; μ] = 0

/-- `quantum_expectation_value` when the outcome is `ω`. -/
def measuredAt (est : Dict ℝ → Ω → ℝ) (ω : Ω) : Dict ℝ → Res ℝ := fun A => .ok (est A ω)

/-- `quantum_variance`: the variance of the estimate. -/
noncomputable def varianceOf (μ : Measure Ω) (est : Dict ℝ → Ω → ℝ) : Dict ℝ → Res ℝ := fun A => .ok (Var[est A; μ])

/-- The mean of the estimate. -/
noncomputable def meanOf (μ : Measure Ω) (est : Dict ℝ → Ω → ℝ) : Dict ℝ → Res ℝ := fun A => .ok (∫ ω, est A ω ∂μ)

end SQ
