import Verif.Model.Variance
import Verif.Spec.Interface

/-! # Specification: averages and variances over a distribution -/

namespace SQ

/-- Average of `f` over the outcomes. -/
noncomputable def expect (d : Distr) (f : ℕ → ℝ) : ℝ := (d.map fun kv => kv.2 * f kv.1).sum

/-- Average squared deviation from the average. -/
noncomputable def variance (d : Distr) (f : ℕ → ℝ) : ℝ := expect d fun b => (f b - expect d f) ^ 2

/-- Weights of outcomes: nonnegative with sum 1. -/
def IsProb (d : Distr) : Prop := (∀ kv ∈ d, 0 ≤ kv.2) ∧ expect d (fun _ => 1) = 1

/-- Value of a label for an outcome. -/
noncomputable def pauliSign (n : ℕ) (p : List Char) (b : ℕ) : ℝ :=
  ∏ i : Fin n, if letter p i ≠ 'I' ∧ b.testBit i = true then -1 else 1

/-- Value of the part of an observable that has its labels in `ps`. -/
noncomputable def partValue (n : ℕ) (obs : List (List Char × ℝ)) (ps : List (List Char)) (b : ℕ) : ℝ :=
  (obs.map fun pc => if pc.1 ∈ ps then pc.2 * pauliSign n pc.1 b else 0).sum

end SQ
