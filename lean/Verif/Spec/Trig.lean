import Mathlib.Analysis.SpecialFunctions.Trigonometric.Basic

/-! # Specification: trigonometric polynomials -/

namespace SQ

/-- `E` is a trigonometric polynomial of degree at most `R`. -/
def TrigPoly (R : ℕ) (E : ℝ → ℝ) : Prop :=
  ∃ a b : ℕ → ℝ, ∀ x, E x = ∑ k ∈ Finset.range (R + 1), (a k * Real.cos (k * x) + b k * Real.sin (k * x))

end SQ
