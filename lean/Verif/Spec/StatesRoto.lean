import Verif.Model.StatesRoto
import Verif.Spec.Trig

/-! # Spec: RotoSolve for several states -/

namespace SQ

/-- The minimization along one parameter ends in a lowest point of the reconstructed function in the period. -/
def FindsLowest (m : List (List ℝ) → ℕ → ℝ) : Prop :=
  ∀ (evals : List (List ℝ)) (R : ℕ), evals.length = 2 * R + 1 → |m evals R| ≤ Real.pi ∧
    ∀ t, |t| ≤ Real.pi → reconstructedSA evals R (m evals R) ≤ reconstructedSA evals R t

/-- The objective gives `n` energies for `len` parameters, and each is in every parameter a trigonometric polynomial of the
degree in `R`. -/
structure StatesRoto.Trig (s : StatesRoto) (n len : ℕ) : Prop where
  pos : 0 < n
  states : ∀ x : List ℝ, x.length = len → (s.f x).length = n
  trig : ∀ (i : ℕ) (name : String), s.names[i]? = some name → ∀ R, s.R.lookup name = some R →
    ∀ x : List ℝ, x.length = len → ∀ k < n, TrigPoly R fun t => (s.f (x.set i t)).getD k 0

end SQ
