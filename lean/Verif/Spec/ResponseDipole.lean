import Verif.Spec.Response
import Verif.Model.ResponseDipole

/-!
# Specification: transition dipole moments of linear response
-/

namespace SQ

/-- The excitation operator `O = Σ_i Z_i X_i + Y_i X_i†` of a response vector; `Xd` are the adjoints of `X`. -/
noncomputable def excOp (X Xd : List (FOp ℝ)) (Z Y : ℕ → ℝ) : FOp ℝ :=
  ∑ i ∈ Finset.range X.length, (Z i • X[i]?.getD 0 + Y i • Xd[i]?.getD 0)

/-- The excitation operator of a vector of `Z` followed by `Y`. -/
noncomputable def vecOp (X Xd : List (FOp ℝ)) {m : ℕ} (v : Fin m → ℝ) : FOp ℝ :=
  excOp X Xd (rowAt v) fun i => rowAt v (i + X.length)

/-- The numbers `d` are the transition dipole moments of the solution `u`: `⟨[O, μ]⟩` with the excitation operator
`O` of a vector `v` that is proportional to `u` and normalised, `⟨[O†, O]⟩ = 1`; if `⟨[O_u†, O_u]⟩` is below
`10⁻¹⁰` the vector `v` is zero. -/
def TransitionDipole (W : RespWf) (X : List (FOp ℝ)) (mu : Fin 3 → Mat ℝ) {m : ℕ} (u v : Fin m → ℝ)
    (d : Fin 3 → ℝ) : Prop :=
  ∀ Xd, List.Forall₂ IsAdjoint X Xd →
    (∀ c, d c = expv W.state (comm (vecOp X Xd v) (oneOp (mu c) W.numOrbs))) ∧
    (∃ a : ℝ, 0 ≤ a ∧ v = a • u) ∧
    (∀ O, IsAdjoint (vecOp X Xd u) O → expv W.state (comm O (vecOp X Xd u)) < 1e-10 → v = 0) ∧
    ∀ O, IsAdjoint (vecOp X Xd u) O → 1e-10 ≤ expv W.state (comm O (vecOp X Xd u)) →
      ∀ P, IsAdjoint (vecOp X Xd v) P → expv W.state (comm P (vecOp X Xd v)) = 1

end SQ
