import Verif.Model.StateAverage
import Verif.Spec.LinearResponse
import Verif.Spec.QuantumTransfer
import Verif.Lemmas.KeyInv

/-!
# Specification: states of state-averaged wave functions
-/

namespace SQ

open Matrix

/-- What `scipy.linalg.eig` is documented to do for a symmetric matrix, in exact arithmetic: as many pairs as rows, with
normalised eigenvectors, which are real for real eigenvalues, and the eigenvalues with their multiplicities. -/
structure EigOK (eig : EigLib) : Prop where
  number : ∀ m (M : RMat m), M.IsSymm → (eig m M).length = m
  solves : ∀ m (M : RMat m), M.IsSymm → ∀ p ∈ eig m M, toC M *ᵥ p.2 = p.1 • p.2 ∧ ∑ i, ‖p.2 i‖ ^ 2 = 1 ∧
    (p.1.im = 0 → ∀ i, (p.2 i).im = 0)
  counted : ∀ m (M : RMat m), M.IsSymm → ∀ x : ℂ, (toC M - x • 1).det = ((eig m M).map fun p => p.1 - x).prod

/-- Matrix elements of active operators between the states in `L`, whose active parts have the amplitudes `amp`, are
computed exactly: expectation values of all operators that keep the numbers of alpha and beta electrons (`Keys`), and all
elements of symmetric ones. -/
def ExactElems {σ : Type} (ci : CIInfo) (amp : σ → Vec ℝ) (L : List σ) (el : σ → Dict ℝ → σ → Res ℝ) : Prop :=
  ∀ A, NumCons A → Keys (· < 2 * ci.nA) (fun _ => 0) A →
    (∀ s ∈ L, el s A s = .ok (expv (stateOf ci (amp s)) (sumOp A))) ∧
    (SymOn ci.nA A → ∀ s ∈ L, ∀ t ∈ L, el s A t = .ok (inner (stateOf ci (amp s)) (sumOp A (stateOf ci (amp t)))))

/-- The states of the wave function, inactive orbitals included. -/
noncomputable def averagedStates {σ : Type} (ci : CIInfo) (amp : σ → Vec ℝ) (L : List σ) : Fin L.length → Fock ℝ :=
  fun i => emb ci (amp (L.get i))

/-- Orthonormal states. -/
def OrthonormalStates {n : ℕ} (Ψ : Fin n → Fock ℝ) : Prop := ∀ i j, inner (Ψ i) (Ψ j) = if i = j then 1 else 0

/-- The superposition with the given coefficients. -/
noncomputable def superpose {n : ℕ} (Ψ : Fin n → Fock ℝ) (c : Fin n → ℝ) : Fock ℝ := ∑ i, c i • Ψ i

/-- `Φs` with the energies `es` are eigenstates of `T` within the span of `Ψ`, in ascending order: as many as states in
`Ψ`, normalised, each stationary in the span, orthogonal if the energies differ, the first one a minimum over the span,
and with the same sum of energies as the states in `Ψ`. -/
structure SubspaceEigenstates {n : ℕ} (T : FOp ℝ) (Ψ : Fin n → Fock ℝ) (Φs : List (Fock ℝ)) (es : List ℝ) : Prop where
  number : Φs.length = n ∧ es.length = n
  inSpan : ∀ Φ ∈ Φs, ∃ c, Φ = superpose Ψ c
  ascending : es.Pairwise (· ≤ ·)
  normalised : ∀ Φ ∈ Φs, inner Φ Φ = 1
  stationary : ∀ x ∈ Φs.zip es, ∀ c, inner (superpose Ψ c) (T x.1) = x.2 * inner (superpose Ψ c) x.1
  energy : ∀ x ∈ Φs.zip es, expv x.1 T = x.2
  orthogonal : ∀ x ∈ Φs.zip es, ∀ y ∈ Φs.zip es, x.2 ≠ y.2 → inner x.1 y.1 = 0
  lowest : ∀ e, es.head? = some e → ∀ c, e * inner (superpose Ψ c) (superpose Ψ c) ≤ expv (superpose Ψ c) T
  average : es.sum = ∑ i, expv (Ψ i) T

end SQ
