import Mathlib.Analysis.Complex.Basic
import Mathlib.Data.Matrix.Mul
import Mathlib.Data.Real.Sqrt
import Mathlib.LinearAlgebra.Matrix.ConjTranspose

/-!
# Specification: qubit states, gates and Pauli operators

Qubit `i` of a register is component `i` of a basis label; a measured integer has the outcome of qubit
`i` as its bit `i` (Qiskit's convention). A Pauli label is written with the last qubit first.
-/

namespace SQ

/-- Amplitudes of the basis states of `n` qubits. -/
abbrev QState (n : ℕ) := (Fin n → Bool) → ℂ

/-- The basis state with these bits. -/
noncomputable def basis {n : ℕ} (b : Fin n → Bool) : QState n := fun c => if c = b then 1 else 0

/-- The outcome of each qubit in a measured integer. -/
def qubitBits (n : ℕ) (b : ℕ) : Fin n → Bool := fun i => b.testBit i

noncomputable def qinner {n : ℕ} (φ ψ : QState n) : ℂ := ∑ b, (starRingEnd ℂ) (φ b) * ψ b

/-- The tensor product of one-qubit operators. -/
noncomputable def tensor {n : ℕ} (M : Fin n → Matrix Bool Bool ℂ) (ψ : QState n) : QState n :=
  fun b => ∑ c, (∏ i, M i (b i) (c i)) * ψ c

/-- An operator on qubit `i`. -/
noncomputable def onQubit {n : ℕ} (i : Fin n) (M : Matrix Bool Bool ℂ) (ψ : QState n) : QState n :=
  fun b => ∑ c, M (b i) c * ψ (Function.update b i c)

def sigmaX : Matrix Bool Bool ℂ := fun b c => if b = c then 0 else 1
def sigmaY : Matrix Bool Bool ℂ := fun b c =>
  if b = c then 0 else if b = true then Complex.I else -Complex.I
def sigmaZ : Matrix Bool Bool ℂ := fun b c => if b = c then (if b = true then -1 else 1) else 0

noncomputable def hadamard : Matrix Bool Bool ℂ := fun b c =>
  ((Real.sqrt 2 : ℝ) : ℂ)⁻¹ * (if b = true ∧ c = true then -1 else 1)
def sDagger : Matrix Bool Bool ℂ := fun b c => if b = c then (if b = true then -Complex.I else 1) else 0

/-- The operator a letter of a Pauli label stands for. -/
def sigma (l : Char) : Matrix Bool Bool ℂ :=
  if l = 'X' then sigmaX else if l = 'Y' then sigmaY else if l = 'Z' then sigmaZ else 1

/-- Letter of qubit `i` in a label. -/
def letter (p : List Char) (i : ℕ) : Char := (p.reverse[i]?).getD 'I'

/-- The operator of a Pauli label. -/
noncomputable def pauliOp (n : ℕ) (p : List Char) (ψ : QState n) : QState n := tensor (fun i => sigma (letter p i)) ψ

/-- Labels of Pauli strings on `n` qubits. -/
def PauliLabel (n : ℕ) (p : List Char) : Prop :=
  p.length = n ∧ ∀ l ∈ p, l = 'I' ∨ l = 'X' ∨ l = 'Y' ∨ l = 'Z'

/-- Gates on `n` qubits. -/
inductive Gate (n : ℕ)
  | x (q : Fin n)
  | h (q : Fin n)
  | sdg (q : Fin n)
  | cx (c t : Fin n)
  | swap (a b : Fin n)

/-- What a gate does to a state. -/
noncomputable def Gate.act {n : ℕ} : Gate n → QState n → QState n
  | .x q, ψ => onQubit q sigmaX ψ
  | .h q, ψ => onQubit q hadamard ψ
  | .sdg q, ψ => onQubit q sDagger ψ
  | .cx c t, ψ => fun b => if b c = true then ψ (Function.update b t (!b t)) else ψ b
  | .swap a b, ψ => fun l => ψ (fun i => l (Equiv.swap a b i))

/-- Run a circuit (first gate first). -/
noncomputable def runCircuit {n : ℕ} (gs : List (Gate n)) (ψ : QState n) : QState n :=
  gs.foldl (fun ψ g => g.act ψ) ψ

/-- Probability of measuring the integer `b` in the state `ψ`. -/
noncomputable def prob {n : ℕ} (ψ : QState n) (b : ℕ) : ℝ := Complex.normSq (ψ (qubitBits n b))

end SQ
