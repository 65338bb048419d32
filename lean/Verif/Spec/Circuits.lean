import Verif.Spec.Qubits
import Verif.Spec.Reorder
import Verif.Spec.Embed
import Verif.Spec.Ansatz
import Mathlib.Analysis.SpecialFunctions.Trigonometric.Basic
import Mathlib.Analysis.SpecialFunctions.Complex.Circle

/-!
# Specification: parametrised circuits, and states of electrons on a register
-/

namespace SQ

/-- `rx(θ) = exp(-i θ/2 X)`. -/
noncomputable def rxMat (θ : ℝ) : Matrix Bool Bool ℂ := fun b c =>
  if b = c then (Real.cos (θ / 2) : ℂ) else -Complex.I * (Real.sin (θ / 2) : ℂ)
/-- `ry(θ) = exp(-i θ/2 Y)`. -/
noncomputable def ryMat (θ : ℝ) : Matrix Bool Bool ℂ := fun b c =>
  if b = c then (Real.cos (θ / 2) : ℂ) else if b = true then (Real.sin (θ / 2) : ℂ) else -(Real.sin (θ / 2) : ℂ)
/-- `rz(θ) = exp(-i θ/2 Z)`. -/
noncomputable def rzMat (θ : ℝ) : Matrix Bool Bool ℂ := fun b c =>
  if b = c then
    (if b = true then (Real.cos (θ / 2) : ℂ) + Complex.I * (Real.sin (θ / 2) : ℂ)
      else (Real.cos (θ / 2) : ℂ) - Complex.I * (Real.sin (θ / 2) : ℂ))
  else 0

/-- Gates with angles, on `n` qubits. -/
inductive PGate (n : ℕ)
  | rx (θ : ℝ) (q : Fin n)
  | ry (θ : ℝ) (q : Fin n)
  | rz (θ : ℝ) (q : Fin n)
  | x (q : Fin n)
  | h (q : Fin n)
  | cx (c t : Fin n)
  | cz (c t : Fin n)

/-- What a gate does to a state. -/
noncomputable def PGate.act {n : ℕ} : PGate n → QState n → QState n
  | .rx θ q, ψ => onQubit q (rxMat θ) ψ
  | .ry θ q, ψ => onQubit q (ryMat θ) ψ
  | .rz θ q, ψ => onQubit q (rzMat θ) ψ
  | .x q, ψ => onQubit q sigmaX ψ
  | .h q, ψ => onQubit q hadamard ψ
  | .cx c t, ψ => fun b => if b c = true then ψ (Function.update b t (!b t)) else ψ b
  | .cz c t, ψ => fun b => if b c = true ∧ b t = true then -ψ b else ψ b

/-- Run a circuit (first gate first). -/
noncomputable def runPCircuit {n : ℕ} (gs : List (PGate n)) (ψ : QState n) : QState n :=
  gs.foldl (fun ψ g => g.act ψ) ψ

/-- The spin orbitals (numbered as the qubits) that are occupied in a basis label. -/
def occupied {n : ℕ} (b : Fin n → Bool) : Finset ℕ :=
  (Finset.univ.filter fun q : Fin n => b q = true).image fun q : Fin n => (q : ℕ)

/-- A state of electrons in `norb` orbitals on a register of `2 * norb` qubits under the Jordan-Wigner mapping:
first the alpha orbitals, then the beta orbitals, with the sign of `toBlocked`. -/
noncomputable def onRegister (norb : ℕ) (x : Fock ℝ) : QState (2 * norb) :=
  fun b => ((coeff (toBlocked norb x) (occupied b) : ℝ) : ℂ)

/-- The circuit applies `exp(θ T)` to every state of electrons in the `norb` orbitals. -/
def Prepares (norb : ℕ) (gs : List (PGate (2 * norb))) (T : FOp ℝ) (θ : ℝ) : Prop :=
  ∀ x : Fock ℝ, Below (2 * norb) x → ∃ y, ExpTo T θ x y ∧ Below (2 * norb) y ∧
    runPCircuit gs (onRegister norb x) = onRegister norb y

/-- Excitations for which there is a circuit on the register of `norb` orbitals, with their generators: single
excitations of spin orbitals up in the order of the qubits (alpha before beta), double excitations to
higher spin orbitals with an even number of alpha indices, spin-adapted singles to a higher orbital. -/
inductive CircuitExc (norb : ℕ) : String → List ℕ → FOp ℝ → Prop
  | single (i a : ℕ) (hr : ∀ p ∈ [i, a], p < 2 * norb) (h : (i % 2 = a % 2 ∧ i < a) ∨ (i % 2 = 0 ∧ a % 2 = 1)) :
      CircuitExc norb "single" [i, a] (excite [a] [i] - excite [i] [a])
  | double (i j a b : ℕ) (hr : ∀ p ∈ [i, j, a, b], p < 2 * norb) (hn : [i, j, a, b].Nodup)
      (h : ∀ p ∈ [i, j], ∀ q ∈ [a, b], p < q) (hs : [i, j, a, b].countP (· % 2 = 0) % 2 = 0) :
      CircuitExc norb "double" [i, j, a, b] (excite [a, b] [j, i] - excite [i, j] [b, a])
  | saSingle (i a : ℕ) (h : i < a) (ha : a < norb) : CircuitExc norb "sa_single" [i, a] (E a i - E i a)

/-- The lists of names and indices of a layout of such excitations, and the generators they stand for. -/
inductive CircuitLayout (norb : ℕ) : List String → List (List ℕ) → List (FOp ℝ) → Prop
  | nil : CircuitLayout norb [] [] []
  | cons {ty : String} {ix : List ℕ} {T : FOp ℝ} {types : List String} {indices : List (List ℕ)}
      {Ts : List (FOp ℝ)} : CircuitExc norb ty ix T → CircuitLayout norb types indices Ts →
      CircuitLayout norb (ty :: types) (ix :: indices) (T :: Ts)

end SQ
