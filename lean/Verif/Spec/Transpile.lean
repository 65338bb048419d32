import Verif.Model.Transpile

/-!
# Specification: circuits on other qubits

What a pass manager has to do, stated with states; what is measured; what would be measured without any transpilation.
-/

namespace SQ

/-- What a gate does to a state. -/
noncomputable def CGate.act {n : ℕ} : CGate n → QState n → QState n
  | .c g, ψ => g.act ψ
  | .p g, ψ => g.act ψ

/-- Run a circuit (first gate first). -/
noncomputable def runGates {n : ℕ} (gs : List (CGate n)) (ψ : QState n) : QState n := gs.foldl (fun ψ g => g.act ψ) ψ

/-- All qubits in the state 0. -/
noncomputable def allZero (n : ℕ) : QState n := basis fun _ => false

open Classical in
/-- The state of `m` qubits on a register of `n` qubits: qubit `i` is qubit `f i` of the register, the others are 0. -/
noncomputable def onQubits {m n : ℕ} (f : Fin m → Fin n) (ψ : QState m) : QState n :=
  fun c => if ∀ k, (∀ i, f i ≠ k) → c k = false then ψ fun i => c (f i) else 0

/-- The qubits in a list are `m` different qubits of a register of `n` qubits. -/
def DistinctQubits (m n : ℕ) (qs : List ℕ) : Prop := qs.length = m ∧ qs.Nodup ∧ ∀ q ∈ qs, q < n

/-- Qubit `i` of the list. -/
def DistinctQubits.at {m n : ℕ} {qs : List ℕ} (h : DistinctQubits m n qs) (i : Fin m) : Fin n :=
  ⟨qs[(i : ℕ)]'(by rw [h.1]; exact i.2), h.2.2 _ (List.getElem_mem _)⟩

/-- A transpiled circuit does what the circuit does, up to a phase: it takes a state on the qubits of the initial layout
to the result on the qubits of the final layout; without a layout the qubits are the same. -/
def FaithfulTo {n : ℕ} (raw : List ℝ → List (CGate n)) (out : TCirc) : Prop :=
  match out with
  | ⟨N, gates, some (ini, fin)⟩ =>
    ∃ (hi : DistinctQubits n N ini) (hf : DistinctQubits n N fin), ∀ p ψ, ∃ s : ℂ, ‖s‖ = 1 ∧
      runGates (gates p) (onQubits hi.at ψ) = s • onQubits hf.at (runGates (raw p) ψ)
  | ⟨N, gates, none⟩ =>
    ∃ h : n = N, ∀ p (ψ : QState n), ∃ s : ℂ, ‖s‖ = 1 ∧
      runGates (gates p) (h ▸ ψ) = s • (h ▸ runGates (raw p) ψ : QState N)

/-- Pass managers that keep the meaning of the ansatz circuit and of the two measurement circuits, whatever their options
are. -/
structure FaithfulManagers {V : Type} (P : PassManagers V) (A : Ansatz0) : Prop where
  ansatz : ∀ pm, FaithfulTo A.raw (P.run pm A.raw)
  xMeas : ∀ pm, ∃ s : ℂ, ‖s‖ = 1 ∧ ∀ ψ : QState 1, runGates (P.xMeas pm) ψ = s • onQubit 0 hadamard ψ
  yMeas : ∀ pm, ∃ s : ℂ, ‖s‖ = 1 ∧ ∀ ψ : QState 1,
    runGates (P.yMeas pm) ψ = s • onQubit 0 hadamard (onQubit 0 sDagger ψ)

open Classical in
/-- Probability that the run circuit, started with all qubits 0, gives the integer `b`: bit `i` is the outcome of the
`i`-th qubit that is read. -/
noncomputable def RunCirc.prob (r : RunCirc) (b : ℕ) : ℝ :=
  ∑ c : Fin r.n → Bool with ∀ i q, r.read[i]? = some q → ∀ h : q < r.n, c ⟨q, h⟩ = b.testBit i,
    Complex.normSq (runGates r.gates (allZero r.n) c)

/-- Probability of the outcome `b` for a label, for the state circuit and the ansatz circuit themselves. -/
noncomputable def Ansatz0.prob (A : Ansatz0) (p : List ℝ) (op : List Char) (b : ℕ) : ℝ :=
  SQ.prob (runCircuit (toCBS A.n op) (runGates (A.state ++ A.raw p) (allZero A.n))) b

/-- The circuit is what the pass manager makes of the ansatz circuit, after the state circuit on the qubits of the initial
layout. -/
def BuiltCirc {V : Type} (P : PassManagers V) (A : Ansatz0) (pm : String → Option V) (c : TCirc) : Prop :=
  ∃ s, composeAt (P.run pm A.raw).n ((P.run pm A.raw).layout.elim (List.range (P.run pm A.raw).n) Prod.fst) A.state = .ok s ∧
    c = ⟨(P.run pm A.raw).n, fun p => s ++ (P.run pm A.raw).gates p, (P.run pm A.raw).layout⟩

/-- Only names that the pass manager knows. -/
def KnownOptions {V : Type} (o : PassOpts V) : Prop := ∀ k, k ∉ allowedOptions → o k = none

/-- Calls with known options and the right number of parameters that do not switch `ISA` off. -/
def ProperCall {V : Type} (A : Ansatz0) : TCall V → Prop
  | .isa b => b = true
  | .options new => ∀ o ∈ new, KnownOptions o
  | .params p => p.length = A.numParams
  | _ => True

/-- Calls that change how circuits are transpiled, without a new primitive. -/
def ChangesSettings {V : Type} : TCall V → Prop
  | .isa _ => True
  | .options _ => True
  | _ => False

/-- Calls in which the shots are set again (which drops the read-out matrix) after every change of settings. -/
inductive ResetAfterChanges {V : Type} : List (TCall V) → Prop
  | nil : ResetAfterChanges []
  | other (c : TCall V) (cs : List (TCall V)) : ¬ ChangesSettings c → ResetAfterChanges cs → ResetAfterChanges (c :: cs)
  | change (c : TCall V) (cs : List (TCall V)) : ResetAfterChanges cs → ResetAfterChanges (c :: .shots :: cs)

end SQ
