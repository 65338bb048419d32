import Verif.Model.ReadOut
import Verif.Spec.Sampler
import Verif.Spec.Postselect

/-! # Specification: devices with read-out errors -/

namespace SQ

/-- What a circuit makes of the register. -/
noncomputable def Prog.run {n : ℕ} (g : Prog n) : QState n :=
  runCircuit g.post (runPCircuit g.ansatz (runCircuit g.pre (zeroState n)))

/-- `M a b`: the probability that the outcome `b` is read as `a`. Every outcome is read correctly with some probability,
and the matrix can be inverted. -/
structure ReadOutMatrix {n : ℕ} (M : Matrix (Fin (2 ^ n)) (Fin (2 ^ n)) ℝ) : Prop where
  nonneg : ∀ a b, 0 ≤ M a b
  total : ∀ b, ∑ a, M a b = 1
  correct : ∀ a, 0 < M a a
  invertible : M.det ≠ 0

/-- The probability of reading `a` when the register is in the state `ψ`. -/
noncomputable def readProb {n : ℕ} (M : Matrix (Fin (2 ^ n)) (Fin (2 ^ n)) ℝ) (ψ : QState n) (a : Fin (2 ^ n)) : ℝ :=
  ∑ b, M a b * prob ψ b

/-- The distribution read when `ψ` is measured: each outcome once and with its probability; outcomes that cannot be read may
be missing. -/
structure ReadDistr (n : ℕ) (M : Matrix (Fin (2 ^ n)) (Fin (2 ^ n)) ℝ) (ψ : QState n) (d : Distr) : Prop where
  nonempty : d ≠ []
  nodup : (d.map Prod.fst).Nodup
  value : ∀ kv ∈ d, ∃ h : kv.1 < 2 ^ n, kv.2 = readProb M ψ ⟨kv.1, h⟩
  rest : ∀ b : Fin (2 ^ n), (b : ℕ) ∉ d.map Prod.fst → readProb M ψ b = 0

/-- Perfect gates, unlimited shots, and the read-out errors `M`. -/
def ReadOut {n : ℕ} (S : Primitive n) (M : Matrix (Fin (2 ^ n)) (Fin (2 ^ n)) ℝ) : Prop :=
  ∀ run shots k g head, ReadDistr n M (runCircuit (toCBS n head) g.run) (S.sample run shots k g head)

/-- Neither variant of the calibration with the ansatz is on. -/
def Flags.Plain (f : Flags) : Prop := f.ansatz0.truthy = false ∧ f.ansatz0Plus.truthy = false

/-- All outcomes of `ψ` have `e.1` alpha and `e.2` beta electrons, and `ψ` has norm one. -/
def HasElectrons (norb : ℕ) (e : ℕ × ℕ) (ψ : QState (2 * norb)) : Prop :=
  (∀ b < 2 ^ (2 * norb), prob ψ b ≠ 0 → alphaCount norb b.testBit = e.1 ∧ betaCount norb b.testBit = e.2) ∧
    qinner ψ ψ = 1

variable {norb : ℕ}

/-- An interface on a primitive with read-out errors `M`. -/
structure Bench.Noisy (B : Bench norb) (ansatz : List ℝ → List (PGate (2 * norb))) (S : Primitive (2 * norb)) (K : Calib)
    (M : Matrix (Fin (2 ^ (2 * norb))) (Fin (2 ^ (2 * norb))) ℝ) : Prop where
  orbitals : 0 < norb
  device : B.dev = primitiveDevice S ansatz K
  readout : ReadOut S M
  matrix : ReadOutMatrix M
  mapping : JWMapper (2 * norb) B.map
  jw : B.mapper = .jordanWigner ∧ K.mapper = B.mapper
  electrons : B.numElec.1 + B.numElec.2 ≤ 2 * norb ∧ K.numElec = B.numElec
  start : runCircuit B.state (zeroState _) = basis (detBits norb (defaultDet norb B.numElec))

/-- `q` is an interface after construction and any sequence of calls, with neither variant of the calibration with the
ansatz on at any time. -/
def Bench.ReachedPlain (B : Bench norb) (q : QI) : Prop :=
  ∃ v2 mx s f np q0, ∃ ops : List BenchOp, QI.init v2 mx s f np = .ok q0 ∧ (∀ op ∈ ops, op.Full norb) ∧
    (∀ k, ((ops.take k).foldl (BenchOp.run B) q0).flags.Plain) ∧ q = ops.foldl (BenchOp.run B) q0

/-- The flags remove the read-out errors `M`: the matrix is used, on at most 8 qubits, unless there are no errors. -/
def Flags.Corrects (f : Flags) (M : Matrix (Fin (2 ^ (2 * norb))) (Fin (2 ^ (2 * norb))) ℝ) : Prop :=
  f.mMit.truthy = true ∧ 2 * norb ≤ 8 ∨ f.mMit.truthy = false ∧ M = 1

/-- Alpha and beta electrons of an occupation string. -/
def DetElectrons (norb : ℕ) (d : List Char) (e : ℕ × ℕ) : Prop :=
  alphaCount norb (fun k => decide (d[2 * k]? = some '1')) = e.1 ∧ alphaCount norb (fun k => decide (d[2 * k + 1]? = some '1')) = e.2

/-- The ansatz keeps norm and electrons. -/
def Conserves (norb : ℕ) (e : ℕ × ℕ) (gs : List (PGate (2 * norb))) : Prop :=
  ∀ ψ, HasElectrons norb e ψ → HasElectrons norb e (runPCircuit gs ψ)

end SQ
