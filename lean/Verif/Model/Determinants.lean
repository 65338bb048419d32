import Verif.Model.Cliques
import Verif.Model.QiskitOrder

/-!
# Model: post-selection and determinant circuits

`slowquant/qiskit_interface/util.py` (line numbers without a file name) and `interface.py`.
-/

namespace SQ

/-- The mapper classes that the code tells apart. -/
inductive Mapper
  | jordanWigner
  | parity
  | other
  deriving DecidableEq

/-- `format(v, f"0{n}b")`: digits from the most significant. -/
def binFormat (n v : ℕ) : List Bool := (List.range (max n (max 1 (Nat.size v)))).reverse.map v.testBit

/-- `bitstr.count("1")`. -/
def countOnes (l : List Bool) : ℕ := l.count true

/-- Loops over a half of the bit string, lines 943-946 and 956-959: parity and counter afterwards. -/
def countChanges : List Bool → Bool → ℕ → Bool × ℕ
  | [], cur, n => (cur, n)
  | bit :: bits, cur, n => if bit ≠ cur then countChanges bits bit (n + 1) else countChanges bits cur n

/-- The test for the Jordan-Wigner mapper, lines 926-932. -/
def keepJW (numElec : ℕ × ℕ) (n v : ℕ) : Bool :=
  let bitstr := binFormat n v
  let numA := bitstr.length / 2
  decide (countOnes (bitstr.drop numA) = numElec.1) && decide (countOnes (bitstr.take numA) = numElec.2)

/-- The test for the parity mapper, lines 936-966. -/
def keepParity (numElec : ℕ × ℕ) (n v : ℕ) : Bool :=
  let bitstr := binFormat n v
  let numA := bitstr.length / 2
  let r := countChanges (bitstr.take numA) false 0
  let r := if r.1 = true ∧ numElec.2 % 2 = 0 then (false, r.2 + 1)
    else if r.1 = false ∧ numElec.2 % 2 = 1 then (true, r.2 + 1)
    else r
  if r.2 ≠ numElec.1 then false
  else
    let s := countChanges (bitstr.drop numA) r.1 0
    let c := if s.1 = true ∧ (numElec.1 + numElec.2) % 2 = 0 then s.2 + 1
      else if s.1 = false ∧ (numElec.1 + numElec.2) % 2 = 1 then s.2 + 1
      else s.2
    if c ≠ numElec.2 then false else true

/-- `postselection`, lines 886-973. `int(bitstr, 2)` is the integer again. -/
noncomputable def postselection (dist : Distr) (mapper : Mapper) (numElec : ℕ × ℕ) (n : ℕ) : Res Distr :=
  match mapper with
  | .other => .error .valueError
  | m =>
    let kept := dist.filter fun kv => if m = .jordanWigner then keepJW numElec n kv.1 else keepParity numElec n kv.1
    let probSum := (kept.map Prod.snd).sum
    if kept ≠ [] ∧ probSum = 0 then .error .zeroDivision
    else .ok (kept.map fun kv => (kv.1, kv.2 / probSum))

/-- Apply a gate to the qubits of the flagged spin orbitals. `QuantumCircuit` raises for a qubit outside. -/
def emitGates (norb : ℕ) (g : Fin (2 * norb) → Gate (2 * norb)) (flags : List Bool) : Res (List (Gate (2 * norb))) :=
  flags.zipIdx.foldlM (fun gs x =>
    if x.1 = true then
      if h : f2q x.2 norb < 2 * norb then .ok (gs ++ [g ⟨f2q x.2 norb, h⟩]) else .error .runtimeError
    else .ok gs) []

/-- `get_determinant_reference`, lines 1074-1092. -/
def determinantReference (det : List Char) (norb : ℕ) (mapper : Mapper) : Res (List (Gate (2 * norb))) :=
  if mapper ≠ .jordanWigner then .error .typeError
  else emitGates norb .x (det.map fun occ => decide (occ = '1'))

/-- The search for the Hadamard qubit, lines 1024-1031. -/
def hadamardIndex (det1 det2 : List Char) (norb : ℕ) : Res ℕ :=
  match (det1.zip det2).findIdx? fun o => decide (o.1 = '0' ∧ o.2 = '1') with
  | some i => .ok (f2q i norb)
  | none => .error .valueError

/-- The tests for the controlled gates, lines 1032-1037. -/
def cxFlags (det1 det2 : List Char) (norb hIdx : ℕ) : List Bool :=
  (det1.zip det2).zipIdx.map fun x =>
    if x.1.1 = x.1.2 ∨ f2q x.2 norb = hIdx then false else decide (x.1.1 = '1' ∨ x.1.2 = '1')

/-- `get_determinant_superposition_reference`, lines 1003-1038. -/
def superpositionReference (det1 det2 : List Char) (norb : ℕ) (mapper : Mapper) : Res (List (Gate (2 * norb))) :=
  if mapper ≠ .jordanWigner then .error .typeError
  else do
    let xs ← emitGates norb .x (det1.map fun occ => decide (occ = '1'))
    let hIdx ← hadamardIndex det1 det2 norb
    if h : hIdx < 2 * norb then do
      let cxs ← emitGates norb (.cx ⟨hIdx, h⟩) (cxFlags det1 det2 norb hIdx)
      return xs ++ .h ⟨hIdx, h⟩ :: cxs
    else .error .runtimeError

/-- `get_determinant_superposition_reference_MAnsatz0`, lines 1041-1071. -/
def superpositionReferenceMAnsatz0 (det1 det2 : List Char) (norb : ℕ) (mapper : Mapper) : Res (List (Gate (2 * norb))) :=
  if mapper ≠ .jordanWigner then .error .typeError
  else do
    let hIdx ← hadamardIndex det1 det2 norb
    if h : hIdx < 2 * norb then emitGates norb (.cx ⟨hIdx, h⟩) (cxFlags det1 det2 norb hIdx)
    else if (cxFlags det1 det2 norb hIdx).any id then .error .runtimeError
    else .ok []

/-! ### Expectation values between CSFs -/

/-- `tuple(sorted((a, b), reverse=reverse))`. -/
def sortedPair (reverse : Bool) (a b : List Char) : List Char × List Char :=
  if reverse then (if a < b then (b, a) else (a, b)) else (if b < a then (b, a) else (a, b))

/-- `unique_combinations[combo] += weight`. -/
noncomputable def addWeight (d : List ((List Char × List Char) × ℝ)) (k : List Char × List Char) (w : ℝ) :
    List ((List Char × List Char) × ℝ) :=
  if d.any fun kv => kv.1 == k then d.map fun kv => if kv.1 = k then (k, kv.2 + w) else kv else d ++ [(k, 0 + w)]

/-- `bra_csf[0][i]` and `bra_csf[1][i]` for `i in range(len(bra_csf[1]))`: the determinants with their
coefficients. -/
def zipCsf (csf : List ℝ × List (List Char)) : Res (List (ℝ × List Char)) :=
  if csf.1.length < csf.2.length then .error .indexError else .ok (csf.1.zip csf.2)

/-- `unique_combinations`, interface.py lines 809-822. -/
noncomputable def uniqueCombinations (reverse : Bool) (bra ket : List (ℝ × List Char)) :
    List ((List Char × List Char) × ℝ) :=
  (bra.flatMap fun b => ket.map fun k =>
    (sortedPair reverse b.2 k.2, b.1 * k.1 * (getReorderingSign b.2 : ℝ) * (getReorderingSign k.2 : ℝ))).foldl
      (fun d x => addWeight d x.1 x.2) []

/-- One pair of determinants, interface.py lines 825-975. `E` is the expectation value of the operator
for the state that the circuit prepares, followed by the ansatz. Not modelled: composing and transpiling
(options 1 to 4), the extra mitigation circuit, and the choice between saved and fresh measurements. -/
noncomputable def csfsTerm {norb : ℕ} (E : List (Gate (2 * norb)) → ℝ) (x : (List Char × List Char) × ℝ) : Res ℝ :=
  if x.1.1 = x.1.2 then do
    let c ← determinantReference x.1.1 norb .jordanWigner
    return x.2 * E c
  else do
    let s ← superpositionReference x.1.1 x.1.2 norb .jordanWigner
    let c1 ← determinantReference x.1.1 norb .jordanWigner
    let c2 ← determinantReference x.1.2 norb .jordanWigner
    return x.2 * E s - 0.5 * x.2 * E c1 - 0.5 * x.2 * E c2

/-- `quantum_expectation_value_csfs`, interface.py lines 718-976, with exact expectation values. -/
noncomputable def expectationCsfs {norb : ℕ} (E : List (Gate (2 * norb)) → ℝ) (mapper : Mapper) (reverse : Bool)
    (bra ket : List ℝ × List (List Char)) : Res ℝ :=
  if mapper ≠ .jordanWigner then .error .typeError
  else if bra.2 = [] ∨ ket.2 = [] then .ok 0
  else do
    let b ← zipCsf bra
    let k ← zipCsf ket
    (uniqueCombinations reverse b k).foldlM (fun val x => do
      let t ← csfsTerm E x
      return val + t) 0

end SQ
