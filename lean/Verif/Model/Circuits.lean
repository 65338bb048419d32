import Verif.Model.Py
import Verif.Model.QiskitOrder
import Verif.Model.Structures
import Verif.Spec.Circuits

/-!
# Model: circuits of the unitary product ansatz

slowquant/qiskit_interface/operators_circuits.py with the Jordan-Wigner mapper; the versions for other mappers
(`_trotter`, lines 325-438), which go through the operator mapping of qiskit_nature, are in Model/Trotter.lean. A circuit is
the list of the gates appended to it. Angles are bound: the model takes the value where the code puts a named
parameter. Indices are natural numbers.
-/

namespace SQ

/-- A call of a gate method of `QuantumCircuit`. -/
inductive GateCall
  | rx (θ : ℝ) (q : ℕ)
  | ry (θ : ℝ) (q : ℕ)
  | rz (θ : ℝ) (q : ℕ)
  | x (q : ℕ)
  | h (q : ℕ)
  | cx (c t : ℕ)
  | cz (c t : ℕ)

/-- The gate on a register of `n` qubits. Qiskit raises `CircuitError` (here `runtimeError`) for a qubit that does
not exist or is given twice. -/
def GateCall.place (n : ℕ) : GateCall → Res (PGate n)
  | .rx θ q => if h : q < n then .ok (.rx θ ⟨q, h⟩) else .error .runtimeError
  | .ry θ q => if h : q < n then .ok (.ry θ ⟨q, h⟩) else .error .runtimeError
  | .rz θ q => if h : q < n then .ok (.rz θ ⟨q, h⟩) else .error .runtimeError
  | .x q => if h : q < n then .ok (.x ⟨q, h⟩) else .error .runtimeError
  | .h q => if h : q < n then .ok (.h ⟨q, h⟩) else .error .runtimeError
  | .cx c t => if h : c < n ∧ t < n ∧ c ≠ t then .ok (.cx ⟨c, h.1⟩ ⟨t, h.2.1⟩) else .error .runtimeError
  | .cz c t => if h : c < n ∧ t < n ∧ c ≠ t then .ok (.cz ⟨c, h.1⟩ ⟨t, h.2.1⟩) else .error .runtimeError

/-- `range(a, b, -1)` for natural `a` (and `b` as given in the loops). -/
def rangeDown (a b : ℕ) : List ℕ := (List.range (a - b)).map fun t => a - t

/-- `range(a, b)`. -/
def rangeUp (a b : ℕ) : List ℕ := (List.range (b - a)).map fun t => a + t

/-- The gates of `_single_excitation_efficient`, lines 130-153, for mapped indices `i < k`. In the second branch
`k - 2 ≥ i`, so the natural subtraction is exact. -/
noncomputable def singleGates (k i : ℕ) (θ : ℝ) : List GateCall :=
  if k - 1 = i then
    [.rz (Real.pi / 2) i, .rx (Real.pi / 2) i, .rx (Real.pi / 2) k, .cx i k, .rx θ i, .rz θ k, .cx i k,
      .rx (-(Real.pi / 2)) k, .rx (-(Real.pi / 2)) i, .rz (-(Real.pi / 2)) i]
  else
    [.cx k i] ++ (rangeDown (k - 2) i).map (fun t => .cx (t + 1) t) ++
    [.cz (i + 1) k, .ry θ k, .cx i k, .ry (-θ) k, .cx i k, .cz (i + 1) k] ++
    (rangeUp (i + 1) (k - 1)).map (fun t => .cx (t + 1) t) ++ [.cx k i]

/-- `_single_excitation_efficient`, lines 103-154: the calls appended to the circuit. -/
noncomputable def singleEfficient (k i norb : ℕ) (θ : ℝ) : Res (List GateCall) :=
  let k := f2q k norb
  let i := f2q i norb
  if k ≤ i then .error .valueError else .ok (singleGates k i θ)

/-- The CNOT ladder with the controlled Z of `_double_excitation_efficient`, lines 233-245. -/
def doubleLadder (iz kz jz lz : ℕ) : List GateCall :=
  if lz ≠ jz + 1 then
    (rangeUp (iz + 1) (kz - 1)).map (fun t => .cx t (t + 1)) ++
    (if iz + 1 ≠ kz then [.cx (kz - 1) (jz + 1)] else []) ++
    (rangeUp (jz + 1) (lz - 1)).map (fun t => .cx t (t + 1)) ++ [.cz lz (lz - 1)]
  else if iz ≠ kz - 1 then
    (rangeUp (iz + 1) (kz - 1)).map (fun t => .cx t (t + 1)) ++ [.cz lz (kz - 1)]
  else []

/-- The reverse, lines 274-285. -/
def doubleUnladder (iz kz jz lz : ℕ) : List GateCall :=
  if lz ≠ jz + 1 then
    [.cz lz (lz - 1)] ++ (rangeDown (lz - 1) (jz + 1)).map (fun t => .cx (t - 1) t) ++
    (if iz + 1 ≠ kz then [.cx (kz - 1) (jz + 1)] else []) ++
    (rangeDown (kz - 1) (iz + 1)).map (fun t => .cx (t - 1) t)
  else if iz ≠ kz - 1 then
    [.cz lz (kz - 1)] ++ (rangeDown (kz - 1) (iz + 1)).map (fun t => .cx (t - 1) t)
  else []

/-- The middle part, lines 249-270. -/
noncomputable def doubleMiddle (k l i j : ℕ) (θ : ℝ) : List GateCall :=
  [.ry (θ / 8) l, .h k, .cx l k, .ry (-θ / 8) l, .h i, .cx l i, .ry (θ / 8) l, .cx l k, .ry (-θ / 8) l, .h j, .cx l j,
    .ry (θ / 8) l, .cx l k, .ry (-θ / 8) l, .cx l i, .ry (θ / 8) l, .h i, .cx l k, .ry (-θ / 8) l, .h k, .cx l j, .h j]

/-- All gates, lines 226-288, for mapped and exchanged indices (which are
different: for equal ones `k_z - 1` can be negative in the code). -/
noncomputable def doubleGates (k l i j : ℕ) (θ : ℝ) : List GateCall :=
  match [k, l, i, j].mergeSort with
  | [iz, kz, jz, lz] =>
    [.cx l k, .cx j i, .cx l j] ++ doubleLadder iz kz jz lz ++ [.x k, .x i] ++ doubleMiddle k l i j θ ++
    [.x k, .x i] ++ doubleUnladder iz kz jz lz ++ [.cx l j, .cx l k, .cx j i]
  | _ => []

/-- The exchanges of lines 213-224 (`fac` with them), for mapped indices. -/
def doubleSwaps (k l i j : ℕ) (fac : ℤ) : ℕ × ℕ × ℕ × ℕ × ℤ :=
  let (k, l, fac) := if k > l then (l, k, -fac) else (k, l, fac)
  let (i, j, fac) := if i > j then (j, i, -fac) else (i, j, fac)
  let (l, j, fac) := if l < j then (j, l, -fac) else (l, j, fac)
  let (k, i, fac) := if k < i then (i, k, -fac) else (k, i, fac)
  (k, l, i, j, fac)

/-- `_double_excitation_efficient`, lines 157-289. The numbers of alpha and beta indices add up to 4, so that both
are even or both are odd. -/
noncomputable def doubleEfficient (k l i j norb : ℕ) (θ : ℝ) : Res (List GateCall) :=
  if k < i ∨ k < j then .error .valueError
  else if l < i ∨ l < j then .error .valueError
  else
    let nAlpha := [i, j, k, l].countP (· % 2 = 0)
    let nBeta := [i, j, k, l].countP (· % 2 ≠ 0)
    if nAlpha % 2 ≠ 0 ∨ nBeta % 2 ≠ 0 then .error .valueError
    else
      let fac : ℤ := if k % 2 = l % 2 ∧ k % 2 = 0 ∧ i % 2 ≠ 0 then -1 else 1
      let (k, l, i, j, fac) := doubleSwaps (f2q k norb) (f2q l norb) (f2q i norb) (f2q j norb) fac
      .ok (doubleGates k l i j (2 * θ * fac))

/-- `_sa_single_excitation_efficient`, lines 292-322. -/
noncomputable def saSingleEfficient (k i norb : ℕ) (θ : ℝ) : Res (List GateCall) := do
  let a ← singleEfficient (2 * k) (2 * i) norb θ
  let b ← singleEfficient (2 * k + 1) (2 * i + 1) norb θ
  pure (a ++ b)

/-- One round of the loop of `upslayout2circuit`, lines 457-474, with the calls of `single_excitation`,
`double_excitation`, `sa_single_excitation` (lines 15-100; Jordan-Wigner branch): the calls and the number for
`grad_param_R`. Index tuples of another length raise `ValueError` when unpacked. -/
noncomputable def excitationGates (norb : ℕ) (ty : String) (idx : List ℕ) (θ : ℝ) : Res (List GateCall × ℕ) :=
  if ty = "single" then
    match idx with
    | [i, a] => do pure (← singleEfficient a i norb θ, 2)
    | _ => .error .valueError
  else if ty = "double" then
    match idx with
    | [i, j, a, b] => do pure (← doubleEfficient a b i j norb θ, 2)
    | _ => .error .valueError
  else if ty = "sa_single" then
    match idx with
    | [i, a] => do pure (← saSingleEfficient a i norb θ, 4)
    | _ => .error .valueError
  else .error .valueError

/-- The loop of `upslayout2circuit`, lines 457-474: the gates on the register and the entries of `grad_param_R`, in the
order they are made (their keys differ); the entry number `idx` of the layout gets the angle `θs idx`. -/
noncomputable def layoutLoop (norb : ℕ) (θs : ℕ → ℝ) : ℕ → List (String × List ℕ) →
    Res (List (PGate (2 * norb)) × List (String × ℕ))
  | _, [] => .ok ([], [])
  | idx, (ty, ix) :: rest => do
    let (calls, R) ← excitationGates norb ty ix (θs idx)
    let gs ← calls.mapM (GateCall.place (2 * norb))
    let (gs', names) ← layoutLoop norb θs (idx + 1) rest
    pure (gs ++ gs', (pname idx, R) :: names)

/-- `upslayout2circuit`, lines 441-475, with the values `θs` bound to the parameters. -/
noncomputable def upslayout2circuit (norb : ℕ) (types : List String) (indices : List (List ℕ)) (θs : ℕ → ℝ) :
    Res (List (PGate (2 * norb)) × List (String × ℕ)) :=
  layoutLoop norb θs 0 (types.zip indices)

end SQ
