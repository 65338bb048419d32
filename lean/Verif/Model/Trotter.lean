import Verif.Model.Circuits
import Verif.Model.Operators
import Verif.Model.FermionicText
import Mathlib.Analysis.Complex.Basic

/-!
# Model: circuits of the unitary product ansatz for mappers other than Jordan-Wigner

slowquant/qiskit_interface/operators_circuits.py, lines 325-438, and lines 15-100 and 441-475 for a mapper that is not a
`JordanWignerMapper`. A circuit is the list of the gates `PauliEvolutionGate(Pauli(label), time)` appended to it, each on all
qubits of the register in their order. The mapper of qiskit_nature (terms in text form to labels with coefficients) is a
parameter. Angles are bound as in Model/Circuits.lean.
-/

namespace SQ

/-- A gate `PauliEvolutionGate(Pauli(label), time)`. -/
abbrev Evolution := List Char × ℝ

variable (tiny : ℝ → Bool) (map : SDict ℝ → Res (List (List Char × ℂ)))

/-- Labels and factors (lines 353-357 and 404-408) sorted by label: `np.argsort` sorts text of one length by the codes of
the characters. (It is not stable; the labels of a mapped operator differ.) -/
def sortedFactors (obs : List (List Char × ℂ)) : List (List Char × ℝ) :=
  (obs.map fun pc => (pc.1, (Complex.I * pc.2).re)).mergeSort fun x y => decide (x.1 ≤ y.1)

/-- The gates for an operator on a register of `n` qubits, lines 352-363 and 403-414. A label that is not on `n` qubits
raises `CircuitError` (here `runtimeError`). -/
noncomputable def evolutionGates (norb n : ℕ) (T : Dict ℝ) (θ : ℝ) : Res (List Evolution) := do
  let form ← getQiskitForm norb T
  let obs ← map form
  (sortedFactors obs).mapM fun pf => if pf.1.length = n then .ok (pf.1, pf.2 * θ) else .error .runtimeError

/-- `_single_excitation_trotter`, lines 325-364. -/
noncomputable def singleTrotter (i a norb n : ℕ) (θ : ℝ) : Res (List Evolution) := do
  let op ← fmul tiny (aOpSpin a true) (aOpSpin i false)
  let d ← fdagger tiny op
  evolutionGates map norb n (fsub tiny op d) θ

/-- `_double_excitation_trotter`, lines 367-415. -/
noncomputable def doubleTrotter (i j a b norb n : ℕ) (θ : ℝ) : Res (List Evolution) := do
  let op ← fmul tiny (aOpSpin a true) (aOpSpin b true)
  let op ← fmul tiny op (aOpSpin j false)
  let op ← fmul tiny op (aOpSpin i false)
  let d ← fdagger tiny op
  evolutionGates map norb n (fsub tiny op d) θ

/-- `_sa_single_excitation_trotter`, lines 418-438. -/
noncomputable def saSingleTrotter (i a norb n : ℕ) (θ : ℝ) : Res (List Evolution) := do
  let g1 ← singleTrotter tiny map (2 * i) (2 * a) norb n θ
  let g2 ← singleTrotter tiny map (2 * i + 1) (2 * a + 1) norb n θ
  pure (g1 ++ g2)

/-- One round of the loop of `upslayout2circuit`, lines 457-474, with the calls of `single_excitation`,
`double_excitation`, `sa_single_excitation` (lines 15-100; the branch for other mappers). -/
noncomputable def excitationTrotter (norb n : ℕ) (ty : String) (idx : List ℕ) (θ : ℝ) : Res (List Evolution × ℕ) :=
  if ty = "single" then
    match idx with
    | [i, a] => do pure (← singleTrotter tiny map i a norb n θ, 2)
    | _ => .error .valueError
  else if ty = "double" then
    match idx with
    | [i, j, a, b] => do pure (← doubleTrotter tiny map i j a b norb n θ, 2)
    | _ => .error .valueError
  else if ty = "sa_single" then
    match idx with
    | [i, a] => do pure (← saSingleTrotter tiny map i a norb n θ, 4)
    | _ => .error .valueError
  else .error .valueError

/-- The loop of `upslayout2circuit`, lines 457-474. -/
noncomputable def trotterLoop (norb n : ℕ) (θs : ℕ → ℝ) : ℕ → List (String × List ℕ) →
    Res (List Evolution × List (String × ℕ))
  | _, [] => .ok ([], [])
  | idx, (ty, ix) :: rest => do
    let (gs, R) ← excitationTrotter tiny map norb n ty ix (θs idx)
    let (gs', names) ← trotterLoop norb n θs (idx + 1) rest
    pure (gs ++ gs', (pname idx, R) :: names)

/-- `upslayout2circuit`, lines 441-475, on the `n` qubits of the circuit of line 456. -/
noncomputable def upslayout2trotter (norb n : ℕ) (types : List String) (indices : List (List ℕ)) (θs : ℕ → ℝ) :
    Res (List Evolution × List (String × ℕ)) :=
  trotterLoop tiny map norb n θs 0 (types.zip indices)

end SQ
