import Verif.Model.CircuitWave
import Verif.Model.QuantumTransfer
import Verif.Model.LinearResponse
import Verif.Model.Optimizers

/-!
# Model: energies and states of state-averaged wave functions

unitary_coupled_cluster/sa_ups_wavefunction.py (`sa`) and qiskit_interface/sa_circuit_wavefunction.py (`circ`): `sa_energy`,
`_do_state_ci`, `excitation_energies`, `get_transition_property`, `get_oscillator_strenghts`, and of `circ` also `rdm1`,
`rdm2` and the averages used in optimizations. The two classes differ in what a state is (a coefficient vector, or
coefficients with determinants) and in how a matrix element is computed; both are parameters here. Attributes that keep
computed values are the subject of C39 and of Model/CircuitCache. `scipy.linalg.eig` is a parameter, see
Spec/StateAverage. MO integrals are given as functions.
-/

namespace SQ

/-- `scipy.linalg.eig` of a matrix: eigenvalues with their vectors. -/
abbrev EigLib := (m : ℕ) → RMat m → List (ℂ × (Fin m → ℂ))

section
variable {σ : Type} (tiny big : ℝ → Bool) (el : σ → Dict ℝ → σ → Res ℝ)

/-- The first loop of `_do_state_ci`, sa 754-764, circ 729-735: `continue` if `j > i`, otherwise
`state_H[i, j] = state_H[j, i] = ...`. -/
noncomputable def stateHam (L : List σ) (A : Dict ℝ) : Res (Mat ℝ) :=
  (L.zipIdx.flatMap fun x => (L.zipIdx.filter fun y => ¬y.2 > x.2).map fun y => (x, y)).foldlM (fun M xy => do
    let v ← el xy.1.1 A xy.2.1
    pure (set2 (set2 M xy.1.2 xy.2.2 v) xy.2.2 xy.1.2 v)) fun _ _ => 0

/-- The loop of `get_transition_property`, sa 821-829, circ 791-795. -/
noncomputable def stateOp (L : List σ) (A : Dict ℝ) : Res (Mat ℝ) :=
  (L.zipIdx.flatMap fun x => L.zipIdx.map fun y => (x, y)).foldlM (fun M xy => do
    let v ← el xy.1.1 A xy.2.1
    pure (set2 M xy.1.2 xy.2.2 v)) fun _ _ => 0

/-- `_state_energies` and the columns of `_state_ci_coeffs`. -/
structure StateCI (n : ℕ) where
  energies : List ℝ
  coeffs : List (Fin n → ℝ)

/-- `_do_state_ci`, sa 741-769, circ 717-739, for `n` states. -/
noncomputable def subspaceCI (eig : EigLib) (ci : CIInfo) (n : ℕ) (L : List σ) (h : ℕ → ℕ → ℝ)
    (g : ℕ → ℕ → ℕ → ℕ → ℝ) : Res (StateCI n) := do
  let H ← hamiltonian0i0a tiny big h g ci.nI ci.nA
  let M ← stateHam el L (getFolded ci.nI ci.nA ci.nV H)
  let sorted := (eig n fun i j => M i j).mergeSort fun a b => complexLe a.1 b.1
  return ⟨sorted.map fun p => p.1.re, sorted.map fun p i => (p.2 i).re⟩

/-- `excitation_energies`, sa 782-795, circ 754-767: `np.zeros(-1)` raises. -/
noncomputable def excitationEnergies (n : ℕ) (energies : List ℝ) : Res (List ℝ) :=
  if n = 0 then .error .valueError
  else match energies with
    | [] => .ok []
    | e0 :: es => .ok (es.map fun e => e - e0)

/-- `get_transition_property`, sa 797-833, circ 769-798, with the MO integrals `o`. -/
noncomputable def transitionProperty (ci : CIInfo) (n : ℕ) (L : List σ) (coeffs : List (Fin n → ℝ)) (o : ℕ → ℕ → ℝ) :
    Res (List ℝ) :=
  if n = 0 then .error .valueError
  else do
    let O ← oneElec0i0a tiny big o ci.nI ci.nA
    let M ← stateOp el L (getFolded ci.nI ci.nA ci.nV O)
    (List.range (n - 1)).mapM fun i =>
      match coeffs[i + 1]?, coeffs[0]? with
      | some a, some b => .ok (∑ k : Fin n, (∑ j : Fin n, a j * M j k) * b k)
      | _, _ => .error .indexError

/-- `get_oscillator_strenghts`, sa 835-853, circ 800-818, from the excitation energies and transition dipoles. -/
noncomputable def saStrengths (n : ℕ) (exc tx ty tz : List ℝ) : Res (List ℝ) :=
  if n = 0 then .error .valueError
  else .ok ((exc.zip (tx.zip (ty.zip tz))).map fun x =>
    2 / 3 * x.1 * (x.2.1 ^ 2 + x.2.2.1 ^ 2 + x.2.2.2 ^ 2))

/-! ### Averages on an interface -/

/-- The sum over the states divided by their number, circ 373-376, 421-426, 464-467, 483-486. -/
noncomputable def averaged (n : ℕ) (L : List σ) (A : Dict ℝ) : Res ℝ := do
  let val ← L.foldlM (fun val s => do
    let v ← el s A s
    return val + v) 0
  if n = 0 then .error .zeroDivision else return val / n

/-- The expectation value in the loop of `rdm1`, circ 370-376. -/
noncomputable def avE (ci : CIInfo) (n : ℕ) (L : List σ) (p q : ℕ) : Res ℝ := do
  let A ← Epq tiny p q
  averaged el n L (getFolded ci.nI ci.nA ci.nV A)

/-- The expectation value in the loop of `rdm2`, circ 417-426. -/
noncomputable def avEE (ci : CIInfo) (n : ℕ) (L : List σ) (p q r s : ℕ) : Res ℝ := do
  let A ← Epq tiny p q
  let B ← Epq tiny r s
  let C ← fmul tiny A B
  averaged el n L (getFolded ci.nI ci.nA ci.nV C)

/-- `rdm1`, circ 352-379. -/
noncomputable def avRdm1 (ci : CIInfo) (n : ℕ) (L : List σ) : Res (Mat ℝ) := rdm1Loop (avE tiny el ci n L) ci.nI ci.nA

/-- `rdm2`, circ 381-433. -/
noncomputable def avRdm2 (ci : CIInfo) (n : ℕ) (L : List σ) : Res Arr4 := do
  let r1 ← avRdm1 tiny el ci n L
  rdm2Loop (avEE tiny el ci n L) r1 ci.nI ci.nA

/-- `sa_energy`, circ 449-468, and `_calc_energy_elec`, circ 470-486. -/
noncomputable def avEnergy (ci : CIInfo) (n : ℕ) (L : List σ) (h : ℕ → ℕ → ℝ) (g : ℕ → ℕ → ℕ → ℕ → ℝ) : Res ℝ := do
  let H ← hamiltonian0i0a tiny big h g ci.nI ci.nA
  averaged el n L (getFolded ci.nI ci.nA ci.nV H)

/-- `np.mean` of the energies of the states, circ 852-858 and, with other parameters, 944-951. -/
noncomputable def meanEnergy (L : List σ) (A : Dict ℝ) : Res ℝ := do
  let es ← L.mapM fun s => el s A s
  if es.length = 0 then .error .runtimeError else return es.sum / es.length

end

/-! ### The two classes -/

/-- A matrix element in `sa`: `expectation_value(coeff_i, [op], coeff_j, ci_info, do_folding=False)`, sa 758-764, 823-829. -/
noncomputable def saElem (tiny : ℝ → Bool) (th : Threads) (ci : CIInfo) (bra : Vec ℝ) (A : Dict ℝ) (ket : Vec ℝ) : Res ℝ :=
  expectationValue tiny th ci (fun _ _ => .error .valueError) false false bra [.op A] ket

/-- `ci_coeffs` of `sa` as a list of rows. -/
def saRows (nS : ℕ) (c : Mat ℝ) : List (Vec ℝ) := (List.range nS).map c

/-- `sa_energy` of `sa`, 495-515. -/
noncomputable def saEnergy (tiny big : ℝ → Bool) (th : Threads) (ci : CIInfo) (nS : ℕ) (c : Mat ℝ) (h : ℕ → ℕ → ℝ)
    (g : ℕ → ℕ → ℕ → ℕ → ℝ) : Res ℝ := do
  let H ← hamiltonian0i0a tiny big h g ci.nI ci.nA
  expectationValueSA big th ci (fun _ _ => .error .valueError) true nS c [.op H] c

/-- `zip(self.states[0], self.states[1])` of `circ`; `num_states` is `len(states[0])` (199). -/
def circStates (states : List (List ℝ) × List (List (List Char))) : List Csf := states.1.zip states.2

end SQ
