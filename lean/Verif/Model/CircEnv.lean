import Verif.Model.CircuitCache
import Verif.Model.HigherDensity
import Verif.Model.Optimizers
import Verif.Model.UpsBuilt

/-!
# Model: `WaveFunctionCircuit` put together

`CircData.env` fills the functions of a circuit wave function object (Model/CircuitCache) with the models of the functions that
`slowquant/qiskit_interface/circuit_wavefunction.py` calls: the density matrices (385-742), the energy (849-882), the
callbacks of the optimizers (1135-1243). Expectation values come from `QI.quantum_expectation_value` (Model/Sampler).

Simplifications: the interface keeps measurements, so what it holds at an evaluation depends on everything that was done
before. `qi dev θ x A` is the interface in the state it has when the operator `A` is evaluated on the device `dev` with the
parameters `θ` set and `custom_parameters = x`; nothing is assumed of the function, the theorems are for all of them. The
functions of a `CircEnv` do not raise, those called can; `C130_total` shows that none of them does.
-/

namespace SQ

/-- What a `WaveFunctionCircuit` is made with: cut-offs, numbers of orbitals (of `ci` nothing else is used), interface,
`grad_param_R` and `param_names`, orbital rotations, integrals and orbitals. -/
structure CircData where
  tiny : ℝ → Bool
  big : ℝ → Bool
  ci : CIInfo
  norb : ℕ
  bench : Bench norb
  R : List (String × ℕ)
  names : List String
  qi : Device (List (Gate (2 * norb))) → List ℝ → Option (List ℝ) → Dict ℝ → QI
  n : ℕ
  kappaIdx : List (Fin n × Fin n)
  hAo : Matrix (Fin n) (Fin n) ℝ
  gAo : Tensor4 (Fin n)
  mo : Matrix (Fin n) (Fin n) ℝ

/-- `_get_energy_evals_for_grad`, cw 1214-1243, with evaluations that may raise. -/
noncomputable def shiftEvals (E : List ℝ → Res ℝ) (params : List ℝ) (idx R : ℕ) : Res (List ℝ) :=
  match params[idx]? with
  | none => .error .indexError
  | some shift => (List.range (2 * R)).mapM fun j => E (params.set idx (xShift R j + shift))

namespace CircData

variable (D : CircData)

/-- The interface with the device `dev`, as after `change_primitive` (cw 332-372). -/
def on (dev : Device (List (Gate (2 * D.norb)))) : Bench D.norb := { D.bench with dev := dev }

/-- `QI.quantum_expectation_value(A, custom_parameters=x)` on the device `dev`, with the parameters `θ` set. -/
noncomputable def value (dev : Device (List (Gate (2 * D.norb)))) (θ : List ℝ) (x : Option (List ℝ)) (A : Dict ℝ) : Res ℝ :=
  (quantumExpectation (D.on dev) x A (D.qi dev θ x A)).1

/-- `_calc_energy_elec`, cw 873-882. -/
noncomputable def runEnergy (dev : Device (List (Gate (2 * D.norb)))) (θ : List ℝ) (h : Matrix (Fin D.n) (Fin D.n) ℝ)
    (g : Tensor4 (Fin D.n)) : Res ℝ := circEnergy D.tiny D.big (D.value dev θ none) D.ci (natMat h) (natTen g)

/-- The gradient of the ansatz parameters, cw 1197-1207. -/
noncomputable def runGrad (dev : Device (List (Gate (2 * D.norb)))) (θ : List ℝ) (h : Matrix (Fin D.n) (Fin D.n) ℝ)
    (g : Tensor4 (Fin D.n)) : Res (List ℝ) := do
  let H ← hamiltonian0i0a D.tiny D.big (natMat h) (natTen g) D.ci.nI D.ci.nA
  (List.range θ.length).mapM fun i =>
    match D.names[i]? with
    | none => .error .indexError
    | some name =>
      match D.R.lookup name with
      | none => .error .keyError
      | some R => do
        let evals ← shiftEvals (fun x => D.value dev θ (some x) (getFolded D.ci.nI D.ci.nA D.ci.nV H)) θ i R
        pure (shiftGradient evals R)

/-- The object's functions. -/
noncomputable def env : CircEnv where
  sa := false
  custom := false
  n := D.n
  kappaIdx := D.kappaIdx
  numTheta := D.names.length
  hAo := D.hAo
  gAo := D.gAo
  mo := D.mo
  Prim := Device (List (Gate (2 * D.norb)))
  prim := D.bench.dev
  D1 := Mat ℝ
  D2 := Arr4
  D3 := ArrN
  D4 := ArrN
  En := Unit
  Co := Unit
  Tr := Unit
  Os := Unit
  mkRdm1 := fun dev θ => okOr (fun _ _ => 0) (circRdm1 D.tiny (D.value dev θ none) D.ci)
  mkRdm2 := fun dev θ d1 => okOr (fun _ _ _ _ => 0) (rdm2Loop (circEE D.tiny (D.value dev θ none) D.ci) d1 D.ci.nI D.ci.nA)
  mkRdm3 := fun dev θ d1 d2 => okOr (fun _ => 0) (rdm3Loop (circList D.tiny (D.value dev θ none) D.ci) d1 d2 D.ci.nI D.ci.nA)
  mkRdm4 := fun dev θ d1 d2 d3 =>
    okOr (fun _ => 0) (rdm4Loop (circList D.tiny (D.value dev θ none) D.ci) d1 d2 d3 D.ci.nI D.ci.nA)
  energy := fun dev θ h g => okOr 0 (D.runEnergy dev θ h g)
  energyRdm := fun h g d1 d2 => getElectronicEnergy (natMat h) (natTen g) D.ci.nI D.ci.nA d1 d2
  gradKappa := fun h g d1 d2 => getOrbitalGradient (natMat h) (natTen g) D.ci.nI D.ci.nA d1 d2
    (D.kappaIdx.map fun x => (x.1.val, x.2.val))
  gradTheta := fun dev θ h g => okOr [] (D.runGrad dev θ h g)
  stateE := fun _ _ _ _ => ()
  stateC := fun _ _ _ _ => ()
  transition := fun _ _ _ _ => ()
  strengths := fun _ _ _ _ => ()
  dipole := fun _ => 0

end CircData

/-- The data of an object as `WaveFunctionCircuit.__init__` makes it (Model/FromUps); column `q` of `c_mo` is `c.cMo q`. -/
noncomputable def CircWf.data {n : ℕ} (c : CircWf (Fin n → ℝ)) (ci : CIInfo) (tiny big : ℝ → Bool)
    (dev : Device (List (Gate (2 * c.spaces.numActiveOrbs)))) (map : SDict ℝ → Res (List (List Char × ℂ)))
    (save cliques : Bool)
    (qi : Device (List (Gate (2 * c.spaces.numActiveOrbs))) → List ℝ → Option (List ℝ) → Dict ℝ → QI)
    (hAo : Matrix (Fin n) (Fin n) ℝ) (gAo : Tensor4 (Fin n)) : CircData where
  tiny := tiny
  big := big
  ci := ci
  norb := c.spaces.numActiveOrbs
  bench := ⟨dev, .jordanWigner, map, c.numElec, c.state, save, cliques⟩
  R := c.R
  names := c.names
  qi := qi
  n := n
  kappaIdx := finPairs n c.kappa.kappa
  hAo := hAo
  gAo := gAo
  mo := fun a q => c.cMo q a

end SQ
