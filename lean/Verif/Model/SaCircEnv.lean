import Verif.Model.CircEnv
import Verif.Model.StateAverage

/-!
# Model: `WaveFunctionSACircuit` put together

`SaCircData.env` fills the functions of a circuit wave function object (Model/CircuitCache) with the models of the functions
that `slowquant/qiskit_interface/sa_circuit_wavefunction.py` calls: the averaged density matrices (352-433), the averaged energy
(449-486), `_do_state_ci` (717-739), transition properties and oscillator strengths (754-818), the callbacks of the optimizers
(820-911) and `get_energy_evals_for_grad` (914-952). Matrix elements come from `QI.quantum_expectation_value_csfs`
(Model/Sampler).

Simplifications: as in Model/CircEnv; `qi dev θ x s A t` is the interface in the state it has when the element of `A` between
`s` and `t` is evaluated. Results of functions that can raise in the eigenvalue solver are kept with the exception. The class has
no `rdm3` and `rdm4`. `return_all_states` is in Model/SaCircRoto; the counting of evaluations is left out.
-/

namespace SQ

/-- What a `WaveFunctionSACircuit` is made with; `opt` is `ISA_csfs_option` of the interface. -/
structure SaCircData where
  tiny : ℝ → Bool
  big : ℝ → Bool
  eig : EigLib
  ci : CIInfo
  norb : ℕ
  bench : Bench norb
  opt : ℕ
  R : List (String × ℕ)
  names : List String
  states : List Csf
  qi : Device (List (Gate (2 * norb))) → List ℝ → Option (List ℝ) → Csf → Dict ℝ → Csf → QI
  n : ℕ
  kappaIdx : List (Fin n × Fin n)
  hAo : Matrix (Fin n) (Fin n) ℝ
  gAo : Tensor4 (Fin n)
  mo : Matrix (Fin n) (Fin n) ℝ
  dipole : Fin 3 → Matrix (Fin n) (Fin n) ℝ

namespace SaCircData

variable (D : SaCircData)

/-- The interface with the device `dev`, as after `change_primitive` (300-339). -/
def on (dev : Device (List (Gate (2 * D.norb)))) : Bench D.norb := { D.bench with dev := dev }

/-- `QI.quantum_expectation_value_csfs(s, A, t, custom_parameters=x)` on the device `dev`, with the parameters `θ` set. -/
noncomputable def value (dev : Device (List (Gate (2 * D.norb)))) (θ : List ℝ) (x : Option (List ℝ)) (s : Csf) (A : Dict ℝ)
    (t : Csf) : Res ℝ := (quantumExpectationCsfs (D.on dev) x D.opt false s A t (D.qi dev θ x s A t)).1

/-- `sa_energy`, 449-468. -/
noncomputable def runEnergy (dev : Device (List (Gate (2 * D.norb)))) (θ : List ℝ) (h : Matrix (Fin D.n) (Fin D.n) ℝ)
    (g : Tensor4 (Fin D.n)) : Res ℝ :=
  avEnergy D.tiny D.big (D.value dev θ none) D.ci D.states.length D.states (natMat h) (natTen g)

/-- The energy in `_calc_energy_optimization`, 850-858. -/
noncomputable def runCallback (dev : Device (List (Gate (2 * D.norb)))) (θ : List ℝ) (h : Matrix (Fin D.n) (Fin D.n) ℝ)
    (g : Tensor4 (Fin D.n)) : Res ℝ := do
  let H ← hamiltonian0i0a D.tiny D.big (natMat h) (natTen g) D.ci.nI D.ci.nA
  meanEnergy (D.value dev θ none) D.states (getFolded D.ci.nI D.ci.nA D.ci.nV H)

/-- The gradient of the ansatz parameters, 897-907. -/
noncomputable def runGrad (dev : Device (List (Gate (2 * D.norb)))) (θ : List ℝ) (h : Matrix (Fin D.n) (Fin D.n) ℝ)
    (g : Tensor4 (Fin D.n)) : Res (List ℝ) := do
  let H ← hamiltonian0i0a D.tiny D.big (natMat h) (natTen g) D.ci.nI D.ci.nA
  (List.range θ.length).mapM fun i =>
    match D.names[i]? with
    | none => .error .indexError
    | some name =>
      match D.R.lookup name with
      | none => .error .keyError
      | some R => do
        let evals ← shiftEvals (fun x => meanEnergy (D.value dev θ (some x)) D.states (getFolded D.ci.nI D.ci.nA D.ci.nV H)) θ i R
        pure (shiftGradient evals R)

/-- `_do_state_ci`, 717-739. -/
noncomputable def runStates (dev : Device (List (Gate (2 * D.norb)))) (θ : List ℝ) (h : Matrix (Fin D.n) (Fin D.n) ℝ)
    (g : Tensor4 (Fin D.n)) : Res (StateCI D.states.length) :=
  subspaceCI D.tiny D.big (D.value dev θ none) D.eig D.ci D.states.length D.states (natMat h) (natTen g)

/-- `get_oscillator_strenghts` from the energies of the states and the transition dipoles, 810-818. -/
noncomputable def runStrengths (en tx ty tz : Res (List ℝ)) : Res (List ℝ) := do
  let tx ← tx
  let ty ← ty
  let tz ← tz
  let en ← en
  let exc ← excitationEnergies D.states.length en
  saStrengths D.states.length exc tx ty tz

/-- The object's functions. -/
noncomputable def env : CircEnv where
  sa := true
  custom := false
  n := D.n
  kappaIdx := D.kappaIdx
  numTheta := D.names.length
  hAo := D.hAo
  gAo := D.gAo
  mo := D.mo
  Prim := Device (List (Gate (2 * D.norb)))
  prim := D.bench.dev
  D1 := Mat ℝ
  D2 := Arr4
  D3 := Unit
  D4 := Unit
  En := Res (List ℝ)
  Co := Res (List (Fin D.states.length → ℝ))
  Tr := Res (List ℝ)
  Os := Res (List ℝ)
  mkRdm1 := fun dev θ => okOr (fun _ _ => 0) (avRdm1 D.tiny (D.value dev θ none) D.ci D.states.length D.states)
  mkRdm2 := fun dev θ d1 => okOr (fun _ _ _ _ => 0)
    (rdm2Loop (avEE D.tiny (D.value dev θ none) D.ci D.states.length D.states) d1 D.ci.nI D.ci.nA)
  mkRdm3 := fun _ _ _ _ => ()
  mkRdm4 := fun _ _ _ _ _ => ()
  energy := fun dev θ h g => okOr 0 (D.runEnergy dev θ h g)
  energyRdm := fun h g d1 d2 => getElectronicEnergy (natMat h) (natTen g) D.ci.nI D.ci.nA d1 d2
  gradKappa := fun h g d1 d2 => getOrbitalGradient (natMat h) (natTen g) D.ci.nI D.ci.nA d1 d2
    (D.kappaIdx.map fun x => (x.1.val, x.2.val))
  gradTheta := fun dev θ h g => okOr [] (D.runGrad dev θ h g)
  stateE := fun dev θ h g => (D.runStates dev θ h g).map StateCI.energies
  stateC := fun dev θ h g => (D.runStates dev θ h g).map StateCI.coeffs
  transition := fun dev θ co o => do
    let co ← co
    transitionProperty D.tiny D.big (D.value dev θ none) D.ci D.states.length D.states co (natMat o)
  strengths := D.runStrengths
  dipole := D.dipole

end SaCircData

/-- The data of an object as `WaveFunctionSACircuit.__init__` makes it (Model/FromUps); column `q` of `c_mo` is `c.cMo q`. -/
noncomputable def CircWf.saData {n : ℕ} (c : CircWf (Fin n → ℝ)) (states : List Csf) (ci : CIInfo) (tiny big : ℝ → Bool)
    (eig : EigLib) (dev : Device (List (Gate (2 * c.spaces.numActiveOrbs)))) (map : SDict ℝ → Res (List (List Char × ℂ)))
    (save cliques : Bool) (opt : ℕ)
    (qi : Device (List (Gate (2 * c.spaces.numActiveOrbs))) → List ℝ → Option (List ℝ) → Csf → Dict ℝ → Csf → QI)
    (hAo : Matrix (Fin n) (Fin n) ℝ) (gAo : Tensor4 (Fin n)) (dipole : Fin 3 → Matrix (Fin n) (Fin n) ℝ) : SaCircData where
  tiny := tiny
  big := big
  eig := eig
  ci := ci
  norb := c.spaces.numActiveOrbs
  bench := ⟨dev, .jordanWigner, map, c.numElec, c.state, save, cliques⟩
  opt := opt
  R := c.R
  names := c.names
  states := states
  qi := qi
  n := n
  kappaIdx := finPairs n c.kappa.kappa
  hAo := hAo
  gAo := gAo
  mo := fun a q => c.cMo q a
  dipole := dipole

end SQ
