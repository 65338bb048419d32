import Verif.Model.UpsGradient
import Verif.Model.HigherDensity
import Verif.Model.WaveFunction
import Verif.Spec.OrbitalDerivative

/-!
# Model: `WaveFunctionUPS` put together

`upsEnv` fills the functions of a wave function object (Model/WaveFunction) with the models of the functions that
`slowquant/unitary_coupled_cluster/ups_wavefunction.py` calls: `construct_ups_state` (346-365), the density matrices
(410-754), the energy (770-784), `get_electronic_energy` and `get_orbital_gradient` (1041-1046, 1080-1090) and the
gradient of the ansatz parameters (1091-1138). Arrays of integrals are indexed by numbers there (`natMat`, `natTen`).

Simplification: the functions of a `WFEnv` do not raise, the models of the called functions can. `okOr` takes the value out;
`C127_total` shows that none of them raises, so what `okOr` gives otherwise is never used.
-/

namespace SQ

/-- The value that is returned. -/
def okOr {α : Type} (d : α) : Res α → α
  | .ok a => a
  | .error _ => d

/-- What a `WaveFunctionUPS` is made with: cut-offs, threads, determinant space, layout, reference, number of orbitals,
orbital rotations, integrals and orbitals. -/
structure UpsData where
  tiny : ℝ → Bool
  big : ℝ → Bool
  th : Threads
  ci : CIInfo
  st : AnsatzStruct
  csf : Vec ℝ
  n : ℕ
  kappaIdx : List (Fin n × Fin n)
  hAo : Matrix (Fin n) (Fin n) ℝ
  gAo : Tensor4 (Fin n)
  mo : Matrix (Fin n) (Fin n) ℝ

namespace UpsData

variable (D : UpsData)

/-- The state, ups 346-365. -/
noncomputable def runState (θ : List ℝ) : Res (Vec ℝ) := upsVec D.tiny D.th D.ci D.st θ false D.csf

/-- `energy_elec` for the state `v`, ups 770-784. -/
noncomputable def runEnergy (v : Vec ℝ) (h : Matrix (Fin D.n) (Fin D.n) ℝ) (g : Tensor4 (Fin D.n)) : Res ℝ := do
  let w ← applyHam D.tiny D.big D.th D.ci (natMat h) (natTen g) v
  pure (dot D.ci.idx2det.length v w)

/-- The gradient of the ansatz parameters at the state `v`, ups 1091-1138. -/
noncomputable def runGrad (v : Vec ℝ) (θ : List ℝ) (h : Matrix (Fin D.n) (Fin D.n) ℝ) (g : Tensor4 (Fin D.n)) :
    Res (List ℝ) := do
  let bra ← applyHam D.tiny D.big D.th D.ci (natMat h) (natTen g) v
  let bra ← upsVec D.tiny D.th D.ci D.st θ true bra
  gradLoop D.tiny D.th D.ci D.st θ (List.range θ.length) bra D.csf

/-- The object's functions. -/
noncomputable def env : WFEnv where
  kind := .ups
  n := D.n
  kappaIdx := D.kappaIdx
  numTheta := D.st.types.length
  hAo := D.hAo
  gAo := D.gAo
  mo := D.mo
  V := Vec ℝ
  D1 := Mat ℝ
  D2 := Arr4
  D3 := ArrN
  D4 := ArrN
  St := Unit
  csf := D.csf
  state := fun θ => okOr D.csf (D.runState θ)
  mkRdm1 := fun v => okOr (fun _ _ => 0) (upsRdm1 D.tiny D.th D.ci v)
  mkRdm2 := fun v d1 => okOr (fun _ _ _ _ => 0) (rdm2Loop (evEEprod D.tiny D.th D.ci v) d1 D.ci.nI D.ci.nA)
  mkRdm3 := fun v d1 d2 => okOr (fun _ => 0) (rdm3Loop (evList D.tiny D.th D.ci v) d1 d2 D.ci.nI D.ci.nA)
  mkRdm4 := fun v d1 d2 d3 => okOr (fun _ => 0) (rdm4Loop (evList D.tiny D.th D.ci v) d1 d2 d3 D.ci.nI D.ci.nA)
  energy := fun v h g => okOr 0 (D.runEnergy v h g)
  energyRdm := fun h g d1 d2 => getElectronicEnergy (natMat h) (natTen g) D.ci.nI D.ci.nA d1 d2
  gradKappa := fun h g d1 d2 => getOrbitalGradient (natMat h) (natTen g) D.ci.nI D.ci.nA d1 d2
    (D.kappaIdx.map fun x => (x.1.val, x.2.val))
  gradTheta := fun v θ h g => okOr [] (D.runGrad v θ h g)
  stateCI := fun _ _ _ => ()

end UpsData

end SQ
