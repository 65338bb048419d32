import Verif.Model.UccState
import Verif.Model.UpsEnv

/-!
# Model: `WaveFunctionUCC` put together

The functions that slowquant/unitary_coupled_cluster/ucc_wavefunction.py calls, filled into the functions of a wave function
object (Model/WaveFunction): `construct_ucc_state` (254-267), the density matrices (339-683), the energy (700-721),
`get_electronic_energy` and `get_orbital_gradient` (999-1006, 1053-1061) and the finite-difference gradient of the ansatz
parameters (1062-1097).

Simplifications: as in Model/UpsEnv; `expm_multiply` as in Model/UccState; numbers are reals, so the difference quotient is the
exact one for the step of the program.
-/

namespace SQ

/-- `np.finfo(np.float64).eps ** (1 / 2)`, lines 1070-1072. -/
noncomputable def uccEps : ℝ := √(1 / 2 ^ 52)

/-- `build_operator_matrix(get_ucc_T(thetas, ucc_layout), ci_info)`, lines 1082-1085 and 1090-1093; the offset is not given. -/
noncomputable def uccMat (tiny : ℝ → Bool) (ci : CIInfo) (st : AnsatzStruct) (thetas : List ℝ) :
    Res (Matrix (Fin ci.idx2det.length) (Fin ci.idx2det.length) ℝ) := do
  let T ← uccT tiny 0 st thetas
  let M ← buildMatrix ci false T
  pure (matOf ci.idx2det.length M)

/-- The loop of lines 1086-1097; `tp` is `theta_params`. -/
noncomputable def uccGradLoop (tiny : ℝ → Bool) (ci : CIInfo) (st : AnsatzStruct) (csf : Vec ℝ)
    (Tmat : Matrix (Fin ci.idx2det.length) (Fin ci.idx2det.length) ℝ) (Hket : Vec ℝ) (E : ℝ) :
    List ℕ → List ℝ → Res (List ℝ)
  | [], _ => .ok []
  | i :: is, tp =>
    match tp[i]? with
    | none => .error .indexError
    | some t => do
      let step := uccEps * (if 0 ≤ t then 1 else -1) * max 1 |t|
      let plus ← uccMat tiny ci st (tp.set i (t + step))
      let bra := expmMultiply ci.idx2det.length (Tmat + plus) csf
      let rest ← uccGradLoop tiny ci st csf Tmat Hket E is (tp.set i (t + step - step))
      pure (2 * (dot ci.idx2det.length bra Hket - E) / step :: rest)

/-- What a `WaveFunctionUCC` is made with. -/
structure UccData where
  tiny : ℝ → Bool
  big : ℝ → Bool
  th : Threads
  ci : CIInfo
  st : AnsatzStruct
  csf : Vec ℝ
  n : ℕ
  kappaIdx : List (Fin n × Fin n)
  hAo : Matrix (Fin n) (Fin n) ℝ
  gAo : Tensor4 (Fin n)
  mo : Matrix (Fin n) (Fin n) ℝ

namespace UccData

variable (D : UccData)

/-- The state, lines 254-267. -/
noncomputable def runState (θ : List ℝ) : Res (Vec ℝ) := constructUcc D.tiny D.ci D.st θ false D.csf

/-- `energy_elec` for the state `v`, lines 700-721. -/
noncomputable def runEnergy (v : Vec ℝ) (h : Matrix (Fin D.n) (Fin D.n) ℝ) (g : Tensor4 (Fin D.n)) : Res ℝ := do
  let w ← applyHam D.tiny D.big D.th D.ci (natMat h) (natTen g) v
  pure (dot D.ci.idx2det.length v w)

/-- The gradient of the ansatz parameters at the state `v`, lines 1062-1097; line 1073 compares the step with `10e-13`. -/
noncomputable def runGrad (v : Vec ℝ) (θ : List ℝ) (h : Matrix (Fin D.n) (Fin D.n) ℝ) (g : Tensor4 (Fin D.n)) :
    Res (List ℝ) :=
  if uccEps < 10 * (10 : ℝ)⁻¹ ^ 13 then .error .valueError
  else do
    let Hket ← applyHam D.tiny D.big D.th D.ci (natMat h) (natTen g) v
    let Tmat ← uccMat D.tiny D.ci D.st θ
    uccGradLoop D.tiny D.ci D.st D.csf Tmat Hket (dot D.ci.idx2det.length v Hket) (List.range θ.length)
      (List.replicate θ.length 0)

/-- The object's functions. -/
noncomputable def env : WFEnv where
  kind := .ucc
  n := D.n
  kappaIdx := D.kappaIdx
  numTheta := D.st.types.length
  hAo := D.hAo
  gAo := D.gAo
  mo := D.mo
  V := Vec ℝ
  D1 := Mat ℝ
  D2 := Arr4
  D3 := ArrN
  D4 := ArrN
  St := Unit
  csf := D.csf
  state := fun θ => okOr D.csf (D.runState θ)
  mkRdm1 := fun v => okOr (fun _ _ => 0) (upsRdm1 D.tiny D.th D.ci v)
  mkRdm2 := fun v d1 => okOr (fun _ _ _ _ => 0) (rdm2Loop (evEElist D.tiny D.th D.ci v) d1 D.ci.nI D.ci.nA)
  mkRdm3 := fun v d1 d2 => okOr (fun _ => 0) (rdm3Loop (evList D.tiny D.th D.ci v) d1 d2 D.ci.nI D.ci.nA)
  mkRdm4 := fun v d1 d2 d3 => okOr (fun _ => 0) (rdm4Loop (evList D.tiny D.th D.ci v) d1 d2 d3 D.ci.nI D.ci.nA)
  energy := fun v h g => okOr 0 (D.runEnergy v h g)
  energyRdm := fun h g d1 d2 => getElectronicEnergy (natMat h) (natTen g) D.ci.nI D.ci.nA d1 d2
  gradKappa := fun h g d1 d2 => getOrbitalGradient (natMat h) (natTen g) D.ci.nI D.ci.nA d1 d2
    (D.kappaIdx.map fun x => (x.1.val, x.2.val))
  gradTheta := fun v θ h g => okOr [] (D.runGrad v θ h g)
  stateCI := fun _ _ _ => ()

end UccData

end SQ
