import Verif.Model.UpsEnv
import Verif.Model.StateAverage

/-!
# Model: `WaveFunctionSAUPS` put together

The functions that slowquant/unitary_coupled_cluster/sa_ups_wavefunction.py calls, filled into the functions of a wave function
object (Model/WaveFunction): `construct_ups_state_SA` (320-326), the density matrices (398-479), `sa_energy` (495-515), the
callback energy (883-914), `get_orbital_gradient` and the gradient of the ansatz parameters (940-1003), `_do_state_ci` (741-769).

Simplifications: as in Model/UpsEnv. `_do_state_ci` can raise in the eigenvalue solver, so its result is kept with the
exception. The class has no `rdm3` and `rdm4`. `return_all_states` is not modelled; counting of evaluations is left out.
-/

namespace SQ

/-- `propagate_state_SA([hamiltonian_0i_0a(...)], M, ci_info)`, lines 951-962. -/
noncomputable def applyHamSA (tiny big : ℝ → Bool) (th : Threads) (ci : CIInfo) (nS : ℕ) (h : ℕ → ℕ → ℝ)
    (g : ℕ → ℕ → ℕ → ℕ → ℝ) (M : Mat ℝ) : Res (Mat ℝ) :=
  match hamiltonian0i0a tiny big h g ci.nI ci.nA with
  | .error e => .error e
  | .ok H => propagateStateSA big th ci (fun _ _ => .error .valueError) true false nS [.op H] M

/-- `construct_ups_state_SA`. -/
noncomputable def upsMat (tiny big : ℝ → Bool) (th : Threads) (ci : CIInfo) (nS : ℕ) (st : AnsatzStruct) (thetas : List ℝ)
    (dagger : Bool) (M : Mat ℝ) : Res (Mat ℝ) :=
  constructUps (propMat big th ci nS) tiny ci.offset st thetas dagger M

/-- The loop of lines 974-999. -/
noncomputable def saGradLoop (tiny big : ℝ → Bool) (th : Threads) (ci : CIInfo) (nS : ℕ) (st : AnsatzStruct)
    (thetas : List ℝ) : List ℕ → Mat ℝ → Mat ℝ → Res (List ℝ)
  | [], _, _ => .ok []
  | i :: is, bra, ket => do
    let tmp ← gradAction (propMat big th ci nS) tiny ci.offset st i ket
    let bra' ← propagateUnitary (propMat big th ci nS) tiny ci.offset st thetas i bra
    let ket' ← propagateUnitary (propMat big th ci nS) tiny ci.offset st thetas i ket
    let rest ← saGradLoop tiny big th ci nS st thetas is bra' ket'
    pure ((List.range nS).foldl (fun d a => d + 2 * dot ci.idx2det.length (bra a) (tmp a) / nS) 0 :: rest)

/-- The callback energy without the gradient, lines 887-889 and 906-912: the Hamiltonian is folded first. -/
noncomputable def saCallEnergy (tiny big : ℝ → Bool) (th : Threads) (ci : CIInfo) (nS : ℕ) (M : Mat ℝ) (h : ℕ → ℕ → ℝ)
    (g : ℕ → ℕ → ℕ → ℕ → ℝ) : Res ℝ := do
  let H ← hamiltonian0i0a tiny big h g ci.nI ci.nA
  expectationValueSA big th ci (fun _ _ => .error .valueError) false nS M [.op (getFolded ci.nI ci.nA ci.nV H)] M

/-- What a `WaveFunctionSAUPS` is made with; `csf` has `nS` rows. -/
structure SaData where
  tiny : ℝ → Bool
  big : ℝ → Bool
  th : Threads
  eig : EigLib
  ci : CIInfo
  st : AnsatzStruct
  nS : ℕ
  csf : Mat ℝ
  n : ℕ
  kappaIdx : List (Fin n × Fin n)
  hAo : Matrix (Fin n) (Fin n) ℝ
  gAo : Tensor4 (Fin n)
  mo : Matrix (Fin n) (Fin n) ℝ

namespace SaData

variable (D : SaData)

/-- The states, lines 320-326. -/
noncomputable def runState (θ : List ℝ) : Res (Mat ℝ) := upsMat D.tiny D.big D.th D.ci D.nS D.st θ false D.csf

/-- The gradient of the ansatz parameters, lines 950-999. -/
noncomputable def runGrad (M : Mat ℝ) (θ : List ℝ) (h : Matrix (Fin D.n) (Fin D.n) ℝ) (g : Tensor4 (Fin D.n)) :
    Res (List ℝ) := do
  let bra ← applyHamSA D.tiny D.big D.th D.ci D.nS (natMat h) (natTen g) M
  let bra ← upsMat D.tiny D.big D.th D.ci D.nS D.st θ true bra
  saGradLoop D.tiny D.big D.th D.ci D.nS D.st θ (List.range θ.length) bra D.csf

/-- The object's functions. -/
noncomputable def env : WFEnv where
  kind := .sa
  n := D.n
  kappaIdx := D.kappaIdx
  numTheta := D.st.types.length
  hAo := D.hAo
  gAo := D.gAo
  mo := D.mo
  V := Mat ℝ
  D1 := Mat ℝ
  D2 := Arr4
  D3 := Unit
  D4 := Unit
  St := Res (StateCI D.nS)
  csf := D.csf
  state := fun θ => okOr D.csf (D.runState θ)
  mkRdm1 := fun M => okOr (fun _ _ => 0) (saRdm1 D.tiny D.big D.th D.ci D.nS M)
  mkRdm2 := fun M d1 => okOr (fun _ _ _ _ => 0) (rdm2Loop (evEESA D.tiny D.big D.th D.ci D.nS M) d1 D.ci.nI D.ci.nA)
  mkRdm3 := fun _ _ _ => ()
  mkRdm4 := fun _ _ _ _ => ()
  energy := fun M h g => okOr 0 (saEnergy D.tiny D.big D.th D.ci D.nS M (natMat h) (natTen g))
  energyRdm := fun h g d1 d2 => getElectronicEnergy (natMat h) (natTen g) D.ci.nI D.ci.nA d1 d2
  gradKappa := fun h g d1 d2 => getOrbitalGradient (natMat h) (natTen g) D.ci.nI D.ci.nA d1 d2
    (D.kappaIdx.map fun x => (x.1.val, x.2.val))
  gradTheta := fun M θ h g => okOr [] (D.runGrad M θ h g)
  stateCI := fun M h g => subspaceCI D.tiny D.big (saElem D.tiny D.th D.ci) D.eig D.ci D.nS (saRows D.nS M) (natMat h) (natTen g)

end SaData

end SQ
