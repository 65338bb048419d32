import Verif.Model.SaStates
import Verif.Model.SaEnv
import Verif.Model.UpsBuilt

/-!
# Model: the state-averaged wave function object as its constructor makes it

The attributes set by `WaveFunctionSAUPS.__init__` (slowquant/unitary_coupled_cluster/sa_ups_wavefunction.py:40-289), as given by
`saObject` (Model/SaStates.lean), as the data the methods of the object work on (Model/SaEnv.lean). Simplification: as in
Model/UpsBuilt.lean.
-/

namespace SQ

/-- The data of the object `w` with `csf_coeffs`, `ci_info` and `num_states` (line 220); column `q` of `c_mo` is `w.cMo q`. -/
noncomputable def UpsObj.saData {n : ℕ} (w : UpsObj (Fin n → ℝ)) (nS : ℕ) (csf : Mat ℝ) (ci : CIInfo) (tiny big : ℝ → Bool)
    (th : Threads) (eig : EigLib) (hAo : Matrix (Fin n) (Fin n) ℝ) (gAo : Tensor4 (Fin n)) : SaData where
  tiny := tiny
  big := big
  th := th
  eig := eig
  ci := ci
  st := w.layout.ansatz
  nS := nS
  csf := csf
  n := n
  kappaIdx := finPairs n (kappaLists w.spaces n w.includeActive).kappa
  hAo := hAo
  gAo := gAo
  mo := fun a q => w.cMo q a

end SQ
