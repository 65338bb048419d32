import Verif.Model.FromUps
import Verif.Model.UpsEnv

/-!
# Model: the wave function object as its constructor makes it

The attributes set by `WaveFunctionUPS.__init__` (slowquant/unitary_coupled_cluster/ups_wavefunction.py:58-314), as given by
`upsObject` (Model/FromUps.lean), with the integrals of the integral generator (73-77) as the data the methods of the object
work on (Model/UpsEnv.lean).

Simplification: `kappa_no_activeactive_idx` and its companions are not used by those methods. Pairs of numbers become pairs of
`Fin n`; `C127_constructed` shows that none is lost.
-/

namespace SQ

/-- The pairs of orbitals among the first `n`. -/
def finPairs (n : ℕ) (l : List (ℕ × ℕ)) : List (Fin n × Fin n) :=
  l.filterMap fun pq => if h : pq.1 < n ∧ pq.2 < n then some (⟨pq.1, h.1⟩, ⟨pq.2, h.2⟩) else none

/-- The data of the object `w` with `csf_coeffs` and `ci_info`; column `q` of `c_mo` is `w.cMo q`. -/
noncomputable def UpsObj.data {n : ℕ} (w : UpsObj (Fin n → ℝ)) (csf : Vec ℝ) (ci : CIInfo) (tiny big : ℝ → Bool) (th : Threads)
    (hAo : Matrix (Fin n) (Fin n) ℝ) (gAo : Tensor4 (Fin n)) : UpsData where
  tiny := tiny
  big := big
  th := th
  ci := ci
  st := w.layout.ansatz
  csf := csf
  n := n
  kappaIdx := finPairs n (kappaLists w.spaces n w.includeActive).kappa
  hAo := hAo
  gAo := gAo
  mo := fun a q => w.cMo q a

end SQ
