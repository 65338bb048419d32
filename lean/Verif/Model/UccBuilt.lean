import Verif.Model.AnsatzChoice
import Verif.Model.UpsBuilt
import Verif.Model.UccEnv

/-!
# Model: the UCC object as its constructor makes it

`WaveFunctionUCC.__init__` (slowquant/unitary_coupled_cluster/ucc_wavefunction.py:37-231): the check of `cas` (55-56), the
orbital spaces (83-158; the same statements as in ups_wavefunction.py, Model/OrbitalSpaces.lean), the lists of rotations
(159-200), the determinants (202-208), the Hartree-Fock start vector (210-213) and the layout (216-231).

Simplification: `kappa_no_activeactive_idx` and its companions are not used by the methods modelled here. Pairs of numbers
become pairs of `Fin n`; `C129_constructed` shows that none is lost. `excitations` is given in lower case.
-/

namespace SQ

/-- The attributes of the object; column `q` of `c_mo` is `cMo q`. -/
structure UccObj (α : Type) where
  spaces : Spaces
  ci : CIInfo
  csf : Vec ℝ
  includeActive : Bool
  layout : UccStruct
  cMo : ℕ → α
  thetas : List ℝ

/-- `WaveFunctionUCC.__init__`. -/
noncomputable def uccObject {α : Type} (numOrbs numElec : ℕ) (cas : List ℕ) (mo : ℕ → α) (exc : List Char) (inc : Bool) :
    Res (UccObj α) := do
  let s ← upsSpaces numOrbs numElec cas
  let ci ← getIndexing s.numInactiveOrbs s.numActiveOrbs s.numVirtualOrbs (s.numActiveElec / 2 : ℕ) (s.numActiveElec / 2 : ℕ)
  let csf ← reference ci (hfDet s.activeSpin.length s.numActiveElec)
  let layout := uccLayout exc s.lists
  .ok ⟨s, ci, csf, inc, layout, mo, List.replicate layout.nParams 0⟩

/-- The data the methods of the object `w` work on. -/
noncomputable def UccObj.data {n : ℕ} (w : UccObj (Fin n → ℝ)) (tiny big : ℝ → Bool) (th : Threads)
    (hAo : Matrix (Fin n) (Fin n) ℝ) (gAo : Tensor4 (Fin n)) : UccData where
  tiny := tiny
  big := big
  th := th
  ci := w.ci
  st := w.layout.ansatz
  csf := w.csf
  n := n
  kappaIdx := finPairs n (kappaLists w.spaces n w.includeActive).kappa
  hAo := hAo
  gAo := gAo
  mo := fun a q => w.cMo q a

end SQ
