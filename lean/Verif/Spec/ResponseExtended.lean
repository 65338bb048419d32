import Verif.Spec.Response
import Verif.Spec.CISpace
import Verif.Model.ResponseExtended

/-!
# Specification: linear response in an extended determinant space
-/

namespace SQ

/-- What the wave function classes provide: besides the properties of `RespWf.Proper` the determinants of the active
space, a reference that is the determinant with the lowest orbitals filled, and the pairs of an orbital filled in the
reference and an empty one which are not both active. -/
structure ExtWf.Proper (W : ExtWf) : Prop where
  base : W.toRespWf.Proper
  cas : ∀ S, W.ci.Mem S ↔ InCAS W.ci.nA W.na W.nb S
  ref : W.refDet = Finset.range W.numElec
  csf : emb W.ci W.csf = ket W.refDet
  pairs : ∀ k ∈ W.hfLike, (k.1 < W.ci.nI ∨ k.1 ∈ W.occ) ∧
    (k.2 ∈ W.unocc ∨ (W.ci.nI + W.ci.nA ≤ k.2 ∧ k.2 < W.numOrbs)) ∧ NonRedundant W.ci.nI W.ci.nA k
  nodup : W.hfLike.Nodup
  orbs : 0 < W.numOrbs

/-- The names "U" and "Ud" stand for the same orthogonal operator in the active space and in the extended spaces. -/
structure ExtWf.Rotates (W : ExtWf) (U Ud : FOp ℝ) : Prop where
  base : W.toRespWf.Rotates U Ud
  run : ∀ order E v, order = 1 ∨ order = 2 → getIndexingExtended W.ci.nI W.ci.nA W.ci.nV W.na W.nb order = .ok E →
    ∃ w, W.ans E false v = .ok w ∧ stateOf E w = U (stateOf E v)
  runDagger : ∀ order E v, order = 1 ∨ order = 2 →
    getIndexingExtended W.ci.nI W.ci.nA W.ci.nV W.na W.nb order = .ok E →
    ∃ w, W.ans E true v = .ok w ∧ stateOf E w = Ud (stateOf E v)
  inverse : ∀ order E v, order = 1 ∨ order = 2 →
    getIndexingExtended W.ci.nI W.ci.nA W.ci.nV W.na W.nb order = .ok E → Ud (U (stateOf E v)) = stateOf E v

/-- The operators of self-consistent linear response: orbital rotations and `U G U†`. -/
noncomputable def ExtWf.scOps (W : ExtWf) (U Ud : FOp ℝ) (letters : List Char) : List (FOp ℝ) :=
  (W.kappa.map fun k => qOp k.2 k.1) ++ (lrOps W.toRespWf letters).map fun G => U * G * Ud

/-- The operators `q` out of the reference and `G`. -/
noncomputable def ExtWf.refOps (W : ExtWf) (letters : List Char) : List (FOp ℝ) :=
  (W.hfLike.map fun k => qOp k.2 k.1) ++ lrOps W.toRespWf letters

/-- The operators of all-state-transfer linear response: `U q |ref⟩⟨0|` and `U G |ref⟩⟨0|`. -/
noncomputable def ExtWf.allTransferOps (W : ExtWf) (U : FOp ℝ) (letters : List Char) : List (FOp ℝ) :=
  (W.refOps letters).map fun G => ketbra (W.moved U G) W.state

/-- The operators of all-self-consistent linear response: `U q U†` and `U G U†`. -/
noncomputable def ExtWf.allScOps (W : ExtWf) (U Ud : FOp ℝ) (letters : List Char) : List (FOp ℝ) :=
  (W.refOps letters).map fun G => U * G * Ud

end SQ
