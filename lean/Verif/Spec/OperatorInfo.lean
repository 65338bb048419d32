import Verif.Model.OperatorInfo
import Verif.Spec.Response

/-! # What `get_operator_info` is to print -/

namespace SQ

/-- The space that orbital `p` is in. -/
def spaceName (nI nA p : ℕ) : String := if p < nI then "inactive" else if p < nI + nA then "active" else "virtual"

/-- The lines of the rotation of the pair `k`: an electron of either spin moves from orbital `k.1` to orbital `k.2`,
with coefficient `1/√2`, and the names of the spaces of the two. -/
noncomputable def rotationLines (nI nA : ℕ) (k : ℕ × ℕ) : List InfoLine :=
  let name := spaceName nI nA k.1 ++ " -> " ++ spaceName nI nA k.2
  [.row [2 * k.1] [2 * k.2] (Real.sqrt 2)⁻¹ (some name), .row [2 * k.1 + 1] [2 * k.2 + 1] (Real.sqrt 2)⁻¹ (some name)]

/-- Numbered blocks under a title, nothing if there are none. -/
def titled (title : InfoLine) (nr : ℕ → InfoLine) (blocks : List (List InfoLine)) : List InfoLine :=
  if blocks = [] then [] else title :: (blocks.zipIdx.map fun b => nr b.2 :: b.1).flatten

/-- The operator that a line with indices describes. -/
noncomputable def InfoLine.term : InfoLine → FOp ℝ
  | .row a c x _ => x • excite c a
  | _ => 0

/-- A line of an operator on the active orbitals that keeps the number of electrons. -/
def InfoLine.ActiveTerm (nI nA : ℕ) (l : InfoLine) : Prop :=
  ∃ a c x, l = .row a c x none ∧ a.length = c.length ∧ ∀ p ∈ a ++ c, spaceName nI nA (p / 2) = "active"

end SQ
