import Verif.Model.Session

/-! # Spec: sessions and the log -/

namespace SQ

variable {M V : Type}

/-- What a Hartree-Fock run for the molecule `m` should be given. -/
noncomputable def hfInputOf (d : Drivers M V) (m : M) : HFInput M V :=
  ⟨m, d.overlap m, d.kinetic m, d.nuclear m, d.eri m (d.cauchySchwarz m) ((10 : ℝ) ^ (-12 : ℤ))⟩

/-- A step that changes neither the molecule nor the basis set. -/
def SessionOp.Passive : SessionOp M → Prop
  | .setMolecule _ _ => False
  | .setBasisSet _ => False
  | _ => True

/-- One call of the logger. -/
structure LogCall where
  content : String
  warning : Bool

/-- The text of a call. -/
def LogCall.text (c : LogCall) : String := (if c.warning then "WARNING: " else "") ++ c.content ++ "\n"

end SQ
