import Verif.Spec.Fock
import Verif.Model.StateAlgebra

/-!
# Specification: what a CI vector stands for
-/

namespace SQ

variable {R : Type*} [CommRing R]

/-- The occupied spin orbitals of a determinant integer over `n` spatial orbitals: spin orbital `p`
is the `p`-th bit counted from the most significant of `2n` bits. -/
def decode (n det : ℕ) : Finset ℕ := (Finset.range (2 * n)).filter fun p => det.testBit (2 * n - 1 - p)

/-- The state a CI vector stands for. -/
noncomputable def stateOf (ci : CIInfo) (v : Vec R) : Fock R :=
  (ci.idx2det.zipIdx.map fun p => sgl (decode ci.nA p.1) (v p.2)).sum

/-- `det2idx` and `idx2det` are inverse to each other, and the determinants have `2n` bits. -/
structure CIInfo.Valid (ci : CIInfo) : Prop where
  inv : ∀ d i, ci.find d = some i ↔ ci.idx2det[i]? = some d
  bits : ∀ d ∈ ci.idx2det, d < 2 ^ (2 * ci.nA)

/-- The determinant is in the space. -/
def CIInfo.Mem (ci : CIInfo) (S : Finset ℕ) : Prop := ∃ d ∈ ci.idx2det, decode ci.nA d = S

instance (ci : CIInfo) (S : Finset ℕ) : Decidable (ci.Mem S) := by unfold CIInfo.Mem; infer_instance

/-- Projection on the space. -/
noncomputable def CIInfo.proj (ci : CIInfo) : FOp R := liftOp fun S => if ci.Mem S then ket S else 0

/-- The schedule runs every iteration once. -/
def Threads.Fair (th : Threads) (n : ℕ) : Prop :=
  match th with
  | .one => True
  | .many sched => ∀ s, (sched s).Perm (List.range n)

end SQ
