import Verif.Spec.Circuits
import Verif.Spec.Structures

/-!
# Specification: ansatz structures that have circuits
-/

namespace SQ

/-- The occupied orbitals come before the unoccupied ones, and no spin orbital is listed twice. -/
structure OrbLists.Ordered (L : OrbLists) : Prop where
  spat : ∀ i ∈ L.occ, ∀ a ∈ L.unocc, i < a
  spin : ∀ i ∈ L.occSpin, ∀ a ∈ L.unoccSpin, i < a
  nodupOcc : L.occSpin.Nodup
  nodupUnocc : L.unoccSpin.Nodup

/-- The call concerns `n` active orbitals and asks only for excitations that have a circuit: no triples or higher, no
spin-adapted doubles, no generalized doubles. -/
def UpsCall.HasCircuit (n : ℕ) : UpsCall → Prop
  | .tiled m _ => m = n
  | .fucc L o => L.Ok ∧ L.Ordered ∧ L.numOrbs = n ∧ ∀ k ∈ ["GD", "T", "Q", "5", "6", "SAD"], o.flag k = 0
  | .sds L o => L.Ok ∧ L.Ordered ∧ L.numOrbs = n ∧ o.flag "pD" = 0

end SQ
