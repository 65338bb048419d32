import Mathlib.Data.List.Chain
import Mathlib.Data.Nat.Bitwise

/-!
# Specification: coupling maps, routes, layouts
-/

namespace SQ

/-- The qubits `u` and `v` are coupled, in either direction. -/
def Coupled (edges : List (ℕ × ℕ)) (u v : ℕ) : Prop := (u, v) ∈ edges ∨ (v, u) ∈ edges

/-- `l` leads from `a` to `b` along couplings. -/
def IsRoute (edges : List (ℕ × ℕ)) (l : List ℕ) (a b : ℕ) : Prop :=
  l.head? = some a ∧ l.getLast? = some b ∧ l.IsChain (Coupled edges)

/-- The coupling map is a forest: there are depths such that coupled qubits have different depths and
each qubit is coupled with at most one qubit of smaller depth (its parent). -/
def IsForest (edges : List (ℕ × ℕ)) : Prop :=
  ∃ d : ℕ → ℕ, (∀ u v, Coupled edges u v → d u ≠ d v) ∧
    ∀ v u w, Coupled edges v u → Coupled edges v w → d u < d v → d w < d v → u = w

/-- Every pair of qubits below `n` is connected. -/
def Connected (edges : List (ℕ × ℕ)) (n : ℕ) : Prop := ∀ a < n, ∀ b < n, ∃ l, IsRoute edges l a b

/-- All qubits of the coupling map are below `n`. -/
def Within (edges : List (ℕ × ℕ)) (n : ℕ) : Prop := ∀ e ∈ edges, e.1 < n ∧ e.2 < n

/-- A layout lists the device qubit of each circuit qubit. The integer `b'` measured under the layout
`new` and the integer `b` measured under `ref` describe the same outcome on the device. -/
def SameOutcome (new ref : List ℤ) (b' b : ℕ) : Prop :=
  ∀ q' q : ℕ, q' < new.length → q < ref.length → new[q']? = ref[q]? → b'.testBit q' = b.testBit q

end SQ
