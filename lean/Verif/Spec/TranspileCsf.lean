import Verif.Model.TranspileCsf
import Verif.Spec.Transpile
import Verif.Spec.Layout

/-!
# Specification: pass managers for circuits with other initial states

What has to be known about a pass manager so that a state circuit can be put in front of an ansatz that it has transpiled.
-/

namespace SQ

/-- The same gates up to a phase. -/
def SameUpToPhase {n : ℕ} (gs hs : List (CGate n)) : Prop := ∀ ψ, ∃ s : ℂ, ‖s‖ = 1 ∧ runGates gs ψ = s • runGates hs ψ

/-- The options with an initial layout. -/
def withLayout {V : Type} (P : PassManagers V) (pm : String → Option V) (l : List ℕ) : String → Option V :=
  fun k => if k = "initial_layout" then some (P.layoutValue l) else pm k

/-- Pass managers that keep the meaning of circuits with the qubits of the ansatz.
`layout`: whether a circuit gets a layout, and on how many qubits, does not depend on the circuit.
`fixed`: with an initial layout that they have chosen themselves given as an option, they use this layout.
`routing`: the routing permutation leads from the initial to the final layout.
`translate`, `optimize`: these stages keep the meaning of every circuit. -/
structure FaithfulStages {V : Type} (P : PassManagers V) (S : PassStages V) (A : Ansatz0) : Prop where
  managers : FaithfulManagers P A
  run : ∀ pm (raw : List ℝ → List (CGate A.n)), FaithfulTo raw (P.run pm raw)
  layout : ∀ pm (raw raw' : List ℝ → List (CGate A.n)), (P.run pm raw).n = (P.run pm raw').n ∧
    (P.run pm raw).layout.isSome = (P.run pm raw').layout.isSome
  fixed : ∀ pm (raw raw' : List ℝ → List (CGate A.n)) l, (P.run pm raw).layout = some l →
    (P.run (withLayout P pm l.1) raw').n = (P.run pm raw).n ∧
      ∃ f, (P.run (withLayout P pm l.1) raw').layout = some (l.1, f)
  routing : ∀ pm (raw : List ℝ → List (CGate A.n)) l, (P.run pm raw).layout = some l →
    (S.routing pm raw).Perm (List.range (P.run pm raw).n) ∧
      ∀ i k : ℕ, l.1[i]? = some k → l.2[i]? = (S.routing pm raw)[k]?
  translate : ∀ pm (n : ℕ) (gs : List ℝ → List (CGate n)) p, SameUpToPhase (S.translate pm gs p) (gs p)
  optimize : ∀ pm (n : ℕ) (gs : List ℝ → List (CGate n)) p, SameUpToPhase (S.optimize pm gs p) (gs p)

/-- Probability of an outcome for another initial state circuit and the ansatz circuit themselves. -/
noncomputable def Ansatz0.probFrom (A : Ansatz0) (st : List (CGate A.n)) (p : List ℝ) (op : List Char) (b : ℕ) : ℝ :=
  SQ.prob (runCircuit (toCBS A.n op) (runGates (st ++ A.raw p) (allZero A.n))) b

/-- The distribution `dist` is what is read, for a circuit whose qubits are read in the order `new`, if `x` are the true
probabilities and `M b c` is the probability to read `b` for `c`, both in the order `ref`. -/
def ReadThrough {n : ℕ} (M : Matrix (Fin (2 ^ n)) (Fin (2 ^ n)) ℝ) (ref new : List ℤ) (x : ℕ → ℝ) (dist : Distr) : Prop :=
  (dist.map Prod.fst).Nodup ∧ (∀ b, b ∈ dist.map Prod.fst ↔ b < 2 ^ n) ∧
    ∀ y : Fin (2 ^ n) → ℝ, (∀ (c : Fin (2 ^ n)) (c' : ℕ), c' < 2 ^ n → SameOutcome new ref c' c → y c = x c') →
      ∀ (b : Fin (2 ^ n)) (b' : ℕ), b' < 2 ^ n → SameOutcome new ref b' b → dist.lookup b' = some (∑ c, M b c * y c)

end SQ
