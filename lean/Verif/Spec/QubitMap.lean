import Verif.Model.QubitMap
import Verif.Spec.ProjStd
import Verif.Spec.Sampler
import Verif.Spec.Cliques

/-!
# Specification: what the listed Pauli strings are good for
-/

namespace SQ

/-- The number obtained for labels with coefficients when the label `p` has been found to have the value `v p`. -/
noncomputable def valueWith (v : List Char → ℝ) (obs : List (List Char × ℂ)) : ℝ := (obs.map fun pc => pc.2.re * v pc.1).sum

/-- `quantum_expectation_value` when the values of the labels are `v`. -/
def ReadsValues (map : SDict ℝ → Res (List (List Char × ℂ))) (norb : ℕ) (v : List Char → ℝ) (qev : Dict ℝ → Res ℝ) : Prop :=
  ∀ A obs, opToQbit map norb A = .ok obs → qev A = .ok (valueWith v obs)

/-- What is known about the values of labels from the measurement of the labels `l`: the values of these labels or, with
cliques, of all labels that agree with one of them wherever they have a letter other than `I`. -/
def Known (cliques : Bool) (l : Option (List (List Char))) (p : List Char) : Prop :=
  ∃ h ∈ l.getD [], if cliques = true then Covers h p else h = p

/-- The number `X v` only depends on what is known from the labels `l`. -/
def FixedBy (cliques : Bool) (X : (List Char → ℝ) → ℝ) (l : Option (List (List Char))) : Prop :=
  ∀ v v', (∀ p, Known cliques l p → v p = v' p) → X v = X v'

end SQ
