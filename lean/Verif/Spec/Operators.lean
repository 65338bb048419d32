import Verif.Spec.Fock
import Verif.Model.FermionicOperator

/-!
# Specification vocabulary for operators (used in hypotheses and conclusions of C01-C13)
-/

namespace SQ

variable {R : Type*} [CommRing R]

/-- A Python dictionary lists each key once. -/
def WF {α : Type*} (d : List (Str × α)) : Prop := (d.map (·.1)).Nodup

instance {α : Type*} (d : List (Str × α)) : Decidable (WF d) := by unfold WF; infer_instance

/-- Coefficient of a string (zero when absent). -/
def coefOf (d : Dict R) (k : Str) : R := (d.get? k).getD 0

/-- Exactness of the cut-off test: only zero is treated as zero. -/
def ExactTiny (tiny : R → Bool) : Prop := ∀ x, tiny x = true → x = 0

/-- Exactness of `abs(x) > 10**-14`: only zero is skipped. -/
def ExactBig (big : R → Bool) : Prop := ∀ x, big x = false → x = 0

/-- Number of creation operators that stand somewhere right of an annihilation operator. -/
def lateCr : Str → ℕ
  | [] => 0
  | o :: t => if o.2 then lateCr t else t.countP (·.2)

/-- Number of annihilation operators that stand somewhere left of a creation operator. -/
def earlyAn : Str → ℕ
  | [] => 0
  | o :: t => (if o.2 = false ∧ t.any (·.2) = true then 1 else 0) + earlyAn t

/-- Ordering this string cannot reach a string of length zero or one by contractions. -/
def Safe (s : Str) : Prop := s = [] ∨ 2 * min (earlyAn s) (lateCr s) + 2 ≤ s.length

instance (s : Str) : Decidable (Safe s) := by unfold Safe; infer_instance

/-- As many creation as annihilation operators. -/
def Balanced (s : Str) : Prop := s.countP (·.2) = s.countP (fun o => !o.2)

instance (s : Str) : Decidable (Balanced s) := by unfold Balanced; infer_instance

/-- Well-formed operator with normal-ordered number-conserving strings. -/
structure NumCons (A : Dict R) : Prop where
  wf : WF A
  ord : ∀ kv ∈ A, NormalOrdered kv.1
  bal : ∀ kv ∈ A, Balanced kv.1

/-- The computation `r` succeeds and returns a number-conserving normal-ordered operator that acts
on every state as `T`. -/
def Den (r : Res (Dict R)) (T : FOp R) : Prop := ∃ d, r = .ok d ∧ NumCons d ∧ sumOp d = T

end SQ
