import Verif.Model.Precalc
import Verif.Spec.Sampler

/-! # Specification: reading density matrices after they have been measured in advance -/

namespace SQ

variable {norb : ℕ}

/-- The elements of a set in some order. -/
def SetOrder (order : List (List Char) → List (List Char)) : Prop := ∀ l, (order l).Nodup ∧ ∀ p, p ∈ order l ↔ p ∈ l

/-- From `q` by evaluating some of the elements `ls`, each on any device. -/
inductive Bench.Asked (B : Bench norb) (tiny : ℝ → Bool) (ci : CIInfo) (ls : List (List (ℕ × ℕ))) (q : QI) : QI → Prop
  | start : Bench.Asked B tiny ci ls q q
  | ask {q2 : QI} (h : Bench.Asked B tiny ci ls q q2) (dev : Device (List (Gate (2 * norb)))) {l : List (ℕ × ℕ)}
      (hl : l ∈ ls) : Bench.Asked B tiny ci ls q (rdmElement { B with dev := dev } tiny ci l q2).2

/-- `qev` answers for the elements `ls` as the interface does, for each of them at some such point and on some device. -/
def Bench.Answers (B : Bench norb) (tiny : ℝ → Bool) (ci : CIInfo) (ls : List (List (ℕ × ℕ))) (q : QI)
    (qev : Dict ℝ → Res ℝ) : Prop :=
  ∀ l ∈ ls, ∃ q2 dev, B.Asked tiny ci ls q q2 ∧
    circList tiny qev ci l = (rdmElement { B with dev := dev } tiny ci l q2).1

end SQ
