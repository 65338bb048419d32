import Verif.Spec.CircuitLayouts

/-!
# Specification: what the names of ansätze stand for
-/

namespace SQ

/-- `k` electrons of `L.occSpin` go to `L.unoccSpin`, each kind of spin conserved. -/
def SpinExc (L : OrbLists) (k : ℕ) (idx : List ℕ) : Prop :=
  ∃ I A : List ℕ, I.Sublist L.occSpin ∧ A.Sublist L.unoccSpin ∧ I.length = k ∧ A.length = k ∧ SameSpin A I ∧ idx = I ++ A

/-- The excitations of the named factorized coupled cluster ansätze: fUCCSD has singles and doubles, fUCCD doubles, fUCCpD
pair doubles, kSAfUpCCGSD spin-adapted generalized singles and generalized pair doubles. -/
inductive NamedExc (L : OrbLists) : String → String → List ℕ → Prop
  | sdSingle {idx : List ℕ} (h : SpinExc L 1 idx) : NamedExc L "fuccsd" "single" idx
  | sdDouble {idx : List ℕ} (h : SpinExc L 2 idx) : NamedExc L "fuccsd" "double" idx
  | dDouble {idx : List ℕ} (h : SpinExc L 2 idx) : NamedExc L "fuccd" "double" idx
  | pair {i a : ℕ} (hi : i ∈ L.occ) (ha : a ∈ L.unocc) : NamedExc L "fuccpd" "double" [2 * i, 2 * i + 1, 2 * a, 2 * a + 1]
  | genSingle {i a : ℕ} (h : i < a) (ha : a < L.numOrbs) : NamedExc L "ksafupccgsd" "sa_single" [i, a]
  | genPair {i a : ℕ} (h : i < a) (ha : a < L.numOrbs) :
      NamedExc L "ksafupccgsd" "double" [2 * i, 2 * i + 1, 2 * a, 2 * a + 1]

end SQ
