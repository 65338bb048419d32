import Verif.Spec.Ansatz
import Verif.Spec.Iterators
import Verif.Model.Structures

/-!
# Specification: ansatz structures
-/

namespace SQ

/-- Highest frequency stored for a parameter: 2 for spin-orbital excitations, 4 for spin-adapted singles,
none for spin-adapted doubles. -/
def gradR : String → Option ℕ
  | "single" => some 2
  | "double" => some 2
  | "triple" => some 2
  | "quadruple" => some 2
  | "quintuple" => some 2
  | "sextuple" => some 2
  | "sa_single" => some 4
  | _ => none

/-- The lists name orbitals of a space of `L.numOrbs` orbitals, none both occupied and unoccupied. -/
structure OrbLists.Ok (L : OrbLists) : Prop where
  spat : ∀ p ∈ L.occ ++ L.unocc, p < L.numOrbs
  spin : ∀ p ∈ L.occSpin ++ L.unoccSpin, p < 2 * L.numOrbs
  disj : ∀ p ∈ L.occ, p ∉ L.unocc

/-- A call of one of the methods of `UpsStructure`. -/
inductive UpsCall
  | tiled (numOrbs : ℕ) (o : Options)
  | fucc (L : OrbLists) (o : Options)
  | sds (L : OrbLists) (o : Options)

/-- Its effect. -/
noncomputable def UpsCall.run (s : UpsStruct) : UpsCall → UpsStruct
  | .tiled n o => (createTiled n o s).2
  | .fucc L o => (createFucc L o s).2
  | .sds L o => (createSds L o s).2

/-- The call concerns `n` active orbitals (and does not ask `create_SDSfUCC` for pair doubles). -/
def UpsCall.Fits (n : ℕ) : UpsCall → Prop
  | .tiled m _ => m = n
  | .fucc L _ => L.Ok ∧ L.numOrbs = n
  | .sds L o => L.Ok ∧ L.numOrbs = n ∧ o.flag "pD" = 0

/-- A call of one of the methods of `UccStructure`. -/
inductive UccCall
  | saSingles | saDoubles | triples | quadruples | quintuples | sextuples

/-- Its effect; the arguments are the lists of `L`. -/
noncomputable def UccCall.run (L : OrbLists) (s : UccStruct) : UccCall → UccStruct
  | .saSingles => s.addSaSingles L.occ L.unocc
  | .saDoubles => s.addSaDoubles L.occ L.unocc
  | .triples => s.addTriples L.occSpin L.unoccSpin
  | .quadruples => s.addQuadruples L.occSpin L.unoccSpin
  | .quintuples => s.addQuintuples L.occSpin L.unoccSpin
  | .sextuples => s.addSextuples L.occSpin L.unoccSpin

/-- The option that asks for `k`-fold spin-orbital excitations. -/
def spinOption : ℕ → String
  | 1 => "S"
  | 2 => "D"
  | 3 => "T"
  | 4 => "Q"
  | 5 => "5"
  | _ => "6"

/-- The excitations the options of `create_fUCC` ask for (type name and indices, annihilated orbitals
first). -/
inductive FuccExc (L : OrbLists) (o : Options) : String → List ℕ → Prop
  | spin (k : ℕ) (hk : 1 ≤ k ∧ k ≤ 6) (ho : o.flag (spinOption k) ≠ 0) (I A : List ℕ) (hI : I.Sublist L.occSpin)
      (hA : A.Sublist L.unoccSpin) (lI : I.length = k) (lA : A.length = k) (hs : SameSpin A I) :
      FuccExc L o (spinName k) (I ++ A)
  | generalizedSingle (ho : o.flag "GS" ≠ 0) (i a : ℕ) (h : i < a) (ha : a < 2 * L.numOrbs)
      (hs : SameSpin [a] [i]) : FuccExc L o "single" [i, a]
  | saSingle (ho : o.flag "SAS" ≠ 0) (i a : ℕ) (hi : i ∈ L.occ) (ha : a ∈ L.unocc) :
      FuccExc L o "sa_single" [i, a]
  | generalizedSaSingle (ho : o.flag "SAGS" ≠ 0) (i a : ℕ) (h : i < a) (ha : a < L.numOrbs) :
      FuccExc L o "sa_single" [i, a]
  | generalizedDouble (ho : o.flag "GD" ≠ 0) (i j a b : ℕ) (h : i ≤ j ∧ j < a ∧ a ≤ b) (hb : b < 2 * L.numOrbs)
      (hs : SameSpin [a, b] [i, j]) : FuccExc L o "double" [i, j, a, b]
  | pairDouble (ho : o.flag "pD" ≠ 0) (i a : ℕ) (hi : i ∈ L.occ) (ha : a ∈ L.unocc) :
      FuccExc L o "double" [2 * i, 2 * i + 1, 2 * a, 2 * a + 1]
  | generalizedPairDouble (ho : o.flag "GpD" ≠ 0) (i a : ℕ) (h : i < a) (ha : a < L.numOrbs) :
      FuccExc L o "double" [2 * i, 2 * i + 1, 2 * a, 2 * a + 1]
  | saDouble (ho : o.flag "SAD" ≠ 0) (i j a b c : ℕ) (h1 : PairFrom L.occ i j) (h2 : PairFrom L.unocc a b)
      (h3 : SaCase i j a b c) : FuccExc L o ("sa_double_" ++ toString c) [i, j, a, b]

end SQ
