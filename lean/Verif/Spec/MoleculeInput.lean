import Verif.Model.MoleculeInput

/-!
# Specification: the text form of a molecule

Of the model only `isSpace` and the two tables of the periodic system are used.
-/

namespace SQ

/-- The line consists of the words, with white space before, between and after them. -/
inductive Spaced : List (List Char) → List Char → Prop
  | nil {sp : List Char} (h : ∀ c ∈ sp, isSpace c = true) : Spaced [] sp
  | cons {sp w rest : List Char} {ws : List (List Char)} (h : ∀ c ∈ sp, isSpace c = true) (hw : w ≠ [])
      (hn : ∀ c ∈ w, isSpace c = false) (hr : Spaced ws rest) (hs : ∀ c, rest.head? = some c → isSpace c = true) :
      Spaced (w :: ws) (sp ++ (w ++ rest))

/-- The line describes the atom: the name of an element and three numbers, in units of `factor` bohr; what follows is
not looked at. -/
def Describes (pf : List Char → Option ℝ) (factor : ℝ) (line : List Char) (a : Atom) : Prop :=
  ∃ (name x y z : List Char) (rest : List (List Char)) (vx vy vz : ℝ) (charge : ℕ) (mass : ℚ),
    Spaced (name :: x :: y :: z :: rest) line ∧ pf x = some vx ∧ pf y = some vy ∧ pf z = some vz ∧
    (name, charge) ∈ nameToNumber ∧ (name, mass) ∈ massTable ∧
    a = ⟨String.ofList name, ![vx * factor, vy * factor, vz * factor], charge, mass⟩

/-- The unit, in upper or lower case, and its length in bohr. -/
inductive UnitIs : List Char → ℝ → Prop
  | angstrom {u : List Char} (h : u.map Char.toLower = "angstrom".toList) : UnitIs u 1.889725989
  | au {u : List Char} (h : u.map Char.toLower = "au".toList) : UnitIs u 1
  | bohr {u : List Char} (h : u.map Char.toLower = "bohr".toList) : UnitIs u 1

end SQ
