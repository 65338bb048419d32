import Verif.Model.Molecule

/-!
# Specification: what a basis file lists, and what a placed shell is
-/

namespace SQ

/-- The data of a shell other than its numbers. -/
def shellData (s : Shell) : Atom × List ℝ × List ℝ × List (ℕ × ℕ × ℕ) × (Fin 3 → ℝ) :=
  (s.atom, s.exponents, s.coefficients, s.angular, s.center)

/-- A basis-set shell put on an atom: same functions, at the atom's position. -/
def placedData (a : Atom) (b : BasisShell) : Atom × List ℝ × List ℝ × List (ℕ × ℕ × ℕ) × (Fin 3 → ℝ) :=
  (a, b.exponents, b.coefficients, b.angular, a.coordinate)

/-- A shell as the basis file lists it: a letter and the primitives (exponent, coefficient). -/
structure ListedShell where
  word : String
  prims : List (ℝ × ℝ)

/-- The lines of the file for a listed shell. -/
def ListedShell.lines (s : ListedShell) : List BasisLine :=
  .header s.prims.length s.word :: s.prims.map fun p => .prim p.1 p.2

/-- The degree that belongs to a shell letter. -/
def letterDegree (w : String) : Option ℕ :=
  if w = "s" then some 0 else if w = "p" then some 1 else if w = "d" then some 2
  else if w = "f" then some 3 else none

/-- The returned shell is the listed one: same primitives, and the angular moments are exactly the Cartesian
triples whose sum is the degree of the letter, none twice. -/
def ListedShell.Matches (s : ListedShell) (b : BasisShell) : Prop :=
  b.exponents = s.prims.map Prod.fst ∧ b.coefficients = s.prims.map Prod.snd ∧
  ∃ l, letterDegree s.word = some l ∧ b.angular.Nodup ∧
    ∀ x y z, (x, y, z) ∈ b.angular ↔ x + y + z = l

/-- What may follow an entry: the end of the file, or the next atom. -/
def EntryEnds (rest : List BasisLine) : Prop :=
  rest = [] ∨ rest = [.star] ∨ (∃ t r, rest = .title t :: r) ∨ ∃ t r, rest = .star :: .title t :: r

end SQ
