import Mathlib.Data.Real.Basic
import Mathlib.Algebra.BigOperators.Group.List.Basic
import Mathlib.Analysis.SpecialFunctions.Pow.Real
import Verif.Model.Py

/-!
# Model: molecules and basis sets

slowquant/molecule/moleculeclass.py and slowquant/molecule/basis_reader.py. Floats are reals.

Basis files are modelled from the level of lines on: what `line[0]`, `line.split()` and the tests for the
letters give is the constructor of `BasisLine`; reading characters and `float(...)` is not modelled.
Coordinates are functions `Fin 3 → ℝ`.
-/

namespace SQ

/-- A line of a basis file as `read_basis` distinguishes them, basis_reader.py lines 21-48.
`header n s` is an indented line holding a number and a word, e.g. `    3   s`; `prim a c` is an indented line of
two numbers; `title s` is a line whose first two characters are `s` (atom lines, comments, empty lines). -/
inductive BasisLine where
  | star
  | title (firstTwo : String)
  | header (n : ℤ) (word : String)
  | prim (exponent coefficient : ℝ)

/-- `"s" in line or "p" in line or "d" in line or "f" in line` for an indented line holding a number and a
word, line 39. -/
def hasShellLetter (word : String) : Bool :=
  word.toList.any fun c => c == 's' || c == 'p' || c == 'd' || c == 'f'

/-- A contracted shell as `read_basis` returns it: exponents, coefficients, Cartesian angular moments. -/
structure BasisShell where
  exponents : List ℝ
  coefficients : List ℝ
  angular : List (ℕ × ℕ × ℕ)

/-- The Cartesian components of a shell letter, lines 50-70. -/
def cartesians (word : String) : Res (List (ℕ × ℕ × ℕ)) :=
  if word = "s" then .ok [(0, 0, 0)]
  else if word = "p" then .ok [(1, 0, 0), (0, 1, 0), (0, 0, 1)]
  else if word = "d" then .ok [(2, 0, 0), (1, 1, 0), (1, 0, 1), (0, 2, 0), (0, 1, 1), (0, 0, 2)]
  else if word = "f" then
    .ok [(3, 0, 0), (2, 1, 0), (2, 0, 1), (1, 2, 0), (1, 1, 1), (1, 0, 2), (0, 3, 0), (0, 2, 1), (0, 1, 2),
      (0, 0, 3)]
  else .error .valueError

/-- The local variables of the reading loop: `number_primitives`, `angular`, `exponents_primitive`,
`coefficients_primitive`, and the shells completed so far, lines 29-32. -/
structure ReadState where
  left : ℤ
  word : String
  exps : List ℝ
  coefs : List ℝ
  done : List BasisShell

/-- Lines 49-74: a shell is stored when its announced number of primitives has been read. -/
def closeShell (s : ReadState) : Res ReadState :=
  if s.left = 0 then do
    let ang ← cartesians s.word
    .ok { s with left := -1, done := s.done ++ [⟨s.exps, s.coefs, ang⟩] }
  else .ok s

/-- The loop of lines 33-74. A line that is neither a `*` line nor indented ends it (lines 36-38). A header line
without one of the four letters falls through to lines 45-48: while primitives are outstanding it would be
read as numbers, which raises `ValueError` in `float`. -/
def readShells : List BasisLine → ReadState → Res (List BasisShell)
  | [], s => .ok s.done
  | .star :: ls, s => readShells ls s
  | .title _ :: _, s => .ok s.done
  | .header n w :: ls, s =>
    if hasShellLetter w then readShells ls { s with left := n, word := w, exps := [], coefs := [] }
    else if 0 < s.left then .error .valueError
    else do
      let s ← closeShell s
      readShells ls s
  | .prim a c :: ls, s => do
    let s := if 0 < s.left then
        { s with exps := s.exps ++ [a], coefs := s.coefs ++ [c], left := s.left - 1 } else s
    let s ← closeShell s
    readShells ls s

/-- `read_basis`, basis_reader.py lines 6-75: find the atom's line (`atom` is the lower-case name padded to two
characters), then read its shells. -/
def readBasis (atom : String) : List BasisLine → Res (List BasisShell)
  | [] => .error .valueError
  | .title t :: ls => if t = atom then readShells ls ⟨-1, "", [], [], []⟩ else readBasis atom ls
  | _ :: ls => readBasis atom ls

/-- An atom, moleculeclass.py lines 245-267. -/
structure Atom where
  name : String
  coordinate : Fin 3 → ℝ
  charge : ℤ
  mass : ℝ

/-- A shell placed on an atom, moleculeclass.py lines 269-301; `bfIdx` is
`range(bf_idx_, bf_idx_ + len(angular_moments_))`. The normalization is in `Model/MolIntegrals`. -/
structure Shell where
  center : Fin 3 → ℝ
  exponents : List ℝ
  coefficients : List ℝ
  angular : List (ℕ × ℕ × ℕ)
  bfIdx : List ℕ
  atom : Atom

/-- `_Molecule`, the fields set by `__init__` and `_set_basis_set`. -/
structure Molecule where
  charge : ℤ
  atoms : List Atom
  shells : List Shell
  numberBf : ℕ

/-- The inner loop of `_set_basis_set`, moleculeclass.py lines 95-107. -/
def placeShells (a : Atom) : List BasisShell → List Shell → ℕ → List Shell × ℕ
  | [], shells, n => (shells, n)
  | b :: bs, shells, n =>
    placeShells a bs
      (shells ++ [⟨a.coordinate, b.exponents, b.coefficients, b.angular,
        List.range' n b.angular.length, a⟩])
      (n + b.angular.length)

/-- The outer loop of `_set_basis_set`, lines 90-107. -/
def placeAtoms (read : String → Res (List BasisShell)) :
    List Atom → List Shell → ℕ → Res (List Shell × ℕ)
  | [], shells, n => .ok (shells, n)
  | a :: as, shells, n => do
    let bs ← read a.name
    let r := placeShells a bs shells n
    placeAtoms read as r.1 r.2

/-- `_set_basis_set`, lines 82-107. -/
def setBasisSet (read : String → Res (List BasisShell)) (m : Molecule) : Res Molecule := do
  let r ← placeAtoms read m.atoms [] 0
  .ok { m with shells := r.1, numberBf := r.2 }

/-- `basis_function_labels`, lines 199-209, as pairs of atom name and angular moment. -/
def basisFunctionLabels (m : Molecule) : List (String × (ℕ × ℕ × ℕ)) :=
  m.shells.flatMap fun s => s.angular.map fun a => (s.atom.name, a)

/-- `number_electrons`, lines 133-143. -/
def numberElectrons (m : Molecule) : ℤ :=
  m.atoms.foldl (fun n a => n + a.charge) (-m.charge)

/-- `number_electrons_alpha`, lines 145-155; `//` is floor division. -/
def numberAlpha (m : Molecule) : ℤ := (numberElectrons m + 1) / 2

/-- `number_electrons_beta`, lines 157-164. -/
def numberBeta (m : Molecule) : ℤ := numberElectrons m / 2

/-- The distance of two points, `np.einsum("k->", (R_i - R_j) ** 2) ** 0.5`, line 183. -/
noncomputable def pointDist (r s : Fin 3 → ℝ) : ℝ := Real.sqrt (∑ k, (r k - s k) ^ 2)

/-- `nuclear_repulsion`, lines 166-184: a double loop over the enumerated atoms skipping `i >= j`. Division by
zero (two atoms at one point) gives `inf` in numpy and 0 here. -/
noncomputable def nuclearRepulsion (m : Molecule) : ℝ :=
  m.atoms.zipIdx.foldl (fun V ai =>
    m.atoms.zipIdx.foldl (fun V bj =>
      if ai.2 ≥ bj.2 then V
      else V + (ai.1.charge : ℝ) * bj.1.charge / pointDist ai.1.coordinate bj.1.coordinate) V) 0

/-- `center_of_mass`, lines 186-196. -/
noncomputable def centerOfMass (m : Molecule) : Fin 3 → ℝ := fun k =>
  (m.atoms.map fun a => a.coordinate k * a.mass).sum / (m.atoms.map fun a => a.mass).sum

end SQ
