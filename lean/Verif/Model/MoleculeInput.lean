import Verif.Model.Molecule

/-!
# Model: reading a molecule

slowquant/molecule/moleculeclass.py lines 12-80 (`_Molecule.__init__`) and slowquant/molecule/constants.py
(`atom_to_properties`). Strings are lists of characters. The white space of `split()` and `strip()` is that of ASCII,
`lower()` is that of ASCII. The conversion of a word to a number is a parameter: `float(word)` is a number or raises
`ValueError`. Opening a file is a parameter that gives the lines or raises.
-/

namespace SQ

/-- White space of `str.split()`. -/
def isSpace (c : Char) : Bool :=
  c == ' ' || c == '\t' || c == '\n' || c == '\r' || c == '\x0b' || c == '\x0c' || c == '\x1c' || c == '\x1d' ||
    c == '\x1e' || c == '\x1f'

/-- `line.split()`: the words read so far end where white space begins; `cur` is the word being read. -/
def splitWords : List Char → List Char → List (List Char)
  | [], cur => if cur = [] then [] else [cur]
  | c :: cs, cur =>
    if isSpace c then (if cur = [] then splitWords cs [] else cur :: splitWords cs [])
    else splitWords cs (cur ++ [c])

/-- `molecule_file.split(";")`. -/
def splitSemi : List Char → List (List Char)
  | [] => [[]]
  | c :: cs =>
    if c = ';' then [] :: splitSemi cs
    else match splitSemi cs with
      | [] => [[c]]
      | l :: ls => (c :: l) :: ls

/-- `name2number`, constants.py lines 11-130. -/
def nameToNumber : List (List Char × ℕ) := [
  (['H'], 1), (['H', 'e'], 2), (['L', 'i'], 3), (['B', 'e'], 4), (['B'], 5), (['C'], 6), (['N'], 7), (['O'], 8),
  (['F'], 9), (['N', 'e'], 10), (['N', 'a'], 11), (['M', 'g'], 12), (['A', 'l'], 13), (['S', 'i'], 14), (['P'], 15),
  (['S'], 16), (['C', 'l'], 17), (['A', 'r'], 18), (['K'], 19), (['C', 'a'], 20), (['S', 'c'], 21), (['T', 'i'], 22),
  (['V'], 23), (['C', 'r'], 24), (['M', 'n'], 25), (['F', 'e'], 26), (['C', 'o'], 27), (['N', 'i'], 28),
  (['C', 'u'], 29), (['Z', 'n'], 30), (['G', 'a'], 31), (['G', 'e'], 32), (['A', 's'], 33), (['S', 'e'], 34),
  (['B', 'r'], 35), (['K', 'r'], 36), (['R', 'b'], 37), (['S', 'r'], 38), (['Y'], 39), (['Z', 'r'], 40),
  (['N', 'b'], 41), (['M', 'o'], 42), (['T', 'c'], 43), (['R', 'u'], 44), (['R', 'h'], 45), (['P', 'd'], 46),
  (['A', 'g'], 47), (['C', 'd'], 48), (['I', 'n'], 49), (['S', 'n'], 50), (['S', 'b'], 51), (['T', 'e'], 52),
  (['I'], 53), (['X', 'e'], 54), (['C', 's'], 55), (['B', 'a'], 56), (['L', 'a'], 57), (['C', 'e'], 58),
  (['P', 'r'], 59), (['N', 'd'], 60), (['P', 'm'], 61), (['S', 'm'], 62), (['E', 'u'], 63), (['G', 'd'], 64),
  (['T', 'b'], 65), (['D', 'y'], 66), (['H', 'o'], 67), (['E', 'r'], 68), (['T', 'm'], 69), (['Y', 'b'], 70),
  (['L', 'u'], 71), (['H', 'f'], 72), (['T', 'a'], 73), (['W'], 74), (['R', 'e'], 75), (['O', 's'], 76),
  (['I', 'r'], 77), (['P', 't'], 78), (['A', 'u'], 79), (['H', 'g'], 80), (['T', 'l'], 81), (['P', 'b'], 82),
  (['B', 'i'], 83), (['P', 'o'], 84), (['A', 't'], 85), (['R', 'n'], 86), (['F', 'r'], 87), (['R', 'a'], 88),
  (['A', 'c'], 89), (['T', 'h'], 90), (['P', 'a'], 91), (['U'], 92), (['N', 'p'], 93), (['P', 'u'], 94),
  (['A', 'm'], 95), (['C', 'm'], 96), (['B', 'k'], 97), (['C', 'f'], 98), (['E', 's'], 99), (['F', 'm'], 100),
  (['M', 'd'], 101), (['N', 'o'], 102), (['L', 'r'], 103), (['R', 'f'], 104), (['D', 'b'], 105), (['S', 'g'], 106),
  (['B', 'h'], 107), (['H', 's'], 108), (['M', 't'], 109), (['D', 's'], 110), (['R', 'g'], 111), (['C', 'n'], 112),
  (['N', 'h'], 113), (['F', 'l'], 114), (['M', 'c'], 115), (['L', 'v'], 116), (['T', 's'], 117), (['O', 'g'], 118)]

/-- `mass`, constants.py lines 253-372, in the order of the file; `False` is zero. -/
def massTable : List (List Char × ℚ) := [
  (['H'], 1.008), (['N', 'a'], 22.989), (['S', 'c'], 44.955), (['G', 'a'], 69.723), (['N', 'b'], 92.906),
  (['S', 'b'], 121.76), (['P', 'm'], 0), (['L', 'u'], 174.9668), (['T', 'l'], 204.38), (['P', 'a'], 231.035),
  (['M', 'd'], 0), (['R', 'g'], 0), (['H', 'e'], 4.002), (['M', 'g'], 24.305), (['T', 'i'], 47.867),
  (['G', 'e'], 72.63), (['M', 'o'], 95.95), (['T', 'e'], 127.6), (['S', 'm'], 150.36), (['H', 'f'], 178.49),
  (['P', 'b'], 207.2), (['U'], 238.028), (['N', 'o'], 0), (['C', 'n'], 0), (['L', 'i'], 6.94), (['A', 'l'], 26.981),
  (['V'], 50.9415), (['A', 's'], 74.921), (['T', 'c'], 0), (['I'], 126.904), (['E', 'u'], 151.964),
  (['T', 'a'], 180.947), (['B', 'i'], 208.98), (['N', 'p'], 0), (['L', 'r'], 0), (['N', 'h'], 0), (['B', 'e'], 9.012),
  (['S', 'i'], 28.085), (['C', 'r'], 51.9961), (['S', 'e'], 78.971), (['R', 'u'], 101.07), (['X', 'e'], 131.293),
  (['G', 'd'], 157.25), (['W'], 183.84), (['P', 'o'], 0), (['P', 'u'], 0), (['R', 'f'], 0), (['F', 'l'], 0),
  (['B'], 10.81), (['P'], 30.973), (['M', 'n'], 54.938), (['B', 'r'], 79.904), (['R', 'h'], 102.905),
  (['C', 's'], 132.905), (['T', 'b'], 158.925), (['R', 'e'], 186.207), (['A', 't'], 0), (['A', 'm'], 0),
  (['D', 'b'], 0), (['M', 'c'], 0), (['C'], 12.011), (['S'], 32.06), (['F', 'e'], 55.845), (['K', 'r'], 83.798),
  (['P', 'd'], 106.42), (['B', 'a'], 137.327), (['D', 'y'], 162.5), (['O', 's'], 190.23), (['R', 'n'], 0),
  (['C', 'm'], 0), (['S', 'g'], 0), (['L', 'v'], 0), (['N'], 14.007), (['C', 'l'], 35.45), (['C', 'o'], 58.933),
  (['R', 'b'], 85.4678), (['A', 'g'], 107.8682), (['L', 'a'], 138.905), (['H', 'o'], 164.93), (['I', 'r'], 192.217),
  (['F', 'r'], 0), (['B', 'k'], 0), (['B', 'h'], 0), (['T', 's'], 0), (['O'], 15.999), (['A', 'r'], 39.948),
  (['N', 'i'], 58.6934), (['S', 'r'], 87.62), (['C', 'd'], 112.414), (['C', 'e'], 140.116), (['E', 'r'], 167.259),
  (['P', 't'], 195.084), (['R', 'a'], 0), (['C', 'f'], 0), (['H', 's'], 0), (['O', 'g'], 0), (['F'], 18.998),
  (['K'], 39.0983), (['C', 'u'], 63.546), (['Y'], 88.905), (['I', 'n'], 114.818), (['P', 'r'], 140.907),
  (['T', 'm'], 168.934), (['A', 'u'], 196.966), (['A', 'c'], 0), (['E', 's'], 0), (['M', 't'], 0),
  (['N', 'e'], 20.1797), (['C', 'a'], 40.078), (['Z', 'n'], 65.38), (['Z', 'r'], 91.224), (['S', 'n'], 118.71),
  (['N', 'd'], 144.242), (['Y', 'b'], 173.045), (['H', 'g'], 200.592), (['T', 'h'], 232.0377), (['F', 'm'], 0),
  (['D', 's'], 0)]

/-- `d[key]`. -/
def lookupName {α : Type} (key : List Char) : List (List Char × α) → Res α
  | [] => .error .keyError
  | (k, v) :: t => if k = key then .ok v else lookupName key t

/-- `line.split()[i]`. -/
def wordAt (ws : List (List Char)) (i : ℕ) : Res (List Char) :=
  match ws[i]? with
  | some w => .ok w
  | none => .error .indexError

/-- `float(word)`. -/
def floatOf (pf : List Char → Option ℝ) (w : List Char) : Res ℝ :=
  match pf w with
  | some x => .ok x
  | none => .error .valueError

/-- `Atom(line.split()[0], np.array([...]), int(atom_to_properties(..., "charge")), atom_to_properties(..., "mass"))`,
moleculeclass.py lines 41-54 and 63-76; the arguments are evaluated in this order. -/
noncomputable def readAtom (pf : List Char → Option ℝ) (factor : ℝ) (line : List Char) : Res Atom := do
  let ws := splitWords line []
  let name ← wordAt ws 0
  let x ← floatOf pf (← wordAt ws 1)
  let y ← floatOf pf (← wordAt ws 2)
  let z ← floatOf pf (← wordAt ws 3)
  let charge ← lookupName name nameToNumber
  let mass ← lookupName name massTable
  return ⟨String.ofList name, ![x * factor, y * factor, z * factor], charge, (mass : ℝ)⟩

/-- `".xyz" in molecule_file` and `";" in molecule_file`. -/
def hasXyz (s : List Char) : Bool := decide (['.', 'x', 'y', 'z'] <:+: s)

/-- `unit_factor`, lines 26-33. -/
noncomputable def unitFactor (unit : List Char) : Res ℝ :=
  if unit.map Char.toLower = ['a', 'n', 'g', 's', 't', 'r', 'o', 'm'] then .ok 1.889725989
  else if unit.map Char.toLower = ['a', 'u'] ∨ unit.map Char.toLower = ['b', 'o', 'h', 'r'] then .ok 1
  else .error .valueError

/-- `_Molecule.__init__`, lines 12-80. -/
noncomputable def initMolecule (pf : List Char → Option ℝ) (readFile : List Char → Res (List (List Char)))
    (file : List Char) (charge : ℤ) (unit : List Char) : Res Molecule := do
  let factor ← unitFactor unit
  if hasXyz file then do
    let lines ← readFile file
    let atoms ← (lines.drop 2).mapM (readAtom pf factor)
    return ⟨charge, atoms, [], 0⟩
  else if ';' ∈ file then do
    let atoms ← ((splitSemi file).filter fun l => !l.all isSpace).mapM (readAtom pf factor)
    return ⟨charge, atoms, [], 0⟩
  else .error .valueError

end SQ
