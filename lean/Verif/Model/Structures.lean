import Verif.Model.Iterators
import Verif.Model.Ansatz

/-!
# Model of the ansatz structures (`slowquant/unitary_coupled_cluster/util.py:547-1073`)

An option dictionary is a list of keys and values with the keys in insertion order; values are integers,
`True` and `False` being 1 and 0 as in Python (`True == 1`, `sum((True, False)) == 1`); other value types
are not modelled.  The structure is mutable: a method returns its result or exception together with the
state it leaves.  An `Entry` is one group of statements that append a type and indices (and for
`UpsStructure` a name and an `R`) and increase `n_params`; the order of these statements within a group
varies in the code and has no effect.  The tuples of the iterators are lists (Model/Iterators.lean) whose
lengths match; the branch for other lengths cannot be reached.
-/

namespace SQ

/-- Python option dictionary. -/
abbrev Options := List (String × ℤ)

/-- `option in ansatz_options.keys()` with `d = ansatz_options[option]`, else `False`. -/
def Options.flag (o : Options) (k : String) : ℤ := (o.lookup k).getD 0

/-- A type name, indices, and the value for `grad_param_R`, if set. -/
structure Entry where
  ty : String
  idx : List ℕ
  R : Option ℕ

/-- `f"p{n:09d}"`. -/
def pname (n : ℕ) : String :=
  String.ofList ('p' :: (List.replicate (9 - (Nat.toDigits 10 n).length) '0' ++ Nat.toDigits 10 n))

/-- `UpsStructure`, lines 642-651. -/
structure UpsStruct where
  indices : List (List ℕ) := []
  types : List String := []
  nParams : ℕ := 0
  R : List (String × ℕ) := []
  names : List String := []

/-- `d[k] = v`. -/
def dictSet (d : List (String × ℕ)) (k : String) (v : ℕ) : List (String × ℕ) :=
  match d with
  | [] => [(k, v)]
  | (k', v') :: t => if k' = k then (k, v) :: t else (k', v') :: dictSet t k v

/-- Five statements as in lines 701-705 (four as in 949-953 when there is no `R`). -/
def UpsStruct.add (s : UpsStruct) (e : Entry) : UpsStruct :=
  { indices := s.indices ++ [e.idx]
    types := s.types ++ [e.ty]
    nParams := s.nParams + 1
    R := match e.R with
      | none => s.R
      | some r => dictSet s.R (pname s.nParams) r
    names := s.names ++ [pname s.nParams] }

def UpsStruct.addAll (s : UpsStruct) (l : List Entry) : UpsStruct := l.foldl UpsStruct.add s

/-- `for option in ansatz_options: if option not in valid_options: raise`, and the check for
`n_layers`. -/
def checkOptions (valid : List String) (o : Options) : Res ℤ :=
  if o.any fun kv => kv.1 ∉ valid then .error .valueError
  else match o.lookup "n_layers" with
    | none => .error .valueError
    | some n => .ok n

/-- `range(a, b, 2)`. -/
def rangeStep2 (a b : ℕ) : List ℕ := (List.range b).filter fun p => a ≤ p ∧ (p - a) % 2 = 0

/-- One block of the brick wall, lines 698-720 and 723-743. -/
def tiledBlock (doTups doQnp : ℤ) (skip : Bool) (p : ℕ) : List Entry :=
  (if doTups ≠ 0 then [⟨"sa_single", [p, p + 1], some 4⟩] else []) ++
  [⟨"double", [2 * p, 2 * p + 1, 2 * p + 2, 2 * p + 3], some 2⟩] ++
  (if skip then [] else if doTups ≠ 0 ∨ doQnp ≠ 0 then [⟨"sa_single", [p, p + 1], some 4⟩] else [])

/-- One layer, lines 696-745. -/
def tiledLayer (numOrbs : ℕ) (doTups doQnp skipLast nLayers : ℤ) (n : ℕ) : List Entry :=
  let last := decide ((n : ℤ) + 1 = nLayers) && decide (skipLast ≠ 0)
  (rangeStep2 0 (numOrbs - 1)).flatMap (tiledBlock doTups doQnp (last && decide (numOrbs = 2))) ++
  (rangeStep2 1 (numOrbs - 1)).flatMap (tiledBlock doTups doQnp last)

/-- `create_tiled`, lines 653-745. -/
def createTiled (numOrbs : ℕ) (o : Options) (s : UpsStruct) : Res Unit × UpsStruct :=
  match checkOptions ["n_layers", "do_qnp", "skip_last_singles", "do_tups", "do_pp"] o with
  | .error e => (.error e, s)
  | .ok nLayers =>
    let doTups := o.flag "do_tups"
    let doQnp := o.flag "do_qnp"
    if doTups + doQnp = 0 then (.error .valueError, s)
    else if doTups + doQnp > 1 then (.error .valueError, s)
    else
      let skipLast := o.flag "skip_last_singles"
      (.ok (), s.addAll ((List.range nLayers.toNat).flatMap
        (tiledLayer numOrbs doTups doQnp skipLast nLayers)))

/-- `(i, j, ..., a, b, ...)` from the yielded `(a, i, b, j, ...)`. -/
def occFirst : List ℕ → List ℕ
  | [a, i] => [i, a]
  | [a, i, b, j] => [i, j, a, b]
  | [a, i, b, j, c, k] => [i, j, k, a, b, c]
  | [a, i, b, j, c, k, d, l] => [i, j, k, l, a, b, c, d]
  | [a, i, b, j, c, k, d, l, e, m] => [i, j, k, l, m, a, b, c, d, e]
  | [a, i, b, j, c, k, d, l, e, m, f, n] => [i, j, k, l, m, n, a, b, c, d, e, f]
  | _ => []

/-- The loops of lines 861-950 over a spin-orbital iterator. -/
def spinEntries (ty : String) (l : List (List ℕ)) : List Entry := l.map fun x => ⟨ty, occFirst x, some 2⟩

/-- The loops of lines 875-888 over a spin-adapted single iterator. -/
def saEntries (l : List (ℕ × ℕ × ℝ)) : List Entry := l.map fun x => ⟨"sa_single", [x.2.1, x.1], some 4⟩

/-- `f"sa_double_{c}"`. -/
def saDoubleName : ℕ → String
  | 1 => "sa_double_1"
  | 2 => "sa_double_2"
  | 3 => "sa_double_3"
  | 4 => "sa_double_4"
  | 5 => "sa_double_5"
  | c => "sa_double_" ++ toString c

/-- The loop of lines 945-953. -/
noncomputable def sadEntries (l : List SaDouble) : List Entry :=
  l.map fun x => ⟨saDoubleName x.case, [x.i, x.j, x.a, x.b], none⟩

/-- The orbital lists handed to the `create_` methods. -/
structure OrbLists where
  occ : List ℕ
  unocc : List ℕ
  occSpin : List ℕ
  unoccSpin : List ℕ
  numOrbs : ℕ

/-- `if do_X: for ...`. -/
def blockIf (flag : ℤ) (l : List Entry) : List Entry := if flag ≠ 0 then l else []

/-- One layer of `create_fUCC`, lines 860-953. -/
noncomputable def fuccLayer (L : OrbLists) (o : Options) : List Entry :=
  blockIf (o.flag "S") (spinEntries "single" (iterateT1 L.occSpin L.unoccSpin)) ++
  blockIf (o.flag "GS") (spinEntries "single" (iterateT1Gen (2 * L.numOrbs))) ++
  blockIf (o.flag "SAS") (saEntries (iterateT1sa L.occ L.unocc)) ++
  blockIf (o.flag "SAGS") (saEntries (iterateT1saGen L.numOrbs)) ++
  blockIf (o.flag "D") (spinEntries "double" (iterateT2 L.occSpin L.unoccSpin)) ++
  blockIf (o.flag "GD") (spinEntries "double" (iterateT2Gen (2 * L.numOrbs))) ++
  blockIf (o.flag "pD") (spinEntries "double" (iteratePairT2 L.occ L.unocc)) ++
  blockIf (o.flag "GpD") (spinEntries "double" (iteratePairT2Gen L.numOrbs)) ++
  blockIf (o.flag "T") (spinEntries "triple" (iterateT3 L.occSpin L.unoccSpin)) ++
  blockIf (o.flag "Q") (spinEntries "quadruple" (iterateT4 L.occSpin L.unoccSpin)) ++
  blockIf (o.flag "5") (spinEntries "quintuple" (iterateT5 L.occSpin L.unoccSpin)) ++
  blockIf (o.flag "6") (spinEntries "sextuple" (iterateT6 L.occSpin L.unoccSpin)) ++
  blockIf (o.flag "SAD") (sadEntries (iterateT2sa L.occ L.unocc))

/-- The flags of lines 840-854. -/
def fuccKinds : List String := ["S", "SAS", "SAGS", "D", "pD", "GpD", "T", "Q", "5", "6", "SAD", "GS", "GD"]

/-- `create_fUCC`, lines 747-953. -/
noncomputable def createFucc (L : OrbLists) (o : Options) (s : UpsStruct) : Res Unit × UpsStruct :=
  match checkOptions ["n_layers", "S", "D", "SAGS", "pD", "GpD", "SAS", "T", "Q", "5", "6", "SAD", "GS", "GD"] o with
  | .error e => (.error e, s)
  | .ok nLayers =>
    if ∀ k ∈ fuccKinds, o.flag k ≠ 1 then (.error .valueError, s)
    else (.ok (), s.addAll ((List.range nLayers.toNat).flatMap fun _ => fuccLayer L o))

/-- Body of the loop of lines 1017-1037. -/
def sdsBody : List ℕ → List Entry
  | [a, i, b, j] =>
    [⟨"single", if i % 2 = a % 2 then [i, a] else [i, b], some 2⟩, ⟨"double", [i, j, a, b], some 2⟩,
     ⟨"single", if i % 2 = a % 2 then [j, b] else [j, a], some 2⟩]
  | _ => []

/-- Body of the loop of lines 1039-1055: note the type of the first entry (line 1041). -/
def sdsPairBody : List ℕ → List Entry
  | [a, i, b, j] =>
    [⟨"double", [i / 2, a / 2], some 4⟩, ⟨"double", [i, j, a, b], some 2⟩,
     ⟨"sa_single", [i / 2, a / 2], some 4⟩]
  | _ => []

/-- Body of the loop of lines 1057-1073. -/
def sdsGenPairBody : List ℕ → List Entry
  | [a, i, b, j] =>
    [⟨"sa_single", [i / 2, a / 2], some 4⟩, ⟨"double", [i, j, a, b], some 2⟩,
     ⟨"sa_single", [i / 2, a / 2], some 4⟩]
  | _ => []

/-- One layer of `create_SDSfUCC`, lines 1014-1073. -/
def sdsLayer (L : OrbLists) (o : Options) : List Entry :=
  blockIf (o.flag "D") ((iterateT2 L.occSpin L.unoccSpin).flatMap sdsBody) ++
  blockIf (o.flag "pD") ((iteratePairT2 L.occ L.unocc).flatMap sdsPairBody) ++
  blockIf (o.flag "GpD") ((iteratePairT2Gen L.numOrbs).flatMap sdsGenPairBody)

/-- `create_SDSfUCC`, lines 955-1073. -/
def createSds (L : OrbLists) (o : Options) (s : UpsStruct) : Res Unit × UpsStruct :=
  match checkOptions ["n_layers", "D", "pD", "GpD"] o with
  | .error e => (.error e, s)
  | .ok nLayers =>
    if ∀ k ∈ ["D", "pD", "GpD"], o.flag k ≠ 1 then (.error .valueError, s)
    else (.ok (), s.addAll ((List.range nLayers.toNat).flatMap fun _ => sdsLayer L o))

/-- The attributes `excitation_operator_type` and `excitation_indices` as used by the ansatz. -/
def UpsStruct.ansatz (s : UpsStruct) : AnsatzStruct := ⟨s.types, s.indices⟩

/-- `UccStructure`, lines 547-554. -/
structure UccStruct where
  indices : List (List ℕ) := []
  types : List String := []
  nParams : ℕ := 0

/-- The three statements of lines 564-566 (and in the other `add_` methods). -/
def UccStruct.add (s : UccStruct) (ty : String) (idx : List ℕ) : UccStruct :=
  { indices := s.indices ++ [idx], types := s.types ++ [ty], nParams := s.nParams + 1 }

/-- `add_sa_singles`, lines 556-566. -/
noncomputable def UccStruct.addSaSingles (s : UccStruct) (occ unocc : List ℕ) : UccStruct :=
  (iterateT1sa occ unocc).foldl (fun s x => s.add "sa_single" [x.2.1, x.1]) s

/-- Body of the loop of `add_sa_doubles`, lines 575-587: the case selects the name; for no other case a
name is appended. -/
def UccStruct.addSaDouble (s : UccStruct) (x : SaDouble) : UccStruct :=
  let types := if x.case = 1 then s.types ++ ["sa_double_1"]
    else if x.case = 2 then s.types ++ ["sa_double_2"]
    else if x.case = 3 then s.types ++ ["sa_double_3"]
    else if x.case = 4 then s.types ++ ["sa_double_4"]
    else if x.case = 5 then s.types ++ ["sa_double_5"]
    else s.types
  { indices := s.indices ++ [[x.i, x.j, x.a, x.b]], types := types, nParams := s.nParams + 1 }

/-- `add_sa_doubles`, lines 568-587. -/
noncomputable def UccStruct.addSaDoubles (s : UccStruct) (occ unocc : List ℕ) : UccStruct :=
  (iterateT2sa occ unocc).foldl UccStruct.addSaDouble s

/-- `add_triples`, lines 589-599. -/
def UccStruct.addTriples (s : UccStruct) (occ unocc : List ℕ) : UccStruct :=
  (iterateT3 occ unocc).foldl (fun s x => s.add "triple" (occFirst x)) s

/-- `add_quadruples`, lines 601-613. -/
def UccStruct.addQuadruples (s : UccStruct) (occ unocc : List ℕ) : UccStruct :=
  (iterateT4 occ unocc).foldl (fun s x => s.add "quadruple" (occFirst x)) s

/-- `add_quintuples`, lines 615-627. -/
def UccStruct.addQuintuples (s : UccStruct) (occ unocc : List ℕ) : UccStruct :=
  (iterateT5 occ unocc).foldl (fun s x => s.add "quintuple" (occFirst x)) s

/-- `add_sextuples`, lines 629-639. -/
def UccStruct.addSextuples (s : UccStruct) (occ unocc : List ℕ) : UccStruct :=
  (iterateT6 occ unocc).foldl (fun s x => s.add "sextuple" (occFirst x)) s

/-- The attributes as used by the ansatz. -/
def UccStruct.ansatz (s : UccStruct) : AnsatzStruct := ⟨s.types, s.indices⟩

end SQ
