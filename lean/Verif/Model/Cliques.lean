import Verif.Model.Py
import Verif.Spec.Qubits
import Mathlib.Data.List.Sort

/-!
# Model: mitigation flags, Pauli cliques, bit string signs

slowquant/qiskit_interface/util.py. Strings are lists of characters. A `mitigation_flags` argument of
the clique methods is represented by its `to_int()` value, with 0 for `None` (the methods use it only
so). Distributions are insertion-ordered dictionaries from measured integers to numbers. Prints are left
out.
-/

namespace SQ

/-! ### MitigationFlags -/

/-- A value a flag can hold: a `bool`, or some other object, of which only the truth value matters. -/
inductive FlagVal
  | bool (b : Bool)
  | other (truthy : Bool)
  deriving DecidableEq

/-- `value is True`. -/
def FlagVal.isTrue : FlagVal → Bool
  | .bool b => b
  | .other _ => false

/-- `bool(value)`. -/
def FlagVal.truthy : FlagVal → Bool
  | .bool b => b
  | .other t => t

/-- The four attributes of MitigationFlags, util.py lines 170-178. -/
structure Flags where
  mMit : FlagVal
  ansatz0 : FlagVal
  ansatz0Plus : FlagVal
  postsel : FlagVal
  deriving DecidableEq

/-- The two `if ... is True` statements, lines 170-174 and 209-213. -/
def Flags.imply (f : Flags) : Flags :=
  let f := if f.ansatz0.isTrue then { f with mMit := .bool true } else f
  if f.ansatz0Plus.isTrue then { f with mMit := .bool true, ansatz0 := .bool true } else f

/-- `MitigationFlags.__init__`, lines 155-181. -/
def Flags.init (mMit ansatz0 ansatz0Plus postsel : FlagVal) : Flags :=
  (Flags.mk mMit ansatz0 ansatz0Plus postsel).imply

def flagOrder : List String := ["do_M_mitigation", "do_M_ansatz0", "do_M_ansatz0_plus", "do_postselection"]

/-- `setattr(self, flag, value)` for the known names. -/
def Flags.setattr (f : Flags) (name : String) (v : FlagVal) : Flags :=
  if name = "do_M_mitigation" then { f with mMit := v }
  else if name = "do_M_ansatz0" then { f with ansatz0 := v }
  else if name = "do_M_ansatz0_plus" then { f with ansatz0Plus := v }
  else if name = "do_postselection" then { f with postsel := v }
  else f

/-- `_validate_flags`, lines 183-197. -/
def validateFlags (kwargs : List (String × FlagVal)) : Res Unit :=
  if kwargs.any fun kv => decide (kv.1 ∉ flagOrder) then .error .valueError
  else if kwargs.any fun kv => match kv.2 with | .bool _ => false | .other _ => true then .error .typeError
  else .ok ()

/-- `update_flags`, lines 199-214: outcome and flags afterwards. -/
def Flags.update (f : Flags) (kwargs : List (String × FlagVal)) : Res Unit × Flags :=
  match validateFlags kwargs with
  | .error e => (.error e, f)
  | .ok () => (.ok (), (kwargs.foldl (fun f kv => f.setattr kv.1 kv.2) f).imply)

/-- `all_to_false`, lines 216-220. -/
def Flags.allToFalse (f : Flags) : Flags := flagOrder.foldl (fun f n => f.setattr n (.bool false)) f

/-- `to_int`, lines 222-232. -/
def Flags.toInt (f : Flags) : ℕ :=
  ([f.mMit, f.ansatz0, f.ansatz0Plus, f.postsel].zipIdx).foldl
    (fun r vi => if vi.1.truthy then r ||| (1 <<< vi.2) else r) 0

/-- `is_enabled`, lines 247-255. -/
def Flags.isEnabled (f : Flags) : Bool := if f.toInt = 0 then false else true

/-! ### CliqueSaver -/

abbrev Distr := List (ℕ × ℝ)

/-- `CliqueSaver.data`, lines 268-274: distributions by flag integer. -/
abbrev SaverData := List (ℕ × Distr)

/-- `self.data = {0: {}}`. -/
def SaverData.empty : SaverData := [(0, [])]

/-- `is_empty`, lines 276-293. -/
def SaverData.isEmpty (data : SaverData) (m : ℕ) : Res Bool :=
  match data.lookup m with
  | none => .ok true
  | some d =>
    if d ≠ [] then .ok false
    else if m = 0 ∧ data.length > 1 then
      if ¬ data.all fun kv => kv.2.isEmpty then .error .valueError else .ok true
    else .ok true

/-- Assignment to a dictionary key: in place if present, else at the end. -/
def dictPut {α : Type} (d : List (ℕ × α)) (k : ℕ) (v : α) : List (ℕ × α) :=
  if d.any fun kv => kv.1 == k then d.map fun kv => if kv.1 = k then (k, v) else kv else d ++ [(k, v)]

/-- `add_distr`, lines 295-303. -/
def SaverData.add (data : SaverData) (distr : Distr) (m : ℕ) : SaverData := dictPut data m distr

/-- `get_distr`, lines 305-315 (`KeyError` if absent). -/
def SaverData.get (data : SaverData) (m : ℕ) : Res Distr :=
  match data.lookup m with
  | none => .error .keyError
  | some d => .ok d

/-! ### Clique -/

/-- `CliqueHead`, lines 318-327. -/
structure CliqueHead where
  head : List Char
  data : SaverData

/-- Commutation loop of `fit_in_clique`, lines 580-585. -/
def commuting : List Char → List Char → Bool
  | c :: cs, p :: ps => if c = 'I' ∨ p = 'I' then commuting cs ps else if c ≠ p then false else commuting cs ps
  | _, _ => true

/-- `fit_in_clique`, lines 566-592. -/
def fitInClique (pauli head : List Char) : Bool × List Char :=
  if commuting head pauli then
    (true, (head.zip pauli).map fun cp => if cp.1 ≠ 'I' then cp.1 else cp.2)
  else (false, [])

/-- The inner loop of `add_paulis`, lines 360-374. -/
def addPauli (pauli : List Char) : List CliqueHead → List CliqueHead
  | [] => [⟨pauli, SaverData.empty⟩]
  | c :: cs =>
    let (doFit, headFit) := fitInClique pauli c.head
    if doFit then
      (if headFit ≠ c.head then ⟨headFit, SaverData.empty⟩ else ⟨headFit, c.data⟩) :: cs
    else c :: addPauli pauli cs

/-- `sorted(paulis, reverse=True)`. -/
def sortedReverse (paulis : List (List Char)) : List (List Char) :=
  paulis.mergeSort fun a b => decide (b ≤ a)

/-- Lines 376-381: the heads without raw data. -/
def newHeads : List CliqueHead → Res (List (List Char))
  | [] => .ok []
  | c :: cs => do
    let e ← c.data.isEmpty 0
    let r ← newHeads cs
    return if e then c.head :: r else r

/-- `Clique.add_paulis`, lines 342-381: returned list and cliques afterwards. -/
def addPaulis (cliques : List CliqueHead) (paulis : List (List Char)) : Res (List (List Char)) × List CliqueHead :=
  if cliques = [] ∧ paulis = [] then (.error .indexError, cliques)
  else
    let start := match cliques, paulis with
      | [], p :: _ => [⟨List.replicate p.length 'Z', SaverData.empty⟩]
      | cs, _ => cs
    let cs := (sortedReverse paulis).foldl (fun cs p => addPauli p cs) start
    (newHeads cs, cs)

/-- Inner loop of `update_distr`, lines 422-429. -/
def updateHeads (head : List Char) (distr : Distr) (m : ℕ) : List CliqueHead → Res Unit × List CliqueHead
  | [] => (.ok (), [])
  | c :: cs =>
    if head = c.head then
      match c.data.isEmpty m with
      | .error e => (.error e, c :: cs)
      | .ok false => (.error .valueError, c :: cs)
      | .ok true =>
        let r := updateHeads head distr m cs
        (r.1, ⟨c.head, c.data.add distr m⟩ :: r.2)
    else
      let r := updateHeads head distr m cs
      (r.1, c :: r.2)

/-- Outer loop of `update_distr`. -/
def updateAll (m : ℕ) : List (List Char × Distr) → List CliqueHead → Res Unit × List CliqueHead
  | [], cs => (.ok (), cs)
  | hd :: l, cs =>
    match updateHeads hd.1 hd.2 m cs with
    | (.error e, cs) => (.error e, cs)
    | (.ok (), cs) => updateAll m l cs

/-- The final check of `update_distr`, lines 431-436. -/
def checkAllocated (m : ℕ) : List CliqueHead → Res Unit
  | [] => .ok ()
  | c :: cs =>
    match c.data.isEmpty m with
    | .error e => .error e
    | .ok true => .error .valueError
    | .ok false => checkAllocated m cs

/-- `Clique.update_distr`, lines 408-436. -/
def updateDistr (cliques : List CliqueHead) (heads : List (List Char)) (distr : List Distr) (m : ℕ) :
    Res Unit × List CliqueHead :=
  match updateAll m (heads.zip distr) cliques with
  | (.error e, cs) => (.error e, cs)
  | (.ok (), cs) => (checkAllocated m cs, cs)

/-- `Clique.get_distr`, lines 438-460. -/
def getDistr (pauli : List Char) (m : ℕ) : List CliqueHead → Res Distr
  | [] => .error .valueError
  | c :: cs =>
    let (doFit, headFit) := fitInClique pauli c.head
    if doFit then
      if c.head ≠ headFit then .error .valueError
      else match c.data.isEmpty m with
        | .error e => .error e
        | .ok true => .error .valueError
        | .ok false => c.data.get m
    else getDistr pauli m cs

/-- `Clique.get_head`, lines 462-479. -/
def getHead (pauli : List Char) : List CliqueHead → Res (List Char)
  | [] => .error .valueError
  | c :: cs =>
    let (doFit, headFit) := fitInClique pauli c.head
    if doFit then
      if c.head ≠ headFit then .error .valueError else .ok c.head
    else getHead pauli cs

/-- Appending to a group, line 403. -/
def groupPut (groups : List (List Char × List (List Char))) (head pauli : List Char) :
    List (List Char × List (List Char)) :=
  if groups.any fun kv => kv.1 == head then groups.map fun kv => if kv.1 = head then (head, kv.2 ++ [pauli]) else kv
  else groups ++ [(head, [pauli])]

/-- `Clique.get_groups`, lines 383-406. The head is the one `get_head` finds; both raise `ValueError` in
the same cases. -/
def getGroups (cliques : List CliqueHead) (paulis : List (List Char)) : Res (List (List Char × List (List Char))) :=
  (sortedReverse paulis).foldlM (fun groups p => do
    let h ← getHead p cliques
    return groupPut groups h p) []

/-! ### Measurement -/

/-- `to_CBS_measurement` without transpiled gates, lines 34-43 (on `n` qubits; the label has length
`n` in the code). -/
def toCBS (n : ℕ) (op : List Char) : List (Gate n) :=
  (List.finRange n).flatMap fun i : Fin n =>
    if op.reverse[(i : ℕ)]? = some 'X' then [.h i]
    else if op.reverse[(i : ℕ)]? = some 'Y' then [.sdg i, .h i]
    else []

/-- `int(op.replace(...), 2)`, line 88: `ValueError` for an empty string or another letter
(`int` would also accept the characters 0 and 1, which are no Pauli letters). -/
def opBits (op : List Char) : Res ℕ :=
  if op = [] then .error .valueError
  else op.foldlM (fun r l =>
    if l = 'I' then .ok (2 * r)
    else if l = 'Z' ∨ l = 'X' ∨ l = 'Y' then .ok (2 * r + 1)
    else .error .valueError) 0

/-- Number of ones of the binary expansion, `int.bit_count`. -/
def bitCount (b : ℕ) : ℕ := (b.bits.filter (· = true)).length

/-- `get_bitstring_sign`, lines 54-95. -/
def getBitstringSign (op : List Char) (binary : ℕ) : Res ℤ := do
  let o ← opBits op
  return if bitCount (o &&& binary) % 2 = 1 then -1 else 1

end SQ
