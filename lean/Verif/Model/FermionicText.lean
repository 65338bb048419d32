import Verif.Model.FermionicOperator
import Mathlib.Data.Nat.Digits.Defs

/-!
# Model of the text forms of `FermionicOperator`
(`slowquant/unitary_coupled_cluster/fermionic_operator.py`: `operator_to_qiskit_key`,
`operators_readable`, `get_qiskit_form`, `get_info`)

Python strings are lists of characters; `f"{n}"` of a non-negative `int` is its decimal numeral.
-/

namespace SQ

/-- Decimal digit as a character. -/
def digitC (d : ℕ) : Char := Char.ofNat (48 + d)

/-- `str(n)` for `n ≥ 0`. -/
def pyStr (n : ℕ) : List Char := if n = 0 then ['0'] else (Nat.digits 10 n).reverse.map digitC

/-- A Python dictionary with string keys. -/
abbrev SDict (R : Type _) := List (List Char × R)

/-- `d[k] = v`. -/
def SDict.set {R : Type _} (d : SDict R) (k : List Char) (v : R) : SDict R :=
  match d with
  | [] => [(k, v)]
  | (k', v') :: t => if k' = k then (k', v) :: t else (k', v') :: SDict.set t k v

/-- `remapping`, lines 368-373, in insertion order (the keys are distinct). -/
def remapping (n : ℕ) : List (ℕ × ℕ) :=
  (List.range (2 * n)).map fun i => if i < n then (2 * i, i) else (2 * i + 1 - 2 * n, i)

/-- `remapping[k]`, a `KeyError` when absent. -/
def remapGet (n k : ℕ) : Res ℕ :=
  match (remapping n).find? fun kv => kv.1 == k with
  | some kv => .ok kv.2
  | none => .error .keyError

/-- The loop of `operator_to_qiskit_key`, lines 18-23. -/
def qiskitLoop (n : ℕ) : Str → List Char → Res (List Char)
  | [], key => .ok key
  | a :: t, key => do
    let k ← remapGet n a.1
    if a.2 then qiskitLoop n t (key ++ (' ' :: '+' :: '_' :: pyStr k))
    else qiskitLoop n t (key ++ (' ' :: '-' :: '_' :: pyStr k))

/-- `operator_to_qiskit_key`, lines 7-24; `op_key[1:]` is `tail`. -/
def qiskitKey (n : ℕ) (s : Str) : Res (List Char) := do
  let key ← qiskitLoop n s []
  pure key.tail

/-- `get_qiskit_form`, lines 357-377. -/
def getQiskitForm {R : Type _} (n : ℕ) (A : Dict R) : Res (SDict R) :=
  A.foldlM (fun d kv => (qiskitKey n kv.1).map fun k => d.set k kv.2) []

/-- Key of `operators_readable`, lines 347-353. -/
def readableKey (s : Str) : List Char :=
  s.foldl (fun key a => if a.2 then key ++ ('c' :: pyStr a.1) else key ++ ('a' :: pyStr a.1)) []

/-- `operators_readable`, lines 339-355. -/
def readable {R : Type _} (A : Dict R) : SDict R :=
  A.foldl (fun d kv => d.set (readableKey kv.1) kv.2) []

/-- Decimal digit test (`\d` restricted to ASCII, which is all `operators_readable` produces). -/
def isDig (c : Char) : Bool := decide (48 ≤ c.toNat) && decide (c.toNat ≤ 57)

/-- `re.findall(r"\d+", s)`: the maximal runs of digits, `cur` being the run read so far. -/
def digitRuns (cur : List Char) : List Char → List (List Char)
  | [] => if cur = [] then [] else [cur]
  | c :: t =>
    if isDig c then digitRuns (cur ++ [c]) t
    else (if cur = [] then [] else [cur]) ++ digitRuns [] t

/-- `int(s)` of a string of digits. -/
def pyInt (s : List Char) : ℕ := s.foldl (fun acc c => acc * 10 + (c.toNat - 48)) 0

/-- `get_info`, lines 473-488: annihilation lists, creation lists, coefficients. -/
def getInfo {R : Type _} (A : Dict R) : List (List ℕ) × List (List ℕ) × List R :=
  let op := readable A
  let nums := op.map fun kv => (digitRuns [] kv.1).map pyInt
  (nums.map fun l => l.drop (l.length / 2), nums.map fun l => l.take (l.length / 2), op.map (·.2))

end SQ
