import Verif.Model.Py
import Mathlib.Algebra.Ring.Defs

/-!
# Model of `slowquant/unitary_coupled_cluster/fermionic_operator.py`

* Keys: a Python key is a tuple of `(spin orbital index, dagger flag)`; here `Str`.
* Dictionaries: insertion-ordered association lists `Dict R`.  Updating an existing key keeps its
  position, a new key goes to the end, deleting removes the entry — as in CPython.
* Floats are elements of a commutative ring `R`.  The test `abs(x) < 10**-14` is the parameter
  `tiny : R → Bool`; theorems either take `tiny` exact (`tiny x → x = 0`, i.e. no rounding and no
  dropped small values) or instantiate it by the literal threshold (C02).
-/

namespace SQ

/-- One entry `(index, dagger)` of a key. -/
abbrev Lad := ℕ × Bool
/-- A key of `FermionicOperator.operators`. -/
abbrev Str := List Lad
/-- `FermionicOperator.operators` (the class has no other slot, line 108). -/
abbrev Dict (R : Type _) := List (Str × R)

variable {R : Type _}

/-- `d[key]` when present. -/
def Dict.get? (d : Dict R) (k : Str) : Option R := (d.find? fun kv => kv.1 == k).map (·.2)

section ring
variable [CommRing R] (tiny : R → Bool)

/-- The update pattern
`if key in d: d[key] += v; if abs(d[key]) < 10**-14: del d[key]  else: d[key] = v`
of fermionic_operator.py:97-102, 140-145, 158-163, 231-236, 266-271. -/
def addTo (d : Dict R) (k : Str) (v : R) : Dict R :=
  match d with
  | [] => [(k, v)]
  | (k', v') :: t =>
    if k' = k then
      if tiny (v' + v) then t else (k', v' + v) :: t
    else (k', v') :: addTo t k v

/-- The update pattern `if key in d: d[key] -= v; delete if tiny  else: d[key] = -v`
of fermionic_operator.py:178-183, 197-202. -/
def subTo (d : Dict R) (k : Str) (v : R) : Dict R :=
  match d with
  | [] => [(k, -v)]
  | (k', v') :: t =>
    if k' = k then
      if tiny (v' - v) then t else (k', v' - v) :: t
    else (k', v') :: subTo t k v

/-- Result of one sweep of the innermost `while True` (fermionic_operator.py:54-93). -/
structure PassOut (R : Type _) where
  str : Str
  factor : R
  changed : Bool
  isZero : Bool
  queue : List (Str × R)

/-- The innermost loop of `do_extended_normal_ordering`, fermionic_operator.py:54-93.
`pre` is `next_operator[:current_idx]`, `a` is `next_operator[current_idx]`, the last argument is
`next_operator[current_idx+1:]`; `q` is the pair of lists `operator_queue`/`factor_queue`. -/
def sweep (pre : Str) (a : Lad) (f : R) (ch : Bool) (q : List (Str × R)) : Str → PassOut R
  | [] => ⟨pre ++ [a], f, ch, false, q⟩                                     -- line 92, end of string
  | b :: rest =>
    if a.2 && b.2 then                                                       -- line 61
      if a.1 = b.1 then ⟨pre ++ a :: b :: rest, f, ch, true, q⟩              -- 62-63, then 92
      else if a.1 < b.1 then sweep (pre ++ [b]) a (f * -1) true q rest       -- 64-67
      else sweep (pre ++ [a]) b f ch q rest
    else if !a.2 && b.2 then                                                 -- line 68
      if a.1 = b.1 then                                                      -- 69-78
        let newOp := pre ++ rest
        let q' := if newOp.length > 0 then q ++ [(newOp, f)] else q          -- 73-75
        sweep (pre ++ [b]) a (f * -1) true q' rest
      else sweep (pre ++ [b]) a (f * -1) true q rest                         -- 79-82
    else if a.2 && !b.2 then sweep (pre ++ [a]) b f ch q rest                -- 83-84
    else if a.1 = b.1 then ⟨pre ++ a :: b :: rest, f, ch, true, q⟩           -- 85-86, then 92
    else if a.1 < b.1 then sweep (pre ++ [b]) a (f * -1) true q rest         -- 87-90
    else sweep (pre ++ [a]) b f ch q rest

/-- The middle `while True`, fermionic_operator.py:50-103, with an iteration budget.
Returns the finished string (or `none` for a string found to vanish) and the queue.
An empty string leaves the inner loop at once (55-56) and is finished; a string of length one
evaluates `next_operator[1]` (58) and raises `IndexError`. -/
def orderOne : ℕ → Str → R → List (Str × R) → Res (Option (Str × R) × List (Str × R))
  | 0, _, _, _ => .error .outOfFuel
  | n + 1, s, f, q =>
    match s with
    | [] => .ok (some ([], f), q)
    | [_] => .error .indexError
    | a :: b :: rest =>
      let o := sweep [] a f false q (b :: rest)
      if !o.changed || o.isZero then                                         -- line 94
        if o.isZero then .ok (none, o.queue) else .ok (some (o.str, o.factor), o.queue)
      else orderOne n o.str o.factor o.queue

/-- The outer `while len(operator_queue) > 0`, fermionic_operator.py:46-103, with a budget. -/
def orderQueue : ℕ → List (Str × R) → Dict R → Res (Dict R)
  | _, [], acc => .ok acc
  | 0, _ :: _, _ => .error .outOfFuel
  | n + 1, (s, f) :: q, acc =>
    match orderOne (s.length * s.length + 1) s f q with
    | .error e => .error e
    | .ok (none, q') => orderQueue n q' acc
    | .ok (some (k, v), q') => orderQueue n q' (addTo tiny acc k v)          -- 96-102

/-- Iteration budget sufficient for one string of the given length (see `C04`). -/
def budget : ℕ → ℕ
  | 0 => 1
  | 1 => 1
  | n + 2 => 1 + (n + 2) * (n + 2) * budget n

/-- `do_extended_normal_ordering`, fermionic_operator.py:27-104. -/
def normalOrder (d : Dict R) : Res (Dict R) :=
  orderQueue tiny ((d.map fun kv => budget kv.1.length).sum) d []

/-- `FermionicOperator.__add__`, fermionic_operator.py:128-146. -/
def fadd (A B : Dict R) : Dict R := B.foldl (fun d kv => addTo tiny d kv.1 kv.2) A

/-- `FermionicOperator.__sub__`, fermionic_operator.py:166-184. -/
def fsub (A B : Dict R) : Dict R := B.foldl (fun d kv => subTo tiny d kv.1 kv.2) A

/-- `FermionicOperator.__mul__` with a number, fermionic_operator.py:214-218. -/
def fscale (A : Dict R) (c : R) : Dict R := A.map fun kv => (kv.1, kv.2 * c)

/-- `FermionicOperator.__rmul__`, fermionic_operator.py:277-289. -/
def frmul (c : R) (A : Dict R) : Dict R := A.map fun kv => (kv.1, kv.2 * c)

/-- `FermionicOperator.__neg__`, fermionic_operator.py:291-300. -/
def fneg (A : Dict R) : Dict R := A.map fun kv => (kv.1, -kv.2)

/-- `FermionicOperator.__mul__` with an operator, fermionic_operator.py:219-236: outer loop over
the keys of the right factor, inner loop over the keys of the left factor. -/
def fmul (A B : Dict R) : Res (Dict R) :=
  B.foldlM (fun acc kv1 =>
    A.foldlM (fun acc kv2 => do
      let new ← normalOrder tiny [(kv2.1 ++ kv1.1, kv2.2 * kv1.2)]
      pure (new.foldl (fun d kv => addTo tiny d kv.1 kv.2) acc)) acc) []

/-- Reversal and dagger flip of one key, fermionic_operator.py:311-317. -/
def flipKey (s : Str) : Str := s.reverse.map fun o => if o.2 then (o.1, false) else (o.1, true)

/-- Plain dictionary assignment `d[key] = v`. -/
def Dict.set (d : Dict R) (k : Str) (v : R) : Dict R :=
  match d with
  | [] => [(k, v)]
  | (k', v') :: t => if k' = k then (k', v) :: t else (k', v') :: Dict.set t k v

/-- `FermionicOperator.dagger`, fermionic_operator.py:303-321. -/
def fdagger (A : Dict R) : Res (Dict R) :=
  normalOrder tiny (A.foldl (fun d kv => Dict.set d (flipKey kv.1) kv.2) [])

end ring

/-- `FermionicOperator.operator_count`, fermionic_operator.py:324-337: number of strings of each
length, as an insertion-ordered dictionary. -/
def opCount (A : Dict R) : List (ℕ × ℕ) :=
  A.foldl (fun c kv => bump c kv.1.length) []
where
  /-- `if l not in c: c[l] = 1 else: c[l] += 1` -/
  bump (c : List (ℕ × ℕ)) (l : ℕ) : List (ℕ × ℕ) :=
    match c with
    | [] => [(l, 1)]
    | (l', m) :: t => if l' = l then (l', m + 1) :: t else (l', m) :: bump t l

end SQ
