import Verif.Model.FermionicOperator

/-!
# In-place operators of `FermionicOperator` on a heap of objects

Objects are numbered; the heap gives the `operators` dictionary of each object.  The loops read
`fermistring.operators[key]` anew in each iteration, so that `A += A` (same object on both sides)
is the code's behaviour.  Iterating over a dictionary whose size has changed raises `RuntimeError`
at the next step of the iteration (CPython `dictiter_iternextkey`), also after the last key.
-/

namespace SQ

variable {R : Type _} [CommRing R] (tiny : R → Bool)

abbrev Heap (R : Type _) := ℕ → Dict R

def Heap.put (h : Heap R) (x : ℕ) (d : Dict R) : Heap R := fun y => if y = x then d else h y

/-- `for op_key in fermistring.operators.keys(): ...` of `__iadd__`, fermionic_operator.py:157-163.
`n0` is the size of the dictionary when the iteration started. -/
def iaddLoop (self other n0 : ℕ) : List Str → Heap R → Res (Heap R)
  | [], h => if (h other).length = n0 then .ok h else .error .runtimeError
  | k :: ks, h =>
    if (h other).length = n0 then
      match (h other).get? k with
      | none => .error .keyError
      | some v => iaddLoop self other n0 ks (h.put self (addTo tiny (h self) k v))
    else .error .runtimeError

/-- `self += other`, fermionic_operator.py:148-164. -/
def iadd (self other : ℕ) (h : Heap R) : Res (Heap R) :=
  iaddLoop tiny self other (h other).length ((h other).map (·.1)) h

/-- The loop of `__isub__`, fermionic_operator.py:196-202. -/
def isubLoop (self other n0 : ℕ) : List Str → Heap R → Res (Heap R)
  | [], h => if (h other).length = n0 then .ok h else .error .runtimeError
  | k :: ks, h =>
    if (h other).length = n0 then
      match (h other).get? k with
      | none => .error .keyError
      | some v => isubLoop self other n0 ks (h.put self (subTo tiny (h self) k v))
    else .error .runtimeError

/-- `self -= other`, fermionic_operator.py:186-203. -/
def isub (self other : ℕ) (h : Heap R) : Res (Heap R) :=
  isubLoop tiny self other (h other).length ((h other).map (·.1)) h

/-- `d[key] *= c` for a present key. -/
def scaleAt (c : R) (d : Dict R) (k : Str) : Dict R :=
  match d with
  | [] => []
  | (k', v) :: t => if k' = k then (k', v * c) :: t else (k', v) :: scaleAt c t k

/-- `self *= c`, fermionic_operator.py:250-253. -/
def imulScalar (self : ℕ) (c : R) (h : Heap R) : Heap R :=
  h.put self (((h self).map (·.1)).foldl (scaleAt c) (h self))

/-- `self *= other`, fermionic_operator.py:254-272: the products are collected in a new
dictionary which replaces `self.operators` at the end. -/
def imul (self other : ℕ) (h : Heap R) : Res (Heap R) := do
  let d ← fmul tiny (h self) (h other)
  pure (h.put self d)

end SQ
