import Verif.Model.FermionicFold
import Mathlib.Logic.Function.Basic
import Mathlib.Algebra.BigOperators.Group.Finset.Defs
import Mathlib.Algebra.Field.Defs

/-!
# Model of operator application to CI vectors
(`slowquant/unitary_coupled_cluster/operator_state_algebra.py:33-867`,
`CI_Info` of `slowquant/unitary_coupled_cluster/ci_spaces.py:9-53`)

Determinants are natural numbers read as bit strings; vectors are functions from the index
(`state[i]` is `state i`, `i < len(idx2det)`); `float64` is a commutative ring.  `int64` overflow is
not modelled (see `Props/StateAlgebra.lean`, `C20_no_overflow`, for the range in which none happens).
-/

namespace SQ

/-- `bitcount`, lines 33-50. The recursion is the `while` loop; it is accepted because
`x & (x-1) < x`. -/
def bitcount (x : ℕ) : ℕ := if h : x > 0 then bitcount (x &&& (x - 1)) + 1 else 0
termination_by x
decreasing_by exact lt_of_le_of_lt Nat.and_le_right (by omega)

/-- `CI_Info`, ci_spaces.py lines 9-53 (the fields used here). -/
structure CIInfo where
  nI : ℕ
  nA : ℕ
  nV : ℕ
  idx2det : List ℕ
  det2idx : List (ℕ × ℕ)
  offset : ℕ := 0

/-- `det2idx.get(d)`. -/
def CIInfo.find (ci : CIInfo) (d : ℕ) : Option ℕ := ci.det2idx.lookup d

/-- A CI vector. -/
abbrev Vec (R : Type _) := ℕ → R

/-- Bit mask of a list of orbitals, lines 111-117 (and 197-203, 257-263): `m` is
`num_spin_orbs_m1`. -/
def maskOf (m : ℕ) (l : List ℕ) : ℕ := l.foldl (fun acc o => acc ||| (1 <<< (m - o))) 0

/-- `parity_check`, lines 518-522 (and 431-435, 679-683). -/
def parityCheck (n : ℕ) : List ℕ :=
  ((List.range (2 * n)).reverse.foldl
    (fun (st : ℕ × List ℕ) i => (st.1 + 2 ^ i, st.2.set (2 * n - i) (st.1 + 2 ^ i)))
    (0, List.replicate (2 * n + 1) 0)).2

/-- The loop over `a_string`, lines 127-130: final determinant and number of phase changes. -/
def flips (m : ℕ) (par : List ℕ) (l : List ℕ) (det : ℕ) : ℕ × ℕ :=
  l.foldl (fun st o =>
    let d := st.1 ^^^ (1 <<< (m - o))
    (d, st.2 + bitcount (d &&& par.getD o 0))) (det, 0)

/-- `anni_idx`, lines 598-604. -/
def anniIdx (s : Str) : List ℕ := (s.filter fun o => !o.2).map (·.1)

/-- `create_idx`, lines 598-604. -/
def createIdx (s : Str) : List ℕ := (s.filter (·.2)).map (·.1)

variable {R : Type _} [CommRing R]

/-- `sign`, line 134. -/
def signOf (ph : ℕ) : R := 1 - 2 * ((ph &&& 1 : ℕ) : R)

/-- Lines 131-135 (and 214-218, 274-278, 343-347, 405-409): the index of the new determinant; with
`do_unsafe` an unknown determinant is skipped, without it the dictionary access raises. -/
def deliver {β : Type _} (ci : CIInfo) (doUnsafe : Bool) (det : ℕ) (tmp : β) (upd : ℕ → β) : Res β :=
  match ci.find det with
  | some j => .ok (upd j)
  | none => if doUnsafe then .ok tmp else .error .keyError

/-- Body of the loop of `apply_operator_serial`, lines 118-135, for `(det, i)`. -/
def serialStep (tiny : R → Bool) (ci : CIInfo) (par : List ℕ) (doUnsafe : Bool) (state : Vec R)
    (aString : List ℕ) (createMask anniMask : ℕ) (factor : R) (tmp : Vec R) (p : ℕ × ℕ) :
    Res (Vec R) :=
  if p.1 &&& anniMask ≠ anniMask then .ok tmp
  else if p.1 &&& createMask ≠ 0 then .ok tmp
  else if tiny (state p.2) then .ok tmp
  else
    let r := flips (2 * ci.nA - 1) par aString p.1
    deliver ci doUnsafe r.1 tmp fun j =>
      Function.update tmp j (tmp j + signOf r.2 * factor * state p.2)

/-- `apply_operator_serial`, lines 53-136, with its call site, lines 596-628. -/
def applySerial (tiny : R → Bool) (ci : CIInfo) (doUnsafe : Bool) (state : Vec R) (s : Str)
    (factor : R) (tmp : Vec R) : Res (Vec R) :=
  let anni := anniIdx s
  let create := createIdx s
  let screen := create.filter fun i => !anni.contains i
  ci.idx2det.zipIdx.foldlM (serialStep tiny ci (parityCheck ci.nA) doUnsafe state (anni ++ create)
    (maskOf (2 * ci.nA - 1) screen) (maskOf (2 * ci.nA - 1) anni) factor) tmp

/-- Body of the loop of `apply_operator_threaded`, lines 204-218, for index `i`. -/
def threadedStep (ci : CIInfo) (par : List ℕ) (doUnsafe : Bool) (state : Vec R)
    (aString : List ℕ) (createMask anniMask : ℕ) (factor : R) (tmp : Vec R) (i : ℕ) :
    Res (Vec R) :=
  match ci.idx2det[i]? with
  | none => .error .indexError
  | some det =>
    if det &&& createMask ≠ createMask then .ok tmp
    else if det &&& anniMask ≠ 0 then .ok tmp
    else
      let r := flips (2 * ci.nA - 1) par aString det
      deliver ci doUnsafe r.1 tmp fun j =>
        Function.update tmp i (tmp i + signOf r.2 * factor * state j)

/-- `apply_operator_threaded`, lines 139-219, with its call site, lines 563-594; `order` is the order
in which the iterations of `prange(len(idx2det))` are executed. -/
def applyThreaded (ci : CIInfo) (doUnsafe : Bool) (order : List ℕ) (state : Vec R) (s : Str)
    (factor : R) (tmp : Vec R) : Res (Vec R) :=
  let anni := anniIdx s
  let create := createIdx s
  let screen := anni.filter fun i => !create.contains i
  order.foldlM (threadedStep ci (parityCheck ci.nA) doUnsafe state (create ++ anni)
    (maskOf (2 * ci.nA - 1) create) (maskOf (2 * ci.nA - 1) screen) factor) tmp

/-- Number of Numba threads, lines 511-514: `many sched` runs the loops in the order `sched` says
for every string. -/
inductive Threads where
  | one
  | many (sched : Str → List ℕ)

/-- The loop over the strings of one operator, lines 554-629. -/
def applyOp (tiny : R → Bool) (th : Threads) (ci : CIInfo) (doUnsafe : Bool) (state : Vec R)
    (A : Dict R) : Res (Vec R) :=
  match th with
  | .one => A.foldlM (fun tmp kv => applySerial tiny ci doUnsafe state kv.1 kv.2 tmp) 0
  | .many sched =>
    A.foldlM (fun tmp kv => applyThreaded ci doUnsafe (sched kv.1) state kv.1 kv.2 tmp) 0

/-- An entry of the list `operators`. -/
inductive StateOp (R : Type _) where
  | op (A : Dict R)
  | name (s : String)

/-- Body of the loop over `operators[::-1]`, lines 523-629. `U dagger state` is the result of
`construct_ups_state`/`construct_ucc_state`, or the exception of lines 531-551. -/
def propStep (tiny : R → Bool) (th : Threads) (ci : CIInfo) (U : Bool → Vec R → Res (Vec R))
    (doFolding doUnsafe : Bool) (state : Vec R) (op : StateOp R) : Res (Vec R) :=
  match op with
  | .name s => if s ≠ "U" ∧ s ≠ "Ud" then .error .valueError else U (s == "Ud") state
  | .op A =>
    applyOp tiny th ci doUnsafe state (if doFolding then getFolded ci.nI ci.nA ci.nV A else A)

/-- `propagate_state`, lines 472-630. -/
def propagateState (tiny : R → Bool) (th : Threads) (ci : CIInfo) (U : Bool → Vec R → Res (Vec R))
    (doFolding doUnsafe : Bool) (ops : List (StateOp R)) (state : Vec R) : Res (Vec R) :=
  if ops.length = 0 then .ok state
  else ops.reverse.foldlM (propStep tiny th ci U doFolding doUnsafe) state

/-- `bra @ ket`. -/
def dot (n : ℕ) (x y : Vec R) : R := ((List.range n).map fun i => x i * y i).sum

/-- `expectation_value`, lines 784-824 (`val` is always a `float`). -/
def expectationValue (tiny : R → Bool) (th : Threads) (ci : CIInfo)
    (U : Bool → Vec R → Res (Vec R)) (doFolding doUnsafe : Bool) (bra : Vec R)
    (ops : List (StateOp R)) (ket : Vec R) : Except PyErr R :=
  (propagateState tiny th ci U doFolding doUnsafe ops ket).map (dot ci.idx2det.length bra)

/-! ### Matrices -/

/-- A two-dimensional array. -/
abbrev Mat (R : Type _) := ℕ → ℕ → R

/-- Body of the loop of `add_operator_matrix`, lines 264-278. -/
def matrixStep (ci : CIInfo) (par : List ℕ) (doUnsafe : Bool)
    (aString : List ℕ) (createMask anniMask : ℕ) (factor : R) (M : Mat R) (p : ℕ × ℕ) :
    Res (Mat R) :=
  if p.1 &&& anniMask ≠ anniMask then .ok M
  else if p.1 &&& createMask ≠ 0 then .ok M
  else
    let r := flips (2 * ci.nA - 1) par aString p.1
    deliver ci doUnsafe r.1 M fun j =>
      Function.update M j (Function.update (M j) p.2 (M j p.2 + signOf r.2 * factor))

/-- `build_operator_matrix`, lines 413-469, with `add_operator_matrix`, lines 222-279. -/
def buildMatrix (ci : CIInfo) (doUnsafe : Bool) (A : Dict R) : Res (Mat R) :=
  A.foldlM (fun M kv =>
    let anni := anniIdx kv.1
    let create := createIdx kv.1
    let screen := create.filter fun i => !anni.contains i
    ci.idx2det.zipIdx.foldlM (matrixStep ci (parityCheck ci.nA) doUnsafe (anni ++ create)
      (maskOf (2 * ci.nA - 1) screen) (maskOf (2 * ci.nA - 1) anni) kv.2) M) (fun _ _ => 0)

/-! ### State-averaged versions -/

/-- Body of the loop of `apply_operator_SA_serial`, lines 326-347; the first index of `state` and
`tmp` is the state, `big x` is `abs(x) > 10**-28`. -/
def serialStepSA (big : R → Bool) (ci : CIInfo) (par : List ℕ) (doUnsafe : Bool) (nS : ℕ)
    (state : Mat R) (aString : List ℕ) (createMask anniMask : ℕ) (factor : R) (tmp : Mat R)
    (p : ℕ × ℕ) : Res (Mat R) :=
  if p.1 &&& anniMask ≠ anniMask then .ok tmp
  else if p.1 &&& createMask ≠ 0 then .ok tmp
  else if !(List.range nS).any fun a => big (state a p.2) then .ok tmp
  else
    let r := flips (2 * ci.nA - 1) par aString p.1
    deliver ci doUnsafe r.1 tmp fun j a =>
      Function.update (tmp a) j (tmp a j + signOf r.2 * factor * state a p.2)

/-- `apply_operator_SA_serial`, lines 282-348, with its call site, lines 747-779. -/
def applySerialSA (big : R → Bool) (ci : CIInfo) (doUnsafe : Bool) (nS : ℕ) (state : Mat R) (s : Str)
    (factor : R) (tmp : Mat R) : Res (Mat R) :=
  let anni := anniIdx s
  let create := createIdx s
  let screen := create.filter fun i => !anni.contains i
  ci.idx2det.zipIdx.foldlM (serialStepSA big ci (parityCheck ci.nA) doUnsafe nS state
    (anni ++ create) (maskOf (2 * ci.nA - 1) screen) (maskOf (2 * ci.nA - 1) anni) factor) tmp

/-- Body of the loop of `apply_operator_SA_threaded`, lines 395-409. -/
def threadedStepSA (ci : CIInfo) (par : List ℕ) (doUnsafe : Bool) (state : Mat R)
    (aString : List ℕ) (createMask anniMask : ℕ) (factor : R) (tmp : Mat R) (i : ℕ) :
    Res (Mat R) :=
  match ci.idx2det[i]? with
  | none => .error .indexError
  | some det =>
    if det &&& createMask ≠ createMask then .ok tmp
    else if det &&& anniMask ≠ 0 then .ok tmp
    else
      let r := flips (2 * ci.nA - 1) par aString det
      deliver ci doUnsafe r.1 tmp fun j a =>
        Function.update (tmp a) i (tmp a i + signOf r.2 * factor * state a j)

/-- `apply_operator_SA_threaded`, lines 351-410, with its call site, lines 714-745. -/
def applyThreadedSA (ci : CIInfo) (doUnsafe : Bool) (order : List ℕ) (state : Mat R) (s : Str)
    (factor : R) (tmp : Mat R) : Res (Mat R) :=
  let anni := anniIdx s
  let create := createIdx s
  let screen := anni.filter fun i => !create.contains i
  order.foldlM (threadedStepSA ci (parityCheck ci.nA) doUnsafe state (create ++ anni)
    (maskOf (2 * ci.nA - 1) create) (maskOf (2 * ci.nA - 1) screen) factor) tmp

/-- The loop over the strings of one operator, lines 705-780. -/
def applyOpSA (big : R → Bool) (th : Threads) (ci : CIInfo) (doUnsafe : Bool) (nS : ℕ)
    (state : Mat R) (A : Dict R) : Res (Mat R) :=
  match th with
  | .one => A.foldlM (fun tmp kv => applySerialSA big ci doUnsafe nS state kv.1 kv.2 tmp)
      (fun _ _ => 0)
  | .many sched =>
    A.foldlM (fun tmp kv => applyThreadedSA ci doUnsafe (sched kv.1) state kv.1 kv.2 tmp)
      (fun _ _ => 0)

/-- Body of the loop over `operators[::-1]`, lines 684-780. -/
def propStepSA (big : R → Bool) (th : Threads) (ci : CIInfo) (U : Bool → Mat R → Res (Mat R))
    (doFolding doUnsafe : Bool) (nS : ℕ) (state : Mat R) (op : StateOp R) : Res (Mat R) :=
  match op with
  | .name s => if s ≠ "U" ∧ s ≠ "Ud" then .error .valueError else U (s == "Ud") state
  | .op A =>
    applyOpSA big th ci doUnsafe nS state (if doFolding then getFolded ci.nI ci.nA ci.nV A else A)

/-- `propagate_state_SA`, lines 633-781. -/
def propagateStateSA (big : R → Bool) (th : Threads) (ci : CIInfo) (U : Bool → Mat R → Res (Mat R))
    (doFolding doUnsafe : Bool) (nS : ℕ) (ops : List (StateOp R)) (state : Mat R) : Res (Mat R) :=
  if ops.length = 0 then .ok state
  else ops.reverse.foldlM (propStepSA big th ci U doFolding doUnsafe nS) state

/-- `expectation_value_SA`, lines 827-867, for `nS` states (`0.0 / 0` raises). -/
def expectationValueSA {K : Type _} [Field K] (big : K → Bool) (th : Threads) (ci : CIInfo)
    (U : Bool → Mat K → Res (Mat K)) (doFolding : Bool) (nS : ℕ) (bra : Mat K)
    (ops : List (StateOp K)) (ket : Mat K) : Except PyErr K :=
  match propagateStateSA big th ci U doFolding false nS ops ket with
  | .error e => .error e
  | .ok v =>
    if nS = 0 then .error .zeroDivision
    else .ok ((List.range nS).foldl (fun val a => val + dot ci.idx2det.length (bra a) (v a)) 0 / nS)

end SQ
