import Verif.Model.FermionicOperator

/-!
# Model of `FermionicOperator.get_folded_operator`
(`slowquant/unitary_coupled_cluster/fermionic_operator.py:379-471`)
-/

namespace SQ

/-- The six lists a key is sorted into, lines 424-430. -/
structure FoldLists where
  virt : List ℕ := []
  virtD : List ℕ := []
  inact : List ℕ := []
  inactD : List ℕ := []
  act : Str := []
  actD : Str := []

/-- Body of the loop over one key, lines 432-447. `inactive_idx`, `active_idx`, `virtual_idx`
(lines 411-420) are the ranges `[0,2nI)`, `[2nI,2nI+2nA)`, `[2nI+2nA,2nI+2nA+2nV)`; an index outside
all of them is ignored. -/
def foldSort (nI nA nV : ℕ) (L : FoldLists) (o : Lad) : FoldLists :=
  if o.2 then
    if o.1 < 2 * nI then { L with inactD := L.inactD ++ [o.1] }
    else if o.1 < 2 * nI + 2 * nA then { L with actD := L.actD ++ [(o.1 - 2 * nI, o.2)] }
    else if o.1 < 2 * nI + 2 * nA + 2 * nV then { L with virtD := L.virtD ++ [o.1] }
    else L
  else
    if o.1 < 2 * nI then { L with inact := L.inact ++ [o.1] }
    else if o.1 < 2 * nI + 2 * nA then { L with act := L.act ++ [(o.1 - 2 * nI, o.2)] }
    else if o.1 < 2 * nI + 2 * nA + 2 * nV then { L with virt := L.virt ++ [o.1] }
    else L

/-- `ket_flip_fac`, lines 459-464. -/
def ketFlip (k : ℕ) : ℤ :=
  (List.range k).foldl (fun f i => if (i + 1) % 2 = 0 then f * (-1) else f) 1

/-- One key: `none` when it is skipped (`continue`, lines 449 and 455), otherwise the new key and the
sign, lines 448-465. -/
def foldKey (nI nA nV : ℕ) (s : Str) : Option (Str × ℤ) :=
  let L := s.foldl (foldSort nI nA nV) {}
  if L.virt.length ≠ 0 ∨ L.virtD.length ≠ 0 then none
  else if L.inactD ≠ L.inact then none
  else
    let fac : ℤ := if L.inactD.length % 2 = 1 ∧ L.actD.length % 2 = 1 then -1 else 1
    some (L.actD ++ L.act, fac * ketFlip L.inact.length)

variable {R : Type _} [CommRing R]

/-- `if new_key in d: d[new_key] += v else: d[new_key] = v`, lines 467-470 (no deletion). -/
def accTo (d : Dict R) (k : Str) (v : R) : Dict R :=
  match d with
  | [] => [(k, v)]
  | (k', v') :: t => if k' = k then (k', v' + v) :: t else (k', v') :: accTo t k v

/-- Body of the loop over keys, lines 423-470. -/
def foldStep (nI nA nV : ℕ) (d : Dict R) (kv : Str × R) : Dict R :=
  match foldKey nI nA nV kv.1 with
  | none => d
  | some (k, fac) => accTo d k ((fac : R) * kv.2)

/-- `get_folded_operator`, lines 379-471. -/
def getFolded (nI nA nV : ℕ) (A : Dict R) : Dict R := A.foldl (foldStep nI nA nV) []

end SQ
