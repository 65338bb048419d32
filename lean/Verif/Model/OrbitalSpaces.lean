import Verif.Model.CISpaces
import Mathlib.Data.List.Basic
import Mathlib.Data.List.Dedup
import Mathlib.Data.Int.Notation

/-!
# Model of the orbital spaces set up by the wave function classes
(`slowquant/unitary_coupled_cluster/ups_wavefunction.py:60-202`)

The same statements stand in `ucc_wavefunction.py`, `sa_ups_wavefunction.py`,
`qiskit_interface/circuit_wavefunction.py` and `sa_circuit_wavefunction.py` (the check for an even number of
active electrons only in the UPS classes; the `SA` classes have `kappa_idx_dagger` instead of the two
`kappa_no_activeactive` lists).
Simplifications: numbers of orbitals, electrons and the two entries of `cas` are natural numbers; index
arrays are lists; loops that append are filters of the ranges they run over.
-/

namespace SQ

/-- `range(a, b)` over the integers. -/
def pyRangeZ (a b : ℤ) : List ℤ := (List.range (b - a).toNat).map fun k : ℕ => a + (k : ℤ)

/-- `active_space`, lines 93-100. -/
def activeSpace (numElec cas0 cas1 : ℕ) : List ℤ :=
  let first := pyRangeZ ((numElec : ℤ) - cas0) numElec
  first ++ pyRangeZ numElec ((numElec : ℤ) + 2 * cas1 - first.length)

/-- `for idx in l: if idx // 2 not in out: out.append(idx // 2)`, lines 129-143. -/
def spatial (l : List ℕ) : List ℕ :=
  l.foldl (fun out idx => if idx / 2 ∈ out then out else out ++ [idx / 2]) []

/-- `np.min` of a list. -/
def npMin : List ℕ → ℕ
  | [] => 0
  | a :: l => l.foldl min a

/-- The shifted list, lines 145-160: nothing is appended when there are no active orbitals. -/
def shifted (act l : List ℕ) : List ℕ := if act.length = 0 then [] else l.map (· - npMin act)

/-- The attributes set in lines 60-202. -/
structure Spaces where
  inactiveSpin : List ℕ
  activeSpin : List ℕ
  virtualSpin : List ℕ
  activeOccSpin : List ℕ
  activeUnoccSpin : List ℕ
  inactive : List ℕ
  active : List ℕ
  virt : List ℕ
  activeOcc : List ℕ
  activeUnocc : List ℕ
  activeSpinShifted : List ℕ
  activeOccSpinShifted : List ℕ
  activeUnoccSpinShifted : List ℕ
  activeShifted : List ℕ
  activeOccShifted : List ℕ
  activeUnoccShifted : List ℕ
  numActiveElec : ℕ
  numInactiveOrbs : ℕ
  numActiveOrbs : ℕ
  numVirtualOrbs : ℕ

/-- Lines 90-160 (the `range(num_elec, num_spin_orbs)` is written from its start). -/
def mkSpaces (numOrbs numElec cas0 cas1 : ℕ) : Spaces :=
  let act := activeSpace numElec cas0 cas1
  let isAct := fun i : ℕ => decide ((i : ℤ) ∈ act)
  let low := List.range numElec
  let high := (List.range (2 * numOrbs - numElec)).map (numElec + ·)
  let activeOccSpin := low.filter isAct
  let activeUnoccSpin := high.filter isAct
  let inactiveSpin := low.filter fun i => !isAct i
  let virtualSpin := high.filter fun i => !isAct i
  let activeSpin := activeOccSpin ++ activeUnoccSpin
  let active := spatial activeSpin
  let activeOcc := spatial activeOccSpin
  let activeUnocc := spatial activeUnoccSpin
  { inactiveSpin, activeSpin, virtualSpin, activeOccSpin, activeUnoccSpin
    inactive := spatial inactiveSpin
    active
    virt := spatial virtualSpin
    activeOcc, activeUnocc
    activeSpinShifted := shifted activeSpin activeSpin
    activeOccSpinShifted := shifted activeSpin activeOccSpin
    activeUnoccSpinShifted := shifted activeSpin activeUnoccSpin
    activeShifted := shifted active active
    activeOccShifted := shifted active activeOcc
    activeUnoccShifted := shifted active activeUnocc
    numActiveElec := activeOccSpin.length
    numInactiveOrbs := inactiveSpin.length / 2
    numActiveOrbs := activeSpin.length / 2
    numVirtualOrbs := virtualSpin.length / 2 }

/-- The spaces of the UPS classes, with lines 60-61 and 117-118. -/
def upsSpaces (numOrbs numElec : ℕ) (cas : List ℕ) : Res Spaces :=
  match cas with
  | [c0, c1] =>
    let s := mkSpaces numOrbs numElec c0 c1
    if s.numActiveElec % 2 ≠ 0 then .error .valueError else .ok s
  | _ => .error .valueError

/-- All `p < q` in the order of the two loops of lines 171-172. -/
def orbitalPairs (n : ℕ) : List (ℕ × ℕ) :=
  (List.range n).flatMap fun p => ((List.range (n - (p + 1))).map (p + 1 + ·)).map fun q => (p, q)

/-- The index lists of lines 162-202. -/
structure KappaLists where
  kappa : List (ℕ × ℕ)
  noActiveActive : List (ℕ × ℕ)
  noActiveActiveDagger : List (ℕ × ℕ)
  redundant : List (ℕ × ℕ)

/-- One iteration of lines 173-190. -/
def kappaStep (s : Spaces) (includeActive : Bool) (k : KappaLists) (pq : ℕ × ℕ) : KappaLists :=
  if pq.1 ∈ s.inactive ∧ pq.2 ∈ s.inactive then { k with redundant := k.redundant ++ [pq] }
  else if pq.1 ∈ s.virt ∧ pq.2 ∈ s.virt then { k with redundant := k.redundant ++ [pq] }
  else if includeActive = false ∧ (pq.1 ∈ s.active ∧ pq.2 ∈ s.active) then
    { k with redundant := k.redundant ++ [pq] }
  else
    let k := if ¬ (pq.1 ∈ s.active ∧ pq.2 ∈ s.active) then
      { k with noActiveActive := k.noActiveActive ++ [pq]
               noActiveActiveDagger := k.noActiveActiveDagger ++ [(pq.2, pq.1)] } else k
    { k with kappa := k.kappa ++ [pq] }

/-- Lines 162-190; `_kappa` and `_kappa_old` become lists of as many zeros as `kappa_idx` is long. -/
def kappaLists (s : Spaces) (numOrbs : ℕ) (includeActive : Bool) : KappaLists :=
  (orbitalPairs numOrbs).foldl (kappaStep s includeActive) ⟨[], [], [], []⟩

/-- `kappa_hf_like_idx`, lines 191-200. -/
def kappaHfLike (s : Spaces) (numOrbs : ℕ) : List (ℕ × ℕ) :=
  (orbitalPairs numOrbs).filter fun pq =>
    if pq.1 ∈ s.inactive ∧ pq.2 ∈ s.virt then true
    else if pq.1 ∈ s.inactive ∧ pq.2 ∈ s.activeUnocc then true
    else if pq.1 ∈ s.activeOcc ∧ pq.2 ∈ s.virt then true
    else false

/-- The loop of lines 226-243 with `fuel` iterations; the determinant as a list of bits. -/
def ppLoop (n : ℕ) : ℕ → ℕ → ℕ → List Bool → Res (List Bool)
  | 0, spinOrb, _, det => if spinOrb < n then .error .outOfFuel else .ok det
  | fuel + 1, spinOrb, elec, det =>
    if spinOrb < n then
      if elec ≥ 2 ∧ n - spinOrb ≥ 4 ∧ (elec : ℤ) ≤ (n : ℤ) - spinOrb - 2 then
        ppLoop n fuel (spinOrb + 4) (elec - 2) (det ++ [true, true, false, false])
      else if elec = 0 then ppLoop n fuel (spinOrb + 1) elec (det ++ [false])
      else ppLoop n fuel (spinOrb + 1) (elec - 1) (det ++ [true])
    else .ok det

/-- `pp_det`, lines 224-246, with the check of line 245. -/
def ppDet (numActiveSpinOrbs numActiveElec : ℕ) : Res (List Bool) := do
  let det ← ppLoop numActiveSpinOrbs numActiveSpinOrbs 0 numActiveElec []
  if det.length ≠ numActiveSpinOrbs ∨ det.count true ≠ numActiveElec then .error .valueError else .ok det

/-- `hf_det`, line 217. -/
def hfDet (numActiveSpinOrbs numActiveElec : ℕ) : List Bool :=
  List.replicate numActiveElec true ++ List.replicate (numActiveSpinOrbs - numActiveElec) false

/-- `int(det, 2)`. -/
def bitsToNat (det : List Bool) : ℕ := det.foldl (fun n b => 2 * n + if b then 1 else 0) 0

/-- `[i for i, (h, p) in enumerate(zip(hf_det, pp_det)) if h == x and p == y]`, lines 249-250. -/
def differ (hf pp : List Bool) (x y : Bool) : List ℕ :=
  ((hf.zip pp).zipIdx.filter fun t => t.1.1 = x ∧ t.1.2 = y).map Prod.snd

/-- `sorted(set(i // 2 + num_inactive_orbs for i in l))`, lines 251-252. -/
def sortedSpatial (nI : ℕ) (l : List ℕ) : List ℕ :=
  ((l.map fun i => i / 2 + nI).dedup).mergeSort (· ≤ ·)

/-- `a[:, dst] = a[:, src]`, line 254, on the columns `a`: numpy raises `ValueError` when the lists have
different lengths (and cannot be broadcast); of repeated targets the last one counts. -/
def assignColumns {α : Type _} (a : ℕ → α) (dst src : List ℕ) : Res (ℕ → α) :=
  if dst.length ≠ src.length then .error .valueError
  else .ok ((dst.zip src).foldl (fun b ds => fun c => if c = ds.1 then a ds.2 else b c) a)

/-- The swapped columns, lines 248-255. -/
def ppColumns {α : Type _} (nI : ℕ) (hf pp : List Bool) (mo : ℕ → α) : Res (ℕ → α) :=
  let hole := sortedSpatial nI (differ hf pp true false)
  let part := sortedSpatial nI (differ hf pp false true)
  assignColumns mo (hole ++ part) (part ++ hole)

/-- `csf_coeffs = zeros; csf_coeffs[det2idx[int(det, 2)]] = 1`, lines 214-215 and 258/261: the start vector;
`KeyError` when the determinant is not in the space (`int("", 2)` is a `ValueError`). -/
def reference {R : Type _} [Zero R] [One R] (ci : CIInfo) (det : List Bool) : Res (Vec R) :=
  if det = [] then .error .valueError
  else match ci.find (bitsToNat det) with
    | none => .error .keyError
    | some i => .ok (Function.update 0 i 1)

end SQ
