import Verif.Model.FermionicOperator
import Mathlib.Algebra.Field.Defs

/-!
# Model of `slowquant/unitary_coupled_cluster/operators.py`

`tiny x` stands for `abs(x) < 10**-14` and `big x` for `abs(x) > 10**-14`.
-/

namespace SQ

section ring
variable {R : Type _} [CommRing R] (tiny : R → Bool)

/-- `a_op`, operators.py:8-24. -/
def aOp (p : ℕ) (spin : String) (dag : Bool) : Res (Dict R) :=
  if !(spin == "alpha" || spin == "beta") then .error .valueError
  else .ok [([(if spin == "beta" then 2 * p + 1 else 2 * p, dag)], 1)]

/-- `a_op_spin`, operators.py:27-37. -/
def aOpSpin (i : ℕ) (dag : Bool) : Dict R := [([(i, dag)], 1)]

/-- `Epq`, operators.py:40-58. -/
def Epq (p q : ℕ) : Res (Dict R) := do
  let E ← aOp p "alpha" true
  let a ← aOp q "alpha" false
  let E ← fmul tiny E a
  let tmp ← aOp p "beta" true
  let b ← aOp q "beta" false
  let tmp ← fmul tiny tmp b
  pure (fadd tiny E tmp)

/-- `epqrs`, operators.py:61-80. -/
def epqrs (p q r s : ℕ) : Res (Dict R) := do
  let op ← Epq tiny p q
  let e2 ← Epq tiny r s
  let op ← fmul tiny op e2
  if q = r then do
    let e3 ← Epq tiny p s
    pure (fsub tiny op e3)
  else pure op

/-- `Eminuspq`, operators.py:83-98. -/
def Eminuspq (p q : ℕ) : Res (Dict R) := do
  let op ← Epq tiny p q
  let e2 ← Epq tiny q p
  pure (fsub tiny op e2)

/-- `commutator`, operators.py:101-114. -/
def commutatorOp (A B : Dict R) : Res (Dict R) := do
  let ab ← fmul tiny A B
  let ba ← fmul tiny B A
  pure (fsub tiny ab ba)

/-- `A * B * C` (left-associated). -/
def mul3 (A B C : Dict R) : Res (Dict R) := do
  let ab ← fmul tiny A B
  fmul tiny ab C

/-- `double_commutator` with `do_symmetrized=False`, operators.py:142. -/
def doubleCommutator (A B C : Dict R) : Res (Dict R) := do
  let t1 ← mul3 tiny A B C
  let t2 ← mul3 tiny A C B
  let t3 ← mul3 tiny B C A
  let t4 ← mul3 tiny C B A
  pure (fadd tiny (fsub tiny (fsub tiny t1 t2) t3) t4)

/-- The chain `op = a_op_spin(..); op *= a_op_spin(..); ...` of G1..G6, operators.py:158-357. -/
def gChain : List Lad → Res (Dict R)
  | [] => .ok []          -- not used by the code: every chain has a first operator
  | o :: os => os.foldlM (fun op o => fmul tiny op (aOpSpin o.1 o.2)) (aOpSpin o.1 o.2)

/-- `if return_anti_hermitian: op -= op.dagger`. -/
def antiH (ah : Bool) (op : Dict R) : Res (Dict R) :=
  if ah then do
    let d ← fdagger tiny op
    pure (fsub tiny op d)
  else pure op

/-- `G1`, operators.py:145-163. -/
def G1 (i a : ℕ) (ah : Bool) : Res (Dict R) := do
  antiH tiny ah (← gChain tiny [(a, true), (i, false)])

/-- `G2`, operators.py:166-189. -/
def G2 (i j a b : ℕ) (ah : Bool) : Res (Dict R) := do
  antiH tiny ah (← gChain tiny [(a, true), (b, true), (j, false), (i, false)])

/-- `G3`, operators.py:191-219. -/
def G3 (i j k a b c : ℕ) (ah : Bool) : Res (Dict R) := do
  antiH tiny ah (← gChain tiny
    [(a, true), (b, true), (c, true), (k, false), (j, false), (i, false)])

/-- `G4`, operators.py:222-254. -/
def G4 (i j k l a b c d : ℕ) (ah : Bool) : Res (Dict R) := do
  antiH tiny ah (← gChain tiny
    [(a, true), (b, true), (c, true), (d, true), (l, false), (k, false), (j, false), (i, false)])

/-- `G5`, operators.py:257-303. -/
def G5 (i j k l m a b c d e : ℕ) (ah : Bool) : Res (Dict R) := do
  antiH tiny ah (← gChain tiny
    [(a, true), (b, true), (c, true), (d, true), (e, true),
     (m, false), (l, false), (k, false), (j, false), (i, false)])

/-- `G6`, operators.py:306-359. -/
def G6 (i j k l m n a b c d e f : ℕ) (ah : Bool) : Res (Dict R) := do
  antiH tiny ah (← gChain tiny
    [(a, true), (b, true), (c, true), (d, true), (e, true), (f, true),
     (n, false), (m, false), (l, false), (k, false), (j, false), (i, false)])

/-- `G1_sa`, operators.py:362-379; `c` is `2 ** (-1/2)`. -/
def G1sa (c : R) (i a : ℕ) (ah : Bool) : Res (Dict R) := do
  let e ← Epq tiny a i
  antiH tiny ah (frmul c e)

/-- `G2_sa`, operators.py:382-443; `isqrt k` is `k ** (-1/2)`, `half` is `1/2`, and `c5` is
`1 / (2 * 3 ** (1/2))`. -/
def G2sa (half c5 : R) (isqrt : ℕ → R) (i j a b case : ℕ) (ah : Bool) : Res (Dict R) := do
  let op ←
    if case = 1 ∨ case = 2 ∨ case = 3 ∨ case = 4 then do
      let fac := (if a = b then 2 else 1) * (if i = j then 2 else 1)
      let eai ← Epq tiny a i
      let ebj ← Epq tiny b j
      let t1 ← fmul tiny eai ebj
      let eaj ← Epq tiny a j
      let ebi ← Epq tiny b i
      let t2 ← fmul tiny eaj ebi
      pure (frmul (half * isqrt fac) (fadd tiny t1 t2))
    else if case = 5 then do
      let eai ← Epq tiny a i
      let ebj ← Epq tiny b j
      let t1 ← fmul tiny eai ebj
      let eaj ← Epq tiny a j
      let ebi ← Epq tiny b i
      let t2 ← fmul tiny eaj ebi
      pure (frmul c5 (fsub tiny t1 t2))
    else .error .valueError
  antiH tiny ah op

end ring

section field
variable {K : Type _} [Field K] (tiny big : K → Bool)

/-- `double_commutator` with `do_symmetrized=True`, operators.py:140-141. -/
def doubleCommutatorSym (A B C : Dict K) : Res (Dict K) := do
  let t1 ← mul3 tiny A B C
  let t2 ← mul3 tiny C B A
  let u1 ← mul3 tiny A C B
  let u2 ← mul3 tiny B C A
  let u3 ← mul3 tiny C A B
  let u4 ← mul3 tiny B A C
  pure (fsub tiny (fadd tiny t1 t2)
    (frmul (1 / 2) (fadd tiny (fadd tiny (fadd tiny u1 u2) u3) u4)))

/-- `H += c * Epq(p, q)`. -/
def addE (H : Dict K) (c : K) (p q : ℕ) : Res (Dict K) := do
  let e ← Epq tiny p q
  pure (fadd tiny H (frmul c e))

/-- `H += 1/2 * g * epqrs(p, q, r, s)`. -/
def addEE (H : Dict K) (g : K) (p q r s : ℕ) : Res (Dict K) := do
  let e ← epqrs tiny p q r s
  pure (fadd tiny H (frmul (1 / 2 * g) e))

/-- `if abs(c) > 10**-14: H += c * Epq(p, q)`. -/
def addEif (H : Dict K) (c : K) (p q : ℕ) : Res (Dict K) :=
  if big c then addE tiny H c p q else pure H

/-- `if abs(g) > 10**-14: H += 1/2 * g * epqrs(p, q, r, s)`. -/
def addEEif (H : Dict K) (g : K) (p q r s : ℕ) : Res (Dict K) :=
  if big g then addEE tiny H g p q r s else pure H

/-- `hamiltonian_full_space`, operators.py:446-473. -/
def hamiltonianFull (h : ℕ → ℕ → K) (g : ℕ → ℕ → ℕ → ℕ → K) (n : ℕ) : Res (Dict K) := do
  let H ← (List.range n).foldlM (fun H p => (List.range n).foldlM (fun H q =>
    if tiny (h p q) then pure H else addE tiny H (h p q) p q) H) []
  (List.range n).foldlM (fun H p => (List.range n).foldlM (fun H q =>
    (List.range n).foldlM (fun H r => (List.range n).foldlM (fun H s =>
      if tiny (g p q r s) then pure H else addEE tiny H (g p q r s) p q r s) H) H) H) H

/-- `range(a, a + m)`. -/
def rangeFrom (a m : ℕ) : List ℕ := (List.range m).map (a + ·)

/-- `hamiltonian_0i_0a`, operators.py:476-529. -/
def hamiltonian0i0a (h : ℕ → ℕ → K) (g : ℕ → ℕ → ℕ → ℕ → K) (nI nA : ℕ) : Res (Dict K) := do
  let inact := List.range nI
  let act := rangeFrom nI nA
  -- Inactive one-electron
  let H ← inact.foldlM (fun H i => addEif tiny big H (h i i) i i) []
  -- Active one-electron
  let H ← act.foldlM (fun H p => act.foldlM (fun H q =>
    addEif tiny big H (h p q) p q) H) H
  -- Inactive two-electron
  let H ← inact.foldlM (fun H i => inact.foldlM (fun H j => do
    let H ← addEEif tiny big H (g i i j j) i i j j
    if i ≠ j ∧ big (g j i i j) = true then addEE tiny H (g j i i j) j i i j else pure H) H) H
  -- Inactive-Active two-electron
  let H ← inact.foldlM (fun H i => act.foldlM (fun H p => act.foldlM (fun H q => do
    let H ← addEEif tiny big H (g i i p q) i i p q
    let H ← addEEif tiny big H (g p q i i) p q i i
    let H ← addEEif tiny big H (g p i i q) p i i q
    addEEif tiny big H (g i p q i) i p q i) H) H) H
  -- Active two-electron
  act.foldlM (fun H p => act.foldlM (fun H q => act.foldlM (fun H r => act.foldlM (fun H s =>
    addEEif tiny big H (g p q r s) p q r s) H) H) H) H

/-- `one_elec_op_full_space`, operators.py:666-684. -/
def oneElecFull (h : ℕ → ℕ → K) (n : ℕ) : Res (Dict K) :=
  (List.range n).foldlM (fun H p => (List.range n).foldlM (fun H q =>
    addEif tiny big H (h p q) p q) H) []

/-- `one_elec_op_0i_0a`, operators.py:687-708. -/
def oneElec0i0a (h : ℕ → ℕ → K) (nI nA : ℕ) : Res (Dict K) := do
  let H ← (List.range nI).foldlM (fun H i =>
    addEif tiny big H (h i i) i i) []
  (rangeFrom nI nA).foldlM (fun H p => (rangeFrom nI nA).foldlM (fun H q =>
    addEif tiny big H (h p q) p q) H) H

/-- Index test of the one-electron loops of the `1i_1a` operators, operators.py:562-565, 732-735:
`true` means the pair is skipped. -/
def skip1 (nI vs p q : ℕ) : Bool :=
  (decide (p ≥ vs) && decide (q ≥ vs)) || (decide (p < nI) && decide (q < nI) && decide (p ≠ q))

/-- `num_virt`, operators.py:572-580. -/
def numVirt (vs p q r s : ℕ) : ℕ :=
  (if p ≥ vs then 1 else 0) + (if q ≥ vs then 1 else 0) + (if r ≥ vs then 1 else 0)
    + (if s ≥ vs then 1 else 0)

/-- `num_act`, operators.py:583-599 (can become negative). -/
def numAct (nI p q r s : ℕ) : ℤ :=
  (if p < nI then 1 else 0) + (if q < nI then 1 else 0) + (if r < nI then 1 else 0)
    + (if s < nI then 1 else 0)
    - (if p < nI ∧ q < nI ∧ p = q then 2 else 0) - (if r < nI ∧ s < nI ∧ r = s then 2 else 0)
    - (if p < nI ∧ s < nI ∧ p = s then 2 else 0) - (if q < nI ∧ r < nI ∧ q = r then 2 else 0)

/-- `hamiltonian_1i_1a`, operators.py:532-598. -/
def hamiltonian1i1a (h : ℕ → ℕ → K) (g : ℕ → ℕ → ℕ → ℕ → K) (nI nA nV : ℕ) : Res (Dict K) := do
  let n := nI + nA + nV
  let vs := nI + nA
  let H ← (List.range n).foldlM (fun H p => (List.range n).foldlM (fun H q =>
    if skip1 nI vs p q then pure H
    else addEif tiny big H (h p q) p q) H) []
  (List.range n).foldlM (fun H p => (List.range n).foldlM (fun H q =>
    (List.range n).foldlM (fun H r => (List.range n).foldlM (fun H s =>
      if numVirt vs p q r s > 1 then pure H
      else if numAct nI p q r s > 1 then pure H
      else addEEif tiny big H (g p q r s) p q r s) H) H) H) H

/-- `hamiltonian_2i_2a`, operators.py:601-663. -/
def hamiltonian2i2a (h : ℕ → ℕ → K) (g : ℕ → ℕ → ℕ → ℕ → K) (nI nA nV : ℕ) : Res (Dict K) := do
  let n := nI + nA + nV
  let vs := nI + nA
  let H ← (List.range n).foldlM (fun H p => (List.range n).foldlM (fun H q =>
    addEif tiny big H (h p q) p q) H) []
  (List.range n).foldlM (fun H p => (List.range n).foldlM (fun H q =>
    (List.range n).foldlM (fun H r => (List.range n).foldlM (fun H s =>
      if numVirt vs p q r s > 2 then pure H
      else if numAct nI p q r s > 2 then pure H
      else addEEif tiny big H (g p q r s) p q r s) H) H) H) H

/-- `one_elec_op_1i_1a`, operators.py:711-741. -/
def oneElec1i1a (h : ℕ → ℕ → K) (nI nA nV : ℕ) : Res (Dict K) :=
  let n := nI + nA + nV
  let vs := nI + nA
  (List.range n).foldlM (fun H p => (List.range n).foldlM (fun H q =>
    if skip1 nI vs p q then pure H
    else addEif tiny big H (h p q) p q) H) []

end field

end SQ
