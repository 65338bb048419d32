import Verif.Model.CircuitWave

/-!
# Model: three- and four-electron density matrices

`rdm3` and `rdm4`: unitary_coupled_cluster/ups_wavefunction.py 478-754, ucc_wavefunction.py 408-684,
qiskit_interface/circuit_wavefunction.py 460-742. The loops, the subtracted terms and the writes are the same text in the
three files; only the expectation value differs.

Simplifications: an element `[p, q, r, s, …]` of an array with 6 or 8 indices is indexed by the list of its pairs
`[(p, q), (r, s), …]`; the caching is left out (C39); `rdm3` and `rdm4` read the finished lower density matrices.
-/

namespace SQ

/-- An array with an even number of indices. -/
abbrev ArrN := List (ℕ × ℕ) → ℝ

/-- `a[i] = v`. -/
def setN (a : ArrN) (i : List (ℕ × ℕ)) (v : ℝ) : ArrN := fun j => if j = i then v else a j

/-- The six index orders written in `rdm3` (ups 524-535, ucc 454-465, circuit 507-518). -/
def rdm3Orders (a b c : ℕ × ℕ) : List (List (ℕ × ℕ)) :=
  [[a, b, c], [a, c, b], [b, a, c], [b, c, a], [c, a, b], [c, b, a]]

/-- The 24 index orders written in `rdm4` (ups 610-753, ucc 540-683, circuit 598-741). -/
def rdm4Orders (a b c d : ℕ × ℕ) : List (List (ℕ × ℕ)) :=
  [[a, b, c, d], [a, b, d, c], [a, c, b, d], [a, c, d, b], [a, d, b, c], [a, d, c, b],
   [b, a, c, d], [b, a, d, c], [b, c, a, d], [b, c, d, a], [b, d, a, c], [b, d, c, a],
   [c, a, b, d], [c, a, d, b], [c, b, a, d], [c, b, d, a], [c, d, a, b], [c, d, b, a],
   [d, a, b, c], [d, a, c, b], [d, b, a, c], [d, b, c, a], [d, c, a, b], [d, c, b, a]]

/-- The writes of one iteration of `rdm3`: the orders of the pairs, then the same orders with each pair reversed. -/
def rdm3Writes (p q r s t u : ℕ) : List (List (ℕ × ℕ)) :=
  rdm3Orders (p, q) (r, s) (t, u) ++ rdm3Orders (q, p) (s, r) (u, t)

/-- The writes of one iteration of `rdm4`. -/
def rdm4Writes (p q r s t u m n : ℕ) : List (List (ℕ × ℕ)) :=
  rdm4Orders (p, q) (r, s) (t, u) (m, n) ++ rdm4Orders (q, p) (s, r) (u, t) (n, m)

/-- `range(nI, x + 1)`. -/
def upTo (nI x : ℕ) : List ℕ := rangeFrom nI (x + 1 - nI)

/-- The iterations of the loops of `rdm3` in order. -/
def rdm3Iter (nI nA : ℕ) : List (ℕ × ℕ × ℕ × ℕ × ℕ × ℕ) :=
  (rangeFrom nI nA).flatMap fun p => (upTo nI p).flatMap fun q => (upTo nI p).flatMap fun r =>
    (upTo nI p).flatMap fun s => (upTo nI r).flatMap fun t => (upTo nI p).map fun u => (p, q, r, s, t, u)

/-- The iterations of the loops of `rdm4` in order. -/
def rdm4Iter (nI nA : ℕ) : List (ℕ × ℕ × ℕ × ℕ × ℕ × ℕ × ℕ × ℕ) :=
  (rangeFrom nI nA).flatMap fun p => (upTo nI p).flatMap fun q => (upTo nI p).flatMap fun r =>
    (upTo nI p).flatMap fun s => (upTo nI r).flatMap fun t => (upTo nI p).flatMap fun u =>
      (upTo nI t).flatMap fun m => (upTo nI p).map fun n => (p, q, r, s, t, u, m, n)

/-- `if b: val -= x`. -/
noncomputable def subIf (b : Prop) [Decidable b] (x val : ℝ) : ℝ := if b then val - x else val

/-- The value written by `rdm3`, from the expectation value `val` (ups 516-523, ucc 446-453, circuit 499-506). The
indices are active (`p_idx` …); the program compares `p` …, which are all larger by the number of inactive orbitals. -/
noncomputable def rdm3Val (d1 : Mat ℝ) (d2 : Arr4) (p q r s t u : ℕ) (val : ℝ) : ℝ :=
  let val := subIf (t = s) (d2 p q r u) val
  let val := subIf (r = q) (d2 p s t u) val
  let val := subIf (t = q) (d2 p u r s) val
  subIf (t = s ∧ r = q) (d1 p u) val

/-- The value written by `rdm4` (ups 582-609, ucc 512-539, circuit 570-597). -/
noncomputable def rdm4Val (d1 : Mat ℝ) (d2 : Arr4) (d3 : ArrN) (p q r s t u m n : ℕ) (val : ℝ) : ℝ :=
  let val := subIf (r = q) (d3 [(p, s), (t, u), (m, n)]) val
  let val := subIf (t = q) (d3 [(p, u), (r, s), (m, n)]) val
  let val := subIf (m = q) (d3 [(p, n), (r, s), (t, u)]) val
  let val := subIf (m = u) (d3 [(p, q), (r, s), (t, n)]) val
  let val := subIf (t = s) (d3 [(p, q), (r, u), (m, n)]) val
  let val := subIf (m = s) (d3 [(p, q), (r, n), (t, u)]) val
  let val := subIf (m = u ∧ r = q) (d2 p s t n) val
  let val := subIf (m = u ∧ t = q) (d2 p n r s) val
  let val := subIf (t = s ∧ m = u) (d2 p q r n) val
  let val := subIf (t = s ∧ r = q) (d2 p u m n) val
  let val := subIf (t = s ∧ m = q) (d2 p n r u) val
  let val := subIf (m = s ∧ r = q) (d2 p n t u) val
  let val := subIf (m = s ∧ t = q) (d2 p u r n) val
  subIf (m = u ∧ t = s ∧ r = q) (d1 p n) val

/-- One iteration of `rdm3`. -/
noncomputable def rdm3Step (ev : List (ℕ × ℕ) → Res ℝ) (d1 : Mat ℝ) (d2 : Arr4) (nI : ℕ) (a : ArrN)
    (x : ℕ × ℕ × ℕ × ℕ × ℕ × ℕ) : Res ArrN := do
  let (p, q, r, s, t, u) := x
  let val ← ev [(p, q), (r, s), (t, u)]
  let val := rdm3Val d1 d2 (p - nI) (q - nI) (r - nI) (s - nI) (t - nI) (u - nI) val
  pure ((rdm3Writes (p - nI) (q - nI) (r - nI) (s - nI) (t - nI) (u - nI)).foldl (fun a i => setN a i val) a)

/-- `rdm3` with `ev [(p, q), (r, s), (t, u)]` the expectation value of `E_pq E_rs E_tu` computed in the loop. -/
noncomputable def rdm3Loop (ev : List (ℕ × ℕ) → Res ℝ) (d1 : Mat ℝ) (d2 : Arr4) (nI nA : ℕ) : Res ArrN :=
  (rdm3Iter nI nA).foldlM (rdm3Step ev d1 d2 nI) fun _ => 0

/-- One iteration of `rdm4`. -/
noncomputable def rdm4Step (ev : List (ℕ × ℕ) → Res ℝ) (d1 : Mat ℝ) (d2 : Arr4) (d3 : ArrN) (nI : ℕ) (a : ArrN)
    (x : ℕ × ℕ × ℕ × ℕ × ℕ × ℕ × ℕ × ℕ) : Res ArrN := do
  let (p, q, r, s, t, u, m, n) := x
  let val ← ev [(p, q), (r, s), (t, u), (m, n)]
  let val := rdm4Val d1 d2 d3 (p - nI) (q - nI) (r - nI) (s - nI) (t - nI) (u - nI) (m - nI) (n - nI) val
  pure ((rdm4Writes (p - nI) (q - nI) (r - nI) (s - nI) (t - nI) (u - nI) (m - nI) (n - nI)).foldl
    (fun a i => setN a i val) a)

/-- `rdm4`. -/
noncomputable def rdm4Loop (ev : List (ℕ × ℕ) → Res ℝ) (d1 : Mat ℝ) (d2 : Arr4) (d3 : ArrN) (nI nA : ℕ) :
    Res ArrN :=
  (rdm4Iter nI nA).foldlM (rdm4Step ev d1 d2 d3 nI) fun _ => 0

section
variable (tiny : ℝ → Bool)

/-- `expectation_value(c, [Epq(p, q), Epq(r, s), …], c, ci_info)` (ups 510-515 and 576-581, ucc 440-445 and 506-511). -/
noncomputable def evList (th : Threads) (ci : CIInfo) (c : Vec ℝ) (l : List (ℕ × ℕ)) : Res ℝ := do
  let ops ← l.mapM fun x => Epq tiny x.1 x.2
  expectationValue tiny th ci (fun _ _ => .error .valueError) true false c (ops.map StateOp.op) c

/-- `quantum_expectation_value((Epq(p, q) * Epq(r, s) * …).get_folded_operator(…))` (circuit 495-498 and 562-569);
Python multiplies from the left. -/
noncomputable def circList (qev : Dict ℝ → Res ℝ) (ci : CIInfo) : List (ℕ × ℕ) → Res ℝ
  | [] => .error .typeError
  | x :: l => do
    let A ← Epq tiny x.1 x.2
    let P ← l.foldlM (fun P y => do
      let B ← Epq tiny y.1 y.2
      fmul tiny P B) A
    qexp qev ci P

/-- `WaveFunctionUPS.rdm3`. -/
noncomputable def upsRdm3 (th : Threads) (ci : CIInfo) (c : Vec ℝ) : Res ArrN := do
  let d1 ← upsRdm1 tiny th ci c
  let d2 ← upsRdm2 tiny th ci c
  rdm3Loop (evList tiny th ci c) d1 d2 ci.nI ci.nA

/-- `WaveFunctionUPS.rdm4`. -/
noncomputable def upsRdm4 (th : Threads) (ci : CIInfo) (c : Vec ℝ) : Res ArrN := do
  let d1 ← upsRdm1 tiny th ci c
  let d2 ← upsRdm2 tiny th ci c
  let d3 ← upsRdm3 tiny th ci c
  rdm4Loop (evList tiny th ci c) d1 d2 d3 ci.nI ci.nA

/-- `WaveFunctionUCC.rdm3`. -/
noncomputable def uccRdm3 (th : Threads) (ci : CIInfo) (c : Vec ℝ) : Res ArrN := do
  let d1 ← upsRdm1 tiny th ci c
  let d2 ← uccRdm2 tiny th ci c
  rdm3Loop (evList tiny th ci c) d1 d2 ci.nI ci.nA

/-- `WaveFunctionUCC.rdm4`. -/
noncomputable def uccRdm4 (th : Threads) (ci : CIInfo) (c : Vec ℝ) : Res ArrN := do
  let d1 ← upsRdm1 tiny th ci c
  let d2 ← uccRdm2 tiny th ci c
  let d3 ← uccRdm3 tiny th ci c
  rdm4Loop (evList tiny th ci c) d1 d2 d3 ci.nI ci.nA

/-- `WaveFunctionCircuit.rdm3`. -/
noncomputable def circRdm3 (qev : Dict ℝ → Res ℝ) (ci : CIInfo) : Res ArrN := do
  let d1 ← circRdm1 tiny qev ci
  let d2 ← circRdm2 tiny qev ci
  rdm3Loop (circList tiny qev ci) d1 d2 ci.nI ci.nA

/-- `WaveFunctionCircuit.rdm4`. -/
noncomputable def circRdm4 (qev : Dict ℝ → Res ℝ) (ci : CIInfo) : Res ArrN := do
  let d1 ← circRdm1 tiny qev ci
  let d2 ← circRdm2 tiny qev ci
  let d3 ← circRdm3 tiny qev ci
  rdm4Loop (circList tiny qev ci) d1 d2 d3 ci.nI ci.nA

end

end SQ
