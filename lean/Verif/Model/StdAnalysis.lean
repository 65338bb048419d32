import Mathlib.LinearAlgebra.Matrix.Determinant.Basic
import Verif.Model.LinearResponse
import Verif.Model.Response

/-!
# Model: the analysis of deviations and of excited states

qiskit_interface/linear_response/lr_baseclass.py lines 149-303 (`_analyze_std`), 440-482
(`get_excited_state_contributions`) and 484-542 (`_get_std_trend`, `_get_CV_trend`), and the last lines of `run_std`
(naive.py:459-462, projected.py:483-486, allprojected.py:386-389).

Floats are reals; nan is `none`.  `np.argsort` is a parameter, what is assumed of it is in `Spec/StdAnalysis`.  Of what
is printed the positions of the largest values and the rows of the table of contributions are modelled; condition
numbers, averages over all entries, headers and the formatting of numbers are not.  The array of response vectors has
`2 * num_params` rows, which is how `get_excitation_energies` makes it.
-/

namespace SQ

/-- The averages of a matrix over its rows, for `A`, `B` and `Sigma`; `none` is nan. -/
structure RowAvgs (n : ℕ) where
  A : Fin n → Option ℝ
  B : Fin n → Option ℝ
  Sigma : Fin n → Option ℝ

/-- What the analysis uses of a response object: the matrices, `self.metric` (set together with `self.hessian` by
`get_excitation_energies`, lines 310-319; `none` before), `self.excitation_vectors` (the columns; lines 332-337), and
the attributes `_std_*_row` and `_CV_*_row`, which exist only after they were saved. -/
structure LRObj (q g : ℕ) where
  M : LRMats
  metric : Option (RMat ((q + g) + (q + g)))
  vectors : Option (List (Fin ((q + g) + (q + g)) → ℝ))
  stdRows : Option (RowAvgs (q + g))
  cvRows : Option (RowAvgs (q + g))

section
variable (argsort : List ℝ → List ℕ) {q g : ℕ}

/-- One letter of `area`, lines 178-185. -/
def areaLetter (q i : ℕ) : String := if i < q then "q" else "G"

/-- `l[i]`, which raises `IndexError` past the end. -/
def readIdx {α : Type} (l : List α) (i : ℕ) : Res α :=
  match l[i]? with
  | none => .error .indexError
  | some a => .ok a

/-- `indices` and the loop that prints them, lines 174-186 (and 240-252): reading past the end of `indices` raises
`IndexError`. -/
noncomputable def largestAt (q n maxValues : ℕ) (X : Mat ℝ) : Res (List (ℕ × ℕ × String)) :=
  let flat := (List.range (n * n)).map fun k => |X (k / n) (k % n)|
  let idx := (argsort flat).reverse.take maxValues
  (List.range maxValues).mapM fun i => do
    let k ← readIdx idx i
    .ok (k / n, k % n, areaLetter q (k / n) ++ areaLetter q (k % n))

/-- `np.sum(X, axis=1) / self.num_params`, lines 188-190 (and 256-258). -/
noncomputable def rowAvg (n : ℕ) (X : Mat ℝ) (i : Fin n) : Option ℝ := some ((∑ j : Fin n, X i j) / n)

open Classical in
/-- `mask`, lines 229-235: the entries that are not smaller than `10**-6`. -/
noncomputable def cvMask (n : ℕ) (X : Mat ℝ) : Finset (Fin n × Fin n) :=
  Finset.univ.filter fun p => (10 : ℝ)⁻¹ ^ 6 ≤ |X p.1 p.2|

open Classical in
/-- One row of lines 272-274; zero divided by zero is nan. -/
noncomputable def maskedAvg (n : ℕ) (C X : Mat ℝ) (i : Fin n) : Option ℝ :=
  let js := Finset.univ.filter fun j : Fin n => (i, j) ∈ cvMask n X
  if js.card = 0 then none else some ((∑ j ∈ js, C i j) / js.card)

/-- `np.abs(A / self.A)` with nan replaced by zero, lines 222-227.  A number divided by zero is infinite in numpy and
zero here; such entries are not in the mask and are not used (with a full mask there are none). -/
noncomputable def cvOf (S X : Mat ℝ) : Mat ℝ := fun i j => |S i j / X i j|

/-- Reading an attribute that may not have been set. -/
def getAttr {α : Type} : Option α → Res α
  | none => .error .attributeError
  | some a => .ok a

open Classical in
/-- Lines 219-221: the matrices of the object, after `self.run()` if its `A` vanishes. -/
noncomputable def cvMatrices (n : ℕ) (run : Res LRMats) (M : LRMats) : Res LRMats :=
  if ∀ i j : Fin n, M.A i j = 0 then run else .ok M

open Classical in
/-- The coefficients of variation, lines 216-303: the object afterwards and the positions printed.  `run` is
`self.run()` of line 221. -/
noncomputable def analyzeCV (run : Res LRMats) (o : LRObj q g) (S : LRMats) (verbose save : Bool) :
    Res (LRObj q g × List (List (ℕ × ℕ × String))) := do
  let M ← cvMatrices (q + g) run o.M
  let o := { o with M := M }
  let pairs := [(cvOf S.A M.A, cvMask (q + g) M.A), (cvOf S.B M.B, cvMask (q + g) M.B),
    (cvOf S.Sigma M.Sigma, cvMask (q + g) M.Sigma)]
  let cvTops ← pairs.mapM fun p =>
    if p.2 = Finset.univ then largestAt argsort q (q + g) 4 p.1 else .ok []
  if verbose = false then .ok (o, cvTops)
  else if pairs.all fun p => p.2 = Finset.univ then
    .ok (if save then { o with cvRows := some ⟨rowAvg _ (cvOf S.A M.A), rowAvg _ (cvOf S.B M.B),
      rowAvg _ (cvOf S.Sigma M.Sigma)⟩ } else o, cvTops)
  else if pairs.any fun p => p.2.card < q + g then .ok (o, cvTops)
  else
    .ok (if save then { o with cvRows := some ⟨maskedAvg _ (cvOf S.A M.A) M.A, maskedAvg _ (cvOf S.B M.B) M.B,
      maskedAvg _ (cvOf S.Sigma M.Sigma) M.Sigma⟩ } else o, cvTops)

/-- Lines 187-195: the means of the rows are kept if asked for. -/
noncomputable def keepStdRows (o : LRObj q g) (S : LRMats) (verbose save : Bool) : LRObj q g :=
  if verbose && save then { o with stdRows := some ⟨rowAvg _ S.A, rowAvg _ S.B, rowAvg _ S.Sigma⟩ } else o

open Classical in
/-- `_analyze_std`, lines 160-303, with `max_values = 4`, its default, which all calls use: the object afterwards, and
the positions printed for the deviations and for the coefficients of variation.  `np.linalg.cond` of an empty array and
`np.linalg.inv` of a singular one raise `LinAlgError`, a `ValueError`. -/
noncomputable def analyzeStd (run : Res LRMats) (o : LRObj q g) (S : LRMats) (verbose cv save : Bool) :
    Res (LRObj q g × List (List (ℕ × ℕ × String)) × List (List (ℕ × ℕ × String))) := do
  let metric ← getAttr o.metric
  if q + g = 0 then .error .valueError
  else if metric.det = 0 then .error .valueError
  else do
    let tops ← [S.A, S.B, S.Sigma].mapM (largestAt argsort q (q + g) 4)
    let o := keepStdRows o S verbose save
    if cv then do
      let r ← analyzeCV argsort run o S verbose save
      .ok (r.1, tops, r.2)
    else .ok (o, tops, [])

/-- The end of `run_std`, naive.py:459-462 (projected.py:483-486, allprojected.py:386-389), when the deviations `std`
were computed: what `run_std` returns, and the object afterwards. -/
noncomputable def stdAnalysed (run std : Res LRMats) (o : LRObj q g) (noCoeffs verbose cv save : Bool) :
    Res (LRMats × LRObj q g) := do
  let S ← std
  let r ← analyzeStd argsort run o S verbose (if noCoeffs then false else cv) save
  .ok (S, r.1)

/-- `np.sum(exc_vec * row)`, lines 504-510: a nan in the row gives nan. -/
noncomputable def trendOf {n : ℕ} (row : Fin n → Option ℝ) (v : Fin (n + n) → ℝ) : Option ℝ :=
  if ∀ i, (row i).isSome then
    some (∑ i, (|v (Fin.castAdd n i)| ^ 2 + |v (Fin.natAdd n i)| ^ 2) * (row i).getD 0)
  else none

/-- The loop over the states, lines 503-512 (and 533-542): arrays with `num_params` entries, written while there are
states. -/
noncomputable def trends {n : ℕ} (vectors : Option (List (Fin (n + n) → ℝ))) (rows : Option (RowAvgs n)) :
    Res (List (Option ℝ) × List (Option ℝ) × List (Option ℝ)) :=
  match vectors with
  | none => .error .attributeError
  | some vs =>
    let fill (row : Fin n → Option ℝ) := vs.map (trendOf row) ++ List.replicate (n - vs.length) (some 0)
    if vs = [] then .ok (fill fun _ => some 0, fill fun _ => some 0, fill fun _ => some 0)
    else match rows with
      | none => .error .attributeError
      | some R => if n < vs.length then .error .indexError else .ok (fill R.A, fill R.B, fill R.Sigma)

/-- `_get_std_trend`, lines 484-512; `run_std(save=True, cv=False)` prints (`verbose` is true by default). -/
noncomputable def stdTrend (run std : Res LRMats) (o : LRObj q g) (reCalc : Bool) :
    Res (List (Option ℝ) × List (Option ℝ) × List (Option ℝ)) := do
  let o ← if o.stdRows.isNone || reCalc then do
      let r ← stdAnalysed argsort run std o false true false true
      .ok r.2
    else .ok o
  trends o.vectors o.stdRows

/-- `_get_CV_trend`, lines 514-542. -/
noncomputable def cvTrend (run std : Res LRMats) (o : LRObj q g) (reCalc : Bool) :
    Res (List (Option ℝ) × List (Option ℝ) × List (Option ℝ)) := do
  let o ← if o.cvRows.isNone || reCalc then do
      let r ← stdAnalysed argsort run std o false true true true
      .ok r.2
    else .ok o
  trends o.vectors o.cvRows

/-- `operator_index`, lines 469-477. -/
def operatorIndex (q n k : ℕ) : String :=
  if k < n then
    if k < q then "q" ++ toString k else "G" ++ toString (k - q)
  else if k - n < q then "q" ++ toString (k - n) ++ "^d"
  else "G" ++ toString (k - n - q) ++ "^d"

/-- The table of one state, lines 456-482: value, position and operator of every row that is printed.  `num_contr` is
a number, as in the annotation; a negative one acts as zero. -/
noncomputable def contributionTable (numContr : Option ℕ) (cutoff : ℝ) (v : Fin ((q + g) + (q + g)) → ℝ) :
    Res (List (ℝ × ℕ × String)) := do
  let num := numContr.getD ((q + g) * 2)
  let sortedIdx := (argsort (List.ofFn fun i => |v i|)).reverse
  let sorted ← sortedIdx.mapM fun k => do
    let x ← readIdx (List.ofFn v) k
    .ok (k, |x| ^ 2)
  let rows ← (List.range num).mapM fun i => do
    let p ← readIdx sorted i
    .ok (if p.2 < cutoff then none else some (p.2, p.1, operatorIndex q (q + g) p.1))
  .ok rows.reduceOption

/-- `get_excited_state_contributions`, lines 440-482: the tables of all states. -/
noncomputable def stateContributions (o : LRObj q g) (numContr : Option ℕ) (cutoff : ℝ) :
    Res (List (List (ℝ × ℕ × String))) :=
  match o.vectors with
  | none => .error .valueError
  | some vs => vs.mapM (contributionTable argsort numContr cutoff)

end

end SQ
