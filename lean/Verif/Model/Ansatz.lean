import Verif.Model.StateAlgebra
import Verif.Model.Operators
import Mathlib.Analysis.SpecialFunctions.Trigonometric.Basic
import Mathlib.Analysis.Real.Sqrt
import Mathlib.Algebra.Module.Pi

/-!
# Model of the unitary product ansatz
(`slowquant/unitary_coupled_cluster/operator_state_algebra.py:899-2976`)

`float64` is `ℝ`, with the exact functions `sin`, `cos`, `sqrt`.  The vectors are elements of a real
vector space `V`: one state vector for `construct_ups_state` (963-1412) and `propagate_unitary`
(1867-2309), the array of state vectors for the `_SA` versions (1415-1864 and 2312-2754).  The bodies of
the four functions are textually equal up to the name of the variable and of `propagate_state[_SA]`;
`prop ops v` is that call with `do_folding=False`.  In-place `out += x` is `out + x` (the array was
copied before; an integer array, for which numpy raises, is not modelled).
-/

namespace SQ

variable {V : Type _} [AddCommGroup V] [Module ℝ V]

section
variable (tiny : ℝ → Bool)

/-- `G2_sa(i, j, a, b, case, True)` on `np.array(exc_indices) + offset`; the wrong number of indices
makes the tuple assignment raise `ValueError`. -/
noncomputable def saDouble (offset case : ℕ) (idx : List ℕ) : Res (Dict ℝ) :=
  match idx.map (· + offset) with
  | [i, j, a, b] =>
    G2sa tiny (1 / 2) (1 / (2 * Real.sqrt 3)) (fun k => (Real.sqrt k)⁻¹) i j a b case true
  | _ => .error .valueError

/-- The operator `T` of an excitation other than `sa_single`; the `if`-chains of
lines 1044-1067, 1087-1094, 1129-1130, 1237-1238 (and 2801-2849, 921-959). -/
noncomputable def excT (offset : ℕ) (ty : String) (idx : List ℕ) : Res (Dict ℝ) :=
  if ty = "single" then
    match idx.map (· + 2 * offset) with
    | [i, a] => G1 tiny i a true
    | _ => .error .valueError
  else if ty = "double" then
    match idx.map (· + 2 * offset) with
    | [i, j, a, b] => G2 tiny i j a b true
    | _ => .error .valueError
  else if ty = "triple" then
    match idx.map (· + 2 * offset) with
    | [i, j, k, a, b, c] => G3 tiny i j k a b c true
    | _ => .error .valueError
  else if ty = "quadruple" then
    match idx.map (· + 2 * offset) with
    | [i, j, k, l, a, b, c, d] => G4 tiny i j k l a b c d true
    | _ => .error .valueError
  else if ty = "quintuple" then
    match idx.map (· + 2 * offset) with
    | [i, j, k, l, m, a, b, c, d, e] => G5 tiny i j k l m a b c d e true
    | _ => .error .valueError
  else if ty = "sextuple" then
    match idx.map (· + 2 * offset) with
    | [i, j, k, l, m, n, a, b, c, d, e, f] => G6 tiny i j k l m n a b c d e f true
    | _ => .error .valueError
  else if ty = "sa_double_1" then saDouble tiny offset 1 idx
  else if ty = "sa_double_2" then saDouble tiny offset 2 idx
  else if ty = "sa_double_3" then saDouble tiny offset 3 idx
  else if ty = "sa_double_4" then saDouble tiny offset 4 idx
  else if ty = "sa_double_5" then saDouble tiny offset 5 idx
  else .error .valueError

/-- `Ta`, `Tb` of `sa_single`, lines 1004-1007. -/
noncomputable def saSingle (offset : ℕ) (idx : List ℕ) : Res (Dict ℝ × Dict ℝ) :=
  match idx.map (· + offset) with
  | [i, a] => do
    let Ta ← G1 tiny (i * 2) (a * 2) true
    let Tb ← G1 tiny (i * 2 + 1) (a * 2 + 1) true
    pure (Ta, Tb)
  | _ => .error .valueError

end

section
variable (prop : List (Dict ℝ) → V → Res V)

/-- `out + sin(x)*propagate_state([T], out) + (1 - cos(x))*propagate_state([T, T], out)`,
lines 1009-1042 and 1069-1085. -/
noncomputable def rotate (T : Dict ℝ) (x : ℝ) (out : V) : Res V := do
  let t1 ← prop [T] out
  let t2 ← prop [T, T] out
  pure (out + Real.sin x • t1 + (1 - Real.cos x) • t2)

/-- `k[0]*sin(S[0]*theta) + k[1]*sin(S[1]*theta) + ...`. -/
noncomputable def sinSum (S k : List ℝ) (θ : ℝ) : ℝ :=
  (List.zipWith (fun s c => c * Real.sin (s * θ)) S k).sum

/-- `k[0]*(cos(S[0]*theta) - 1) + k[1]*(cos(S[1]*theta) - 1) + ...`. -/
noncomputable def cosSum (S k : List ℝ) (θ : ℝ) : ℝ :=
  (List.zipWith (fun s c => c * (Real.cos (s * θ) - 1)) S k).sum

/-- The unrolled sequence `tmp = propagate_state([T], tmp); out += (..)*tmp`, lines 1100-1127,
1140-1235 and 1280-1409; the table lists `(k1, k2)`, `(k3, k4)`, ... -/
noncomputable def series (T : Dict ℝ) (S : List ℝ) (θ : ℝ) :
    List (List ℝ × List ℝ) → V → V → Res V
  | [], _, out => .ok out
  | (kOdd, kEven) :: ks, tmp, out => do
    let t1 ← prop [T] tmp
    let t2 ← prop [T] t1
    series T S θ ks t2 (out + sinSum S kOdd θ • t1 + cosSum S kEven θ • t2)

open Real in
/-- `S` of line 1095. -/
noncomputable def S23 : List ℝ := [1, √2 / 2]
open Real in
/-- `k1..k4` of lines 1096-1099. -/
noncomputable def k23 : List (List ℝ × List ℝ) :=
  [([-1, 2 * √2], [1, -4]), ([-2, 2 * √2], [2, -4])]

open Real in
/-- `S` of line 1131. -/
noncomputable def S4 : List ℝ := [1, √2, √2 / 2, 1 / 2]
open Real in
/-- `k1..k8` of lines 1132-1139. -/
noncomputable def k4 : List (List ℝ × List ℝ) :=
  [([2 / 3, -√2 / 42, -8 * √2 / 3, 128 / 21], [-2 / 3, 1 / 42, 16 / 3, -256 / 21]),
   ([13 / 3, -√2 / 6, -44 * √2 / 3, 64 / 3], [-13 / 3, 1 / 6, 88 / 3, -128 / 3]),
   ([22 / 3, -√2 / 3, -52 * √2 / 3, 64 / 3], [-22 / 3, 1 / 3, 104 / 3, -128 / 3]),
   ([8 / 3, -4 * √2 / 21, -16 * √2 / 3, 128 / 21], [-8 / 3, 4 / 21, 32 / 3, -256 / 21])]

open Real in
/-- `S` of line 1239. -/
noncomputable def S5 : List ℝ := [√2, √2 / 2, √3 / 3, √3 / 2, √3 / 6]
open Real in
/-- `k1..k10` of lines 1240-1279. -/
noncomputable def k5 : List (List ℝ × List ℝ) :=
  [([√2 / 1150, 8 * √2 / 5, -54 * √3 / 25, -16 * √3 / 75, 432 * √3 / 115],
    [-1 / 1150, -16 / 5, 162 / 25, 32 / 75, -2592 / 115]),
   ([11 * √2 / 690, 404 * √2 / 15, -171 * √3 / 5, -56 * √3 / 15, 2952 * √3 / 115],
    [-11 / 690, -808 / 15, 513 / 5, 112 / 15, -17712 / 115]),
   ([133 * √2 / 1725, 308 * √2 / 3, -2718 * √3 / 25, -1192 * √3 / 75, 1368 * √3 / 23],
    [-133 / 1725, -616 / 3, 8154 / 25, 2384 / 75, -8208 / 23]),
   ([16 * √2 / 115, 608 * √2 / 5, -576 * √3 / 5, -112 * √3 / 5, 6192 * √3 / 115],
    [-16 / 115, -1216 / 5, 1728 / 5, 224 / 5, -37152 / 115]),
   ([48 * √2 / 575, 192 * √2 / 5, -864 * √3 / 25, -192 * √3 / 25, 1728 * √3 / 115],
    [-48 / 575, -384 / 5, 2592 / 25, 384 / 25, -10368 / 115])]

/-- Names of the branch of line 1043. -/
def oneFreqTypes : List String :=
  ["single", "double", "triple", "quadruple", "quintuple", "sextuple", "sa_double_1"]

/-- One excitation with a nonzero angle, lines 1002-1411. -/
noncomputable def applyExc (tiny : ℝ → Bool) (offset : ℕ) (ty : String) (idx : List ℕ) (θ : ℝ)
    (out : V) : Res V :=
  if ty = "sa_single" then
    match saSingle tiny offset idx with
    | .error e => .error e
    | .ok (Ta, Tb) => do rotate prop Tb (1 * θ) (← rotate prop Ta (1 * θ) out)
  else if ty ∈ oneFreqTypes then
    match excT tiny offset ty idx with
    | .error e => .error e
    | .ok T => rotate prop T θ out
  else if ty = "sa_double_2" ∨ ty = "sa_double_3" then
    match excT tiny offset ty idx with
    | .error e => .error e
    | .ok T => series prop T S23 θ k23 out out
  else if ty = "sa_double_4" then
    match excT tiny offset ty idx with
    | .error e => .error e
    | .ok T => series prop T S4 θ k4 out out
  else if ty = "sa_double_5" then
    match excT tiny offset ty idx with
    | .error e => .error e
    | .ok T => series prop T S5 θ k5 out out
  else .error .valueError

/-- `UpsStructure` (util.py:642-651) and `UccStructure`: the two lists read here. -/
structure AnsatzStruct where
  types : List String
  indices : List (List ℕ)

/-- `l[::order]` with `order = -1` for `dagger`. -/
def pyOrder {α : Type _} (dagger : Bool) (l : List α) : List α := if dagger then l.reverse else l

/-- Body of the loop, lines 998-1411. -/
noncomputable def upsStep (tiny : ℝ → Bool) (offset : ℕ) (dagger : Bool) (out : V)
    (x : String × List ℕ × ℝ) : Res V :=
  if |x.2.2| < (10 : ℝ)⁻¹ ^ 28 then .ok out
  else applyExc prop tiny offset x.1 x.2.1 (if dagger then -x.2.2 else x.2.2) out

/-- `construct_ups_state`, lines 963-1412 (and `_SA`, 1415-1864): the three lists are reversed one by
one and zipped. -/
noncomputable def constructUps (tiny : ℝ → Bool) (offset : ℕ) (st : AnsatzStruct) (thetas : List ℝ)
    (dagger : Bool) (state : V) : Res V :=
  ((pyOrder dagger st.types).zip ((pyOrder dagger st.indices).zip (pyOrder dagger thetas))).foldlM
    (upsStep prop tiny offset dagger) state

/-- `propagate_unitary`, lines 1867-2309 (and `_SA`, 2312-2754), for `idx >= 0`. -/
noncomputable def propagateUnitary (tiny : ℝ → Bool) (offset : ℕ) (st : AnsatzStruct)
    (thetas : List ℝ) (idx : ℕ) (state : V) : Res V :=
  match st.types[idx]?, st.indices[idx]?, thetas[idx]? with
  | some ty, some ix, some θ =>
    if |θ| < (10 : ℝ)⁻¹ ^ 28 then .ok state else applyExc prop tiny offset ty ix θ state
  | _, _, _ => .error .indexError

/-- `get_grad_action`, lines 2757-2865 (and `_SA`, 2868-2976), for `idx >= 0`. -/
noncomputable def gradAction (tiny : ℝ → Bool) (offset : ℕ) (st : AnsatzStruct) (idx : ℕ)
    (state : V) : Res V :=
  match st.types[idx]?, st.indices[idx]? with
  | some ty, some ix =>
    if ty = "sa_single" then
      match saSingle tiny offset ix with
      | .error e => .error e
      | .ok (Ta, Tb) => prop [frmul 1 (fadd tiny Ta Tb)] state
    else
      match excT tiny offset ty ix with
      | .error e => .error e
      | .ok T => prop [T] state
  | _, _ => .error .indexError

end

/-- The calls `propagate_state(ops, v, ci_info, do_folding=False)`; `'U'` does not occur. -/
def propVec (tiny : ℝ → Bool) (th : Threads) (ci : CIInfo) (ops : List (Dict ℝ)) (v : Vec ℝ) :
    Res (Vec ℝ) :=
  propagateState tiny th ci (fun _ _ => .error .valueError) false false (ops.map .op) v

/-- The calls `propagate_state_SA(ops, v, ci_info, do_folding=False)` for `nS` states. -/
def propMat (big : ℝ → Bool) (th : Threads) (ci : CIInfo) (nS : ℕ) (ops : List (Dict ℝ))
    (v : Mat ℝ) : Res (Mat ℝ) :=
  propagateStateSA big th ci (fun _ _ => .error .valueError) false false nS (ops.map .op) v

/-- Body of the loop of `get_ucc_T`, lines 918-959; `G1_sa` has the factor `2 ** (-1/2)`. -/
noncomputable def uccStep (tiny : ℝ → Bool) (offset : ℕ) (T : Dict ℝ) (x : String × List ℕ × ℝ) :
    Res (Dict ℝ) :=
  if |x.2.2| < (10 : ℝ)⁻¹ ^ 28 then .ok T
  else if x.1 = "sa_single" then
    match x.2.1.map (· + offset) with
    | [i, a] => do
      let G ← G1sa tiny (Real.sqrt 2)⁻¹ i a true
      pure (fadd tiny T (frmul x.2.2 G))
    | _ => .error .valueError
  else do
    let G ← excT tiny offset x.1 x.2.1
    pure (fadd tiny T (frmul x.2.2 G))

/-- `get_ucc_T`, lines 899-960. -/
noncomputable def uccT (tiny : ℝ → Bool) (offset : ℕ) (st : AnsatzStruct) (thetas : List ℝ) :
    Res (Dict ℝ) :=
  (st.types.zip (st.indices.zip thetas)).foldlM (uccStep tiny offset) []

end SQ
