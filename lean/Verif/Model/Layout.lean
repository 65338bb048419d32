import Verif.Model.Cliques
import Mathlib.LinearAlgebra.Matrix.NonsingularInverse

/-!
# Model: qubit layouts, readout correction, routing

slowquant/qiskit_interface/util.py. 64-bit overflow of the integers in `swap_indices` is left out, and its
positions are non-negative (`find_swaps` returns no others). Matrices passed to the correction functions
are square.
-/

namespace SQ

/-- `l[i], l[j] = l[j], l[i]`. -/
def swapAt {α : Type} (l : List α) (i j : ℕ) : Res (List α) :=
  match l[i]?, l[j]? with
  | some a, some b => .ok ((l.set i b).set j a)
  | _, _ => .error .indexError

/-- One row of `binary_matrix`, line 115. -/
def binaryRow (n v : ℕ) : List ℕ := (List.range n).reverse.map fun k => if v &&& (1 <<< k) > 0 then 1 else 0

/-- `row.dot(powers_of_two)`, lines 122-123. -/
def rowValue (n : ℕ) (row : List ℕ) : ℕ := ((row.zip ((List.range n).reverse.map fun k => 2 ^ k)).map fun x => x.1 * x.2).sum

/-- `np.argsort` (the order of equal entries plays no role in its use below). -/
def argsort (l : List ℕ) : List ℕ := (List.range l.length).mergeSort fun a b => decide (l.getD a 0 ≤ l.getD b 0)

/-- `swap_indices`, lines 98-125. -/
def swapIndices (n : ℕ) (swap : ℕ × ℕ) : Res (List ℕ) := do
  let swapped ← (List.range (2 ^ n)).mapM fun v => do
    let row ← swapAt (binaryRow n v) swap.1 swap.2
    return rowValue n row
  return argsort swapped

/-- `l.index(x, i)`. -/
def indexFrom (l : List ℤ) (x : ℤ) (i : ℕ) : Res ℕ :=
  match (l.drop i).findIdx? (· == x) with
  | some k => .ok (i + k)
  | none => .error .valueError

/-- The loop of `find_swaps`, lines 141-147, from position `i` with `k` positions left. -/
def findSwapsLoop (ref : List ℤ) : ℕ → ℕ → List ℤ → List (ℕ × ℕ) → Res (List (ℕ × ℕ))
  | 0, _, _, swaps => .ok swaps
  | k + 1, i, l, swaps =>
    match l[i]?, ref[i]? with
    | some a, some b =>
      if a ≠ b then do
        let j ← indexFrom l b i
        let l' ← swapAt l i j
        findSwapsLoop ref k (i + 1) l' (swaps ++ [(i, j)])
      else findSwapsLoop ref k (i + 1) l swaps
    | _, _ => .error .indexError

/-- `find_swaps`, lines 128-149. -/
def findSwaps (new ref : List ℤ) : Res (List (ℕ × ℕ)) := findSwapsLoop ref new.length 0 new []

/-- `C = np.zeros(N); for bitint, prob in dist.items(): C[bitint] = prob`, lines 605-608. -/
def distVector (N : ℕ) (dist : Distr) : Res (List ℝ) :=
  dist.foldlM (fun C kv => if kv.1 < C.length then .ok (C.set kv.1 kv.2) else .error .indexError) (List.replicate N 0)

/-- `M @ C` (`ValueError` on a shape mismatch). -/
noncomputable def matVec {N : ℕ} (M : Matrix (Fin N) (Fin N) ℝ) (C : List ℝ) : Res (List ℝ) :=
  if C.length = N then .ok (List.ofFn fun a => ∑ c : Fin N, M a c * C.getD c 0) else .error .valueError

/-- `C[idx]` with an index list. -/
def takeIdx (C : List ℝ) (idx : List ℕ) : Res (List ℝ) :=
  idx.mapM fun i => match C[i]? with
    | some x => .ok x
    | none => .error .indexError

/-- `for bitint, prob in enumerate(C_new): dist[bitint] = prob`, lines 651-652. -/
def writeAll (dist : Distr) (C : List ℝ) : Distr := C.zipIdx.foldl (fun d xi => dictPut d xi.2 xi.1) dist

/-- `correct_distribution`, lines 595-614. -/
noncomputable def correctDistribution {N : ℕ} (dist : Distr) (M : Matrix (Fin N) (Fin N) ℝ) : Res Distr := do
  let C ← distVector N dist
  let Cnew ← matVec M C
  dist.mapM fun kv => match Cnew[kv.1]? with
    | some x => .ok (kv.1, x)
    | none => .error .indexError

/-- The loops `for swap in swaps: C = C[swap_indices(num_qubits, swap)]`, lines 643-644 and 648-649. -/
def relabel (n : ℕ) (swaps : List (ℕ × ℕ)) (C : List ℝ) : Res (List ℝ) :=
  swaps.foldlM (fun C s => do
    let idx ← swapIndices n s
    takeIdx C idx) C

/-- `correct_distribution_with_layout_v2`, lines 617-653. -/
noncomputable def correctWithLayoutV2 {N : ℕ} (dist : Distr) (M : Matrix (Fin N) (Fin N) ℝ) (refLayout newLayout : List ℤ) :
    Res Distr := do
  let swaps ← findSwaps newLayout.reverse refLayout.reverse
  let n := refLayout.length
  let C ← distVector N dist
  let C ← relabel n swaps C
  let Cnew ← matVec M C
  let Cnew ← relabel n swaps.reverse Cnew
  return writeAll dist Cnew

/-- `M[idx, :][:, idx]` for an index list as long as the matrix. -/
def takeMat {N : ℕ} (M : Matrix (Fin N) (Fin N) ℝ) (idx : List ℕ) : Res (Matrix (Fin N) (Fin N) ℝ) :=
  if h : idx.length = N ∧ ∀ i ∈ idx, i < N then
    .ok fun a b => M ⟨idx[a]'(by omega), h.2 _ (List.getElem_mem _)⟩ ⟨idx[b]'(by omega), h.2 _ (List.getElem_mem _)⟩
  else .error .indexError

/-- The loop that relabels the matrix, lines 678-682. -/
noncomputable def relabelMat {N : ℕ} (n : ℕ) (swaps : List (ℕ × ℕ)) (M : Matrix (Fin N) (Fin N) ℝ) :
    Res (Matrix (Fin N) (Fin N) ℝ) :=
  swaps.foldlM (fun M s => do
    let idx ← swapIndices n s
    takeMat M idx) M

open Classical in
/-- `correct_distribution_with_layout`, lines 656-694. `np.linalg.inv` raises (`LinAlgError`, here
`runtimeError`) for a singular matrix. -/
noncomputable def correctWithLayout {N : ℕ} (dist : Distr) (Min : Matrix (Fin N) (Fin N) ℝ) (refLayout newLayout : List ℤ) :
    Res Distr := do
  let swaps ← findSwaps newLayout.reverse refLayout.reverse
  let n := refLayout.length
  let M ← relabelMat n swaps Min
  if M.det = 0 then .error .runtimeError
  else
    let C ← distVector N dist
    let Cnew ← matVec M⁻¹ C
    return writeAll dist Cnew

/-! ### Routing -/

/-- Value of `adjacency_map.get(u, [])`, lines 715-718. -/
def neighbours (edges : List (ℕ × ℕ)) (u : ℕ) : List ℕ :=
  edges.flatMap fun e => (if e.1 = u then [e.2] else []) ++ (if e.2 = u then [e.1] else [])

abbrev Parents := List (ℕ × Option ℕ)

/-- The inner loop, lines 727-730. -/
def discover (current : ℕ) : List ℕ → List ℕ → Parents → List ℕ × Parents
  | [], queue, parent => (queue, parent)
  | w :: ws, queue, parent =>
    if (parent.lookup w).isNone then discover current ws (queue ++ [w]) (parent ++ [(w, some current)])
    else discover current ws queue parent

/-- The `while` loop, lines 723-732. -/
def bfs (edges : List (ℕ × ℕ)) (target : ℕ) : ℕ → List ℕ → Parents → Res Parents
  | 0, _, _ => .error .outOfFuel
  | _ + 1, [], _ => .error .valueError
  | f + 1, current :: queue, parent =>
    if current = target then .ok parent
    else
      let r := discover current (neighbours edges current) queue parent
      bfs edges target f r.1 r.2

/-- Lines 735-740. -/
def backtrack (parent : Parents) : ℕ → Option ℕ → List ℕ → Res (List ℕ)
  | _, none, path => .ok path.reverse
  | 0, some _, _ => .error .outOfFuel
  | f + 1, some c, path =>
    match parent.lookup c with
    | none => .error .keyError
    | some p => backtrack parent f p (path ++ [c])

/-- `find_best_path`, lines 697-740. The loops get enough fuel: `outOfFuel` is never returned
(theorem C52_best_path). -/
def findBestPath (edges : List (ℕ × ℕ)) (start target : ℕ) : Res (List ℕ) :=
  if start = target then .ok [start]
  else do
    let parent ← bfs edges target (2 * edges.length + 2) [start] [(start, none)]
    backtrack parent (parent.length + 1) (some target) []

/-- The swaps along a path, lines 776-783: positions and circuit afterwards. `circuit.swap` raises for
qubits outside of the circuit and for equal qubits. -/
def swapAlong {n : ℕ} : List ℕ → List ℕ × List (Gate n) → Res (List ℕ × List (Gate n))
  | a :: b :: path, (pos, gates) =>
    if h : a < n ∧ b < n ∧ a ≠ b then do
      let pos' ← swapAt pos a b
      swapAlong (b :: path) (pos', gates ++ [.swap ⟨a, h.1⟩ ⟨b, h.2.1⟩])
    else .error .runtimeError
  | _, s => .ok s

/-- Body of the loop over target positions, lines 766-783. -/
def placeTarget {n : ℕ} (edges : List (ℕ × ℕ)) (permutation : List ℕ) (s : List ℕ × List (Gate n)) (t : ℕ) :
    Res (List ℕ × List (Gate n)) :=
  match permutation[t]? with
  | none => .error .indexError
  | some q =>
    match s.1.findIdx? (· == q) with
    | none => .error .valueError
    | some p =>
      if p ≠ t then do
        let path ← findBestPath edges p t
        swapAlong path s
      else .ok s

/-- One sweep over the target positions. -/
def permutationSweep {n : ℕ} (edges : List (ℕ × ℕ)) (permutation : List ℕ) (s : List ℕ × List (Gate n)) :
    Res (List ℕ × List (Gate n)) :=
  (List.range permutation.length).foldlM (placeTarget edges permutation) s

/-- The `while` loop, lines 763-783, with at most `fuel` sweeps. -/
def permutationLoop {n : ℕ} (edges : List (ℕ × ℕ)) (permutation : List ℕ) :
    ℕ → List ℕ × List (Gate n) → Res (List (Gate n))
  | 0, s => if s.1 ≠ permutation then .error .outOfFuel else .ok s.2
  | f + 1, s =>
    if s.1 ≠ permutation then do
      let s ← permutationSweep edges permutation s
      permutationLoop edges permutation f s
    else .ok s.2

/-- `add_permutation_gate`, lines 743-783, on a circuit of `n` qubits: the gates appended to the
circuit. `outOfFuel` means that the loop is still running after `fuel` sweeps. -/
def addPermutationGate (n : ℕ) (permutation : List ℕ) (edges : List (ℕ × ℕ)) (fuel : ℕ) : Res (List (Gate n)) :=
  if permutation.length ≠ n then .error .valueError
  else permutationLoop edges permutation fuel (List.range permutation.length, [])

end SQ
