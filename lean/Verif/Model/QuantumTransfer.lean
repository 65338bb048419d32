import Verif.Model.QuantumDipole
import Verif.Model.Determinants
import Verif.Model.OrbitalSpaces

/-!
# Model: state-transfer and self-consistent linear response with a quantum computer

`get_determinant_expansion_from_operator_on_HF` (unitary_coupled_cluster/operator_state_algebra.py:2979-3033), and
qiskit_interface/linear_response/statetransfer.py and selfconsistent.py (`run`, `get_transition_dipole`).
`QI.quantum_expectation_value_csfs` (interface.py:718-976, Model/Determinants.lean) is a parameter `qcsf`.  The
numbers of active electrons are natural numbers.  Printing is left out.  The dictionary `self.states` has the keys
"HF", "G0", "G0G1", "Gd0G1", ...; here they are the constructors of `StateKey`.
-/

namespace SQ

/-- A linear combination of determinants: coefficients and occupation strings. -/
abbrev Csf := List ℝ × List (List Char)

/-- `hf_det`, statetransfer.py:29-37 (the same in selfconsistent.py and operator_state_algebra.py:2996-3004). -/
def hfString (n na nb : ℕ) : List Char :=
  (List.range (2 * n)).map fun i =>
    if i % 2 = 0 ∧ i / 2 < na then '1'
    else if i % 2 = 1 ∧ i / 2 < nb then '1'
    else '0'

/-- `int(hf_det_, 2)`, operator_state_algebra.py:3005. -/
def parseBits (s : List Char) : Res ℕ :=
  if s = [] then .error .valueError else .ok (bitsToNat (s.map fun c => decide (c = '1')))

/-- The loop over the reversed string, lines 3017-3029: `none` if it is left by `break`.  `bit_count` is `bitcount`.
A shift by a negative number (an orbital outside) raises. -/
def expandString (n : ℕ) : Str → ℕ → ℕ → Res (Option (ℕ × ℕ))
  | [], det, ph => .ok (some (det, ph))
  | (o, dagger) :: t, det, ph =>
    if 2 * n ≤ o then .error .valueError
    else
      let bit := (det >>> (2 * n - 1 - o)) &&& 1
      let d := det ^^^ 2 ^ (2 * n - 1 - o)
      if bit = 0 ∧ dagger = true then expandString n t d (ph + bitcount (d &&& (parityCheck n).getD o 0))
      else if bit = 1 ∧ dagger = true then .ok none
      else if bit = 0 ∧ dagger = false then .ok none
      else if bit = 1 ∧ dagger = false then expandString n t d (ph + bitcount (d &&& (parityCheck n).getD o 0))
      else expandString n t det ph

/-- `get_determinant_expansion_from_operator_on_HF`, lines 2979-3033. -/
def expandHF (n na nb : ℕ) (A : Dict ℝ) : Res Csf := do
  let hf ← parseBits (hfString n na nb)
  A.foldlM (fun (st : Csf) kv => do
    match ← expandString n kv.1.reverse hf 0 with
    | none => pure st
    | some r =>
      pure (st.1 ++ [kv.2 * (-1) ^ r.2], st.2 ++ [(binFormat (2 * n) r.1).map fun b => if b then '1' else '0']))
    ([], [])

/-- The keys of `self.states`. -/
inductive StateKey
  | hf
  | g (i : ℕ)
  | gg (j i : ℕ)
  | gdg (j i : ℕ)
  deriving DecidableEq

abbrev States := List (StateKey × Csf)

/-- `self.states[key]`. -/
def stateAt (S : States) (k : StateKey) : Res Csf :=
  match S.lookup k with
  | some s => .ok s
  | none => .error .keyError

section
variable (tiny big : ℝ → Bool) (qcsf : Csf → Dict ℝ → Csf → Res ℝ)

/-- The states of statetransfer.py:28-46. -/
noncomputable def qstStates (ci : CIInfo) (na nb : ℕ) (G : List (Dict ℝ)) : Res States := do
  let gs ← G.zipIdx.mapM (fun x => do
    let e ← expandHF ci.nA na nb (getFolded ci.nI ci.nA ci.nV x.1)
    pure (StateKey.g x.2, e))
  pure ((.hf, ([1], [hfString ci.nA na nb])) :: gs)

/-- One pass of the inner loop of selfconsistent.py:50-65. -/
def qscPair (ci : CIInfo) (na nb : ℕ) (x y : Dict ℝ × ℕ) : Res (List (StateKey × Csf)) := do
  let p ← fmul tiny (getFolded ci.nI ci.nA ci.nV x.1) (getFolded ci.nI ci.nA ci.nV y.1)
  let e ← expandHF ci.nA na nb p
  let d ← fdagger tiny x.1
  let p' ← fmul tiny (getFolded ci.nI ci.nA ci.nV d) (getFolded ci.nI ci.nA ci.nV y.1)
  let e' ← expandHF ci.nA na nb p'
  pure [(.gg x.2 y.2, e), (.gdg x.2 y.2, e')]

/-- The states of selfconsistent.py:28-65. -/
noncomputable def qscStates (ci : CIInfo) (na nb : ℕ) (G : List (Dict ℝ)) : Res States := do
  let S ← qstStates ci na nb G
  G.zipIdx.foldlM (fun S x => do
    ((G.drop x.2).zipIdx x.2).foldlM (fun S y => do
      let l ← qscPair tiny ci na nb x y
      pure (S ++ l)) S) S

/-- One pass of the loop for the gradient, statetransfer.py:55-62. -/
def qtGrad (S : States) (H : Dict ℝ) (i : ℕ) : Res (ℝ × ℝ) := do
  let hf ← stateAt S .hf
  let g ← stateAt S (.g i)
  let x ← qcsf hf H g
  let y ← qcsf g H hf
  pure (x, y)

/-- The value of statetransfer.py:74-79. -/
def qstAct (W : RespWf) (S : States) (H : Dict ℝ) (j i : ℕ) : Res ℝ := do
  let gi ← stateAt S (.g i)
  let gj ← stateAt S (.g j)
  let val ← qcsf gi H gj
  pure (if i = j then val - W.energy else val)

/-- `quantumLR.run` of statetransfer.py, lines 14-83: the matrices and the states. -/
noncomputable def qstRun (W : RespWf) (na nb : ℕ) (skip doGradients : Bool) (L : QLR) : Res (LRMats × States) := do
  let S ← qstStates W.ci na nb L.G
  if L.Q.length ≠ 0 ∧ skip = false then .error .notImplemented
  else
    let H := getFolded W.ci.nI W.ci.nA W.ci.nV L.H0
    if doGradients = true then
      let _ ← (List.range L.G.length).mapM (qtGrad qcsf S H)
    let M ← lrLoop L.G.zipIdx (fun j => (L.G.drop j).zipIdx j) (fun g => pure g)
      (fun _ x y => qstAct qcsf W S H x.2 y.2)
      (fun M i j v => { M with
        A := setSym M.A i j v
        Sigma := if i = j then set2 M.Sigma i j 1 else M.Sigma }) LRMats.zero
    pure (M, S)

/-- The values of selfconsistent.py:93-113 for `A` and `B`. -/
noncomputable def qscAct (S : States) (H : Dict ℝ) (j i : ℕ) : Res (ℝ × ℝ) := do
  let gi ← stateAt S (.g i)
  let gj ← stateAt S (.g j)
  let a ← qcsf gi H gj
  let d ← stateAt S (.gdg j i)
  let a' ← if d ≠ ([], []) then (do
      let hf ← stateAt S .hf
      let x ← qcsf d H hf
      pure (a - x))
    else pure a
  let p ← stateAt S (.gg j i)
  let b ← if p ≠ ([], []) then (do
      let hf ← stateAt S .hf
      let x ← qcsf p H hf
      pure (0 - x))
    else pure 0
  pure (a', b)

/-- `quantumLR.run` of selfconsistent.py, lines 14-117. -/
noncomputable def qscRun (W : RespWf) (na nb : ℕ) (skip doGradients : Bool) (L : QLR) : Res (LRMats × States) := do
  let S ← qscStates tiny W.ci na nb L.G
  if L.Q.length ≠ 0 ∧ skip = false then .error .notImplemented
  else
    let H := getFolded W.ci.nI W.ci.nA W.ci.nV L.H0
    if doGradients = true then
      let _ ← (List.range L.G.length).mapM (qtGrad qcsf S H)
    let M ← lrLoop L.G.zipIdx (fun j => (L.G.drop j).zipIdx j) (fun g => pure g)
      (fun _ x y => qscAct qcsf S H x.2 y.2)
      (fun M i j v => { M with
        A := setSym M.A i j v.1
        B := setSym M.B i j v.2
        Sigma := if i = j then set2 M.Sigma i j 1 else M.Sigma }) LRMats.zero
    pure (M, S)

/-! ### Roots and norms when the matrices hold only the active operators

`get_excitation_energies` takes the size from `self.A`; `get_normed_excitation_vectors` and `_get_excited_state_norm`
(lr_baseclass.py:340-383) cut with `self.num_q`, which counts the orbital rotations even when `run` was told to skip
them.  The cuts and the products are therefore modelled with the shapes `numpy` gives them. -/

/-- The number of rows of `x[lo:hi]` for an array with `n` rows. -/
def cutLen (n lo hi : ℕ) : ℕ := min hi n - min lo n

/-- A square array. -/
structure SqArr where
  size : ℕ
  val : ℕ → ℕ → ℝ

/-- An elementwise operation on square arrays: sizes must agree, or one of them be one (then it is repeated). -/
def SqArr.op (f : ℝ → ℝ → ℝ) (a b : SqArr) : Res SqArr :=
  if a.size = b.size then .ok ⟨a.size, fun i j => f (a.val i j) (b.val i j)⟩
  else if a.size = 1 then .ok ⟨b.size, fun i j => f (a.val 0 0) (b.val i j)⟩
  else if b.size = 1 then .ok ⟨a.size, fun i j => f (a.val i j) (b.val 0 0)⟩
  else .error .valueError

/-- `np.sum`. -/
def SqArr.sum (a : SqArr) : ℝ := ∑ i ∈ Finset.range a.size, ∑ j ∈ Finset.range a.size, a.val i j

/-- `np.outer(x[lo:hi], x[lo:hi])`. -/
def SqArr.outer (n : ℕ) (u : ℕ → ℝ) (lo hi : ℕ) : SqArr := ⟨cutLen n lo hi, fun i j => u (lo + i) * u (lo + j)⟩

/-- `x[lo:hi, lo:hi]`. -/
def SqArr.cut (n : ℕ) (m : ℕ → ℕ → ℝ) (lo hi : ℕ) : SqArr := ⟨cutLen n lo hi, fun i j => m (lo + i) (lo + j)⟩

/-- `np.sum(metric * (ZZ - YY))`. -/
def normPart (Z Y m : SqArr) : Res ℝ := do
  let d ← Z.op (· - ·) Y
  let p ← m.op (· * ·) d
  pure p.sum

/-- `_get_excited_state_norm` for one state, lr_baseclass.py:371-381; the metric and the vector have `n` rows. -/
def cutNorm (n q g : ℕ) (metric : ℕ → ℕ → ℝ) (u : ℕ → ℝ) : Res ℝ := do
  let a ← normPart (SqArr.outer n u 0 q) (SqArr.outer n u (q + g) (2 * q + g)) (SqArr.cut n metric 0 q)
  let b ← normPart (SqArr.outer n u q (q + g)) (SqArr.outer n u (2 * q + g) n) (SqArr.cut n metric q (q + g))
  pure (a + b)

/-- Rows of a column, divided by the root of the norm; zeros if it is too small. -/
noncomputable def cutNormed (n : ℕ) (u : ℕ → ℝ) (norm : ℝ) (lo hi : ℕ) : List ℝ :=
  (List.range (cutLen n lo hi)).map fun i => if norm < 1e-10 then 0 else u (lo + i) * (1 / norm) ^ (0.5 : ℝ)

/-- `get_excitation_energies` (305-338) and `get_normed_excitation_vectors` (340-363) for matrices over `g` active
operators when there are `q` orbital rotations: the energies and for every state the columns of `_Z_G_normed` and
`_Y_G_normed`. -/
noncomputable def qtSolve (lib : LRLib) (q g : ℕ) (M : LRMats) : Res (List ℝ × List (List ℝ × List ℝ)) := do
  let out ← calcExcitations lib false 0 g (LRMats.arr _ M.A) (LRMats.arr _ M.B) (LRMats.arr _ M.Sigma) 0
  if cutLen (2 * g) q (q + g) = 0 then .error .indexError
  else
    let S : RMat ((0 + g) + (0 + g)) := lrMetric (LRMats.arr _ M.Sigma) 0
    let norms ← out.vectors.mapM (fun u => cutNorm (2 * g) q g
      (fun i j => if h : i < (0 + g) + (0 + g) ∧ j < (0 + g) + (0 + g) then S ⟨i, h.1⟩ ⟨j, h.2⟩ else 0) (rowAt u))
    pure (out.energies, (out.vectors.zip norms).map fun x =>
      (cutNormed (2 * g) (rowAt x.1) x.2 q (q + g), cutNormed (2 * g) (rowAt x.1) x.2 (2 * q + g) (2 * g)))

/-- `x[i, state]`. -/
def rowGet (l : List ℝ) (i : ℕ) : Res ℝ :=
  match l[i]? with
  | some x => .ok x
  | none => .error .indexError

/-- One component for one state, statetransfer.py:107-131. -/
noncomputable def qtDip (S : States) (g : ℕ) (col : List ℝ × List ℝ) (mu : Dict ℝ) : Res ℝ :=
  (List.range g).foldlM (fun s i => do
    let z ← rowGet col.1 i
    let hf ← stateAt S .hf
    let gi ← stateAt S (.g i)
    let x ← qcsf hf mu gi
    let y ← rowGet col.2 i
    let x' ← qcsf gi mu hf
    pure (s - z * x + y * x')) 0

/-- `get_transition_dipole`, statetransfer.py:85-136, selfconsistent.py:112-162. -/
noncomputable def qtDipoles (W : RespWf) (S : States) (g : ℕ) (mu : Fin 3 → Mat ℝ)
    (out : List ℝ × List (List ℝ × List ℝ)) : Res (List (Fin 3 → ℝ)) :=
  dipRows mu (fun m => do
      let op ← oneElec0i0a tiny big m W.ci.nI W.ci.nA
      pure (getFolded W.ci.nI W.ci.nA W.ci.nV op)) (List.range out.1.length) fun s _ k => do
    match out.2[s]? with
    | none => .error .indexError
    | some col => qtDip qcsf S g col k

end

end SQ
