import Verif.Model.QuantumResponse
import Verif.Model.Sampler

/-!
# Model: the Pauli strings listed for the matrices of linear response

qiskit_interface/linear_response/naive.py, projected.py and allprojected.py, `_get_qbitmap`, with `get_num_nonCBS` and
`get_num_CBS_elements` of lr_baseclass.py.  `op_to_qbit(A).paulis.to_labels()` are the labels of `opToQbit`, with the
mapper as a parameter `map`.  An entry of the returned arrays is `""` (here `none`) or a list of labels.  The arrays have
`num_params` rows and columns; here they are functions of two indices, and only indices below `num_params` are read or
written.  What is printed is left out, but not that counting raises when there is no row.
-/

namespace SQ

/-- The arrays `A`, `B` and `Sigma`. -/
structure LabMats where
  A : ℕ → ℕ → Option (List (List Char))
  B : ℕ → ℕ → Option (List (List Char))
  Sigma : ℕ → ℕ → Option (List (List Char))

/-- `[[""] * self.num_params for _ in range(self.num_params)]`. -/
def LabMats.blank : LabMats := ⟨fun _ _ => none, fun _ _ => none, fun _ _ => none⟩

/-- `X[i][j] = X[j][i] = v`. -/
def labSym (X : ℕ → ℕ → Option (List (List Char))) (i j : ℕ) (v : List (List Char)) :
    ℕ → ℕ → Option (List (List Char)) :=
  fun r c => if r = i ∧ c = j ∨ r = j ∧ c = i then some v else X r c

/-- `for j, x in enumerate(js): for i, y in is: entry; write`. -/
def labLoop {α β ν : Type} (js : List (α × ℕ)) (is : ℕ → List (β × ℕ)) (entry : α × ℕ → β × ℕ → Res ν)
    (put : LabMats → ℕ → ℕ → ν → LabMats) (S : LabMats) : Res LabMats :=
  js.foldlM (fun S x => (is x.2).foldlM (fun S y => do
    let v ← entry x y
    pure (put S y.2 x.2 v)) S) S

/-! ### Cliques and counts -/

/-- `clique = Clique(); clique.add_paulis(X[i][j]); X[i][j] = [x.head for x in clique.cliques]`, unless the entry is
`""` (naive.py:307-310). -/
def labHeads : Option (List (List Char)) → Res (Option (List (List Char)))
  | none => .ok none
  | some l =>
    match addPaulis [] l with
    | (.error e, _) => .error e
    | (.ok _, cs) => .ok (some (cs.map fun c => c.head))

/-- The arrays with the heads, naive.py:304-318 (projected.py:284-298, allprojected.py:202-216): row by row; the three
arrays do not influence each other, and the entries are read before they are written. -/
def labCliques (n : ℕ) (S : LabMats) : Res LabMats :=
  ((List.range n).product (List.range n)).foldlM (fun T ij => do
    let a ← labHeads (S.A ij.1 ij.2)
    let b ← labHeads (S.B ij.1 ij.2)
    let s ← labHeads (S.Sigma ij.1 ij.2)
    pure ⟨fun r c => if (r, c) = ij then a else T.A r c, fun r c => if (r, c) = ij then b else T.B r c,
      fun r c => if (r, c) = ij then s else T.Sigma r c⟩) S

/-- `any(letter in paulis for letter in ("X", "Y"))`. -/
def hasXY (p : List Char) : Bool := p.contains 'X' || p.contains 'Y'

/-- The pairs `i`, `j` with `i ≤ j` in the order of the loops. -/
def upper (n : ℕ) : List (ℕ × ℕ) := (List.range n).flatMap fun i => (List.range' i (n - i)).map fun j => (i, j)

/-- `get_num_nonCBS`, lr_baseclass.py:545-561; `dim = len(matrix[0])` raises without rows. -/
def numNonCBS (n : ℕ) (X : ℕ → ℕ → Option (List (List Char))) : Res ℕ :=
  if n = 0 then .error .indexError
  else .ok ((upper n).foldl (fun count ij =>
    ((X ij.1 ij.2).getD []).foldl (fun count p => if hasXY p then count + 1 else count) count) 0)

/-- `get_num_CBS_elements`, lr_baseclass.py:564-586. -/
def numCBSElements (n : ℕ) (X : ℕ → ℕ → Option (List (List Char))) : Res (ℕ × ℕ) :=
  if n = 0 then .error .indexError
  else .ok ((upper n).foldl (fun cc ij =>
    let im := ((X ij.1 ij.2).getD []).foldl (fun count p => if hasXY p then count + 1 else count) 0
    if im = 0 ∧ X ij.1 ij.2 ≠ none then (cc.1 + 1, cc.2)
    else if im > 0 ∧ X ij.1 ij.2 ≠ none then (cc.1, cc.2 + 1)
    else cc) (0, 0))

/-- The end of `_get_qbitmap`, naive.py:304-331 (projected.py:284-311, allprojected.py:202-229): heads if wanted, the
counts, which are printed, and the arrays. -/
def labFinish (cliques : Bool) (n : ℕ) (S : LabMats) : Res LabMats := do
  let S ← if cliques = true then labCliques n S else pure S
  let _ ← numNonCBS n S.A
  let _ ← numNonCBS n S.B
  let _ ← numNonCBS n S.Sigma
  let _ ← numCBSElements n S.A
  let _ ← numCBSElements n S.B
  let _ ← numCBSElements n S.Sigma
  pure S

section
variable (tiny big : ℝ → Bool) (map : SDict ℝ → Res (List (List Char × ℂ)))

/-- `self.wf.QI.op_to_qbit(A.get_folded_operator(*self.orbs)).paulis.to_labels()`. -/
def qlab (ci : CIInfo) (A : Dict ℝ) : Res (List (List Char)) := do
  let obs ← opToQbit map ci.nA (getFolded ci.nI ci.nA ci.nV A)
  pure (obs.map Prod.fst)

/-! ### naive.py -/

/-- The values of naive.py:236-252 (the same in projected.py:229-245). -/
def mapOrb (W : RespWf) (H2 qJ qI : Dict ℝ) :
    Res (List (List Char) × List (List Char) × List (List Char)) := do
  let qId ← fdagger tiny qI
  let a ← mul3 tiny qId H2 qJ
  let a1 ← qlab map W.ci a
  let a ← mul3 tiny qId qJ H2
  let a2 ← qlab map W.ci a
  let qJd ← fdagger tiny qJ
  let b ← mul3 tiny qId qJd H2
  let b1 ← qlab map W.ci b
  let s ← fmul tiny qId qJ
  let s1 ← qlab map W.ci s
  pure (a1 ++ a2, b1, s1)

/-- The orbital-orbital entries, naive.py:226-252 (projected.py:219-245); with `do_rdm` there are none. -/
noncomputable def mapOrbLoop (W : RespWf) (doRdm : Bool) (Q : List (Dict ℝ)) (S : LabMats) : Res LabMats :=
  if doRdm = false then do
    let H2 ← hamiltonian2i2a tiny big W.h W.g W.ci.nI W.ci.nA W.ci.nV
    labLoop Q.zipIdx (fun j => (Q.drop j).zipIdx j) (fun x y => mapOrb tiny map W H2 x.1 y.1)
      (fun S i j v => { S with
        A := labSym S.A i j v.1
        B := labSym S.B i j v.2.1
        Sigma := labSym S.Sigma i j v.2.2 }) S
  else pure S

/-- The values of naive.py:257-282. -/
def mapMixed (W : RespWf) (H1 qJ GI : Dict ℝ) : Res (List (List Char) × List (List Char)) := do
  let GId ← fdagger tiny GI
  let a ← mul3 tiny GId H1 qJ
  let a1 ← qlab map W.ci a
  let a ← mul3 tiny H1 qJ GId
  let a2 ← qlab map W.ci a
  let a ← mul3 tiny H1 GId qJ
  let a3 ← qlab map W.ci a
  let qJd ← fdagger tiny qJ
  let b ← mul3 tiny qJd H1 GId
  let b1 ← qlab map W.ci b
  let b ← mul3 tiny GId qJd H1
  let b2 ← qlab map W.ci b
  let b ← mul3 tiny qJd GId H1
  let b3 ← qlab map W.ci b
  pure (a1 ++ a2 ++ a3, b1 ++ b2 ++ b3)

/-- The values of naive.py:287-302.  The Hamiltonian is `H_1i_1a` here, but `H_0i_0a` in `run`. -/
noncomputable def mapAct (W : RespWf) (H1 GJ GI : Dict ℝ) :
    Res (List (List Char) × List (List Char) × List (List Char)) := do
  let GId ← fdagger tiny GI
  let a ← doubleCommutatorSym tiny GId H1 GJ
  let a1 ← qlab map W.ci a
  let GJd ← fdagger tiny GJ
  let b ← doubleCommutator tiny GId H1 GJd
  let b1 ← qlab map W.ci b
  let s ← commutatorOp tiny GId GJ
  let s1 ← qlab map W.ci s
  pure (a1, b1, s1)

/-- `_get_qbitmap` of naive.py, lines 218-331. -/
noncomputable def qnMap (W : RespWf) (cliques doRdm : Bool) (L : QLR) : Res LabMats := do
  let sh := L.Q.length
  let S ← mapOrbLoop tiny big map W doRdm L.Q LabMats.blank
  let S ← labLoop L.Q.zipIdx (fun _ => L.G.zipIdx) (fun x y => mapMixed tiny map W L.H1 x.1 y.1)
    (fun S i j v => { S with A := labSym S.A (i + sh) j v.1, B := labSym S.B (i + sh) j v.2 }) S
  let S ← labLoop L.G.zipIdx (fun j => (L.G.drop j).zipIdx j) (fun x y => mapAct tiny map W L.H1 x.1 y.1)
    (fun S i j v => { S with
      A := labSym S.A (i + sh) (j + sh) v.1
      B := labSym S.B (i + sh) (j + sh) v.2.1
      Sigma := labSym S.Sigma (i + sh) (j + sh) v.2.2 }) S
  labFinish cliques (L.Q.length + L.G.length) S

/-! ### projected.py -/

/-- `G_exp` and `HG_exp` of one operator, projected.py:212-216 (allprojected.py:147-151). -/
def mapExp (W : RespWf) (H0 GJ : Dict ℝ) : Res (List (List Char) × List (List Char)) := do
  let g ← qlab map W.ci GJ
  let HG ← fmul tiny H0 GJ
  let hg ← qlab map W.ci HG
  pure (g, hg)

/-- `X[i]` for the lists `G_exp` and `HG_exp`. -/
def mapAt (E : List (List (List Char) × List (List Char))) (i : ℕ) : Res (List (List Char) × List (List Char)) :=
  match E[i]? with
  | some e => .ok e
  | none => .error .indexError

/-- The values of projected.py:250-257. -/
def mapProjMixed (W : RespWf) (H1 qJ GI : Dict ℝ) : Res (List (List Char) × List (List Char)) := do
  let GId ← fdagger tiny GI
  let a ← mul3 tiny GId H1 qJ
  let a1 ← qlab map W.ci a
  let qJd ← fdagger tiny qJ
  let b ← mul3 tiny GId qJd H1
  let b1 ← qlab map W.ci b
  pure (a1, b1)

/-- The values of projected.py:262-282 (`A` and `Sigma` also allprojected.py:180-200); `energy` are the labels of the
Hamiltonian.  `lost` tells whether the assignment to `val` in the second line for `B` replaces the labels of the first,
as it does in allprojected.py:194. -/
def mapProjAct (lost : Bool) (W : RespWf) (H0 : Dict ℝ) (energy : List (List Char))
    (E : List (List (List Char) × List (List Char))) (GJ GI : Dict ℝ × ℕ) :
    Res (List (List Char) × List (List Char) × List (List Char)) := do
  let GId ← fdagger tiny GI.1
  let a ← mul3 tiny GId H0 GJ.1
  let a1 ← qlab map W.ci a
  let s ← fmul tiny GId GJ.1
  let gg ← qlab map W.ci s
  let ei ← mapAt E GI.2
  let ej ← mapAt E GJ.2
  let first := if lost = true then [] else ei.2 ++ ej.1
  pure (a1 ++ (gg ++ energy) ++ (ei.1 ++ ej.2) ++ (ej.1 ++ ei.2) ++ (ei.1 ++ ej.1 ++ energy),
    first ++ (ej.2 ++ ei.1) ++ (ei.1 ++ ej.1 ++ energy), gg ++ ei.1 ++ ej.1)

/-- The loop over the active operators, projected.py:259-282 and allprojected.py:177-200. -/
def mapProjActLoop (lost : Bool) (W : RespWf) (L : QLR) (energy : List (List Char))
    (E : List (List (List Char) × List (List Char))) (S : LabMats) : Res LabMats :=
  labLoop L.G.zipIdx (fun j => (L.G.drop j).zipIdx j) (fun x y => mapProjAct tiny map lost W L.H0 energy E x y)
    (fun S i j v => { S with
      A := labSym S.A (i + L.Q.length) (j + L.Q.length) v.1
      B := labSym S.B (i + L.Q.length) (j + L.Q.length) v.2.1
      Sigma := labSym S.Sigma (i + L.Q.length) (j + L.Q.length) v.2.2 }) S

/-- `_get_qbitmap` of projected.py, lines 201-311. -/
noncomputable def qpMap (W : RespWf) (cliques doRdm : Bool) (L : QLR) : Res LabMats := do
  let sh := L.Q.length
  let E ← L.G.mapM (mapExp tiny map W L.H0)
  let energy ← qlab map W.ci L.H0
  let S ← mapOrbLoop tiny big map W doRdm L.Q LabMats.blank
  let S ← labLoop L.Q.zipIdx (fun _ => L.G.zipIdx) (fun x y => mapProjMixed tiny map W L.H1 x.1 y.1)
    (fun S i j v => { S with A := labSym S.A j (i + sh) v.1, B := labSym S.B j (i + sh) v.2 }) S
  let S ← mapProjActLoop tiny map false W L energy E S
  labFinish cliques (L.Q.length + L.G.length) S

/-! ### allprojected.py -/

/-- The values of allprojected.py:157-167 for `A` and `Sigma`; `self.H_2i_2a` is only there after `run`. -/
def mapAllOrb (W : RespWf) (h2 : Option (Dict ℝ)) (energy : List (List Char)) (qJ qI : Dict ℝ) :
    Res (List (List Char) × List (List Char)) := do
  let qId ← fdagger tiny qI
  let H2 ← match h2 with
    | none => .error .attributeError
    | some H => .ok H
  let a ← mul3 tiny qId H2 qJ
  let a1 ← qlab map W.ci a
  let s ← fmul tiny qId qJ
  let qq ← qlab map W.ci s
  pure (a1 ++ (qq ++ energy), qq)

/-- The value of allprojected.py:172-175. -/
def mapAllMixed (W : RespWf) (H1 qJ GI : Dict ℝ) : Res (List (List Char)) := do
  let GId ← fdagger tiny GI
  let a ← mul3 tiny GId H1 qJ
  qlab map W.ci a

/-- `_get_qbitmap` of allprojected.py, lines 136-229; `h2` is the attribute `H_2i_2a`, if there is one. -/
def qaMap (W : RespWf) (h2 : Option (Dict ℝ)) (cliques : Bool) (L : QLR) : Res LabMats := do
  let sh := L.Q.length
  let E ← L.G.mapM (mapExp tiny map W L.H0)
  let energy ← qlab map W.ci L.H0
  let S ← labLoop L.Q.zipIdx (fun j => (L.Q.drop j).zipIdx j) (fun x y => mapAllOrb tiny map W h2 energy x.1 y.1)
    (fun S i j v => { S with A := labSym S.A i j v.1, Sigma := labSym S.Sigma i j v.2 }) LabMats.blank
  let S ← labLoop L.Q.zipIdx (fun _ => L.G.zipIdx) (fun x y => mapAllMixed tiny map W L.H1 x.1 y.1)
    (fun S i j v => { S with A := labSym S.A j (i + sh) v }) S
  let S ← mapProjActLoop tiny map true W L energy E S
  labFinish cliques (L.Q.length + L.G.length) S

end

end SQ
