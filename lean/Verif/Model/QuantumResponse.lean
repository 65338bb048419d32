import Verif.Model.Response
import Verif.Model.FermionicFold

/-!
# Model: linear response with a quantum computer

qiskit_interface/linear_response/lr_baseclass.py lines 25-85 (the constructor), naive.py, projected.py and
allprojected.py (`run`).  `QI.quantum_expectation_value` (interface.py:685-716) is a parameter `qev`: a function of
the folded operator that may raise; the circuit, the parameters and the settings of the interface stay the same
during a run.  The record of the wave function is `RespWf`; `RespWf.c` and `RespWf.U` are not read here.  Floats are
reals.  Printing (and with it the warnings for large gradients) is left out; evaluating the gradients is not, since
it may raise.  `precalc_rdm_paulis` (only a cache) is left out.
-/

namespace SQ

section
variable (tiny big : ℝ → Bool) (qev : Dict ℝ → Res ℝ)

/-- `self.wf.QI.quantum_expectation_value(A.get_folded_operator(*self.orbs))`. -/
def qexp (ci : CIInfo) (A : Dict ℝ) : Res ℝ := qev (getFolded ci.nI ci.nA ci.nV A)

/-- The attributes of a response object before `run`. -/
structure QLR where
  H0 : Dict ℝ
  H1 : Dict ℝ
  G : List (Dict ℝ)
  Q : List (Dict ℝ)
  M : LRMats

/-- `quantumLRBaseClass.__init__`, lr_baseclass.py:37-85.  The operators (lines 44-74) are made as in the classical
class. -/
noncomputable def qlrInit (W : RespWf) (excitations : String) : Res QLR := do
  let H0 ← hamiltonian0i0a tiny big W.h W.g W.ci.nI W.ci.nA
  let H1 ← hamiltonian1i1a tiny big W.h W.g W.ci.nI W.ci.nA W.ci.nV
  let G ← lrG tiny W excitations
  let Q ← lrQ tiny W
  pure ⟨H0, H1, G, Q, LRMats.zero⟩

/-- `quantumLRBaseClass.run`, lr_baseclass.py:121-123. -/
def qlrRun (_ : QLR) : Res LRMats := .error .notImplemented

/-! ### naive.py -/

/-- One pass of the loop for the orbital gradient, lines 60-66. -/
def qGradQ (W : RespWf) (H1 op : Dict ℝ) : Res (ℝ × ℝ) := do
  let Hq ← fmul tiny H1 op
  let x ← qexp qev W.ci Hq
  let opd ← fdagger tiny op
  let qdH ← fmul tiny opd H1
  let y ← qexp qev W.ci qdH
  pure (x, y)

/-- One pass of the loop for the gradient of the active operators, lines 74-80. -/
def qGradG (W : RespWf) (H0 op : Dict ℝ) : Res (ℝ × ℝ) := do
  let a ← commutatorOp tiny H0 op
  let x ← qexp qev W.ci a
  let opd ← fdagger tiny op
  let b ← commutatorOp tiny opd H0
  let y ← qexp qev W.ci b
  pure (x, y)

/-- The values of lines 126-140 for `A`, `B` and `Sigma`. -/
def qOrb (W : RespWf) (H2 qJ qI : Dict ℝ) : Res (ℝ × ℝ × ℝ) := do
  let qId ← fdagger tiny qI
  let a ← mul3 tiny qId H2 qJ
  let a1 ← qexp qev W.ci a
  let a ← mul3 tiny qId qJ H2
  let a2 ← qexp qev W.ci a
  let qJd ← fdagger tiny qJ
  let b ← mul3 tiny qId qJd H2
  let b1 ← qexp qev W.ci b
  let s ← fmul tiny qId qJ
  let s1 ← qexp qev W.ci s
  pure (a1 - a2, -b1, s1)

/-- The orbital-orbital blocks without density matrices, lines 116-140 (the same in projected.py). -/
noncomputable def qOrbLoop (W : RespWf) (Q : List (Dict ℝ)) (M : LRMats) : Res LRMats := do
  let H2 ← hamiltonian2i2a tiny big W.h W.g W.ci.nI W.ci.nA W.ci.nV
  lrLoop Q.zipIdx (fun j => (Q.drop j).zipIdx j) (fun qJ => pure qJ) (fun _ x y => qOrb tiny qev W H2 x.1 y.1)
    (fun M i j v => { M with
      A := setSym M.A i j v.1
      B := setSym M.B i j v.2.1
      Sigma := setSym M.Sigma i j v.2.2 }) M

/-- The orbital-orbital blocks, lines 87-140 (the same in projected.py, lines 89-142). -/
noncomputable def qOrbBlocks (W : RespWf) (doRdm : Bool) (Q : List (Dict ℝ)) (M : LRMats) : Res LRMats :=
  if Q.length ≠ 0 ∧ doRdm = false then qOrbLoop tiny big qev W Q M else pure (lrOrbBlocks W Q.length M)

/-- The values of lines 146-178. -/
noncomputable def qnMixed (W : RespWf) (H1 qJ GI : Dict ℝ) : Res (ℝ × ℝ) := do
  let GId ← fdagger tiny GI
  let a ← mul3 tiny GId H1 qJ
  let a1 ← qexp qev W.ci a
  let a ← mul3 tiny H1 qJ GId
  let a2 ← qexp qev W.ci a
  let a ← mul3 tiny H1 GId qJ
  let a3 ← qexp qev W.ci a
  let qJd ← fdagger tiny qJ
  let b ← mul3 tiny qJd H1 GId
  let b1 ← qexp qev W.ci b
  let b ← mul3 tiny GId qJd H1
  let b2 ← qexp qev W.ci b
  let b ← mul3 tiny qJd GId H1
  let b3 ← qexp qev W.ci b
  pure (a1 - 1 / 2 * a2 - 1 / 2 * a3, b1 - 1 / 2 * b2 - 1 / 2 * b3)

/-- The values of lines 184-202. -/
noncomputable def qnAct (W : RespWf) (H0 GJ GI : Dict ℝ) : Res (ℝ × ℝ × ℝ) := do
  let GId ← fdagger tiny GI
  let a ← doubleCommutatorSym tiny GId H0 GJ
  let a1 ← qexp qev W.ci a
  let GJd ← fdagger tiny GJ
  let b ← doubleCommutator tiny GId H0 GJd
  let b1 ← qexp qev W.ci b
  let s ← commutatorOp tiny GId GJ
  let s1 ← qexp qev W.ci s
  pure (a1, b1, s1)

/-- `quantumLR.run` of naive.py, lines 39-202, on the object `L`: the matrices it leaves. -/
noncomputable def qnRun (W : RespWf) (doRdm doGradients : Bool) (L : QLR) : Res LRMats := do
  let sh := L.Q.length
  if L.Q.length ≠ 0 ∧ doRdm = false ∧ doGradients = true then
    let _ ← L.Q.mapM (qGradQ tiny qev W L.H1)
  if doGradients = true then
    let _ ← L.G.mapM (qGradG tiny qev W L.H0)
  let M ← qOrbBlocks tiny big qev W doRdm L.Q L.M
  let M ← lrLoop L.Q.zipIdx (fun _ => L.G.zipIdx) (fun qJ => pure qJ)
    (fun _ x y => qnMixed tiny qev W L.H1 x.1 y.1)
    (fun M i j v => { M with A := setSym M.A (i + sh) j v.1, B := setSym M.B (i + sh) j v.2 }) M
  lrLoop L.G.zipIdx (fun j => (L.G.drop j).zipIdx j) (fun GJ => pure GJ)
    (fun _ x y => qnAct tiny qev W L.H0 x.1 y.1)
    (fun M i j v => { M with
      A := setSym M.A (i + sh) (j + sh) v.1
      B := setSym M.B (i + sh) (j + sh) v.2.1
      Sigma := setSym M.Sigma (i + sh) (j + sh) v.2.2 }) M

/-! ### projected.py -/

/-- `_G_exp` and `_HG_exp` of one operator, lines 73-77. -/
def qpExp (W : RespWf) (H0 GJ : Dict ℝ) : Res (ℝ × ℝ) := do
  let g ← qexp qev W.ci GJ
  let HG ← fmul tiny H0 GJ
  let hg ← qexp qev W.ci HG
  pure (g, hg)

/-- `X[i]` for the lists `_G_exp` and `_HG_exp`. -/
def qpAt (E : List (ℝ × ℝ)) (i : ℕ) : Res (ℝ × ℝ) :=
  match E[i]? with
  | some e => .ok e
  | none => .error .indexError

/-- The values of lines 148-160. -/
noncomputable def qpMixed (W : RespWf) (H1 qJ GI : Dict ℝ) : Res (ℝ × ℝ) := do
  let GId ← fdagger tiny GI
  let a ← mul3 tiny GId H1 qJ
  let a1 ← qexp qev W.ci a
  let qJd ← fdagger tiny qJ
  let b ← mul3 tiny GId qJd H1
  let b1 ← qexp qev W.ci b
  pure (a1, -1 / 2 * b1)

/-- The values of lines 166-185; `i` and `j` are the positions of `GI` and `GJ`. -/
noncomputable def qpAct (W : RespWf) (H0 : Dict ℝ) (E : List (ℝ × ℝ)) (GJ : Dict ℝ × ℕ) (GI : Dict ℝ × ℕ) :
    Res (ℝ × ℝ × ℝ) := do
  let GId ← fdagger tiny GI.1
  let a ← mul3 tiny GId H0 GJ.1
  let a1 ← qexp qev W.ci a
  let s ← fmul tiny GId GJ.1
  let gg ← qexp qev W.ci s
  let ei ← qpAt E GI.2
  let ej ← qpAt E GJ.2
  let A := a1 - gg * W.energy + ei.1 * ej.1 * W.energy - 1 / 2 * ei.1 * ej.2 - 1 / 2 * ej.1 * ei.2
  let B := 1 / 2 * ei.2 * ej.1 + 1 / 2 * ej.2 * ei.1 - ei.1 * ej.1 * W.energy
  pure (A, B, gg - ei.1 * ej.1)

/-- The loop over the active operators, projected.py:163-185 and allprojected.py:100-122. -/
noncomputable def qpActLoop (W : RespWf) (L : QLR) (E : List (ℝ × ℝ)) (M : LRMats) : Res LRMats :=
  lrLoop L.G.zipIdx (fun j => (L.G.drop j).zipIdx j) (fun GJ => pure GJ)
    (fun _ x y => qpAct tiny qev W L.H0 E x y)
    (fun M i j v => { M with
      A := setSym M.A (i + L.Q.length) (j + L.Q.length) v.1
      B := setSym M.B (i + L.Q.length) (j + L.Q.length) v.2.1
      Sigma := setSym M.Sigma (i + L.Q.length) (j + L.Q.length) v.2.2 }) M

/-- `quantumLR.run` of projected.py, lines 36-185: the matrices it leaves and the lists `_G_exp`, `_HG_exp`.  The
gradient of the active operators (lines 79-86) is only printed. -/
noncomputable def qpRun (W : RespWf) (doRdm doGradients : Bool) (L : QLR) : Res (LRMats × List (ℝ × ℝ)) := do
  let sh := L.Q.length
  if L.Q.length ≠ 0 ∧ doRdm = false ∧ doGradients = true then
    let _ ← L.Q.mapM (qGradQ tiny qev W L.H1)
  let E ← L.G.mapM (qpExp tiny qev W L.H0)
  let M ← qOrbBlocks tiny big qev W doRdm L.Q L.M
  let M ← lrLoop L.Q.zipIdx (fun _ => L.G.zipIdx) (fun qJ => pure qJ)
    (fun _ x y => qpMixed tiny qev W L.H1 x.1 y.1)
    (fun M i j v => { M with A := setSym M.A j (i + sh) v.1, B := setSym M.B j (i + sh) v.2 }) M
  let M ← qpActLoop tiny qev W L E M
  pure (M, E)

/-! ### allprojected.py -/

/-- The values of lines 80-89. -/
noncomputable def qaOrb (W : RespWf) (H2 qJ qI : Dict ℝ) : Res (ℝ × ℝ) := do
  let qId ← fdagger tiny qI
  let a ← mul3 tiny qId H2 qJ
  let a1 ← qexp qev W.ci a
  let s ← fmul tiny qId qJ
  let qq ← qexp qev W.ci s
  pure (a1 - qq * W.energy, qq)

/-- The value of lines 95-97. -/
noncomputable def qaMixed (W : RespWf) (H1 qJ GI : Dict ℝ) : Res ℝ := do
  let GId ← fdagger tiny GI
  let a ← mul3 tiny GId H1 qJ
  qexp qev W.ci a

/-- `self.H_2i_2a`, lines 35-42; without orbital rotations it is not made and not read. -/
noncomputable def qaH2 (W : RespWf) (Q : List (Dict ℝ)) : Res (Dict ℝ) :=
  if Q.length ≠ 0 then hamiltonian2i2a tiny big W.h W.g W.ci.nI W.ci.nA W.ci.nV else pure []

/-- `quantumLR.run` of allprojected.py, lines 31-122: the matrices it leaves and the lists `_G_exp`, `_HG_exp`. -/
noncomputable def qaRun (W : RespWf) (doGradients : Bool) (L : QLR) : Res (LRMats × List (ℝ × ℝ)) := do
  let sh := L.Q.length
  let H2 ← qaH2 tiny big W L.Q
  let E ← L.G.mapM (qpExp tiny qev W L.H0)
  if doGradients = true then
    let _ ← L.Q.mapM (qGradQ tiny qev W L.H1)
  let M ← lrLoop L.Q.zipIdx (fun j => (L.Q.drop j).zipIdx j) (fun qJ => pure qJ)
    (fun _ x y => qaOrb tiny qev W H2 x.1 y.1)
    (fun M i j v => { M with A := setSym M.A i j v.1, Sigma := setSym M.Sigma i j v.2 }) L.M
  let M ← lrLoop L.Q.zipIdx (fun _ => L.G.zipIdx) (fun qJ => pure qJ)
    (fun _ x y => qaMixed tiny qev W L.H1 x.1 y.1)
    (fun M i j v => { M with A := setSym M.A j (i + sh) v }) M
  let M ← qpActLoop tiny qev W L E M
  pure (M, E)

end

end SQ
