import Verif.Model.Response
import Verif.Model.ResponseTransfer

/-!
# Model: projected linear response

unitary_coupled_cluster/linear_response/projected.py and allprojected.py.  Same conventions as in Model/Response.
-/

namespace SQ

section
variable (tiny big : ℝ → Bool) (th : Threads)

/-- The two numbers of one pass of the gradient loop, lines 56-77. -/
def projGrad (W : RespWf) (H00 : Vec ℝ) (op : Dict ℝ) : Res (ℝ × ℝ) := do
  let Gk ← W.prop tiny th [.op op] W.c
  let x ← W.ev tiny th H00 [] Gk
  let y ← W.ev tiny th W.c [] Gk
  let z ← W.ev tiny th Gk [] H00
  let t ← W.ev tiny th Gk [] W.c
  pure (x - W.energy * y, z - W.energy * t)

/-- The values for `A` and `B` of lines 114-136; `k` are `Hq_ket` and `qdH_ket` of lines 111-112, which read as
in naive.py. -/
noncomputable def projMixed (W : RespWf) (k : Vec ℝ × Vec ℝ) (GI : Dict ℝ) : Res (ℝ × ℝ) := do
  let Gk ← W.prop tiny th [.op GI] W.c
  let a ← W.ev tiny th Gk [] k.1
  let b ← W.ev tiny th Gk [] k.2
  pure (a, -1 / 2 * b)

/-- `GJ_ket` and `HGJ_ket`, lines 138-139. -/
def projActPre (W : RespWf) (H0 GJ : Dict ℝ) : Res (Vec ℝ × Vec ℝ) := do
  let GJk ← W.prop tiny th [.op GJ] W.c
  let HGJ ← W.prop tiny th [.op H0] GJk
  pure (GJk, HGJ)

/-- The values for `A`, `B` and `Sigma` of lines 141-283.  `HA` is the operator of the last term of `A`: `H_0i_0a`,
in allprojected.py `H_1i_1a`. -/
noncomputable def projAct (W : RespWf) (H0 HA : Dict ℝ) (k : Vec ℝ × Vec ℝ) (GJ GI : Dict ℝ) : Res (ℝ × ℝ × ℝ) := do
  let GIk ← W.prop tiny th [.op GI] W.c
  let a1 ← W.ev tiny th GIk [] k.2
  let a2 ← W.ev tiny th GIk [] W.c
  let a3 ← W.ev tiny th W.c [] k.1
  let a4 ← W.ev tiny th GIk [] k.1
  let a5 ← W.ev tiny th GIk [] W.c
  let a6 ← W.ev tiny th W.c [] k.2
  let a7 ← W.ev tiny th W.c [] k.1
  let a8 ← W.ev tiny th GIk [.op HA] W.c
  let A := a1 + a2 * a3 * W.energy - a4 * W.energy - 1 / 2 * a5 * a6 - 1 / 2 * a7 * a8
  let GId ← fdagger tiny GI
  let b1 ← W.ev tiny th W.c [.op GId, .op H0] W.c
  let GJd ← fdagger tiny GJ
  let b2 ← W.ev tiny th W.c [.op GJd] W.c
  let b3 ← W.ev tiny th W.c [.op GJd, .op H0] W.c
  let b4 ← W.ev tiny th W.c [.op GId] W.c
  let b5 ← W.ev tiny th GIk [] W.c
  let b6 ← W.ev tiny th k.1 [] W.c
  let B := 1 / 2 * b1 * b2 + 1 / 2 * b3 * b4 - b5 * b6 * W.energy
  let s1 ← W.ev tiny th GIk [] k.1
  let s2 ← W.ev tiny th GIk [] W.c
  let s3 ← W.ev tiny th W.c [] k.1
  pure (A, B, s1 - s2 * s3)

/-- `LinearResponse.__init__` of projected.py, lines 25-283: the matrices it leaves. -/
noncomputable def projInit (W : RespWf) (excitations : String) : Res LRMats := do
  let G ← lrG tiny W excitations
  let Q ← lrQ tiny W
  let H1 ← hamiltonian1i1a tiny big W.h W.g W.ci.nI W.ci.nA W.ci.nV
  let H0 ← hamiltonian0i0a tiny big W.h W.g W.ci.nI W.ci.nA
  let sh := Q.length
  lrOrbCheck W Q.length
  let H00 ← W.prop tiny th [.op H0] W.c
  let gr ← G.mapM (projGrad tiny th W H00)
  lrGradCheck (gr.map (·.1) ++ gr.map (·.2))
  let M := lrOrbBlocks W Q.length LRMats.zero
  let M ← lrLoop Q.zipIdx (fun _ => G.zipIdx) (naiveMixedPre tiny th W H1)
    (fun k _ y => projMixed tiny th W k y.1)
    (fun M i j v => { M with A := setSym M.A j (i + sh) v.1, B := setSym M.B j (i + sh) v.2 }) M
  lrLoop G.zipIdx (fun j => (G.drop j).zipIdx j) (projActPre tiny th W H0)
    (fun k x y => projAct tiny th W H0 H0 k x.1 y.1)
    (fun M i j v => { M with
      A := setSym M.A (i + sh) (j + sh) v.1
      B := setSym M.B (i + sh) (j + sh) v.2.1
      Sigma := setSym M.Sigma (i + sh) (j + sh) v.2.2 }) M

/-- The value for `A` of allprojected.py:130-139. -/
def aprojMixed (W : RespWf) (k : Vec ℝ) (GI : Dict ℝ) : Res ℝ := do
  let GId ← fdagger tiny GI
  W.ev tiny th W.c [.op GId] k

/-- `Hq_ket`, allprojected.py:129. -/
def aprojMixedPre (W : RespWf) (H1 qJ : Dict ℝ) : Res (Vec ℝ) := do
  let Hq ← fmul tiny H1 qJ
  W.prop tiny th [.op Hq] W.c

/-- `LinearResponse.__init__` of allprojected.py, lines 25-286: the matrices it leaves.  The gradients (lines 49-98)
read as in projected.py, the orbital block (lines 99-127) as in projected_statetransfer.py. -/
noncomputable def aprojInit (W : RespWf) (excitations : String) : Res LRMats := do
  let G ← lrG tiny W excitations
  let Q ← lrQ tiny W
  let H1 ← hamiltonian1i1a tiny big W.h W.g W.ci.nI W.ci.nA W.ci.nV
  let H0 ← hamiltonian0i0a tiny big W.h W.g W.ci.nI W.ci.nA
  let H2 ← hamiltonian2i2a tiny big W.h W.g W.ci.nI W.ci.nA W.ci.nV
  let sh := Q.length
  lrOrbCheck W Q.length
  let H00 ← W.prop tiny th [.op H0] W.c
  let gr ← G.mapM (projGrad tiny th W H00)
  lrGradCheck (gr.map (·.1) ++ gr.map (·.2))
  let M ← lrLoop Q.zipIdx (fun j => (Q.drop j).zipIdx j) (fun qJ => pure qJ)
    (fun _ x y => pstOrb tiny th W H2 x.1 y.1)
    (fun M i j v => { M with A := setSym M.A i j v.1, Sigma := setSym M.Sigma i j v.2 }) LRMats.zero
  let M ← lrLoop Q.zipIdx (fun _ => G.zipIdx) (aprojMixedPre tiny th W H1)
    (fun k _ y => aprojMixed tiny th W k y.1)
    (fun M i j v => { M with A := setSym M.A j (i + sh) v }) M
  lrLoop G.zipIdx (fun j => (G.drop j).zipIdx j) (projActPre tiny th W H0)
    (fun k x y => projAct tiny th W H0 H1 k x.1 y.1)
    (fun M i j v => { M with
      A := setSym M.A (i + sh) (j + sh) v.1
      B := setSym M.B (i + sh) (j + sh) v.2.1
      Sigma := setSym M.Sigma (i + sh) (j + sh) v.2.2 }) M

end

end SQ
