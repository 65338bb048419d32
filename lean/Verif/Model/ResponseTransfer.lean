import Verif.Model.Response

/-!
# Model: state-transfer linear response

unitary_coupled_cluster/linear_response/statetransfer.py and projected_statetransfer.py.  Same conventions as in
Model/Response.
-/

namespace SQ

section
variable (tiny big : ℝ → Bool) (th : Threads)

/-- The two numbers of one pass of the gradient loop, statetransfer.py:57-75 (projected_statetransfer.py:66-84). -/
def stGrad (W : RespWf) (UdH00 : Vec ℝ) (op : Dict ℝ) : Res (ℝ × ℝ) := do
  let Gk ← W.prop tiny th [.op op] W.csf
  let x ← W.ev tiny th UdH00 [] Gk
  let y ← W.ev tiny th Gk [] UdH00
  pure (-x, y)

/-- `UdHq_ket` and `UdqdH_ket`, statetransfer.py:109-110. -/
def stMixedPre (W : RespWf) (H1 qJ : Dict ℝ) : Res (Vec ℝ × Vec ℝ) := do
  let Hq ← fmul tiny H1 qJ
  let Hqk ← W.prop tiny th [.name "Ud", .op Hq] W.c
  let qd ← fdagger tiny qJ
  let qdH ← fmul tiny qd H1
  let qdHk ← W.prop tiny th [.name "Ud", .op qdH] W.c
  pure (Hqk, qdHk)

/-- The values for `A` and `B` of statetransfer.py:112-134. -/
noncomputable def stMixed (W : RespWf) (k : Vec ℝ × Vec ℝ) (GI : Dict ℝ) : Res (ℝ × ℝ) := do
  let Gk ← W.prop tiny th [.op GI] W.csf
  let a ← W.ev tiny th Gk [] k.1
  let b ← W.ev tiny th Gk [] k.2
  pure (a, -1 / 2 * b)

/-- The value for `A` of statetransfer.py:142-152 (projected_statetransfer.py:132-142); `diag` is `i == j`. -/
def stAct (W : RespWf) (k : Vec ℝ) (diag : Bool) (GI : Dict ℝ) : Res ℝ := do
  let GId ← fdagger tiny GI
  let val ← W.ev tiny th W.csf [.op GId] k
  pure (if diag then val - W.energy else val)

/-- The loop over pairs of active operators, statetransfer.py:135-155 (projected_statetransfer.py:125-145). -/
def stActLoop (W : RespWf) (H0 : Dict ℝ) (G : List (Dict ℝ)) (sh : ℕ) (M : LRMats) : Res LRMats :=
  lrLoop G.zipIdx (fun j => (G.drop j).zipIdx j)
    (fun GJ => W.prop tiny th [.name "Ud", .op H0, .name "U", .op GJ] W.csf)
    (fun k x y => stAct tiny th W k (y.2 == x.2) y.1)
    (fun M i j v => { M with
      A := setSym M.A (i + sh) (j + sh) v
      Sigma := if i = j then set2 M.Sigma (i + sh) (j + sh) 1 else M.Sigma }) M

/-- `LinearResponse.__init__` of statetransfer.py, lines 25-155: the matrices it leaves. -/
noncomputable def stInit (W : RespWf) (excitations : String) : Res LRMats := do
  let G ← lrG tiny W excitations
  let Q ← lrQ tiny W
  let H1 ← hamiltonian1i1a tiny big W.h W.g W.ci.nI W.ci.nA W.ci.nV
  let H0 ← hamiltonian0i0a tiny big W.h W.g W.ci.nI W.ci.nA
  let sh := Q.length
  lrOrbCheck W Q.length
  let UdH00 ← W.prop tiny th [.name "Ud", .op H0] W.c
  let gr ← G.mapM (stGrad tiny th W UdH00)
  lrGradCheck (gr.map (·.1) ++ gr.map (·.2))
  let M := lrOrbBlocks W Q.length LRMats.zero
  let M ← lrLoop Q.zipIdx (fun _ => G.zipIdx) (stMixedPre tiny th W H1)
    (fun k _ y => stMixed tiny th W k y.1)
    (fun M i j v => { M with A := setSym M.A j (i + sh) v.1, B := setSym M.B j (i + sh) v.2 }) M
  stActLoop tiny th W H0 G sh M

/-- The values for `A` and `Sigma` of projected_statetransfer.py:91-111. -/
def pstOrb (W : RespWf) (H2 qJ qI : Dict ℝ) : Res (ℝ × ℝ) := do
  let qId ← fdagger tiny qI
  let qdH ← fmul tiny qId H2
  let qdHq ← fmul tiny qdH qJ
  let a ← W.ev tiny th W.c [.op qdHq] W.c
  let qdq ← fmul tiny qId qJ
  let s ← W.ev tiny th W.c [.op qdq] W.c
  let s' ← W.ev tiny th W.c [.op qdq] W.c
  pure (a - s * W.energy, s')

/-- `UdHq_ket`, projected_statetransfer.py:113. -/
def pstMixedPre (W : RespWf) (H1 qJ : Dict ℝ) : Res (Vec ℝ) := do
  let Hq ← fmul tiny H1 qJ
  W.prop tiny th [.name "Ud", .op Hq] W.c

/-- The value for `A` of projected_statetransfer.py:115-123. -/
def pstMixed (W : RespWf) (k : Vec ℝ) (GI : Dict ℝ) : Res ℝ := do
  let Gk ← W.prop tiny th [.op GI] W.csf
  W.ev tiny th Gk [] k

/-- `LinearResponse.__init__` of projected_statetransfer.py, lines 26-145: the matrices it leaves. -/
noncomputable def pstInit (W : RespWf) (excitations : String) : Res LRMats := do
  let G ← lrG tiny W excitations
  let Q ← lrQ tiny W
  let H1 ← hamiltonian1i1a tiny big W.h W.g W.ci.nI W.ci.nA W.ci.nV
  let H0 ← hamiltonian0i0a tiny big W.h W.g W.ci.nI W.ci.nA
  let H2 ← hamiltonian2i2a tiny big W.h W.g W.ci.nI W.ci.nA W.ci.nV
  let sh := Q.length
  lrOrbCheck W Q.length
  let UdH00 ← W.prop tiny th [.name "Ud", .op H0] W.c
  let gr ← G.mapM (stGrad tiny th W UdH00)
  lrGradCheck (gr.map (·.1) ++ gr.map (·.2))
  let M ← lrLoop Q.zipIdx (fun j => (Q.drop j).zipIdx j) (fun qJ => pure qJ)
    (fun _ x y => pstOrb tiny th W H2 x.1 y.1)
    (fun M i j v => { M with A := setSym M.A i j v.1, Sigma := setSym M.Sigma i j v.2 }) LRMats.zero
  let M ← lrLoop Q.zipIdx (fun _ => G.zipIdx) (pstMixedPre tiny th W H1)
    (fun k _ y => pstMixed tiny th W k y.1)
    (fun M i j v => { M with A := setSym M.A j (i + sh) v }) M
  stActLoop tiny th W H0 G sh M

end

end SQ
