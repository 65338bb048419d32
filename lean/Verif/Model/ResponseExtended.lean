import Verif.Model.CISpaces
import Verif.Model.ResponseDipole

/-!
# Model: linear response with self-consistent and with transferred operators in an extended determinant space

unitary_coupled_cluster/linear_response/selfconsistent.py, allstatetransfer.py and allselfconsistent.py.  Same
conventions as in Model/Response and Model/ResponseDipole.
-/

namespace SQ

/-- The further attributes of the wave function read by these classes. -/
structure ExtWf extends RespWf where
  /-- `num_active_elec_alpha`, `num_active_elec_beta` -/
  na : ℤ
  nb : ℤ
  /-- `int_gen.num_elec` -/
  numElec : ℕ
  /-- `construct_ups_state` or `construct_ucc_state` with the stored angles and layout, on a given space. -/
  ans : CIInfo → Bool → Vec ℝ → Res (Vec ℝ)
  /-- `kappa_hf_like_idx` -/
  hfLike : List (ℕ × ℕ)

/-- `index_info_extended`, `csf_coeffs` and `ci_coeffs` of these classes. -/
structure ExtInfo where
  ci : CIInfo
  U : Bool → Vec ℝ → Res (Vec ℝ)
  csf : Vec ℝ
  c : Vec ℝ

section
variable (tiny big : ℝ → Bool) (th : Threads)

/-- `propagate_state(ops, ket, *index_info_extended, do_unsafe=...)`. -/
def ExtInfo.prop (I : ExtInfo) (doUnsafe : Bool) (ops : List (StateOp ℝ)) (ket : Vec ℝ) : Res (Vec ℝ) :=
  propagateState tiny th I.ci I.U true doUnsafe ops ket

/-- `expectation_value(bra, ops, ket, *index_info_extended, do_unsafe=...)`. -/
def ExtInfo.ev (I : ExtInfo) (doUnsafe : Bool) (bra : Vec ℝ) (ops : List (StateOp ℝ)) (ket : Vec ℝ) : Res ℝ :=
  expectationValue tiny th I.ci I.U true doUnsafe bra ops ket

/-- selfconsistent.py:47-75 (allstatetransfer.py and allselfconsistent.py:45-73), with the last argument of
`get_indexing_extended`. -/
def extStart (W : ExtWf) (order : ℤ) : Res ExtInfo := do
  let ci ← getIndexingExtended W.ci.nI W.ci.nA W.ci.nV W.na W.nb order
  let csf ← reference ci (hfDet (2 * (W.ci.nI + W.ci.nA + W.ci.nV)) W.numElec)
  let c ← propagateState tiny th ci (W.ans ci) true false [.name "U"] csf
  pure ⟨ci, W.ans ci, csf, c⟩

/-- The two numbers of one pass of the gradient loop, selfconsistent.py:94-112 (allstatetransfer.py:109-124,
allselfconsistent.py:105-120). -/
def xGrad (I : ExtInfo) (UdH00 : Vec ℝ) (op : Dict ℝ) : Res (ℝ × ℝ) := do
  let Gk ← I.prop tiny th false [.op op] I.csf
  let x ← I.ev tiny th false UdH00 [] Gk
  let y ← I.ev tiny th false Gk [] UdH00
  pure (-x, y)

/-- `UdHUGJ_ket`, `GJUdH_ket` and `GJdUdH_ket`, selfconsistent.py:212-226 (allselfconsistent.py:230-234). -/
def scActPre (I : ExtInfo) (H0 : Dict ℝ) (UdH00 : Vec ℝ) (GJ : Dict ℝ) : Res (Vec ℝ × Vec ℝ × Vec ℝ × Dict ℝ) := do
  let k1 ← I.prop tiny th false [.name "Ud", .op H0, .name "U", .op GJ] I.csf
  let k2 ← I.prop tiny th false [.op GJ] UdH00
  let GJd ← fdagger tiny GJ
  let k3 ← I.prop tiny th false [.op GJd] UdH00
  pure (k1, k2, k3, GJ)

/-- The values for `A` and `B` of selfconsistent.py:228-272 (allselfconsistent.py:236-276). -/
noncomputable def scAct (I : ExtInfo) (UdH00 : Vec ℝ) (k : Vec ℝ × Vec ℝ × Vec ℝ × Dict ℝ) (GI : Dict ℝ) :
    Res (ℝ × ℝ) := do
  let Gk ← I.prop tiny th false [.op GI] I.csf
  let a1 ← I.ev tiny th false Gk [] k.1
  let a2 ← I.ev tiny th false Gk [] k.2.1
  let GId ← fdagger tiny GI
  let a3 ← I.ev tiny th false UdH00 [.op GId, .op k.2.2.2] I.csf
  let b ← I.ev tiny th false Gk [] k.2.2.1
  pure (a1 - 1 / 2 * a2 - 1 / 2 * a3, -b)

/-- The loop over pairs of active operators, selfconsistent.py:211-275 (allselfconsistent.py:229-279). -/
noncomputable def scActLoop (I : ExtInfo) (H0 : Dict ℝ) (UdH00 : Vec ℝ) (G : List (Dict ℝ)) (sh : ℕ) (M : LRMats) :
    Res LRMats :=
  lrLoop G.zipIdx (fun j => (G.drop j).zipIdx j) (scActPre tiny th I H0 UdH00)
    (fun k _ y => scAct tiny th I UdH00 k y.1)
    (fun M i j v => { M with
      A := setSym M.A (i + sh) (j + sh) v.1
      B := setSym M.B (i + sh) (j + sh) v.2
      Sigma := if i = j then set2 M.Sigma (i + sh) (j + sh) 1 else M.Sigma }) M

/-! ### selfconsistent.py -/

/-- `UdHq_ket` and `UdqdH_ket`, lines 147-158. -/
def scMixedPre (I : ExtInfo) (H1 qJ : Dict ℝ) : Res (Vec ℝ × Vec ℝ) := do
  let k1 ← I.prop tiny th true [.name "Ud", .op H1, .op qJ] I.c
  let qd ← fdagger tiny qJ
  let k2 ← I.prop tiny th true [.name "Ud", .op qd, .op H1] I.c
  pure (k1, k2)

/-- The values for `A` and `B` of lines 160-210. -/
noncomputable def scMixed (I : ExtInfo) (H1 : Dict ℝ) (k : Vec ℝ × Vec ℝ) (qJ GI : Dict ℝ) : Res (ℝ × ℝ) := do
  let Gk ← I.prop tiny th false [.op GI] I.csf
  let a1 ← I.ev tiny th false Gk [] k.1
  let GId ← fdagger tiny GI
  let a2 ← I.ev tiny th true I.c [.op H1, .name "U", .op GId, .name "Ud", .op qJ] I.c
  let b1 ← I.ev tiny th false Gk [] k.2
  let qd ← fdagger tiny qJ
  let b2 ← I.ev tiny th true I.c [.op qd, .name "U", .op GId, .name "Ud", .op H1] I.c
  pure (a1 - 1 / 2 * a2, -1 / 2 * b1 - 1 / 2 * b2)

/-- `LinearResponse.__init__` of selfconsistent.py, lines 33-276: the matrices it leaves. -/
noncomputable def scInit (W : ExtWf) (excitations : String) : Res LRMats := do
  let G ← lrG tiny W.toRespWf excitations
  let Q ← lrQ tiny W.toRespWf
  let H1 ← hamiltonian1i1a tiny big W.h W.g W.ci.nI W.ci.nA W.ci.nV
  let H0 ← hamiltonian0i0a tiny big W.h W.g W.ci.nI W.ci.nA
  let I ← extStart tiny th W 1
  let sh := Q.length
  lrOrbCheck W.toRespWf Q.length
  let UdH00 ← I.prop tiny th false [.name "Ud", .op H0] I.c
  let gr ← G.mapM (xGrad tiny th I UdH00)
  lrGradCheck (gr.map (·.1) ++ gr.map (·.2))
  let M := lrOrbBlocks W.toRespWf Q.length LRMats.zero
  let M ← lrLoop Q.zipIdx (fun _ => G.zipIdx) (scMixedPre tiny th I H1)
    (fun k x y => scMixed tiny th I H1 k x.1 y.1)
    (fun M i j v => { M with A := setSym M.A (i + sh) j v.1, B := setSym M.B (i + sh) j v.2 }) M
  scActLoop tiny th I H0 UdH00 G sh M

/-- `Udmuxd_ket` and `Udmux_ket`, lines 288-308. -/
noncomputable def scDipPre (W : ExtWf) (I : ExtInfo) (mu : Mat ℝ) : Res (Vec ℝ × Vec ℝ) := do
  let op ← oneElec0i0a tiny big mu W.ci.nI W.ci.nA
  let opd ← fdagger tiny op
  let kd ← I.prop tiny th false [.name "Ud", .op opd] I.c
  let k ← I.prop tiny th false [.name "Ud", .op op] I.c
  pure (kd, k)

/-- One component for one state, lines 310-398. -/
noncomputable def scDip (W : ExtWf) (I : ExtInfo) {q : ℕ} (G : List (Dict ℝ)) (nexc : ℕ)
    (v : Fin ((q + G.length) + (q + G.length)) → ℝ) (mu : Mat ℝ) (k : Vec ℝ × Vec ℝ) : Res ℝ := do
  let qp ← dipQ W.toRespWf q nexc mu v
  let gp ← (List.finRange G.length).foldlM (fun s i => do
    let Gk ← I.prop tiny th false [.op G[i]] I.csf
    let x ← I.ev tiny th false k.1 [] Gk
    let y ← I.ev tiny th false Gk [] k.2
    pure (s - zg v i * x + yg v i * y)) 0
  pure (qp + gp)

/-- `get_transition_dipole`, selfconsistent.py:277-399. -/
noncomputable def scDipoles (W : ExtWf) (I : ExtInfo) {q : ℕ} (G : List (Dict ℝ)) (mu : Fin 3 → Mat ℝ)
    (out : LROut ((q + G.length) + (q + G.length))) : Res (List (Fin 3 → ℝ)) :=
  dipRows mu (scDipPre tiny big th W I) out.normed fun v m k => scDip tiny th W I G out.energies.length v m k

/-! ### allstatetransfer.py and allselfconsistent.py -/

/-- `self.q_ops`, lines 74-77 of both. -/
noncomputable def hfQ (W : ExtWf) : Res (List (Dict ℝ)) :=
  W.hfLike.foldlM (fun Q ia => do let op ← Epq tiny ia.2 ia.1; pure (Q ++ [frmul (Real.sqrt 2)⁻¹ op])) []

/-- The value of allstatetransfer.py:138-146; `diag` is `i == j`. -/
def astOrb (W : ExtWf) (I : ExtInfo) (k : Vec ℝ) (diag : Bool) (qI : Dict ℝ) : Res ℝ := do
  let qId ← fdagger tiny qI
  let val ← I.ev tiny th false I.csf [.op qId] k
  pure (if diag then val - W.energy else val)

/-- The value of allstatetransfer.py:152-159. -/
def astMixed (I : ExtInfo) (k : Vec ℝ) (GI : Dict ℝ) : Res ℝ := do
  let GId ← fdagger tiny GI
  I.ev tiny th false I.csf [.op GId] k

/-- The body of the loop over `qJ`, allstatetransfer.py:129-160. -/
def astOrbStep (W : ExtWf) (I : ExtInfo) (H2 : Dict ℝ) (Q G : List (Dict ℝ)) (sh : ℕ) (M : LRMats)
    (x : Dict ℝ × ℕ) : Res LRMats := do
  let k ← I.prop tiny th true [.name "Ud", .op H2, .name "U", .op x.1] I.csf
  let M ← ((Q.drop x.2).zipIdx x.2).foldlM (fun M y => do
    let v ← astOrb tiny th W I k (y.2 == x.2) y.1
    pure { M with
      A := setSym M.A y.2 x.2 v
      Sigma := if y.2 = x.2 then setSym M.Sigma y.2 x.2 1 else M.Sigma }) M
  G.zipIdx.foldlM (fun M y => do
    let v ← astMixed tiny th I k y.1
    pure { M with A := setSym M.A x.2 (y.2 + sh) v }) M

/-- The loop over pairs of active operators, allstatetransfer.py:161-181. -/
def astActLoop (W : ExtWf) (I : ExtInfo) (H0 : Dict ℝ) (G : List (Dict ℝ)) (sh : ℕ) (M : LRMats) : Res LRMats :=
  lrLoop G.zipIdx (fun j => (G.drop j).zipIdx j)
    (fun GJ => I.prop tiny th false [.name "Ud", .op H0, .name "U", .op GJ] I.csf)
    (fun k x y => astOrb tiny th W I k (y.2 == x.2) y.1)
    (fun M i j v => { M with
      A := setSym M.A (i + sh) (j + sh) v
      Sigma := if i = j then set2 M.Sigma (i + sh) (j + sh) 1 else M.Sigma }) M

/-- `LinearResponse.__init__` of allstatetransfer.py, lines 32-181: the matrices it leaves.  The gradient of the `q`
operators (lines 96-102) is an array of zeros. -/
noncomputable def astInit (W : ExtWf) (excitations : String) : Res LRMats := do
  let G ← lrG tiny W.toRespWf excitations
  let _ ← lrQ tiny W.toRespWf
  let _ ← hamiltonian1i1a tiny big W.h W.g W.ci.nI W.ci.nA W.ci.nV
  let H0 ← hamiltonian0i0a tiny big W.h W.g W.ci.nI W.ci.nA
  let I ← extStart tiny th W 1
  let Q ← hfQ tiny W
  let H2 ← hamiltonian2i2a tiny big W.h W.g W.ci.nI W.ci.nA W.ci.nV
  let sh := Q.length
  lrGradCheck (List.replicate (2 * Q.length) 0)
  let UdH ← I.prop tiny th false [.name "Ud", .op H0] I.c
  let gr ← G.mapM (xGrad tiny th I UdH)
  lrGradCheck (gr.map (·.1) ++ gr.map (·.2))
  let M ← Q.zipIdx.foldlM (astOrbStep tiny th W I H2 Q G sh) LRMats.zero
  astActLoop tiny th W I H0 G sh M

/-- The states of the outer loop, allselfconsistent.py:128-135. -/
def ascOrbPre (I : ExtInfo) (H2 : Dict ℝ) (UdH : Vec ℝ) (qJ : Dict ℝ) : Res (Vec ℝ × Vec ℝ × Vec ℝ × Dict ℝ) := do
  let k1 ← I.prop tiny th true [.name "Ud", .op H2, .name "U", .op qJ] I.csf
  let k2 ← I.prop tiny th true [.op qJ] UdH
  let qJd ← fdagger tiny qJ
  let k3 ← I.prop tiny th true [.op qJd] UdH
  pure (k1, k2, k3, qJ)

/-- The values for `A` and `B` of allselfconsistent.py:137-177. -/
noncomputable def ascOrb (I : ExtInfo) (UdH : Vec ℝ) (k : Vec ℝ × Vec ℝ × Vec ℝ × Dict ℝ) (qI : Dict ℝ) :
    Res (ℝ × ℝ) := do
  let qk ← I.prop tiny th true [.op qI] I.csf
  let a1 ← I.ev tiny th false qk [] k.1
  let a2 ← I.ev tiny th false qk [] k.2.1
  let qId ← fdagger tiny qI
  let a3 ← I.ev tiny th false UdH [.op qId, .op k.2.2.2] I.csf
  let b ← I.ev tiny th false qk [] k.2.2.1
  pure (a1 - 1 / 2 * a2 - 1 / 2 * a3, -b)

/-- `UdHUq_ket` and `qdUdH_ket`, allselfconsistent.py:182-193. -/
def ascMixedPre (I : ExtInfo) (H1 qJ : Dict ℝ) : Res (Vec ℝ × Vec ℝ) := do
  let k1 ← I.prop tiny th true [.name "Ud", .op H1, .name "U", .op qJ] I.csf
  let qd ← fdagger tiny qJ
  let k2 ← I.prop tiny th true [.op qd, .name "Ud", .op H1] I.c
  pure (k1, k2)

/-- The values for `A` and `B` of allselfconsistent.py:195-228. -/
noncomputable def ascMixed (I : ExtInfo) (UdH : Vec ℝ) (k : Vec ℝ × Vec ℝ) (qJ GI : Dict ℝ) : Res (ℝ × ℝ) := do
  let Gk ← I.prop tiny th false [.op GI] I.csf
  let a ← I.ev tiny th false Gk [] k.1
  let b1 ← I.ev tiny th false Gk [] k.2
  let qd ← fdagger tiny qJ
  let GId ← fdagger tiny GI
  let b2 ← I.ev tiny th false I.csf [.op qd, .op GId] UdH
  pure (a, -1 / 2 * b1 - 1 / 2 * b2)

/-- `LinearResponse.__init__` of allselfconsistent.py, lines 32-279: the matrices it leaves. -/
noncomputable def ascInit (W : ExtWf) (excitations : String) : Res LRMats := do
  let G ← lrG tiny W.toRespWf excitations
  let _ ← lrQ tiny W.toRespWf
  let H1 ← hamiltonian1i1a tiny big W.h W.g W.ci.nI W.ci.nA W.ci.nV
  let H0 ← hamiltonian0i0a tiny big W.h W.g W.ci.nI W.ci.nA
  let I ← extStart tiny th W 2
  let Q ← hfQ tiny W
  let H2 ← hamiltonian2i2a tiny big W.h W.g W.ci.nI W.ci.nA W.ci.nV
  let sh := Q.length
  lrGradCheck (List.replicate (2 * Q.length) 0)
  let UdH00 ← I.prop tiny th false [.name "Ud", .op H0] I.c
  let gr ← G.mapM (xGrad tiny th I UdH00)
  lrGradCheck (gr.map (·.1) ++ gr.map (·.2))
  let Hk ← I.prop tiny th true [.op H2] I.c
  let UdH ← I.prop tiny th true [.name "Ud"] Hk
  let M ← lrLoop Q.zipIdx (fun j => (Q.drop j).zipIdx j) (ascOrbPre tiny th I H2 UdH)
    (fun k _ y => ascOrb tiny th I UdH k y.1)
    (fun M i j v => { M with
      A := setSym M.A i j v.1
      B := setSym M.B i j v.2
      Sigma := if i = j then setSym M.Sigma i j 1 else M.Sigma }) LRMats.zero
  let M ← lrLoop Q.zipIdx (fun _ => G.zipIdx) (ascMixedPre tiny th I H1)
    (fun k x y => ascMixed tiny th I UdH k x.1 y.1)
    (fun M i j v => { M with A := setSym M.A (i + sh) j v.1, B := setSym M.B (i + sh) j v.2 }) M
  scActLoop tiny th I H0 UdH00 G sh M

/-- `mux_op_G` and `mux_op_q`, allstatetransfer.py:189-216 and allselfconsistent.py:287-314. -/
noncomputable def allDipPre (W : ExtWf) (mu : Mat ℝ) : Res (Dict ℝ × Dict ℝ) := do
  let opG ← oneElec0i0a tiny big mu W.ci.nI W.ci.nA
  let opq ← oneElec1i1a tiny big mu W.ci.nI W.ci.nA W.ci.nV
  pure (opG, opq)

/-- One component for one state, allstatetransfer.py:219-307 and allselfconsistent.py:317-405. -/
noncomputable def allDip (I : ExtInfo) (Q G : List (Dict ℝ))
    (v : Fin ((Q.length + G.length) + (Q.length + G.length)) → ℝ) (k : Dict ℝ × Dict ℝ) : Res ℝ := do
  let qp ← (List.finRange Q.length).foldlM (fun s i => do
    let x ← I.ev tiny th true I.c [.op k.2, .name "U", .op Q[i]] I.csf
    let qd ← fdagger tiny Q[i]
    let y ← I.ev tiny th true I.csf [.op qd, .name "Ud", .op k.2] I.c
    pure (s - zq v i * x + yq v i * y)) 0
  let gp ← (List.finRange G.length).foldlM (fun s i => do
    let x ← I.ev tiny th false I.c [.op k.1, .name "U", .op G[i]] I.csf
    let Gd ← fdagger tiny G[i]
    let y ← I.ev tiny th false I.csf [.op Gd, .name "Ud", .op k.1] I.c
    pure (s - zg v i * x + yg v i * y)) 0
  pure (qp + gp)

/-- `get_transition_dipole`, allstatetransfer.py:183-308 and allselfconsistent.py:281-406 (the same statements). -/
noncomputable def allDipoles (W : ExtWf) (I : ExtInfo) (Q G : List (Dict ℝ)) (mu : Fin 3 → Mat ℝ)
    (out : LROut ((Q.length + G.length) + (Q.length + G.length))) : Res (List (Fin 3 → ℝ)) :=
  dipRows mu (allDipPre tiny big W) out.normed fun v _ k => allDip tiny th I Q G v k

end

end SQ
