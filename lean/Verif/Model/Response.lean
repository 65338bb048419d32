import Verif.Model.Density
import Verif.Model.Iterators
import Verif.Model.OrbitalSpaces

/-!
# Model: assembling the linear response matrices

unitary_coupled_cluster/linear_response/lr_baseclass.py lines 32-108 (the constructor) and naive.py.  Floats
are reals; the threshold `10**-3` is `1/1000`.  Printing is left out.  The wave function is the record `RespWf` of
the attributes the response classes read; its cached values (`rdm1`, `rdm2`, `energy_elec`) are plain fields.
The test of the wave function's type (lines 45-58) is left out: `RespWf` stands for an object of one of the two
accepted classes.
-/

namespace SQ

/-- The attributes of the wave function read by the response classes.  `U` stands for `construct_ups_state` or
`construct_ucc_state` with the stored angles and layout (`propagate_state` of the names "U" and "Ud"). -/
structure RespWf where
  ci : CIInfo
  U : Bool → Vec ℝ → Res (Vec ℝ)
  /-- `csf_coeffs` -/
  csf : Vec ℝ
  /-- `ci_coeffs` -/
  c : Vec ℝ
  /-- `h_mo`, `g_mo` -/
  h : Mat ℝ
  g : Arr4
  rdm1 : Mat ℝ
  rdm2 : Arr4
  /-- `energy_elec` -/
  energy : ℝ
  /-- `active_occ_idx`, `active_unocc_idx` -/
  occ : List ℕ
  unocc : List ℕ
  /-- `active_occ_spin_idx`, `active_unocc_spin_idx` -/
  occS : List ℕ
  unoccS : List ℕ
  /-- `kappa_no_activeactive_idx`, `kappa_no_activeactive_idx_dagger` -/
  kappa : List (ℕ × ℕ)
  kappaD : List (ℕ × ℕ)

section
variable (tiny big : ℝ → Bool) (th : Threads)

/-! ### lr_baseclass.py -/

/-- `G3(i, j, k, a, b, c)` for the tuple `a, i, b, j, c, k` of the iterator, lines 71-72. -/
def lrG3 : List ℕ → Res (Dict ℝ)
  | [a, i, b, j, c, k] => G3 tiny i j k a b c false
  | _ => .error .valueError

/-- Lines 74-77. -/
def lrG4 : List ℕ → Res (Dict ℝ)
  | [a, i, b, j, c, k, d, l] => G4 tiny i j k l a b c d false
  | _ => .error .valueError

/-- Lines 79-82. -/
def lrG5 : List ℕ → Res (Dict ℝ)
  | [a, i, b, j, c, k, d, l, e, m] => G5 tiny i j k l m a b c d e false
  | _ => .error .valueError

/-- Lines 84-87. -/
def lrG6 : List ℕ → Res (Dict ℝ)
  | [a, i, b, j, c, k, d, l, e, m, f, n] => G6 tiny i j k l m n a b c d e f false
  | _ => .error .valueError

/-- `if letter in excitations: for x in ...: self.G_ops.append(f(x))`. -/
def lrPart {α : Type _} (exc : List Char) (letter : Char) (l : List α) (f : α → Res (Dict ℝ))
    (G : List (Dict ℝ)) : Res (List (Dict ℝ)) :=
  if letter ∈ exc then l.foldlM (fun G x => do let op ← f x; pure (G ++ [op])) G else pure G

/-- `self.G_ops`, lines 60-87; `excitations.lower()` is line 62. -/
noncomputable def lrG (W : RespWf) (excitations : String) : Res (List (Dict ℝ)) := do
  let exc := (excitations.toList.map Char.toLower)
  let G ← lrPart exc 's' (iterateT1sa W.occ W.unocc)
    (fun x => G1sa tiny (Real.sqrt 2)⁻¹ x.2.1 x.1 false) []
  let G ← lrPart exc 'd' (iterateT2sa W.occ W.unocc)
    (fun x => G2sa tiny (1 / 2) (1 / (2 * Real.sqrt 3)) (fun k => (Real.sqrt k)⁻¹) x.i x.j x.a x.b x.case false) G
  let G ← lrPart exc 't' (iterateT3 W.occS W.unoccS) (lrG3 tiny) G
  let G ← lrPart exc 'q' (iterateT4 W.occS W.unoccS) (lrG4 tiny) G
  let G ← lrPart exc '5' (iterateT5 W.occS W.unoccS) (lrG5 tiny) G
  lrPart exc '6' (iterateT6 W.occS W.unoccS) (lrG6 tiny) G

/-- `self.q_ops`, lines 88-89. -/
noncomputable def lrQ (W : RespWf) : Res (List (Dict ℝ)) :=
  W.kappa.foldlM (fun Q pq => do let op ← G1sa tiny (Real.sqrt 2)⁻¹ pq.1 pq.2 false; pure (Q ++ [op])) []

/-- `self.A`, `self.B`, `self.Sigma`, `self.Delta`. -/
structure LRMats where
  A : Mat ℝ
  B : Mat ℝ
  Sigma : Mat ℝ
  Delta : Mat ℝ

/-- `np.zeros(...)` for the four matrices, lines 91-95. -/
def LRMats.zero : LRMats := ⟨fun _ _ => 0, fun _ _ => 0, fun _ _ => 0, fun _ _ => 0⟩

/-- `X[i, j] = X[j, i] = v`. -/
def setSym (X : Mat ℝ) (i j : ℕ) (v : ℝ) : Mat ℝ := set2 (set2 X i j v) j i v

/-- `X[:n, :n] = block` for the `n` rows and columns of `block`. -/
def lrSetBlock (X : Mat ℝ) (block : List (List ℝ)) : Mat ℝ := fun i j =>
  match block[i]? with
  | none => X i j
  | some row => (row[j]?).getD (X i j)

/-- `np.max(np.abs(grad)) > 10**-3`. -/
noncomputable def bigGrad (grad : List ℝ) : Prop := grad.foldl (fun m x => max m |x|) 0 > 1 / 1000

/-- `propagate_state(ops, ket, *index_info)`. -/
def RespWf.prop (W : RespWf) (ops : List (StateOp ℝ)) (ket : Vec ℝ) : Res (Vec ℝ) :=
  propagateState tiny th W.ci W.U true false ops ket

/-- `expectation_value(bra, ops, ket, *index_info)`. -/
def RespWf.ev (W : RespWf) (bra : Vec ℝ) (ops : List (StateOp ℝ)) (ket : Vec ℝ) : Res ℝ :=
  expectationValue tiny th W.ci W.U true false bra ops ket

/-- `for j, x in enumerate(js): pre; for i, y in is: entry; write`.  `pre` computes the states of the outer
loop, `entry` the numbers of the inner one and `put` writes them. -/
def lrLoop {α β κ ν : Type} (js : List (α × ℕ)) (is : ℕ → List (β × ℕ)) (pre : α → Res κ)
    (entry : κ → α × ℕ → β × ℕ → Res ν) (put : LRMats → ℕ → ℕ → ν → LRMats) (M : LRMats) : Res LRMats :=
  js.foldlM (fun M x => do
    let k ← pre x.1
    (is x.2).foldlM (fun M y => do
      let v ← entry k x y
      pure (put M y.2 x.2 v)) M) M

/-- The orbital gradient check, naive.py:42-54 (the same in the other classes with orbital blocks). -/
noncomputable def lrOrbCheck (W : RespWf) (numQ : ℕ) : Res Unit := by
  classical
  exact if numQ ≠ 0 ∧ bigGrad (getOrbitalGradientResponse W.h W.g W.ci.nI W.ci.nA W.rdm1 W.rdm2 W.kappa)
    then .error .valueError else .ok ()

/-- The check of the other gradient, naive.py:89-92. -/
noncomputable def lrGradCheck (grad : List ℝ) : Res Unit := by
  classical
  exact if grad.length ≠ 0 ∧ bigGrad grad then .error .valueError else .ok ()

/-- The orbital-orbital blocks, naive.py:93-120 (the same in the other classes with orbital blocks). -/
noncomputable def lrOrbBlocks (W : RespWf) (numQ : ℕ) (M : LRMats) : LRMats :=
  if numQ ≠ 0 then
    { M with
      A := lrSetBlock M.A (hessianBlock W.h W.g W.ci.nI W.ci.nA W.rdm1 W.rdm2 W.kappaD W.kappa)
      B := lrSetBlock M.B (hessianBlock W.h W.g W.ci.nI W.ci.nA W.rdm1 W.rdm2 W.kappaD W.kappaD)
      Sigma := lrSetBlock M.Sigma (metricSigma W.ci.nI W.ci.nA W.rdm1 W.kappa) }
  else M

/-! ### naive.py -/

/-- The two numbers of one pass of the gradient loop, lines 59-88. -/
def naiveGrad (W : RespWf) (H00 : Vec ℝ) (op : Dict ℝ) : Res (ℝ × ℝ) := do
  let Gk ← W.prop tiny th [.op op] W.c
  let opd ← fdagger tiny op
  let Gdk ← W.prop tiny th [.op opd] W.c
  let x ← W.ev tiny th H00 [] Gk
  let y ← W.ev tiny th Gdk [] H00
  let z ← W.ev tiny th Gk [] H00
  let t ← W.ev tiny th H00 [] Gdk
  pure (x - y, z - t)

/-- `Hq_ket` and `qdH_ket`, lines 122-123. -/
def naiveMixedPre (W : RespWf) (H1 qJ : Dict ℝ) : Res (Vec ℝ × Vec ℝ) := do
  let Hq ← fmul tiny H1 qJ
  let Hqk ← W.prop tiny th [.op Hq] W.c
  let qd ← fdagger tiny qJ
  let qdH ← fmul tiny qd H1
  let qdHk ← W.prop tiny th [.op qdH] W.c
  pure (Hqk, qdHk)

/-- The values for `A` and `B` of lines 125-188. -/
noncomputable def naiveMixed (W : RespWf) (H1 : Dict ℝ) (k : Vec ℝ × Vec ℝ) (qJ GI : Dict ℝ) : Res (ℝ × ℝ) := do
  let Gk ← W.prop tiny th [.op GI] W.c
  let GId ← fdagger tiny GI
  let Gdk ← W.prop tiny th [.op GId] W.c
  let a1 ← W.ev tiny th Gk [] k.1
  let a2 ← W.ev tiny th k.2 [] Gdk
  let HGd ← fmul tiny H1 GId
  let HGdq ← fmul tiny HGd qJ
  let a3 ← W.ev tiny th W.c [.op HGdq] W.c
  let b1 ← W.ev tiny th k.1 [] Gdk
  let b2 ← W.ev tiny th Gk [] k.2
  let qJd ← fdagger tiny qJ
  let qdGd ← fmul tiny qJd GId
  let qdGdH ← fmul tiny qdGd H1
  let b3 ← W.ev tiny th W.c [.op qdGdH] W.c
  pure (a1 - 1 / 2 * a2 - 1 / 2 * a3, b1 - 1 / 2 * b2 - 1 / 2 * b3)

/-- The states of the outer loop, lines 190-195: `GJH`, `GJdH`, `HGJd`, `HGJ`, `GJ`, `GJd`. -/
structure NaiveKets where
  GJH : Vec ℝ
  GJdH : Vec ℝ
  HGJd : Vec ℝ
  HGJ : Vec ℝ
  GJ : Vec ℝ
  GJd : Vec ℝ

/-- Lines 190-195. -/
def naiveActPre (W : RespWf) (H0 : Dict ℝ) (H00 : Vec ℝ) (GJ : Dict ℝ) : Res NaiveKets := do
  let GJH ← W.prop tiny th [.op GJ] H00
  let GJd ← fdagger tiny GJ
  let GJdH ← W.prop tiny th [.op GJd] H00
  let HGJd ← W.prop tiny th [.op H0, .op GJd] W.c
  let HGJ ← W.prop tiny th [.op H0, .op GJ] W.c
  let GJk ← W.prop tiny th [.op GJ] W.c
  let GJdk ← W.prop tiny th [.op GJd] W.c
  pure ⟨GJH, GJdH, HGJd, HGJ, GJk, GJdk⟩

/-- The values for `A`, `B` and `Sigma` of lines 197-304. -/
noncomputable def naiveAct (W : RespWf) (H00 : Vec ℝ) (k : NaiveKets) (GI : Dict ℝ) : Res (ℝ × ℝ × ℝ) := do
  let GIk ← W.prop tiny th [.op GI] W.c
  let GId ← fdagger tiny GI
  let GIdk ← W.prop tiny th [.op GId] W.c
  let a1 ← W.ev tiny th GIk [] k.HGJ
  let a2 ← W.ev tiny th k.HGJd [] GIdk
  let a3 ← W.ev tiny th GIk [] k.GJH
  let a4 ← W.ev tiny th k.GJdH [] GIdk
  let a5 ← W.ev tiny th k.GJd [.op GId] H00
  let a6 ← W.ev tiny th H00 [.op GId] k.GJ
  let b1 ← W.ev tiny th GIk [] k.HGJd
  let b2 ← W.ev tiny th GIk [] k.GJdH
  let b3 ← W.ev tiny th k.GJH [] GIdk
  let b4 ← W.ev tiny th k.HGJ [] GIdk
  let s1 ← W.ev tiny th GIk [] k.GJ
  let s2 ← W.ev tiny th k.GJd [] GIdk
  pure (a1 + a2 - 1 / 2 * a3 - 1 / 2 * a4 - 1 / 2 * a5 - 1 / 2 * a6, b1 - b2 - b3 + b4, s1 - s2)

/-- `LinearResponse.__init__` of naive.py, lines 26-304: the matrices it leaves. -/
noncomputable def naiveInit (W : RespWf) (excitations : String) : Res LRMats := do
  let G ← lrG tiny W excitations
  let Q ← lrQ tiny W
  let H1 ← hamiltonian1i1a tiny big W.h W.g W.ci.nI W.ci.nA W.ci.nV
  let H0 ← hamiltonian0i0a tiny big W.h W.g W.ci.nI W.ci.nA
  let sh := Q.length
  lrOrbCheck W Q.length
  let H00 ← W.prop tiny th [.op H0] W.c
  let gr ← G.mapM (naiveGrad tiny th W H00)
  lrGradCheck (gr.map (·.1) ++ gr.map (·.2))
  let M := lrOrbBlocks W Q.length LRMats.zero
  let M ← lrLoop Q.zipIdx (fun _ => G.zipIdx) (naiveMixedPre tiny th W H1)
    (fun k x y => naiveMixed tiny th W H1 k x.1 y.1)
    (fun M i j v => { M with A := setSym M.A (i + sh) j v.1, B := setSym M.B (i + sh) j v.2 }) M
  lrLoop G.zipIdx (fun j => (G.drop j).zipIdx j) (naiveActPre tiny th W H0 H00)
    (fun k _ y => naiveAct tiny th W H00 k y.1)
    (fun M i j v => { M with
      A := setSym M.A (i + sh) (j + sh) v.1
      B := setSym M.B (i + sh) (j + sh) v.2.1
      Sigma := setSym M.Sigma (i + sh) (j + sh) v.2.2 }) M

end

end SQ
