import Verif.Model.QuantumStd

/-!
# Model: standard deviations of the matrices of projected and all-projected linear response

qiskit_interface/linear_response/projected.py, `run_std` (lines 313-486), and allprojected.py, `run_std`
(lines 231-389).  `QI.quantum_expectation_value` is `qev` and `QI.quantum_variance` (with the argument `no_coeffs` of
the call) is `qvar`, as in the models of `run`.  `np.sqrt` is the square root of the reals; for a negative argument
numpy gives nan, here it is zero (the arguments are not negative when the variances are not).  `_analyze_std`, which
prints, saves and may raise, is in `Model/StdAnalysis`.
-/

namespace SQ

section
variable (tiny big : ℝ → Bool) (qev qvar : Dict ℝ → Res ℝ)

/-- `(m ** 2 + v) * (n ** 2 + w) - m ** 2 * n ** 2`, the variance of a product of independent numbers with means `m`,
`n` and variances `v`, `w` (the comment and the expressions in lines 430-478 of projected.py). -/
def varProd (m v n w : ℝ) : ℝ := (m ^ 2 + v) * (n ^ 2 + w) - m ^ 2 * n ^ 2

/-- `self._G_exp` and `self._HG_exp`, projected.py:339-347 (allprojected.py:257-265): the lists `E` of the object are
used if there are any (an object without the attribute is one with empty lists). -/
def stdExp (W : RespWf) (L : QLR) (E : List (ℝ × ℝ)) : Res (List (ℝ × ℝ)) :=
  if E.length = 0 then L.G.mapM (qpExp tiny qev W L.H0) else pure E

/-- The values of projected.py, lines 401-415. -/
noncomputable def stdProjMixed (W : RespWf) (H1 qJ GI : Dict ℝ) : Res (ℝ × ℝ) := do
  let GId ← fdagger tiny GI
  let a ← mul3 tiny GId H1 qJ
  let a1 ← qexp qvar W.ci a
  let qJd ← fdagger tiny qJ
  let b ← mul3 tiny GId qJd H1
  let b1 ← qexp qvar W.ci b
  pure (√a1, √(1 / 2 * b1))

/-- The values of projected.py, lines 420-481 (allprojected.py:323-384); `E` holds `_G_exp` and `_HG_exp`, `V` their
variances (`var_G_exp`, `var_HG_exp`) and `ve` is `var_energy`. -/
noncomputable def stdProjAct (W : RespWf) (H0 : Dict ℝ) (E V : List (ℝ × ℝ)) (ve : ℝ) (GJ GI : Dict ℝ × ℕ) :
    Res (ℝ × ℝ × ℝ) := do
  let GId ← fdagger tiny GI.1
  let a ← mul3 tiny GId H0 GJ.1
  let va ← qexp qvar W.ci a
  let s ← fmul tiny GId GJ.1
  let vgg ← qexp qvar W.ci s
  let gg ← qexp qev W.ci s
  let ei ← qpAt E GI.2
  let vi ← qpAt V GI.2
  let ej ← qpAt E GJ.2
  let vj ← qpAt V GJ.2
  let h := 1 / 2 * varProd ei.1 vi.1 ej.2 vj.2
  let h' := 1 / 2 * varProd ej.1 vj.1 ei.2 vi.2
  let t := (ei.1 ^ 2 + vi.1) * (ej.1 ^ 2 + vj.1) * (W.energy ^ 2 + ve) - ei.1 ^ 2 * ej.1 ^ 2 * W.energy ^ 2
  pure (√(va + varProd gg vgg W.energy ve + h + h' + t), √(h' + h + t), √(vgg + varProd ei.1 vi.1 ej.1 vj.1))

/-- The loop over the active operators, projected.py:418-481 and allprojected.py:321-384. -/
noncomputable def stdProjActLoop (W : RespWf) (L : QLR) (E V : List (ℝ × ℝ)) (ve : ℝ) (S : LRMats) : Res LRMats :=
  lrLoop L.G.zipIdx (fun j => (L.G.drop j).zipIdx j) (fun GJ => pure GJ)
    (fun _ x y => stdProjAct tiny qev qvar W L.H0 E V ve x y)
    (fun S i j v => { S with
      A := setSym S.A (i + L.Q.length) (j + L.Q.length) v.1
      B := setSym S.B (i + L.Q.length) (j + L.Q.length) v.2.1
      Sigma := setSym S.Sigma (i + L.Q.length) (j + L.Q.length) v.2.2 }) S

/-- `quantumLR.run_std` of projected.py, lines 331-486, on the object `L` with the lists `E`: the arrays it returns
(as a record of matrices) and the lists it leaves.  The orbital-orbital entries are those of naive.py. -/
noncomputable def qpStd (W : RespWf) (E : List (ℝ × ℝ)) (L : QLR) : Res (LRMats × List (ℝ × ℝ)) := do
  let sh := L.Q.length
  let E ← stdExp tiny qev W L E
  let V ← L.G.mapM (qpExp tiny qvar W L.H0)
  let ve ← qexp qvar W.ci L.H0
  let H2 ← hamiltonian2i2a tiny big W.h W.g W.ci.nI W.ci.nA W.ci.nV
  let S ← lrLoop L.Q.zipIdx (fun j => (L.Q.drop j).zipIdx j) (fun qJ => pure qJ)
    (fun _ x y => stdOrb tiny qvar W H2 x.1 y.1)
    (fun S i j v => { S with
      A := setSym S.A i j v.1
      B := setSym S.B i j v.2.1
      Sigma := setSym S.Sigma i j v.2.2 }) LRMats.zero
  let S ← lrLoop L.Q.zipIdx (fun _ => L.G.zipIdx) (fun qJ => pure qJ)
    (fun _ x y => stdProjMixed tiny qvar W L.H1 x.1 y.1)
    (fun S i j v => { S with A := setSym S.A j (i + sh) v.1, B := setSym S.B j (i + sh) v.2 }) S
  let S ← stdProjActLoop tiny qev qvar W L E V ve S
  pure (S, E)

/-- The values of allprojected.py, lines 293-308, for `A` and `Sigma`. -/
noncomputable def stdAllOrb (W : RespWf) (ve : ℝ) (H2 qJ qI : Dict ℝ) : Res (ℝ × ℝ) := do
  let qId ← fdagger tiny qI
  let s ← fmul tiny qId qJ
  let qq ← qexp qev W.ci s
  let vqq ← qexp qvar W.ci s
  let a ← mul3 tiny qId H2 qJ
  let va ← qexp qvar W.ci a
  pure (√(va + varProd qq vqq W.energy ve), √vqq)

/-- The value of allprojected.py, lines 313-318. -/
noncomputable def stdAllMixed (W : RespWf) (H1 qJ GI : Dict ℝ) : Res ℝ := do
  let GId ← fdagger tiny GI
  let a ← mul3 tiny GId H1 qJ
  let a1 ← qexp qvar W.ci a
  pure (√a1)

/-- `quantumLR.run_std` of allprojected.py, lines 249-389. -/
noncomputable def qaStd (W : RespWf) (E : List (ℝ × ℝ)) (L : QLR) : Res (LRMats × List (ℝ × ℝ)) := do
  let sh := L.Q.length
  let E ← stdExp tiny qev W L E
  let V ← L.G.mapM (qpExp tiny qvar W L.H0)
  let ve ← qexp qvar W.ci L.H0
  let H2 ← hamiltonian2i2a tiny big W.h W.g W.ci.nI W.ci.nA W.ci.nV
  let S ← lrLoop L.Q.zipIdx (fun j => (L.Q.drop j).zipIdx j) (fun qJ => pure qJ)
    (fun _ x y => stdAllOrb tiny qev qvar W ve H2 x.1 y.1)
    (fun S i j v => { S with A := setSym S.A i j v.1, Sigma := setSym S.Sigma i j v.2 }) LRMats.zero
  let S ← lrLoop L.Q.zipIdx (fun _ => L.G.zipIdx) (fun qJ => pure qJ)
    (fun _ x y => stdAllMixed tiny qvar W L.H1 x.1 y.1)
    (fun S i j v => { S with A := setSym S.A j (i + sh) v }) S
  let S ← stdProjActLoop tiny qev qvar W L E V ve S
  pure (S, E)

end

end SQ
