import Verif.Model.QuantumResponse
import Mathlib.Analysis.SpecialFunctions.Sqrt

/-!
# Model: standard deviations of the matrices of naive linear response

qiskit_interface/linear_response/naive.py, `run_std` (lines 333-462).  `QI.quantum_variance` (interface.py:1169-1271,
with the argument `no_coeffs` of the call) is a parameter `qvar`: a function of the folded operator that may raise.
`np.sqrt` is the square root of the reals.  This is the part that
computes the arrays; `_analyze_std` (lines 459-461), which prints, saves and may raise, is in `Model/StdAnalysis`.
-/

namespace SQ

section
variable (tiny big : ℝ → Bool) (qvar : Dict ℝ → Res ℝ)

/-- The values of lines 367-390 for `A`, `B` and `Sigma`. -/
noncomputable def stdOrb (W : RespWf) (H2 qJ qI : Dict ℝ) : Res (ℝ × ℝ × ℝ) := do
  let qId ← fdagger tiny qI
  let a ← mul3 tiny qId H2 qJ
  let a1 ← qexp qvar W.ci a
  let a ← mul3 tiny qId qJ H2
  let a2 ← qexp qvar W.ci a
  let qJd ← fdagger tiny qJ
  let b ← mul3 tiny qId qJd H2
  let b1 ← qexp qvar W.ci b
  let s ← fmul tiny qId qJ
  let s1 ← qexp qvar W.ci s
  pure (√(a1 + a2), √b1, √s1)

/-- The values of lines 392-431. -/
noncomputable def stdMixed (W : RespWf) (H1 qJ GI : Dict ℝ) : Res (ℝ × ℝ) := do
  let GId ← fdagger tiny GI
  let a ← mul3 tiny GId H1 qJ
  let a1 ← qexp qvar W.ci a
  let a ← mul3 tiny H1 qJ GId
  let a2 ← qexp qvar W.ci a
  let a ← mul3 tiny H1 GId qJ
  let a3 ← qexp qvar W.ci a
  let qJd ← fdagger tiny qJ
  let b ← mul3 tiny qJd H1 GId
  let b1 ← qexp qvar W.ci b
  let b ← mul3 tiny GId qJd H1
  let b2 ← qexp qvar W.ci b
  let b ← mul3 tiny qJd GId H1
  let b3 ← qexp qvar W.ci b
  pure (√(a1 + 1 / 2 * a2 + 1 / 2 * a3), √(b1 + 1 / 2 * b2 + 1 / 2 * b3))

/-- The values of lines 433-457. -/
noncomputable def stdAct (W : RespWf) (H0 GJ GI : Dict ℝ) : Res (ℝ × ℝ × ℝ) := do
  let GId ← fdagger tiny GI
  let a ← doubleCommutatorSym tiny GId H0 GJ
  let a1 ← qexp qvar W.ci a
  let GJd ← fdagger tiny GJ
  let b ← doubleCommutator tiny GId H0 GJd
  let b1 ← qexp qvar W.ci b
  let s ← commutatorOp tiny GId GJ
  let s1 ← qexp qvar W.ci s
  pure (√a1, √b1, √s1)

/-- `quantumLR.run_std` of naive.py, lines 351-462, on the object `L`: the arrays `A`, `B` and `Sigma` it returns (as
a record of matrices; `Delta` stays zero).  The arrays are new ones (lines 363-365): the matrices of `L` are neither
read nor changed. -/
noncomputable def qnStd (W : RespWf) (L : QLR) : Res LRMats := do
  let sh := L.Q.length
  let H2 ← hamiltonian2i2a tiny big W.h W.g W.ci.nI W.ci.nA W.ci.nV
  let S ← lrLoop L.Q.zipIdx (fun j => (L.Q.drop j).zipIdx j) (fun qJ => pure qJ)
    (fun _ x y => stdOrb tiny qvar W H2 x.1 y.1)
    (fun S i j v => { S with
      A := setSym S.A i j v.1
      B := setSym S.B i j v.2.1
      Sigma := setSym S.Sigma i j v.2.2 }) LRMats.zero
  let S ← lrLoop L.Q.zipIdx (fun _ => L.G.zipIdx) (fun qJ => pure qJ)
    (fun _ x y => stdMixed tiny qvar W L.H1 x.1 y.1)
    (fun S i j v => { S with A := setSym S.A (i + sh) j v.1, B := setSym S.B (i + sh) j v.2 }) S
  lrLoop L.G.zipIdx (fun j => (L.G.drop j).zipIdx j) (fun GJ => pure GJ)
    (fun _ x y => stdAct tiny qvar W L.H0 x.1 y.1)
    (fun S i j v => { S with
      A := setSym S.A (i + sh) (j + sh) v.1
      B := setSym S.B (i + sh) (j + sh) v.2.1
      Sigma := setSym S.Sigma (i + sh) (j + sh) v.2.2 }) S

end

end SQ
