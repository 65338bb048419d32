import Verif.Model.QuantumResponse
import Verif.Model.ResponseDipole

/-!
# Model: transition dipole moments of linear response with a quantum computer

qiskit_interface/linear_response/lr_baseclass.py:305-383 (roots and norms), naive.py:464-536, projected.py:488-573 and
allprojected.py:391-476 (`get_transition_dipole`; the last two are the same text).  Conventions as in
Model/QuantumResponse and Model/ResponseDipole: the three components are computed by the same statements.
-/

namespace SQ

section
variable (tiny big : ℝ → Bool) (qev : Dict ℝ → Res ℝ)

/-- `get_excitation_energies` (lines 305-338; `Delta` is set to zero and a negative Hessian only printed) followed by
`get_normed_excitation_vectors` (340-383), which reads `self._Z_G[0]` (370) and raises `IndexError` when there are no
active operators. -/
noncomputable def LRMats.qsolve (lib : LRLib) (q g : ℕ) (M : LRMats) : Res (LROut ((q + g) + (q + g))) := do
  let out ← calcExcitations lib false q g (LRMats.arr _ M.A) (LRMats.arr _ M.B) (LRMats.arr _ M.Sigma) 0
  if g = 0 then .error .indexError else .ok out

/-! ### naive.py -/

/-- One component for one state, lines 487-534. -/
noncomputable def qnDip (W : RespWf) {q : ℕ} (G : List (Dict ℝ)) (nexc : ℕ)
    (v : Fin ((q + G.length) + (q + G.length)) → ℝ) (mu : Mat ℝ) (op : Dict ℝ) : Res ℝ := do
  let T ← naiveTransfer tiny G v
  let qp ← dipQ W q nexc mu v
  let gp ← if G.length ≠ 0 then (do
      let c ← commutatorOp tiny op T
      qexp qev W.ci c)
    else pure 0
  pure (qp + gp)

/-- `get_transition_dipole`, naive.py:464-536. -/
noncomputable def qnDipoles (W : RespWf) {q : ℕ} (G : List (Dict ℝ)) (mu : Fin 3 → Mat ℝ)
    (out : LROut ((q + G.length) + (q + G.length))) : Res (List (Fin 3 → ℝ)) :=
  dipRows mu (fun m => oneElec0i0a tiny big m W.ci.nI W.ci.nA) (List.range out.energies.length) fun s m k => do
    let v ← out.column s
    qnDip tiny qev W G out.energies.length v m k

/-! ### projected.py and allprojected.py -/

/-- One component for one state, projected.py:506-572; `E` holds `_G_exp` and `_HG_exp`. -/
noncomputable def qpDip (W : RespWf) {q : ℕ} (G : List (Dict ℝ)) (E : List (ℝ × ℝ)) (nexc : ℕ)
    (v : Fin ((q + G.length) + (q + G.length)) → ℝ) (mu : Mat ℝ) (op : Dict ℝ) : Res ℝ := do
  let qp ← dipQ W q nexc mu v
  let em ← qexp qev W.ci op
  let gp ← (List.finRange G.length).foldlM (fun s (i : Fin G.length) => do
    let e ← qpAt E i
    let gd ← fdagger tiny G[i]
    let p ← fmul tiny gd op
    let gm ← qexp qev W.ci p
    pure (s + zg v i * e.1 * em - zg v i * gm - yg v i * e.1 * em + yg v i * gm)) 0
  pure (qp + gp)

/-- `get_transition_dipole`, projected.py:488-573 and allprojected.py:391-476. -/
noncomputable def qpDipoles (W : RespWf) {q : ℕ} (G : List (Dict ℝ)) (E : List (ℝ × ℝ)) (mu : Fin 3 → Mat ℝ)
    (out : LROut ((q + G.length) + (q + G.length))) : Res (List (Fin 3 → ℝ)) :=
  dipRows mu (fun m => oneElec0i0a tiny big m W.ci.nI W.ci.nA) (List.range out.energies.length) fun s m k => do
    let v ← out.column s
    qpDip tiny qev W G E out.energies.length v m k

end

end SQ
