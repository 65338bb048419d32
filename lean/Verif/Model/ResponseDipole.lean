import Verif.Model.LinearResponse
import Verif.Model.ResponseProjected
import Verif.Model.ResponseTransfer

/-!
# Model: transition dipole moments of linear response

unitary_coupled_cluster/linear_response/naive.py:306-429, projected.py:285-396, allprojected.py:288-486,
statetransfer.py:157-279 and projected_statetransfer.py:147-269 (`get_transition_dipole`).  The integrals `mux`, `muy`, `muz` in the molecular
orbitals are the parameter `mu`.  The three components are computed by the same statements; the model has these
statements once.  The operators `self.G_ops` are a list `G`; `num_G` is its length.
-/

namespace SQ

section
variable (tiny big : ℝ → Bool) (th : Threads)

/-- A matrix of the response classes as an array with `s` rows and columns. -/
def LRMats.arr (s : ℕ) (X : Mat ℝ) : RMat s := fun i j => X i j

/-- `calc_excitation_energies` for the stored matrices. -/
noncomputable def LRMats.solve (lib : LRLib) (q g : ℕ) (M : LRMats) : Res (LROut ((q + g) + (q + g))) :=
  calcExcitations lib true q g (LRMats.arr _ M.A) (LRMats.arr _ M.B) (LRMats.arr _ M.Sigma) (LRMats.arr _ M.Delta)

/-- `normed_response_vectors[i, state]` within the array. -/
def rowAt {m : ℕ} (v : Fin m → ℝ) (i : ℕ) : ℝ := if h : i < m then v ⟨i, h⟩ else 0

/-- `q_part`, naive.py:348-381; `nq` is `len(self.q_ops)`, `nexc` is `number_excitations`. A row past the end
raises. -/
noncomputable def dipQ (W : RespWf) (nq nexc : ℕ) {m : ℕ} (mu : Mat ℝ) (v : Fin m → ℝ) : Res ℝ :=
  if nq ≠ 0 then
    if m < W.kappa.length + nexc then .error .indexError
    else .ok (propertyGradient W.ci.nI W.ci.nA W.rdm1 mu W.kappa (rowAt v) fun i => rowAt v (i + nexc))
  else .ok 0

/-- The rows of `transition_dipoles`: the states of each component are computed first, then one row per state. -/
def dipRows {κ σ : Type} (mu : Fin 3 → Mat ℝ) (pre : Mat ℝ → Res κ) (states : List σ)
    (entry : σ → Mat ℝ → κ → Res ℝ) : Res (List (Fin 3 → ℝ)) := do
  let kx ← pre (mu 0)
  let ky ← pre (mu 1)
  let kz ← pre (mu 2)
  states.mapM fun s => do
    let x ← entry s (mu 0) kx
    let y ← entry s (mu 1) ky
    let z ← entry s (mu 2) kz
    pure ![x, y, z]

/-- Column `s` of the normalised vectors. -/
def LROut.column {m : ℕ} (out : LROut m) (s : ℕ) : Res (Fin m → ℝ) :=
  match out.normed[s]? with
  | none => .error .indexError
  | some v => .ok v

/-! ### naive.py -/

/-- `mux_ket` and `muxd_ket`, lines 313-337. -/
noncomputable def naiveDipPre (W : RespWf) (mu : Mat ℝ) : Res (Vec ℝ × Vec ℝ) := do
  let op ← oneElec0i0a tiny big mu W.ci.nI W.ci.nA
  let k ← W.prop tiny th [.op op] W.c
  let opd ← fdagger tiny op
  let kd ← W.prop tiny th [.op opd] W.c
  pure (k, kd)

/-- `transfer_op`, lines 343-347. -/
def naiveTransfer {q : ℕ} (G : List (Dict ℝ)) (v : Fin ((q + G.length) + (q + G.length)) → ℝ) : Res (Dict ℝ) :=
  (List.finRange G.length).foldlM (fun T i => do
    let gd ← fdagger tiny G[i]
    pure (fadd tiny T (fadd tiny (frmul (zg v i) gd) (frmul (yg v i) G[i])))) []

/-- One component for one state, lines 348-428. -/
noncomputable def naiveDip (W : RespWf) {q : ℕ} (G : List (Dict ℝ)) (nexc : ℕ)
    (v : Fin ((q + G.length) + (q + G.length)) → ℝ) (mu : Mat ℝ) (k : Vec ℝ × Vec ℝ) : Res ℝ := do
  let T ← naiveTransfer tiny G v
  let qp ← dipQ W q nexc mu v
  let Tk ← W.prop tiny th [.op T] W.c
  let Td ← fdagger tiny T
  let Tdk ← W.prop tiny th [.op Td] W.c
  let x ← W.ev tiny th k.2 [] Tk
  let y ← W.ev tiny th Tdk [] k.1
  pure (qp + (x - y))

/-- `get_transition_dipole`, naive.py:306-429. -/
noncomputable def naiveDipoles (W : RespWf) {q : ℕ} (G : List (Dict ℝ)) (mu : Fin 3 → Mat ℝ)
    (out : LROut ((q + G.length) + (q + G.length))) : Res (List (Fin 3 → ℝ)) :=
  dipRows mu (naiveDipPre tiny big th W) (List.range out.energies.length) fun s m k => do
    let v ← out.column s
    naiveDip tiny th W G out.energies.length v m k

/-! ### projected.py -/

/-- `mux_ket` and `exp_mux`, lines 293-319. -/
noncomputable def projDipPre (W : RespWf) (mu : Mat ℝ) : Res (Vec ℝ × ℝ) := do
  let op ← oneElec0i0a tiny big mu W.ci.nI W.ci.nA
  let k ← W.prop tiny th [.op op] W.c
  let e ← W.ev tiny th W.c [] k
  pure (k, e)

/-- One component for one state, lines 322-395. -/
noncomputable def projDip (W : RespWf) {q : ℕ} (G : List (Dict ℝ)) (nexc : ℕ)
    (v : Fin ((q + G.length) + (q + G.length)) → ℝ) (mu : Mat ℝ) (k : Vec ℝ × ℝ) : Res ℝ := do
  let qp ← dipQ W q nexc mu v
  let gp ← (List.finRange G.length).foldlM (fun s i => do
    let Gk ← W.prop tiny th [.op G[i]] W.c
    let eG ← W.ev tiny th W.c [] Gk
    let eGmu ← W.ev tiny th Gk [] k.1
    pure (s + zg v i * eG * k.2 - zg v i * eGmu - yg v i * eG * k.2 + yg v i * eGmu)) 0
  pure (qp + gp)

/-- `get_transition_dipole`, projected.py:285-396. -/
noncomputable def projDipoles (W : RespWf) {q : ℕ} (G : List (Dict ℝ)) (mu : Fin 3 → Mat ℝ)
    (out : LROut ((q + G.length) + (q + G.length))) : Res (List (Fin 3 → ℝ)) :=
  dipRows mu (projDipPre tiny big th W) (List.range out.energies.length) fun s m k => do
    let v ← out.column s
    projDip tiny th W G out.energies.length v m k

/-! ### allprojected.py -/

/-- One component for one state, allprojected.py:323-485. -/
noncomputable def aprojDip (W : RespWf) {q : ℕ} (G : List (Dict ℝ)) (nexc : ℕ)
    (v : Fin ((q + G.length) + (q + G.length)) → ℝ) (mu : Mat ℝ) (k : Vec ℝ × Vec ℝ) : Res ℝ := do
  let qp ← dipQ W q nexc mu v
  let gp ← (List.finRange G.length).foldlM (fun s i => do
    let Gk ← W.prop tiny th [.op G[i]] W.c
    let eG ← W.ev tiny th W.c [] Gk
    let eGd ← W.ev tiny th Gk [] W.c
    let m1 ← W.ev tiny th W.c [] k.1
    let m2 ← W.ev tiny th Gk [] k.1
    let m3 ← W.ev tiny th W.c [] k.1
    let m4 ← W.ev tiny th k.2 [] Gk
    pure (s + zg v i * eGd * m1 - zg v i * m2 - yg v i * eG * m3 + yg v i * m4)) 0
  pure (qp + gp)

/-- `get_transition_dipole`, allprojected.py:288-486; `mux_ket` and `muxd_ket` (lines 315-320) read as in naive.py. -/
noncomputable def aprojDipoles (W : RespWf) {q : ℕ} (G : List (Dict ℝ)) (mu : Fin 3 → Mat ℝ)
    (out : LROut ((q + G.length) + (q + G.length))) : Res (List (Fin 3 → ℝ)) :=
  dipRows mu (naiveDipPre tiny big th W) (List.range out.energies.length) fun s m k => do
    let v ← out.column s
    aprojDip tiny th W G out.energies.length v m k

/-! ### statetransfer.py and projected_statetransfer.py -/

/-- `Udmuxd_ket` and `Udmux_ket`, statetransfer.py:164-188. -/
noncomputable def stDipPre (W : RespWf) (mu : Mat ℝ) : Res (Vec ℝ × Vec ℝ) := do
  let op ← oneElec0i0a tiny big mu W.ci.nI W.ci.nA
  let opd ← fdagger tiny op
  let kd ← W.prop tiny th [.name "Ud", .op opd] W.c
  let k ← W.prop tiny th [.name "Ud", .op op] W.c
  pure (kd, k)

/-- One component for one state, statetransfer.py:191-278. -/
noncomputable def stDip (W : RespWf) {q : ℕ} (G : List (Dict ℝ)) (nexc : ℕ)
    (v : Fin ((q + G.length) + (q + G.length)) → ℝ) (mu : Mat ℝ) (k : Vec ℝ × Vec ℝ) : Res ℝ := do
  let qp ← dipQ W q nexc mu v
  let gp ← (List.finRange G.length).foldlM (fun s i => do
    let Gk ← W.prop tiny th [.op G[i]] W.csf
    let x ← W.ev tiny th k.1 [] Gk
    let y ← W.ev tiny th Gk [] k.2
    pure (s - zg v i * x + yg v i * y)) 0
  pure (qp + gp)

/-- `get_transition_dipole`, statetransfer.py:157-279 and projected_statetransfer.py:147-269 (the same
statements): one row for each column of the normalised vectors.  (The array has the row `[0]` whose length is
taken, because `calc_excitation_energies` raises when there are no parameters.) -/
noncomputable def stDipoles (W : RespWf) {q : ℕ} (G : List (Dict ℝ)) (mu : Fin 3 → Mat ℝ)
    (out : LROut ((q + G.length) + (q + G.length))) : Res (List (Fin 3 → ℝ)) :=
  dipRows mu (stDipPre tiny big th W) out.normed fun v m k => stDip tiny th W G out.energies.length v m k

end

end SQ
