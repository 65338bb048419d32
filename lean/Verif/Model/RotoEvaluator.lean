import Verif.Model.SaEnv
import Verif.Model.Optimizers

/-!
# Model: the evaluator that the wave functions hand to RotoSolve

`_calc_energy_rotosolve_optimization` of `slowquant/unitary_coupled_cluster/ups_wavefunction.py` (1144-1194) and
`sa_ups_wavefunction.py` (1005-1082): the energies at several values of one parameter. The unitaries in front of the parameter
are applied once, the one of the parameter once per value, the ones behind it to all states together. It is passed as
`f_rotosolve_optimized` to the optimizer (ups 859 and 1003, sa 577 and 723), which calls it with its list of parameters
(optimizers.py 370-388).

Simplifications: `theta_idx >= 0`. `np.asarray(parameters)` has integer elements if all elements of the list are Python `int`s
(`ints`), and then the assignment `theta_tmp[theta_idx] = theta_diff` rounds towards zero; otherwise it has floats. The
increment of `num_energy_evals` is returned along with the energies.
-/

namespace SQ

/-- A number assigned to an element of an array of integers or of floats, ups 1176, sa 1041. -/
noncomputable def storeIn (ints : Bool) (d : ℝ) : ℝ :=
  if ints then (if 0 ≤ d then (⌊d⌋ : ℝ) else (⌈d⌉ : ℝ)) else d

/-- `range(theta_idx + 1, n)`. -/
def rangeTo (k n : ℕ) : List ℕ := (List.range (n - k)).map (· + k)

/-- The unitaries behind the parameter and the Hamiltonian, for `n` states: bras and kets; ups 1181-1186, sa 1055-1072;
`len` is the number of parameters. -/
noncomputable def rotoTail (tiny big : ℝ → Bool) (th : Threads) (ci : CIInfo) (h : ℕ → ℕ → ℝ) (g : ℕ → ℕ → ℕ → ℕ → ℝ)
    (st : AnsatzStruct) (thetas : List ℝ) (len idx n : ℕ) (M : Mat ℝ) : Res (Mat ℝ × Mat ℝ) := do
  let K ← (rangeTo (idx + 1) len).foldlM
    (fun M i => propagateUnitary (propMat big th ci n) tiny ci.offset st thetas i M) M
  let B ← applyHamSA tiny big th ci n h g K
  pure (B, K)

/-- The rows of the array of shifted states, ups 1171-1179. -/
def stackRows (rows : List (Vec ℝ)) : Mat ℝ := fun j => rows.getD j fun _ => 0

/-- The rows `state_vecs[j * num_states + k]`, sa 1037-1052. -/
def stackBlocks (nS : ℕ) (blocks : List (Mat ℝ)) : Mat ℝ := fun r => (blocks.getD (r / nS) fun _ _ => 0) (r % nS)

/-- `_calc_energy_rotosolve_optimization` of `WaveFunctionUPS`, ups 1144-1194: energies and increment of the counter. -/
noncomputable def UpsData.rotoEnergies (D : UpsData) (h : Matrix (Fin D.n) (Fin D.n) ℝ) (g : Tensor4 (Fin D.n)) (ints : Bool)
    (thetas diffs : List ℝ) (idx : ℕ) : Res (List ℝ × ℕ) := do
  let v ← (List.range idx).foldlM
    (fun v i => propagateUnitary (propVec D.tiny D.th D.ci) D.tiny D.ci.offset D.st thetas i v) D.csf
  let rows ← diffs.mapM fun d =>
    propagateUnitary (propVec D.tiny D.th D.ci) D.tiny D.ci.offset D.st (thetas.set idx (storeIn ints d)) idx v
  let BK ← rotoTail D.tiny D.big D.th D.ci (natMat h) (natTen g) D.st thetas thetas.length idx diffs.length (stackRows rows)
  let energies := (List.range diffs.length).map fun j => dot D.ci.idx2det.length (BK.1 j) (BK.2 j)
  pure (energies, energies.length)

/-- The loop of sa 1074-1079 over `total` states: `energies` and `idx + 1`. -/
noncomputable def sumStates (nS : ℕ) (e : ℕ → ℝ) (total : ℕ) (energies : List ℝ) : ℕ × List ℝ :=
  (List.range total).foldl (fun s i =>
    let idx := if i % nS = 0 then s.1 + 1 else s.1
    (idx, s.2.modify (idx - 1) (· + e i))) (0, energies)

/-- `_calc_energy_rotosolve_optimization` of `WaveFunctionSAUPS`, sa 1005-1082: energies and increment of the counter;
`len(self.thetas)` is the number of parameters of the layout. -/
noncomputable def SaData.rotoEnergies (D : SaData) (h : Matrix (Fin D.n) (Fin D.n) ℝ) (g : Tensor4 (Fin D.n)) (ints : Bool)
    (thetas diffs : List ℝ) (idx : ℕ) : Res (List ℝ × ℕ) := do
  let V ← (List.range idx).foldlM
    (fun V i => propagateUnitary (propMat D.big D.th D.ci D.nS) D.tiny D.ci.offset D.st thetas i V) D.csf
  let blocks ← diffs.mapM fun d =>
    propagateUnitary (propMat D.big D.th D.ci D.nS) D.tiny D.ci.offset D.st (thetas.set idx (storeIn ints d)) idx V
  let BK ← rotoTail D.tiny D.big D.th D.ci (natMat h) (natTen g) D.st thetas D.st.types.length idx (diffs.length * D.nS)
    (stackBlocks D.nS blocks)
  let s := sumStates D.nS (fun r => dot D.ci.idx2det.length (BK.1 r) (BK.2 r)) (diffs.length * D.nS)
    (List.replicate diffs.length 0)
  pure (s.2, D.nS)

/-- What RotoSolve is given by `WaveFunctionUPS` with the evaluator, ups 853-861 and 997-1005: the objective is the energy at
the parameters; `okOr` is for the type of `Roto` (C143 shows that nothing is raised). -/
noncomputable def UpsData.roto (D : UpsData) (h : Matrix (Fin D.n) (Fin D.n) ℝ) (g : Tensor4 (Fin D.n)) (s : Roto) : Roto :=
  { s with
    f := fun θ => D.env.energy (D.env.state θ) h g
    fOpt := some fun θ diffs idx => (okOr ([], 0) (D.rotoEnergies h g false θ diffs idx)).1 }

/-- The same for `WaveFunctionSAUPS`, sa 571-579 and 717-725. -/
noncomputable def SaData.roto (D : SaData) (h : Matrix (Fin D.n) (Fin D.n) ℝ) (g : Tensor4 (Fin D.n)) (s : Roto) : Roto :=
  { s with
    f := fun θ => D.env.energy (D.env.state θ) h g
    fOpt := some fun θ diffs idx => (okOr ([], 0) (D.rotoEnergies h g false θ diffs idx)).1 }

end SQ
