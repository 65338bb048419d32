import Verif.Model.Ansatz

/-!
# Model of the ansatz part of the energy and its gradient
(`slowquant/unitary_coupled_cluster/ups_wavefunction.py:346-365, 771-786, 1060-1142`)

The integrals `h_mo`, `g_mo` are arguments. `big x` is the cut-off `abs(x) > 10**-14` of
`hamiltonian_0i_0a`, `tiny x` the cut-off `abs(x) < 1e-28`/`1e-14` of the operator and state algebra.
-/

namespace SQ

/-- `construct_ups_state(state, ci_info, thetas, ups_layout, dagger)`. -/
noncomputable def upsVec (tiny : ℝ → Bool) (th : Threads) (ci : CIInfo) (st : AnsatzStruct)
    (thetas : List ℝ) (dagger : Bool) (v : Vec ℝ) : Res (Vec ℝ) :=
  constructUps (propVec tiny th ci) tiny ci.offset st thetas dagger v

/-- `propagate_state([hamiltonian_0i_0a(h_mo, g_mo, nI, nA)], v, ci_info)`, with folding,
lines 1093-1104. -/
noncomputable def applyHam (tiny big : ℝ → Bool) (th : Threads) (ci : CIInfo) (h : ℕ → ℕ → ℝ)
    (g : ℕ → ℕ → ℕ → ℕ → ℝ) (v : Vec ℝ) : Res (Vec ℝ) :=
  match hamiltonian0i0a tiny big h g ci.nI ci.nA with
  | .error e => .error e
  | .ok H => propagateState tiny th ci (fun _ _ => .error .valueError) true false [.op H] v

/-- `energy_elec`, lines 771-786, after `thetas` was set (346-365), cache empty. -/
noncomputable def upsEnergy (tiny big : ℝ → Bool) (th : Threads) (ci : CIInfo) (h : ℕ → ℕ → ℝ)
    (g : ℕ → ℕ → ℕ → ℕ → ℝ) (st : AnsatzStruct) (csf : Vec ℝ) (thetas : List ℝ) : Res ℝ := do
  let c ← upsVec tiny th ci st thetas false csf
  let w ← applyHam tiny big th ci h g c
  pure (dot ci.idx2det.length c w)

/-- The loop of lines 1116-1138. -/
noncomputable def gradLoop (tiny : ℝ → Bool) (th : Threads) (ci : CIInfo) (st : AnsatzStruct)
    (thetas : List ℝ) : List ℕ → Vec ℝ → Vec ℝ → Res (List ℝ)
  | [], _, _ => .ok []
  | i :: is, bra, ket => do
    let tmp ← gradAction (propVec tiny th ci) tiny ci.offset st i ket
    let bra' ← propagateUnitary (propVec tiny th ci) tiny ci.offset st thetas i bra
    let ket' ← propagateUnitary (propVec tiny th ci) tiny ci.offset st thetas i ket
    let rest ← gradLoop tiny th ci st thetas is bra' ket'
    pure (2 * dot ci.idx2det.length bra tmp :: rest)

/-- `_calc_gradient_optimization(parameters, True, False)`, lines 1060-1142: the entries
`gradient[num_kappa:]`. -/
noncomputable def thetaGradient (tiny big : ℝ → Bool) (th : Threads) (ci : CIInfo) (h : ℕ → ℕ → ℝ)
    (g : ℕ → ℕ → ℕ → ℕ → ℝ) (st : AnsatzStruct) (csf : Vec ℝ) (thetas : List ℝ) : Res (List ℝ) := do
  let c ← upsVec tiny th ci st thetas false csf
  let bra ← applyHam tiny big th ci h g c
  let bra ← upsVec tiny th ci st thetas true bra
  gradLoop tiny th ci st thetas (List.range thetas.length) bra csf

end SQ
