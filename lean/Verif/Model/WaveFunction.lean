import Verif.Model.Py
import Verif.Model.Transforms
import Mathlib.Analysis.Normed.Algebra.MatrixExponential
import Mathlib.Analysis.Real.Sqrt

/-!
# Model: parameters, cached quantities and optimizations of the wave function classes

slowquant/unitary_coupled_cluster/ups_wavefunction.py (`ups`), ucc_wavefunction.py (`ucc`) and
sa_ups_wavefunction.py (`sa`): the `kappa`, `thetas`, `c_mo`, `h_mo`, `g_mo`, `ci_coeffs`, `rdm1`-`rdm4`,
energy properties, the two callbacks given to the minimizer and the two `run_wf_optimization` methods.

The functions computing a state vector, a density matrix, an energy or a gradient from their arguments are
parameters (`WFEnv`); other model files are about them. What is modelled here is which arguments they get
and when they are called. The minimizer is any sequence of callback calls with any result. Numbers are
reals; `scipy.linalg.expm` is the matrix exponential. Printing, timing and counting evaluations are left
out, as is the check of the RotoSolve options.
-/

namespace SQ

inductive WFKind | ups | ucc | sa
deriving DecidableEq

/-- What a wave function object is made for: number of orbitals, non-redundant rotations, integrals, and
the functions the cached quantities are computed with. -/
structure WFEnv where
  kind : WFKind
  n : ℕ
  kappaIdx : List (Fin n × Fin n)
  numTheta : ℕ
  hAo : Matrix (Fin n) (Fin n) ℝ
  gAo : Tensor4 (Fin n)
  mo : Matrix (Fin n) (Fin n) ℝ
  V : Type
  D1 : Type
  D2 : Type
  D3 : Type
  D4 : Type
  St : Type
  csf : V
  /-- `construct_ups_state` / `construct_ucc_state` / `construct_ups_state_SA` on the reference -/
  state : List ℝ → V
  mkRdm1 : V → D1
  mkRdm2 : V → D1 → D2
  mkRdm3 : V → D1 → D2 → D3
  mkRdm4 : V → D1 → D2 → D3 → D4
  /-- expectation value of the Hamiltonian -/
  energy : V → Matrix (Fin n) (Fin n) ℝ → Tensor4 (Fin n) → ℝ
  /-- `get_electronic_energy` -/
  energyRdm : Matrix (Fin n) (Fin n) ℝ → Tensor4 (Fin n) → D1 → D2 → ℝ
  /-- `get_orbital_gradient` -/
  gradKappa : Matrix (Fin n) (Fin n) ℝ → Tensor4 (Fin n) → D1 → D2 → List ℝ
  gradTheta : V → List ℝ → Matrix (Fin n) (Fin n) ℝ → Tensor4 (Fin n) → List ℝ
  /-- `_do_state_ci` -/
  stateCI : V → Matrix (Fin n) (Fin n) ℝ → Tensor4 (Fin n) → St

/-- The attributes. An outer `none` of `rdm3`, `rdm4` is an attribute that does not exist yet;
`kappaArr` records whether `_kappa` is a NumPy array (it is once a minimizer has set it) or a list. -/
structure WFObj (e : WFEnv) where
  cMo : Matrix (Fin e.n) (Fin e.n) ℝ
  kappa : List ℝ
  kappaOld : List ℝ
  kappaArr : Bool
  thetas : List ℝ
  ci : Option e.V
  rdm1 : Option e.D1
  rdm2 : Option e.D2
  rdm3 : Option (Option e.D3)
  rdm4 : Option (Option e.D4)
  hMo : Option (Matrix (Fin e.n) (Fin e.n) ℝ)
  gMo : Option (Tensor4 (Fin e.n))
  energy : Option ℝ
  states : Option e.St
  oldParams : List ℝ
  eOptOld : ℝ

/-- A method: changes the attributes, and returns or raises. Changes made before an exception stay. -/
def WFM (e : WFEnv) (α : Type _) := WFObj e → Res α × WFObj e

namespace WFM

variable {e : WFEnv} {α β : Type}

protected def pure (a : α) : WFM e α := fun s => (.ok a, s)

protected def bind (m : WFM e α) (f : α → WFM e β) : WFM e β := fun s =>
  match m s with
  | (.ok a, s') => f a s'
  | (.error x, s') => (.error x, s')

instance : Monad (WFM e) where
  pure := WFM.pure
  bind := WFM.bind

def get : WFM e (WFObj e) := fun s => (.ok s, s)
def modify (f : WFObj e → WFObj e) : WFM e Unit := fun s => (.ok (), f s)
def raise (x : PyErr) : WFM e α := fun s => (.error x, s)

end WFM

namespace WFObj

open WFM

variable {e : WFEnv}

/-- The constructors: ups 82-86, 163-189, 262-264, 314; ucc 58, 77-83, 154-180, 209, 231; sa 70, 88-93,
171-193, 236, 289. (With perfect pairing the coefficients are reordered before, see OrbitalSpaces.) The
attributes of the callbacks are set when an optimization starts. -/
noncomputable def init (e : WFEnv) : WFObj e where
  cMo := e.mo
  kappa := List.replicate e.kappaIdx.length 0
  kappaOld := List.replicate e.kappaIdx.length 0
  kappaArr := false
  thetas := List.replicate e.numTheta 0
  ci := some e.csf
  rdm1 := none
  rdm2 := none
  rdm3 := if e.kind = .ucc then some none else none
  rdm4 := if e.kind = .ucc then some none else none
  hMo := none
  gMo := none
  energy := none
  states := none
  oldParams := []
  eOptOld := 0

/-- `np.array(a) - np.array(b)`: equal lengths, or one of length 1; otherwise `ValueError`. -/
noncomputable def arrSub (a b : List ℝ) : Res (List ℝ) :=
  if a.length = b.length then .ok (List.zipWith (· - ·) a b)
  else match a, b with
    | [x], b => .ok (b.map (x - ·))
    | a, [y] => .ok (a.map (· - y))
    | _, _ => .error .valueError

/-- `kappa_mat[p, q] = v`. -/
def setEntry {n : ℕ} (M : Matrix (Fin n) (Fin n) ℝ) (p q : Fin n) (v : ℝ) : Matrix (Fin n) (Fin n) ℝ :=
  fun i j => if i = p ∧ j = q then v else M i j

/-- The loop over `zip(self.kappa, self._kappa_old, self.kappa_idx)`, ups 381-383, ucc 309-311, sa 369-371. -/
def kappaMat {n : ℕ} (idx : List (Fin n × Fin n)) (k kOld : List ℝ) : Matrix (Fin n) (Fin n) ℝ :=
  (k.zip (kOld.zip idx)).foldl (fun M x =>
    setEntry (setEntry M x.2.2.1 x.2.2.2 (x.1 - x.2.1)) x.2.2.2 x.2.2.1 (-(x.1 - x.2.1))) 0

/-- `c_mo`, ups 368-385, ucc 296-313, sa 356-373. -/
noncomputable def readCMo : WFM e (Matrix (Fin e.n) (Fin e.n) ℝ) := fun s =>
  if s.kappa.length ≠ 0 then
    match arrSub s.kappa s.kappaOld with
    | .error x => (.error x, s)
    | .ok d =>
      -- `np.max` of an empty array raises
      if d.length = 0 then (.error .valueError, s)
      else if d.any fun x => |x| > 0 then
        (.ok (s.cMo * NormedSpace.exp (-kappaMat e.kappaIdx s.kappa s.kappaOld)), s)
      else (.ok (s.cMo * NormedSpace.exp (-(0 : Matrix (Fin e.n) (Fin e.n) ℝ))), s)
  else (.ok (s.cMo * NormedSpace.exp (-(0 : Matrix (Fin e.n) (Fin e.n) ℝ))), s)

/-- The `kappa` setter, ups 321-334, ucc 238-251, sa 296-311; `arr` says whether the value is an array. -/
noncomputable def setKappa (k : List ℝ) (arr : Bool) : WFM e Unit := do
  modify fun s => { s with hMo := none, gMo := none, energy := none, states := if e.kind = .sa then none else s.states,
                           kappa := k, kappaArr := arr }
  let c ← readCMo
  modify fun s => { s with cMo := c, kappaOld := s.kappa }

/-- The `thetas` setter, ups 345-365, ucc 278-293, sa 338-353. The `ups` class computes the state at
once. -/
noncomputable def setThetas (t : List ℝ) : WFM e Unit := do
  let s ← get
  if t.length ≠ s.thetas.length then raise .valueError
  else modify fun s => { s with
    rdm1 := none, rdm2 := none
    rdm3 := if e.kind = .sa then s.rdm3 else some none
    rdm4 := if e.kind = .sa then s.rdm4 else some none
    energy := none
    states := if e.kind = .sa then none else s.states
    thetas := t
    ci := if e.kind = .ups then some (e.state t) else none }

/-- `h_mo`, ups 388-396, ucc 316-326, sa 376-384. -/
noncomputable def readH : WFM e (Matrix (Fin e.n) (Fin e.n) ℝ) := do
  match (← get).hMo with
  | some h => return h
  | none =>
    let c ← readCMo
    modify fun s => { s with hMo := some (oneTransform c e.hAo) }
    return oneTransform c e.hAo

/-- `g_mo`, ups 399-407, ucc 329-337, sa 387-395. -/
noncomputable def readG : WFM e (Tensor4 (Fin e.n)) := do
  match (← get).gMo with
  | some g => return g
  | none =>
    let c ← readCMo
    modify fun s => { s with gMo := some (twoTransform c e.gAo) }
    return twoTransform c e.gAo

/-- `ci_coeffs`: an attribute in ups, a property in ucc 254-267 and sa 314-327. -/
noncomputable def readCI : WFM e e.V := do
  let s ← get
  match s.ci with
  | some v => return v
  | none =>
    let v := e.state s.thetas
    modify fun s => { s with ci := some v }
    return v

/-- `rdm1`, ups 410-431, ucc 340-361, sa 398-424. -/
noncomputable def readRdm1 : WFM e e.D1 := do
  match (← get).rdm1 with
  | some d => return d
  | none =>
    let v ← readCI
    modify fun s => { s with rdm1 := some (e.mkRdm1 v) }
    return e.mkRdm1 v

/-- `rdm2`, ups 433-477, ucc 363-406, sa 427-479; it reads `rdm1`. -/
noncomputable def readRdm2 : WFM e e.D2 := do
  match (← get).rdm2 with
  | some d => return d
  | none =>
    let v ← readCI
    let d1 ← readRdm1
    modify fun s => { s with rdm2 := some (e.mkRdm2 v d1) }
    return e.mkRdm2 v d1

/-- `rdm3`, ups 479-536, ucc 408-466. -/
noncomputable def readRdm3 : WFM e e.D3 := do
  match (← get).rdm3 with
  | none => raise .attributeError
  | some (some d) => return d
  | some none =>
    let v ← readCI
    let d1 ← readRdm1
    let d2 ← readRdm2
    modify fun s => { s with rdm3 := some (some (e.mkRdm3 v d1 d2)) }
    return e.mkRdm3 v d1 d2

/-- `rdm4`, ups 538-754, ucc 468-683. -/
noncomputable def readRdm4 : WFM e e.D4 := do
  match (← get).rdm4 with
  | none => raise .attributeError
  | some (some d) => return d
  | some none =>
    let v ← readCI
    let d1 ← readRdm1
    let d2 ← readRdm2
    let d3 ← readRdm3
    modify fun s => { s with rdm4 := some (some (e.mkRdm4 v d1 d2 d3)) }
    return e.mkRdm4 v d1 d2 d3

/-- `energy_elec` (ups 770-784, ucc 700-721), `sa_energy` (sa 495-515). -/
noncomputable def readEnergy : WFM e ℝ := do
  match (← get).energy with
  | some E => return E
  | none =>
    let v ← readCI
    let h ← readH
    let g ← readG
    modify fun s => { s with energy := some (e.energy v h g) }
    return e.energy v h g

/-- `_do_state_ci`, sa 741-769. -/
noncomputable def doStateCI : WFM e e.St := do
  let h ← readH
  let g ← readG
  let v ← readCI
  modify fun s => { s with states := some (e.stateCI v h g) }
  return e.stateCI v h g

/-- `energy_states`, sa 771-780 (the two attributes `_do_state_ci` sets are kept together); the other
classes have no such property. -/
noncomputable def readStates : WFM e e.St := do
  if e.kind ≠ .sa then raise .attributeError
  else match (← get).states with
    | some x => return x
    | none => doStateCI

/-! ### Callbacks -/

/-- The parameters a callback writes, ups 1035-1040 and 1074-1079 (ucc 989-994, 1046-1051; sa 879-884,
934-939): slices of an array. -/
noncomputable def setParams (p : List ℝ) (theta kappa : Bool) : WFM e Unit := do
  let nk := if kappa then e.kappaIdx.length else 0
  if kappa then setKappa (p.take nk) true
  if theta then setThetas (p.drop nk)

/-- The energy a callback computes, ups 1041-1054, ucc 995-1022; sa 885-911 uses the state vectors in any
case. -/
noncomputable def callbackEnergy (kappa : Bool) : WFM e ℝ :=
  if kappa ∧ e.kind ≠ .sa then do
    let h ← readH
    let g ← readG
    let d1 ← readRdm1
    let d2 ← readRdm2
    return e.energyRdm h g d1 d2
  else do
    let v ← readCI
    let h ← readH
    let g ← readG
    return e.energy v h g

/-- `_calc_energy_optimization`, ups 1019-1058, ucc 966-1025, sa 855-914. -/
noncomputable def energyCall (p : List ℝ) (theta kappa : Bool) : WFM e ℝ := do
  let s ← get
  match arrSub s.oldParams p with
  | .error x => raise x
  | .ok d =>
    if d.length = 0 then raise .valueError
    else if d.all fun x => |x| < 1 / 10 ^ 14 then return s.eOptOld
    else do
      setParams p theta kappa
      let E ← callbackEnergy kappa
      modify fun s => { s with eOptOld := E, oldParams := p }
      return E

/-- `_calc_gradient_optimization`, ups 1060-1142, ucc 1027-1098, sa 916-1003. -/
noncomputable def gradCall (p : List ℝ) (theta kappa : Bool) : WFM e (List ℝ) := do
  setParams p theta kappa
  let gk ← if kappa then do
      let h ← readH
      let g ← readG
      let d1 ← readRdm1
      let d2 ← readRdm2
      pure (e.gradKappa h g d1 d2)
    else pure []
  let gt ← if theta then do
      let h ← readH
      let g ← readG
      let v ← readCI
      let s ← get
      pure (e.gradTheta v s.thetas h g)
    else pure []
  return gk ++ gt

/-! ### Optimizations -/

/-- A call of a minimizer. -/
inductive Call | energy (p : List ℝ) | grad (p : List ℝ)

noncomputable def doCall (theta kappa : Bool) : Call → WFM e Unit
  | .energy p => do let _ ← energyCall p theta kappa
  | .grad p => do let _ ← gradCall p theta kappa

/-- `self._old_opt_parameters = ... + 10**20`, `self._E_opt_old = 0.0`, then the calls of the minimizer. -/
noncomputable def minimizeCalls (size : ℕ) (theta kappa : Bool) (calls : List Call) : WFM e Unit := do
  modify fun s => { s with oldParams := List.replicate size (10 ^ 20), eOptOld := 0 }
  calls.forM (doCall theta kappa)

/-- The reset after an orbital optimization, ups 891-893, sa 615-617: both lists are overwritten. In ucc
830-832 the assignment `self.kappa[i] = 0.0` goes to the copy the getter returns. -/
noncomputable def resetKappa2 : WFM e Unit :=
  modify fun s => { s with
    kappa := if e.kind = .ucc then s.kappa else List.replicate s.kappa.length 0
    kappaOld := List.replicate s.kappa.length 0 }

/-- The reset in the one-step solver, ups 1011-1013, ucc 959-961, sa 731-733. -/
noncomputable def resetKappa1 : WFM e Unit :=
  modify fun s => { s with
    kappa := List.replicate s.kappa.length 0
    kappaOld := List.replicate s.kappa.length 0 }

/-- What the minimizers do in one round of the two-step solver. -/
structure Round where
  thetaCalls : List Call
  thetaX : List ℝ
  thetaFun : ℝ
  kappaCalls : List Call
  kappaFun : ℝ

/-- The rounds of `run_wf_optimization_2step`, ups 823-917, ucc 775-854, sa 540-635; returns `e_new`.
Without rounds left, `e_new` is what the last round set (`none`: unbound). -/
noncomputable def rounds (oo : Bool) (tol : ℝ) : List Round → ℝ → Option ℝ → WFM e (Option ℝ)
  | [], _, eNew => pure eNew
  | r :: rs, eOld, _ => do
    let s ← get
    minimizeCalls s.thetas.length true false r.thetaCalls
    setThetas r.thetaX
    let s ← get
    if oo ∧ s.kappa.length ≠ 0 then do
      minimizeCalls e.kappaIdx.length false true r.kappaCalls
      resetKappa2
      if |r.kappaFun - eOld| < tol then return some r.kappaFun
      else rounds oo tol rs r.kappaFun (some r.kappaFun)
    else return some r.thetaFun

/-- `run_wf_optimization_2step`, ups 799-918, ucc 723-855, sa 517-638; as many rounds as `maxiter`. With
`maxiter = 0` the result is unbound (represented by `runtimeError`). -/
noncomputable def run2 (oo : Bool) (tol : ℝ) (rs : List Round) : WFM e Unit := do
  match ← rounds oo tol rs (10 ^ 12) none with
  | none => raise .runtimeError
  | some E =>
    if e.kind = .sa then do let _ ← doStateCI
    modify fun s => { s with energy := some E }

/-- `a + b` for the parameters, ups 981-987: concatenation of lists, element-wise addition once
`_kappa` is an array. -/
noncomputable def joinParams (arr : Bool) (k t : List ℝ) : Res (List ℝ) :=
  if arr then
    match arrSub k (t.map (- ·)) with
    | .ok d => .ok d
    | .error x => .error x
  else .ok (k ++ t)

/-- The parameters the one-step solver starts from, ups 981-987, ucc 934-940, sa 699-705. -/
noncomputable def startParams (oo : Bool) : WFM e (List ℝ) := do
  let s ← get
  if oo then
    if s.thetas.length > 0 then
      match joinParams s.kappaArr s.kappa s.thetas with
      | .ok p => return p
      | .error x => raise x
    else return s.kappa
  else return s.thetas

/-- `run_wf_optimization_1step`, ups 920-1017, ucc 857-964, sa 640-739. The minimizer, given the start,
makes calls and returns a point and a value. -/
noncomputable def run1 (oo : Bool) (minimizer : List ℝ → List Call × List ℝ × ℝ) : WFM e Unit := do
  let s ← get
  let theta : Bool := !oo || s.thetas.length > 0
  let p ← startParams oo
  let (calls, x, fn) := minimizer p
  minimizeCalls p.length theta oo calls
  if oo then do
    let s ← get
    setThetas (x.drop s.kappa.length)
    resetKappa1
  else setThetas x
  if e.kind = .sa then do let _ ← doStateCI
  modify fun s => { s with energy := some fn }

end WFObj

end SQ
