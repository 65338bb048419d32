import Verif.Model.WaveFunction
import Verif.Model.Sampler

/-!
# Model: parameters, cached quantities and optimizations of the circuit wave functions

qiskit_interface/circuit_wavefunction.py (`cw`) and sa_circuit_wavefunction.py (`sa`), as Model/WaveFunction for the classes
that work with vectors. Ansatz parameters are kept by the interface (interface.py 421-448). What is computed from
measurements is a function of the primitive, the parameters and further arguments (`CircEnv`): for ideal devices this is
C113, and Model/CircuitWave, Model/HigherDensity and Model/StateAverage are about the functions. Reconstructing and
transpiling the circuit after a change of the primitive, `precalc_rdm_paulis`, `return_all_states`, counting and printing
are left out. The minimizer is any
sequence of calls with any result.
-/

namespace SQ

/-- What a circuit wave function object is made for. -/
structure CircEnv where
  /-- `WaveFunctionSACircuit` rather than `WaveFunctionCircuit` -/
  sa : Bool
  /-- the ansatz of the interface is a `QuantumCircuit` -/
  custom : Bool
  n : ℕ
  kappaIdx : List (Fin n × Fin n)
  /-- `circuit.num_parameters` -/
  numTheta : ℕ
  hAo : Matrix (Fin n) (Fin n) ℝ
  gAo : Tensor4 (Fin n)
  mo : Matrix (Fin n) (Fin n) ℝ
  Prim : Type
  prim : Prim
  D1 : Type
  D2 : Type
  D3 : Type
  D4 : Type
  En : Type
  Co : Type
  Tr : Type
  Os : Type
  mkRdm1 : Prim → List ℝ → D1
  mkRdm2 : Prim → List ℝ → D1 → D2
  mkRdm3 : Prim → List ℝ → D1 → D2 → D3
  mkRdm4 : Prim → List ℝ → D1 → D2 → D3 → D4
  /-- measured energy, averaged over the states -/
  energy : Prim → List ℝ → Matrix (Fin n) (Fin n) ℝ → Tensor4 (Fin n) → ℝ
  /-- `get_electronic_energy` -/
  energyRdm : Matrix (Fin n) (Fin n) ℝ → Tensor4 (Fin n) → D1 → D2 → ℝ
  /-- `get_orbital_gradient` -/
  gradKappa : Matrix (Fin n) (Fin n) ℝ → Tensor4 (Fin n) → D1 → D2 → List ℝ
  gradTheta : Prim → List ℝ → Matrix (Fin n) (Fin n) ℝ → Tensor4 (Fin n) → List ℝ
  /-- the two results of `_do_state_ci` -/
  stateE : Prim → List ℝ → Matrix (Fin n) (Fin n) ℝ → Tensor4 (Fin n) → En
  stateC : Prim → List ℝ → Matrix (Fin n) (Fin n) ℝ → Tensor4 (Fin n) → Co
  /-- `get_transition_property` for given coefficients, MO integrals -/
  transition : Prim → List ℝ → Co → Matrix (Fin n) (Fin n) ℝ → Tr
  /-- the loop of `get_oscillator_strenghts` -/
  strengths : En → Tr → Tr → Tr → Os
  dipole : Fin 3 → Matrix (Fin n) (Fin n) ℝ

/-- The attributes, with those of the interface that are used. An outer `none` of `stateC` is an attribute that does not
exist yet. -/
structure CircObj (e : CircEnv) where
  prim : e.Prim
  cMo : Matrix (Fin e.n) (Fin e.n) ℝ
  kappa : List ℝ
  kappaOld : List ℝ
  kappaArr : Bool
  /-- `QI._parameters` -/
  params : List ℝ
  rdm1 : Option e.D1
  rdm2 : Option e.D2
  rdm3 : Option e.D3
  rdm4 : Option e.D4
  hMo : Option (Matrix (Fin e.n) (Fin e.n) ℝ)
  gMo : Option (Tensor4 (Fin e.n))
  energy : Option ℝ
  stateE : Option e.En
  stateC : Option (Option e.Co)
  oldParams : List ℝ
  eOptOld : ℝ

/-- A method: changes the attributes, and returns or raises. -/
def CircM (e : CircEnv) (α : Type _) := CircObj e → Res α × CircObj e

namespace CircM

variable {e : CircEnv} {α β : Type}

protected def pure (a : α) : CircM e α := fun s => (.ok a, s)

protected def bind (m : CircM e α) (f : α → CircM e β) : CircM e β := fun s =>
  match m s with
  | (.ok a, s') => f a s'
  | (.error x, s') => (.error x, s')

instance : Monad (CircM e) where
  pure := CircM.pure
  bind := CircM.bind

def get : CircM e (CircObj e) := fun s => (.ok s, s)
def modify (f : CircObj e → CircObj e) : CircM e Unit := fun s => (.ok (), f s)
def raise (x : PyErr) : CircM e α := fun s => (.error x, s)

end CircM

namespace CircObj

open CircM

variable {e : CircEnv}

/-- The constructors, cw 82-90, 149-181, 208-246; sa 59, 86-92, 153-181, 192-205; interface.py 282-284. The interface is a
new one. `_state_ci_coeffs` is not set. -/
noncomputable def init (e : CircEnv) : CircObj e where
  prim := e.prim
  cMo := e.mo
  kappa := List.replicate e.kappaIdx.length 0
  kappaOld := List.replicate e.kappaIdx.length 0
  kappaArr := false
  params := List.replicate e.numTheta 0
  rdm1 := none
  rdm2 := none
  rdm3 := none
  rdm4 := none
  hMo := none
  gMo := none
  energy := none
  stateE := none
  stateC := none
  oldParams := []
  eOptOld := 0

/-- `c_mo`, cw 269-285, sa 236-252. -/
noncomputable def readCMo : CircM e (Matrix (Fin e.n) (Fin e.n) ℝ) := fun s =>
  if s.kappa.length ≠ 0 then
    match WFObj.arrSub s.kappa s.kappaOld with
    | .error x => (.error x, s)
    | .ok d =>
      if d.length = 0 then (.error .valueError, s)
      else if d.any fun x => |x| > 0 then
        (.ok (s.cMo * NormedSpace.exp (-WFObj.kappaMat e.kappaIdx s.kappa s.kappaOld)), s)
      else (.ok (s.cMo * NormedSpace.exp (-(0 : Matrix (Fin e.n) (Fin e.n) ℝ))), s)
  else (.ok (s.cMo * NormedSpace.exp (-(0 : Matrix (Fin e.n) (Fin e.n) ℝ))), s)

/-- The `kappa` setter, cw 254-267, sa 220-234. -/
noncomputable def setKappa (k : List ℝ) (arr : Bool) : CircM e Unit := do
  modify fun s => { s with hMo := none, gMo := none, energy := none, stateE := none, kappa := k, kappaArr := arr }
  let c ← readCMo
  modify fun s => { s with cMo := c, kappaOld := s.kappa }

/-- The `thetas` setter, cw 318-330, sa 285-298, and that of `QI.parameters`, interface.py 430-448: the attributes are reset
before the length is checked. -/
noncomputable def setThetas (t : List ℝ) : CircM e Unit := do
  modify fun s => { s with rdm1 := none, rdm2 := none, rdm3 := none, rdm4 := none, energy := none, stateE := none,
                           stateC := if e.sa then some none else s.stateC }
  if t.length ≠ e.numTheta then raise .valueError
  else modify fun s => { s with params := t }

/-- An argument of `change_primitive`. -/
inductive PrimArg (e : CircEnv)
  | sampler (p : e.Prim)
  | estimator
  | other

/-- `change_primitive`, cw 332-372, sa 300-339. -/
def changePrimitive : PrimArg e → CircM e Unit
  | .estimator => raise .valueError
  | .other => raise .typeError
  | .sampler p => modify fun s => { s with prim := p, rdm1 := none, rdm2 := none, rdm3 := none, rdm4 := none,
                                           energy := none, stateE := none }

/-- `h_mo`, cw 287-296, sa 254-263. -/
noncomputable def readH : CircM e (Matrix (Fin e.n) (Fin e.n) ℝ) := do
  match (← get).hMo with
  | some h => return h
  | none =>
    let c ← readCMo
    modify fun s => { s with hMo := some (oneTransform c e.hAo) }
    return oneTransform c e.hAo

/-- `g_mo`, cw 298-307, sa 265-274. -/
noncomputable def readG : CircM e (Tensor4 (Fin e.n)) := do
  match (← get).gMo with
  | some g => return g
  | none =>
    let c ← readCMo
    modify fun s => { s with gMo := some (twoTransform c e.gAo) }
    return twoTransform c e.gAo

/-- `rdm1`, cw 385-409, sa 352-379. -/
noncomputable def readRdm1 : CircM e e.D1 := do
  let s ← get
  match s.rdm1 with
  | some d => return d
  | none =>
    let d := e.mkRdm1 s.prim s.params
    modify fun s => { s with rdm1 := some d }
    return d

/-- `rdm2`, cw 411-458, sa 381-433; it reads `rdm1`. -/
noncomputable def readRdm2 : CircM e e.D2 := do
  let s ← get
  match s.rdm2 with
  | some d => return d
  | none =>
    let d1 ← readRdm1
    let d := e.mkRdm2 s.prim s.params d1
    modify fun s => { s with rdm2 := some d }
    return d

/-- `rdm3`, cw 460-519; the state-averaged class has none. -/
noncomputable def readRdm3 : CircM e e.D3 := do
  if e.sa then raise .attributeError
  else
    let s ← get
    match s.rdm3 with
    | some d => return d
    | none =>
      let d1 ← readRdm1
      let d2 ← readRdm2
      let d := e.mkRdm3 s.prim s.params d1 d2
      modify fun s => { s with rdm3 := some d }
      return d

/-- `rdm4`, cw 521-742. -/
noncomputable def readRdm4 : CircM e e.D4 := do
  if e.sa then raise .attributeError
  else
    let s ← get
    match s.rdm4 with
    | some d => return d
    | none =>
      let d1 ← readRdm1
      let d2 ← readRdm2
      let d3 ← readRdm3
      let d := e.mkRdm4 s.prim s.params d1 d2 d3
      modify fun s => { s with rdm4 := some d }
      return d

/-- `energy_elec`, cw 849-858 and 873-882; `sa_energy`, sa 449-468. -/
noncomputable def readEnergy : CircM e ℝ := do
  match (← get).energy with
  | some E => return E
  | none =>
    let h ← readH
    let g ← readG
    let s ← get
    let E := e.energy s.prim s.params h g
    modify fun s => { s with energy := some E }
    return E

/-- `_do_state_ci`, sa 717-739. -/
noncomputable def doStateCI : CircM e Unit := do
  let h ← readH
  let g ← readG
  modify fun s => { s with stateE := some (e.stateE s.prim s.params h g),
                           stateC := some (some (e.stateC s.prim s.params h g)) }

/-- `energy_states`, sa 741-752. -/
noncomputable def readStates : CircM e e.En := do
  if !e.sa then raise .attributeError
  else match (← get).stateE with
    | some x => return x
    | none =>
      doStateCI
      match (← get).stateE with
      | some x => return x
      | none => raise .valueError

/-- `get_transition_property`, sa 769-798. -/
noncomputable def transitionProp (ao : Matrix (Fin e.n) (Fin e.n) ℝ) : CircM e e.Tr := do
  if !e.sa then raise .attributeError
  else do
    match (← get).stateC with
    | none => raise .attributeError
    | some (some _) => pure ()
    | some none => doStateCI
    let c ← readCMo
    let s ← get
    match s.stateC with
    | some (some co) => return e.transition s.prim s.params co (oneTransform c ao)
    | _ => raise .valueError

/-- `get_oscillator_strenghts`, sa 800-818: transition properties first, then energies. -/
noncomputable def oscillators : CircM e e.Os := do
  let tx ← transitionProp (e.dipole 0)
  let ty ← transitionProp (e.dipole 1)
  let tz ← transitionProp (e.dipole 2)
  let en ← readStates
  return e.strengths en tx ty tz

/-! ### Callbacks -/

/-- The parameters a callback writes, cw 1150-1154, 1182-1187, sa 845-849, 882-886. -/
noncomputable def setParams (p : List ℝ) (theta kappa : Bool) : CircM e Unit := do
  let nk := if kappa then e.kappaIdx.length else 0
  if kappa then setKappa (p.take nk) true
  if theta then setThetas (p.drop nk)

/-- The energy a callback computes, cw 1155-1164, sa 850-858. -/
noncomputable def callbackEnergy (theta : Bool) : CircM e ℝ :=
  if theta ∨ e.sa then do
    let h ← readH
    let g ← readG
    let s ← get
    return e.energy s.prim s.params h g
  else do
    let h ← readH
    let g ← readG
    let d1 ← readRdm1
    let d2 ← readRdm2
    return e.energyRdm h g d1 d2

/-- `_calc_energy_optimization`, cw 1135-1164, sa 820-861 (with `return_all_states` off; only `sa` remembers the last
call). -/
noncomputable def energyCall (p : List ℝ) (theta kappa : Bool) : CircM e ℝ := do
  if e.sa then
    let s ← get
    match WFObj.arrSub s.oldParams p with
    | .error x => raise x
    | .ok d =>
      if d.length = 0 then raise .valueError
      else if d.all fun x => |x| < 1 / 10 ^ 14 then return s.eOptOld
      else do
        setParams p theta kappa
        let E ← callbackEnergy theta
        modify fun s => { s with eOptOld := E, oldParams := p }
        return E
  else do
    setParams p theta kappa
    callbackEnergy theta

/-- `_calc_gradient_optimization`, cw 1166-1211, sa 863-911. -/
noncomputable def gradCall (p : List ℝ) (theta kappa : Bool) : CircM e (List ℝ) := do
  setParams p theta kappa
  let gk ← if kappa then do
      let h ← readH
      let g ← readG
      let d1 ← readRdm1
      let d2 ← readRdm2
      pure (e.gradKappa h g d1 d2)
    else pure []
  let gt ← if theta then do
      let h ← readH
      let g ← readG
      let s ← get
      pure (e.gradTheta s.prim s.params h g)
    else pure []
  return gk ++ gt

/-! ### Optimizations -/

noncomputable def doCall (theta kappa : Bool) : WFObj.Call → CircM e Unit
  | .energy p => do let _ ← energyCall p theta kappa
  | .grad p => do let _ ← gradCall p theta kappa

/-- The calls of a minimizer; `sa` resets what it remembers before, sa 552-553, 586-587, 700-701. -/
noncomputable def minimizeCalls (size : ℕ) (theta kappa : Bool) (calls : List WFObj.Call) : CircM e Unit := do
  if e.sa then modify fun s => { s with oldParams := List.replicate size (10 ^ 20), eOptOld := 0 }
  calls.forM (doCall theta kappa)

/-- The reset of orbital parameters, cw 1003-1005, 1128-1130, sa 589-591, 708-710. -/
noncomputable def resetKappa : CircM e Unit :=
  modify fun s => { s with
    kappa := List.replicate s.kappa.length 0
    kappaOld := List.replicate s.kappa.length 0 }

/-- Optimizers that a circuit given by the user can be optimized with, cw 903, 1043, sa 505, 629. -/
def gradientFree (name : String) : Bool := name.toLower = "cobyla" || name.toLower = "cobyqa"

/-- The rounds of `run_wf_optimization_2step`, cw 912-1023, sa 514-609. -/
noncomputable def rounds (oo : Bool) (tol : ℝ) : List WFObj.Round → ℝ → Option ℝ → CircM e (Option ℝ)
  | [], _, eNew => pure eNew
  | r :: rs, eOld, _ => do
    minimizeCalls e.numTheta true false r.thetaCalls
    setThetas r.thetaX
    let s ← get
    if oo ∧ s.kappa.length ≠ 0 then do
      minimizeCalls e.kappaIdx.length false true r.kappaCalls
      resetKappa
      if |r.kappaFun - eOld| < tol then return some r.kappaFun
      else rounds oo tol rs r.kappaFun (some r.kappaFun)
    else return some r.thetaFun

/-- `run_wf_optimization_2step`, cw 884-1024, sa 488-612. -/
noncomputable def run2 (name : String) (oo : Bool) (tol : ℝ) (rs : List WFObj.Round) : CircM e Unit := do
  if e.custom ∧ gradientFree name = false then raise .valueError
  else
    match ← rounds oo tol rs (10 ^ 12) none with
    | none => raise .runtimeError
    | some E =>
      if e.sa then doStateCI
      modify fun s => { s with energy := some E }

/-- The parameters the one-step solver starts from, cw 1095-1101, sa 676-682. -/
noncomputable def startParams (oo : Bool) : CircM e (List ℝ) := do
  let s ← get
  if oo then
    if s.params.length > 0 then
      match WFObj.joinParams s.kappaArr s.kappa s.params with
      | .ok p => return p
      | .error x => raise x
    else return s.kappa
  else return s.params

/-- `run_wf_optimization_1step`, cw 1026-1133, sa 614-715. -/
noncomputable def run1 (name : String) (oo : Bool) (minimizer : List ℝ → List WFObj.Call × List ℝ × ℝ) : CircM e Unit := do
  let s ← get
  if e.custom ∧ gradientFree name = false then raise .valueError
  else if name.toLower = "rotosolve" ∧ oo ∧ s.kappa.length ≠ 0 then raise .valueError
  else do
    let theta : Bool := !oo || s.params.length > 0
    let p ← startParams oo
    let (calls, x, fn) := minimizer p
    minimizeCalls p.length theta oo calls
    if oo then do
      let s ← get
      setThetas (x.drop s.kappa.length)
      resetKappa
    else setThetas x
    if e.sa then doStateCI
    modify fun s => { s with energy := some fn }

end CircObj

end SQ
