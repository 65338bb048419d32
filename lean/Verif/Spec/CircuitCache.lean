import Verif.Spec.WaveFunction
import Verif.Model.CircuitCache

/-!
# Specification: orbitals, parameters and primitive of a circuit wave function

The reference has no caches.
-/

namespace SQ

structure CircRef (e : CircEnv) where
  prim : e.Prim
  orb : Matrix (Fin e.n) (Fin e.n) ℝ
  kappa : List ℝ
  thetas : List ℝ
  /-- the value an optimization reported, if nothing was assigned since -/
  reported : Option ℝ

namespace CircRef

variable {e : CircEnv}

def start (e : CircEnv) : CircRef e where
  prim := e.prim
  orb := e.mo
  kappa := List.replicate e.kappaIdx.length 0
  thetas := List.replicate e.numTheta 0
  reported := none

/-- Orbital parameters rotate the orbitals by the change of the parameters. -/
noncomputable def setKappa (k : List ℝ) (r : CircRef e) : CircRef e :=
  { r with orb := r.orb * NormedSpace.exp (-rotGen e.kappaIdx (List.zipWith (· - ·) k r.kappa)), kappa := k, reported := none }

/-- Ansatz parameters of a wrong number are refused. -/
def setThetas (t : List ℝ) (r : CircRef e) : CircRef e :=
  { r with thetas := if t.length = e.numTheta then t else r.thetas, reported := none }

def setPrim (p : e.Prim) (r : CircRef e) : CircRef e := { r with prim := p, reported := none }

/-! What is to be read. -/

noncomputable def h (r : CircRef e) : Matrix (Fin e.n) (Fin e.n) ℝ := oneTransform r.orb e.hAo
noncomputable def g (r : CircRef e) : Tensor4 (Fin e.n) := twoTransform r.orb e.gAo
def d1 (r : CircRef e) : e.D1 := e.mkRdm1 r.prim r.thetas
def d2 (r : CircRef e) : e.D2 := e.mkRdm2 r.prim r.thetas r.d1
def d3 (r : CircRef e) : e.D3 := e.mkRdm3 r.prim r.thetas r.d1 r.d2
def d4 (r : CircRef e) : e.D4 := e.mkRdm4 r.prim r.thetas r.d1 r.d2 r.d3
noncomputable def E (r : CircRef e) : ℝ := e.energy r.prim r.thetas r.h r.g
noncomputable def energies (r : CircRef e) : e.En := e.stateE r.prim r.thetas r.h r.g
noncomputable def coeffs (r : CircRef e) : e.Co := e.stateC r.prim r.thetas r.h r.g
/-- Transition property between the states with the coefficients `c`. -/
noncomputable def moments (r : CircRef e) (c : e.Co) (ao : Matrix (Fin e.n) (Fin e.n) ℝ) : e.Tr :=
  e.transition r.prim r.thetas c (oneTransform r.orb ao)

end CircRef

/-- What a user does with a circuit wave function. -/
inductive CircOp (e : CircEnv)
  | setKappa (k : List ℝ) (arr : Bool)
  | setThetas (t : List ℝ)
  | primitive (p : CircObj.PrimArg e)
  | cMo | hMo | gMo | rdm1 | rdm2 | rdm3 | rdm4 | energy | states
  | transition (ao : Matrix (Fin e.n) (Fin e.n) ℝ)
  | oscillators

namespace CircOp

variable {e : CircEnv}

/-- The object after an operation; an exception is caught and the attributes stay as they are then. -/
noncomputable def run (op : CircOp e) (s : CircObj e) : CircObj e :=
  match op with
  | .setKappa k arr => (CircObj.setKappa k arr s).2
  | .setThetas t => (CircObj.setThetas t s).2
  | .primitive p => (CircObj.changePrimitive p s).2
  | .cMo => (CircObj.readCMo s).2
  | .hMo => (CircObj.readH s).2
  | .gMo => (CircObj.readG s).2
  | .rdm1 => (CircObj.readRdm1 s).2
  | .rdm2 => (CircObj.readRdm2 s).2
  | .rdm3 => (CircObj.readRdm3 s).2
  | .rdm4 => (CircObj.readRdm4 s).2
  | .energy => (CircObj.readEnergy s).2
  | .states => (CircObj.readStates s).2
  | .transition ao => (CircObj.transitionProp ao s).2
  | .oscillators => (CircObj.oscillators s).2

noncomputable def ref (op : CircOp e) (r : CircRef e) : CircRef e :=
  match op with
  | .setKappa k _ => r.setKappa k
  | .setThetas t => r.setThetas t
  | .primitive (.sampler p) => r.setPrim p
  | _ => r

/-- Orbital parameters are given in the right number. -/
def Fits : CircOp e → Prop
  | .setKappa k _ => k.length = e.kappaIdx.length
  | _ => True

end CircOp

end SQ
