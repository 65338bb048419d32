import Verif.Model.IntegralCache

/-!
# Model: a session with shared objects, and the logger

slowquant/SlowQuant.py, slowquant/hartreefock/hartreefockclass.py lines 15-95, slowquant/logger.py. In `Facade`
(Model/IntegralCache) the molecule is a value; here it is an object that the session, integral objects and Hartree-Fock
objects refer to and that `_set_basis_set` changes in place. `M` is the type of what a molecule object holds. The storage
flags keep their initial values. A Hartree-Fock run is represented by what it is given: the molecule (for the numbers of
electrons) and the four integral arrays.
-/

namespace SQ

variable {M V : Type}

/-- An integral object that refers to molecule object `mol`; `cs` is computed when the object is made. -/
structure IntRef (V : Type) where
  mol : ℕ
  cache : IntKind → Option V
  cs : V

/-- Objects, in order of their creation, and the attributes of `SlowQuant`: numbers of objects. `hf` is the pair of objects
a Hartree-Fock object refers to. -/
structure Session (M V : Type) where
  mols : List M
  ints : List (IntRef V)
  molecule : Option ℕ
  integral : Option ℕ
  hf : Option (ℕ × ℕ)

/-- A new session, SlowQuant.py lines 8-13. -/
def Session.init : Session M V := ⟨[], [], none, none, none⟩

/-- `self.molecule._set_basis_set(basis_set); self.integral = _Integral(self.molecule)`, SlowQuant.py lines 32-33, 42-43. An
exception in `_set_basis_set` leaves the molecule object changed in part (`.inr`). -/
def Session.setBasisOf (d : Drivers M V) (setBasis : String → M → M ⊕ M) (b : String) (i : ℕ) (s : Session M V) :
    Res Unit × Session M V :=
  match s.mols[i]? with
  | none => (.error .attributeError, s)
  | some m =>
    match setBasis b m with
    | .inr m' => (.error .valueError, { s with mols := s.mols.set i m' })
    | .inl m' => (.ok (), { s with
        mols := s.mols.set i m'
        ints := s.ints ++ [⟨i, fun _ => none, d.cauchySchwarz m'⟩]
        integral := some s.ints.length })

/-- `set_molecule`, SlowQuant.py lines 15-33. -/
def Session.setMolecule (d : Drivers M V) (setBasis : String → M → M ⊕ M) (new : Res M) (basis : Option String)
    (s : Session M V) : Res Unit × Session M V :=
  match new with
  | .error e => (.error e, s)
  | .ok m =>
    let s' := { s with mols := s.mols ++ [m], molecule := some s.mols.length }
    match basis with
    | none => (.ok (), s')
    | some b => s'.setBasisOf d setBasis b s.mols.length

/-- `set_basis_set`, SlowQuant.py lines 35-45. -/
def Session.setBasisSet (d : Drivers M V) (setBasis : String → M → M ⊕ M) (b : String) (s : Session M V) :
    Res Unit × Session M V :=
  match s.molecule with
  | none => (.ok (), s)
  | some i => s.setBasisOf d setBasis b i

/-- `init_hartree_fock`, SlowQuant.py lines 47-49. -/
def Session.initHartreeFock (s : Session M V) : Res Unit × Session M V :=
  match s.molecule, s.integral with
  | some i, some j => (.ok (), { s with hf := some (i, j) })
  | _, _ => (.error .attributeError, s)

/-- Reading an integral property of integral object `j`, integralclass.py lines 41-97. -/
noncomputable def Session.read (d : Drivers M V) (k : IntKind) (j : ℕ) (s : Session M V) : Res V × Session M V :=
  match s.ints[j]? with
  | none => (.error .attributeError, s)
  | some o =>
    match o.cache k with
    | some v => (.ok v, s)
    | none =>
      match s.mols[o.mol]? with
      | none => (.error .attributeError, s)
      | some m =>
        let v := match k with
          | .overlap => d.overlap m
          | .kinetic => d.kinetic m
          | .nuclear => d.nuclear m
          | .eri => d.eri m o.cs ((10 : ℝ) ^ (-12 : ℤ))
        (.ok v, { s with ints := s.ints.set j { o with cache := Function.update o.cache k (some v) } })

/-- What a Hartree-Fock run is given. -/
structure HFInput (M V : Type) where
  mol : M
  overlap : V
  kinetic : V
  nuclear : V
  eri : V

/-- `run_restricted_hartree_fock`, hartreefockclass.py lines 48-61 (and 70-82): the integrals are read in this order. -/
noncomputable def Session.runHartreeFock (d : Drivers M V) (s : Session M V) : Res (HFInput M V) × Session M V :=
  match s.hf with
  | none => (.error .attributeError, s)
  | some (i, j) =>
    match s.read d .overlap j with
    | (.error e, s) => (.error e, s)
    | (.ok ov, s) =>
      match s.read d .kinetic j with
      | (.error e, s) => (.error e, s)
      | (.ok ki, s) =>
        match s.read d .nuclear j with
        | (.error e, s) => (.error e, s)
        | (.ok nu, s) =>
          match s.read d .eri j with
          | (.error e, s) => (.error e, s)
          | (.ok er, s) =>
            match s.mols[i]? with
            | none => (.error .attributeError, s)
            | some m => (.ok ⟨m, ov, ki, nu, er⟩, s)

/-- A step of a session. -/
inductive SessionOp (M : Type) where
  | setMolecule (new : Res M) (basis : Option String)
  | setBasisSet (b : String)
  | initHartreeFock
  | readIntegral (k : IntKind)
  | runHartreeFock

/-- The session after a step; exceptions are caught. Integrals are read through `SlowQuant.integral`. -/
noncomputable def Session.step (d : Drivers M V) (setBasis : String → M → M ⊕ M) (s : Session M V) : SessionOp M → Session M V
  | .setMolecule new basis => (s.setMolecule d setBasis new basis).2
  | .setBasisSet b => (s.setBasisSet d setBasis b).2
  | .initHartreeFock => s.initHartreeFock.2
  | .readIntegral k =>
    match s.integral with
    | none => s
    | some j => (s.read d k j).2
  | .runHartreeFock => (s.runHartreeFock d).2

/-! ### The logger -/

/-- `_Logger`, logger.py lines 1-6, with what has been printed. -/
structure Logger where
  log : String
  printOutput : Bool
  printWarnings : Bool
  printed : String

def Logger.init : Logger := ⟨"", true, true, ""⟩

/-- `add_to_log`, logger.py lines 8-24. `self.log.join(content)` makes a string that is not kept. -/
def Logger.add (content : String) (warning : Bool) (l : Logger) : Logger :=
  let content := content ++ "\n"
  let content := if warning then "WARNING: " ++ content else content
  if l.printOutput then { l with printed := l.printed ++ content }
  else if warning && l.printWarnings then { l with printed := l.printed ++ content }
  else l

end SQ
