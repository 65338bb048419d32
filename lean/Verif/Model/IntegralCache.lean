import Mathlib.Data.Real.Basic
import Verif.Model.Py

/-!
# Model: integral objects and their caches

slowquant/molecularintegrals/integralclass.py (`_Integral`), slowquant/SlowQuant.py (the facade) and
slowquant/unitary_coupled_cluster/integral_manager.py (`IntegralManager`). Arrays are values of an abstract type
`V`; the drivers are functions of the molecule (they are modelled in `Model/MolIntegrals`). Reads return the value
and say whether a driver was run. The cached arrays are returned by reference in Python; writes into a returned
array are not modelled. `M` is the type of molecules.
-/

namespace SQ

/-- The integral drivers. -/
structure Drivers (M V : Type) where
  overlap : M → V
  kinetic : M → V
  nuclear : M → V
  cauchySchwarz : M → V
  /-- driver of the two-electron integrals: molecule, Cauchy-Schwarz matrix, threshold -/
  eri : M → V → ℝ → V
  multipole : M → ℕ × ℕ × ℕ → V

/-- The four cached quantities. -/
inductive IntKind where
  | overlap
  | kinetic
  | nuclear
  | eri
deriving DecidableEq

/-- `_Integral`, integralclass.py lines 17-39. -/
structure IntObj (M V : Type) where
  mol : M
  store1e : Bool
  store2e : Bool
  force : Bool
  cache : IntKind → Option V
  cs : V
  threshold : ℝ

variable {M V : Type}

/-- `_Integral.__init__`, lines 17-39. -/
noncomputable def IntObj.init (d : Drivers M V) (mol : M) : IntObj M V :=
  ⟨mol, true, true, false, fun _ => none, d.cauchySchwarz mol, (10 : ℝ) ^ (-12 : ℤ)⟩

/-- The driver call of a kind, lines 50, 65, 78, 91-93. -/
def IntObj.compute (d : Drivers M V) (o : IntObj M V) : IntKind → V
  | .overlap => d.overlap o.mol
  | .kinetic => d.kinetic o.mol
  | .nuclear => d.nuclear o.mol
  | .eri => d.eri o.mol o.cs o.threshold

/-- `self.store_1e_int` or `self.store_2e_int`, whichever the property tests. -/
def IntObj.stores (o : IntObj M V) : IntKind → Bool
  | .eri => o.store2e
  | _ => o.store1e

/-- The properties `overlap_matrix`, `kinetic_energy_matrix`, `nuclear_attraction_matrix`,
`electron_repulsion_tensor`, lines 41-97: the value, whether the driver ran, and the object afterwards. -/
def IntObj.read (d : Drivers M V) (k : IntKind) (o : IntObj M V) : V × Bool × IntObj M V :=
  if o.stores k then
    match o.cache k, o.force with
    | some v, false => (v, false, o)
    | _, _ =>
      let v := o.compute d k
      (v, true, { o with cache := Function.update o.cache k (some v) })
  else (o.compute d k, true, o)

/-- `get_multipole_matrix`, lines 99-108. -/
def IntObj.multipole (d : Drivers M V) (e : ℕ × ℕ × ℕ) (o : IntObj M V) : V := d.multipole o.mol e

/-- What a user may do to the object between reads. -/
inductive IntOp where
  | read (k : IntKind)
  | setStore1e (b : Bool)
  | setStore2e (b : Bool)
  | setForce (b : Bool)
  | setThreshold (t : ℝ)

/-- One step. -/
def IntObj.step (d : Drivers M V) (o : IntObj M V) : IntOp → IntObj M V
  | .read k => (o.read d k).2.2
  | .setStore1e b => { o with store1e := b }
  | .setStore2e b => { o with store2e := b }
  | .setForce b => { o with force := b }
  | .setThreshold t => { o with threshold := t }

/-- The facade `SlowQuant`, SlowQuant.py lines 8-13: attributes may be missing. `setBasis` (with the name of a
basis) stands for `_set_basis_set`, which changes the molecule object in place and may raise. -/
structure Facade (M V : Type) where
  molecule : Option M
  integral : Option (IntObj M V)

/-- `set_molecule`, lines 15-34; reading the molecule from the file may raise. -/
noncomputable def Facade.setMolecule (d : Drivers M V) (setBasis : String → M → Res M) (new : Res M)
    (basis : Option String) (f : Facade M V) : Res (Facade M V) := do
  let m ← new
  match basis with
  | none => .ok { f with molecule := some m }
  | some b => do
    let m ← setBasis b m
    .ok ⟨some m, some (IntObj.init d m)⟩

/-- `set_basis_set`, lines 36-46; without a molecule a warning is logged. -/
noncomputable def Facade.setBasisSet (d : Drivers M V) (setBasis : String → M → Res M) (b : String)
    (f : Facade M V) : Res (Facade M V) :=
  match f.molecule with
  | none => .ok f
  | some m => do
    let m ← setBasis b m
    .ok ⟨some m, some (IntObj.init d m)⟩

/-- The source of an `IntegralManager`, integral_manager.py lines 19-25: a SlowQuant object, a PySCF molecule
(given by what its integral calls return), or anything else. The argument is deep-copied. -/
inductive IntSource (M V : Type) where
  | slowquant (o : IntObj M V)
  | pyscf (kin nuc eri : V)
  | other

/-- `IntegralManager` with its caches, lines 19-30. -/
structure IntMgr (M V : Type) where
  src : IntSource M V
  kin : Option V
  nuc : Option V
  eri : Option V
  hAo : Option V

/-- `IntegralManager.__init__`. -/
def IntMgr.init (src : IntSource M V) : IntMgr M V := ⟨src, none, none, none, none⟩

/-- The dispatch `isinstance(self.int_obj, ...)` with the read of one quantity, e.g. lines 47-52. -/
def IntSource.read (d : Drivers M V) (k : IntKind) : IntSource M V → Res (V × IntSource M V)
  | .slowquant o => let r := o.read d k; .ok (r.1, .slowquant r.2.2)
  | .pyscf kin nuc eri =>
    match k with
    | .kinetic => .ok (kin, .pyscf kin nuc eri)
    | .nuclear => .ok (nuc, .pyscf kin nuc eri)
    | .eri => .ok (eri, .pyscf kin nuc eri)
    | .overlap => .error .attributeError
  | .other => .error .valueError

/-- `kinetic_energy`, lines 42-54. -/
def IntMgr.readKin (d : Drivers M V) (g : IntMgr M V) : Res (V × IntMgr M V) :=
  match g.kin with
  | some v => .ok (v, g)
  | none => do
    let r ← g.src.read d .kinetic
    .ok (r.1, { g with src := r.2, kin := some r.1 })

/-- `nuclear_electron_attraction`, lines 56-68. -/
def IntMgr.readNuc (d : Drivers M V) (g : IntMgr M V) : Res (V × IntMgr M V) :=
  match g.nuc with
  | some v => .ok (v, g)
  | none => do
    let r ← g.src.read d .nuclear
    .ok (r.1, { g with src := r.2, nuc := some r.1 })

/-- `electron_electron_repulsion`, lines 70-82. -/
def IntMgr.readEri (d : Drivers M V) (g : IntMgr M V) : Res (V × IntMgr M V) :=
  match g.eri with
  | some v => .ok (v, g)
  | none => do
    let r ← g.src.read d .eri
    .ok (r.1, { g with src := r.2, eri := some r.1 })

/-- `h_ao`, lines 115-127: nuclear attraction plus kinetic energy, in this order. -/
def IntMgr.readHao [Add V] (d : Drivers M V) (g : IntMgr M V) : Res (V × IntMgr M V) :=
  match g.hAo with
  | some v => .ok (v, g)
  | none =>
    match g.src with
    | .other => .error .valueError
    | _ => do
      let r ← g.readNuc d
      let s ← r.2.readKin d
      let v := r.1 + s.1
      .ok (v, { s.2 with hAo := some v })

/-- The reads a wave function makes. -/
inductive MgrOp where
  | kin
  | nuc
  | eri
  | hAo

/-- One read of the manager. -/
def IntMgr.read [Add V] (d : Drivers M V) (g : IntMgr M V) : MgrOp → Res (V × IntMgr M V)
  | .kin => g.readKin d
  | .nuc => g.readNuc d
  | .eri => g.readEri d
  | .hAo => g.readHao d

end SQ
