import Verif.Model.Molecule
import Verif.Model.Integrals

/-!
# Model: integrals of a molecule

slowquant/molecularintegrals/integralclass.py with the drivers it calls, applied to the shells of a molecule. The
storing of results is in `Model/IntegralCache`.
-/

namespace SQ

/-- The component of an angular moment along an axis. -/
def tripleAt (a : ℕ × ℕ × ℕ) (d : Fin 3) : ℕ :=
  if d = 0 then a.1 else if d = 1 then a.2.1 else a.2.2

/-- `Shell.__init__`, moleculeclass.py lines 269-301: the arrays with the normalization; `start` is
`shell.bf_idx[0]`, which raises for a shell without functions (0 here). Coefficients are as many as exponents;
numpy would raise otherwise. -/
noncomputable def Shell.toG (s : Shell) : GShell :=
  GShell.make s.center (fun i : Fin s.exponents.length => s.exponents.get i) (fun i => s.coefficients.getD i 0)
    (fun k : Fin s.angular.length => tripleAt (s.angular.get k)) (s.bfIdx.headD 0)

/-- `mol_obj.shells`. -/
noncomputable def Molecule.gshells (m : Molecule) : List GShell := m.shells.map Shell.toG

/-- `get_basis_function_amplitude`, moleculeclass.py lines 220-244, one point and one function. -/
noncomputable def Molecule.amplitude (m : Molecule) (a : ℕ) (r : Fin 3 → ℝ) : ℝ := basisAmplitude m.gshells r a

/-- `get_multipole_matrix`, integralclass.py lines 98-107, and `overlap_matrix` (lines 40-53) for the order
(0, 0, 0); the origin is the centre of mass. -/
noncomputable def multipoleMatrix (m : Molecule) (order : Fin 3 → ℕ) : ℕ → ℕ → ℝ :=
  oneElectronDriver (multipoleIntegral (centerOfMass m) order) m.gshells

/-- `overlap_matrix`, lines 40-53. -/
noncomputable def overlapMatrix (m : Molecule) : ℕ → ℕ → ℝ := multipoleMatrix m fun _ => 0

/-- `kinetic_energy_matrix`, lines 55-66. -/
noncomputable def kineticMatrix (m : Molecule) : ℕ → ℕ → ℝ := oneElectronDriver kineticIntegral m.gshells

/-- `atom_coordinates` with `atom_charges`. -/
def Molecule.nuclei (m : Molecule) : List ((Fin 3 → ℝ) × ℝ) := m.atoms.map fun a => (a.coordinate, (a.charge : ℝ))

/-- `nuclear_attraction_matrix`, lines 68-79. -/
noncomputable def nuclearMatrix (boys : ℕ → ℝ → ℝ) (m : Molecule) : ℕ → ℕ → ℝ :=
  oneElectronDriver (nuclearIntegral boys m.nuclei) m.gshells

/-- `electron_repulsion_integral_driver(mol_obj, None, ...)`: no screening. -/
noncomputable def repulsionTensorFull (boys : ℕ → ℝ → ℝ) (m : Molecule) : ℕ → ℕ → ℕ → ℕ → ℝ :=
  repulsionDriver (repulsionIntegral boys) none m.gshells

/-- `electron_repulsion_tensor`, lines 81-96, for the threshold `cauchy_schwarz_threshold` (lines 35-37; 10⁻¹² unless
the user changes it). -/
noncomputable def repulsionTensor (boys : ℕ → ℝ → ℝ) (threshold : ℝ) (m : Molecule) : ℕ → ℕ → ℕ → ℕ → ℝ :=
  repulsionDriver (repulsionIntegral boys)
    (some (cauchySchwarzMatrix (repulsionIntegral boys) m.gshells, threshold)) m.gshells

end SQ
