import Verif.Model.QuantumResponse
import Verif.Model.Density

/-!
# Model: density matrices and energy of the circuit wave function

qiskit_interface/circuit_wavefunction.py: `rdm1` (385-409), `rdm2` (411-458), `_calc_energy_elec` (873-882).  The
interface is the parameter `qev` of Model/QuantumResponse.lean; the caching in `_rdm1`, `_rdm2` and `_energy_elec` is
left out.  The loops are those of the wave functions on a classical computer.
-/

namespace SQ

section
variable (tiny big : ℝ → Bool) (qev : Dict ℝ → Res ℝ)

/-- The expectation value of lines 403-406. -/
noncomputable def circE (ci : CIInfo) (p q : ℕ) : Res ℝ := do
  let A ← Epq tiny p q
  qexp qev ci A

/-- The expectation value of lines 448-451. -/
noncomputable def circEE (ci : CIInfo) (p q r s : ℕ) : Res ℝ := do
  let A ← Epq tiny p q
  let B ← Epq tiny r s
  let C ← fmul tiny A B
  qexp qev ci C

/-- `WaveFunctionCircuit.rdm1`. -/
noncomputable def circRdm1 (ci : CIInfo) : Res (Mat ℝ) := rdm1Loop (circE tiny qev ci) ci.nI ci.nA

/-- `WaveFunctionCircuit.rdm2`. -/
noncomputable def circRdm2 (ci : CIInfo) : Res Arr4 := do
  let r1 ← circRdm1 tiny qev ci
  rdm2Loop (circEE tiny qev ci) r1 ci.nI ci.nA

/-- `WaveFunctionCircuit._calc_energy_elec`. -/
noncomputable def circEnergy (ci : CIInfo) (h : ℕ → ℕ → ℝ) (g : ℕ → ℕ → ℕ → ℕ → ℝ) : Res ℝ := do
  let H ← hamiltonian0i0a tiny big h g ci.nI ci.nA
  qexp qev ci H

end

end SQ
