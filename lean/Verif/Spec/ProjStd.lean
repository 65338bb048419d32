import Verif.Spec.QuantumStd
import Verif.Model.ProjStd
import Mathlib.Probability.Independence.Basic

/-!
# Specification: measurements in projected linear response

The energy of the wave function is measured, too: it is the estimate of the folded Hamiltonian
(qiskit_interface/circuit_wavefunction.py:850-890).
-/

namespace SQ

open MeasureTheory ProbabilityTheory

variable {Ω : Type} [MeasurableSpace Ω]

/-- The wave function when `energy_elec` has the value `e`. -/
def RespWf.withEnergy (W : RespWf) (e : ℝ) : RespWf := { W with energy := e }

/-- The operator that is measured for `A`. -/
def RespWf.fold (W : RespWf) (A : Dict ℝ) : Dict ℝ := getFolded W.ci.nI W.ci.nA W.ci.nV A

/-- The wave function when the outcome is `ω`. -/
def RespWf.atOutcome (W : RespWf) (L : QLR) (est : Dict ℝ → Ω → ℝ) (ω : Ω) : RespWf :=
  W.withEnergy (est (W.fold L.H0) ω)

/-- The wave function with the mean of the measured energy. -/
noncomputable def RespWf.atMean (W : RespWf) (L : QLR) (μ : Measure Ω) (est : Dict ℝ → Ω → ℝ) : RespWf :=
  W.withEnergy (∫ ω, est (W.fold L.H0) ω ∂μ)

/-- The estimates of `Gi`, `H Gi`, `Gj`, `H Gj`, `Gi† Gj` and of the energy are independent. -/
def IndependentActive (tiny : ℝ → Bool) (W : RespWf) (L : QLR) (μ : Measure Ω) (est : Dict ℝ → Ω → ℝ)
    (Gi Gj : Dict ℝ) : Prop :=
  ∀ HGi HGj Gid GG, fmul tiny L.H0 Gi = .ok HGi → fmul tiny L.H0 Gj = .ok HGj → fdagger tiny Gi = .ok Gid →
    fmul tiny Gid Gj = .ok GG →
    iIndepFun ![est (W.fold Gi), est (W.fold HGi), est (W.fold Gj), est (W.fold HGj), est (W.fold GG),
      est (W.fold L.H0)] μ

/-- The estimates of `qi† qj` and of the energy are independent. -/
def IndependentOrbital (tiny : ℝ → Bool) (W : RespWf) (L : QLR) (μ : Measure Ω) (est : Dict ℝ → Ω → ℝ)
    (qi qj : Dict ℝ) : Prop :=
  ∀ qid qq, fdagger tiny qi = .ok qid → fmul tiny qid qj = .ok qq →
    IndepFun (est (W.fold qq)) (est (W.fold L.H0)) μ

end SQ
