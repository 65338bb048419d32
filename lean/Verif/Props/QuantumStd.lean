import Verif.Lemmas.QuantumStd
import Verif.Props.QuantumResponse
import Mathlib.Probability.Distributions.Uniform
import Mathlib.Probability.ProbabilityMassFunction.Integrals

/-!
# C136: standard deviations of the matrices of naive linear response
-/

namespace SQ

open MeasureTheory ProbabilityTheory

variable {tiny big : ℝ → Bool} {W : RespWf}
variable {Ω : Type} [MeasurableSpace Ω] {μ : Measure Ω} [IsProbabilityMeasure μ] {est : Dict ℝ → Ω → ℝ}

/-- C136: computing the deviations of `run_std` of naive linear response does not raise, and neither does `run` without
density matrices, whatever is measured.  What `run_std` returns bounds the scatter of the matrices that `run` leaves.  The metric, `B` for two
operators of the same kind and `A` for two operators of the active space have exactly the deviation that is reported.
The other entries have a variance of at most twice the reported one, however the estimates are correlated, and of at
most the reported one if the estimates of different operators are not correlated. -/
theorem C136_deviation (ht : ExactTiny tiny) (hb : ExactBig big) (hW : W.Proper) (hv : FiniteVariance μ est)
    (excitations : String) :
    let n := W.kappa.length
    ∃ L S, qlrInit tiny big W excitations = .ok L ∧ qnStd tiny big (varianceOf μ est) W L = .ok S ∧
      ∀ doGradients, ∃ M : Ω → LRMats,
        (∀ ω, qnRun tiny big (measuredAt est ω) W false doGradients L = .ok (M ω)) ∧
        ∀ i j,
          (0 ≤ S.A i j ∧ 0 ≤ S.B i j ∧ 0 ≤ S.Sigma i j) ∧
          Var[fun ω => (M ω).Sigma i j; μ] = S.Sigma i j ^ 2 ∧
          ((i < n ↔ j < n) → Var[fun ω => (M ω).B i j; μ] = S.B i j ^ 2) ∧
          (n ≤ i → n ≤ j → Var[fun ω => (M ω).A i j; μ] = S.A i j ^ 2) ∧
          Var[fun ω => (M ω).A i j; μ] ≤ 2 * S.A i j ^ 2 ∧
          Var[fun ω => (M ω).B i j; μ] ≤ 2 * S.B i j ^ 2 ∧
          (Uncorr μ est →
            Var[fun ω => (M ω).A i j; μ] ≤ S.A i j ^ 2 ∧ Var[fun ω => (M ω).B i j; μ] ≤ S.B i j ^ 2) := by
  intro n
  obtain ⟨L, H2, hL, hM, hn, h2, hok, hg⟩ := qlrInit_std ht hb hW excitations
  obtain ⟨M, S, r1, r2, r3⟩ := opsRun_pair hok
    (e1 := fun ω o => (est o.1 ω - est o.2.1 ω, -est o.2.2.1 ω, est o.2.2.2 ω))
    (e2 := fun ω o => (est o.1.1 ω - 1 / 2 * est o.1.2.1 ω - 1 / 2 * est o.1.2.2 ω,
      est o.2.1 ω - 1 / 2 * est o.2.2.1 ω - 1 / 2 * est o.2.2.2 ω))
    (e3 := fun ω o => (est o.1 ω, est o.2.1 ω, est o.2.2 ω))
    (s1 := fun o => (√(Var[est o.1; μ] + Var[est o.2.1; μ]), √(Var[est o.2.2.1; μ]), √(Var[est o.2.2.2; μ])))
    (s2 := fun o => (√(Var[est o.1.1; μ] + 1 / 2 * Var[est o.1.2.1; μ] + 1 / 2 * Var[est o.1.2.2; μ]),
      √(Var[est o.2.1; μ] + 1 / 2 * Var[est o.2.2.1; μ] + 1 / 2 * Var[est o.2.2.2; μ])))
    (s3 := fun o => (√(Var[est o.1; μ]), √(Var[est o.2.1; μ]), √(Var[est o.2.2; μ])))
    (fun i j X s => EntryOK μ (Uncorr μ est) X s ∧ (n ≤ i → n ≤ j → EntryEq μ X s))
    (fun i j X s => EntryOK μ (Uncorr μ est) X s ∧ ((i < n ↔ j < n) → EntryEq μ X s))
    (fun _ _ X s => EntryEq μ X s)
    (fun i j => ⟨⟨entryEq_zero.ok _, fun _ _ => entryEq_zero⟩, ⟨entryEq_zero.ok _, fun _ => entryEq_zero⟩,
      entryEq_zero⟩)
    (fun i j o hi hj => ⟨⟨entry_sub hv _ _, fun h => absurd hi (by rw [hn]; exact not_lt.2 h)⟩,
      ⟨(entry_neg _).ok _, fun _ => entry_neg _⟩, entry_single _⟩)
    (fun i j o h => ⟨⟨entry_mixed hv _ _ _, fun h3 h4 => by rw [hn] at h; omega⟩,
      ⟨entry_mixed hv _ _ _, fun h3 => by rw [hn] at h; omega⟩⟩)
    (fun i j o _ _ => ⟨⟨(entry_single _).ok _, fun _ _ => entry_single _⟩,
      ⟨(entry_single _).ok _, fun _ => entry_single _⟩, entry_single _⟩)
  refine ⟨L, S, hL, ?_, fun doGradients => ⟨M, fun ω => ?_, fun i j => ?_⟩⟩
  · unfold varianceOf
    rw [qnStd_ops (fun A => Var[est A; μ]) h2]
    exact r2
  · unfold measuredAt
    rw [qnRun_ops (fun A => est A ω) doGradients h2 (hg _).1 (hg _).2, hM]
    exact r1 ω
  · obtain ⟨⟨a1, a2⟩, ⟨b1, b2⟩, s⟩ := r3 i j
    exact ⟨⟨a1.nonneg, b1.nonneg, s.nonneg⟩, s.eq, fun h => (b2 h).eq, fun h h' => (a2 h h').eq, a1.two, b1.two,
      fun h => ⟨a1.one h, b1.one h⟩⟩

/-- C136: when the estimates are right on average, so are the matrices: every entry that `run` leaves without density
matrices has as its mean the entry of an exact run (C104 says what that is). -/
theorem C136_unbiased (ht : ExactTiny tiny) (hb : ExactBig big) (hW : W.Proper) (hv : FiniteVariance μ est)
    (hq : ExactQuantum W.ci W.c (meanOf μ est)) (excitations : String) :
    let X := W.ops (lettersOf excitations)
    let n := W.kappa.length
    ∃ L, qlrInit tiny big W excitations = .ok L ∧ ∀ doGradients, ∃ M : Ω → LRMats,
      (∀ ω, qnRun tiny big (measuredAt est ω) W false doGradients L = .ok (M ω)) ∧
      ∀ i j Xi Xid Xj Xjd, X[i]? = some Xi → X[j]? = some Xj → IsAdjoint Xi Xid → IsAdjoint Xj Xjd →
        ∫ ω, (M ω).Sigma i j ∂μ = expv W.state (comm Xid Xj) ∧
        (i < n → j < n → j ≤ i →
          ∫ ω, (M ω).A i j ∂μ = expv W.state (comm Xid (comm W.ham Xj)) ∧
          ∫ ω, (M ω).B i j ∂μ = expv W.state (comm Xid (comm W.ham Xjd))) ∧
        (n ≤ i ∨ n ≤ j →
          ∫ ω, (M ω).A i j ∂μ = expv W.state (dcomm Xid W.ham Xj) ∧
          ∫ ω, (M ω).B i j ∂μ = expv W.state (dcomm Xid W.ham Xjd)) := by
  intro X n
  obtain ⟨L, H2, hL, hM, hn, h2, hok, hg⟩ := qlrInit_std ht hb hW excitations
  have int : ∀ A, Integrable (est A) μ := fun A => (hv A).integrable (by norm_num)
  have mean1 : ∀ A B C, ∫ ω, (est A ω - 1 / 2 * est B ω - 1 / 2 * est C ω) ∂μ =
      ∫ ω, est A ω ∂μ - 1 / 2 * ∫ ω, est B ω ∂μ - 1 / 2 * ∫ ω, est C ω ∂μ := by
    intro A B C
    have hAB : Integrable (fun ω => est A ω - 1 / 2 * est B ω) μ := (int A).sub ((int B).const_mul _)
    rw [integral_sub hAB ((int C).const_mul _),
      integral_sub (int A) ((int B).const_mul _), integral_const_mul, integral_const_mul]
  let m : Dict ℝ → ℝ := fun A => ∫ ω, est A ω ∂μ
  let R : ℕ → ℕ → (Ω → ℝ) → ℝ → Prop := fun _ _ X s => ∫ ω, X ω ∂μ = s
  obtain ⟨M, S, r1, r2, r3⟩ := opsRun_pair hok
    (e1 := fun ω o => (est o.1 ω - est o.2.1 ω, -est o.2.2.1 ω, est o.2.2.2 ω))
    (e2 := fun ω o => (est o.1.1 ω - 1 / 2 * est o.1.2.1 ω - 1 / 2 * est o.1.2.2 ω,
      est o.2.1 ω - 1 / 2 * est o.2.2.1 ω - 1 / 2 * est o.2.2.2 ω))
    (e3 := fun ω o => (est o.1 ω, est o.2.1 ω, est o.2.2 ω))
    (s1 := fun o => (m o.1 - m o.2.1, -m o.2.2.1, m o.2.2.2))
    (s2 := fun o => (m o.1.1 - 1 / 2 * m o.1.2.1 - 1 / 2 * m o.1.2.2,
      m o.2.1 - 1 / 2 * m o.2.2.1 - 1 / 2 * m o.2.2.2))
    (s3 := fun o => (m o.1, m o.2.1, m o.2.2)) R R R
    (fun i j => ⟨integral_zero _ _, integral_zero _ _, integral_zero _ _⟩)
    (fun i j o _ _ => ⟨integral_sub (int _) (int _), integral_neg _, rfl⟩)
    (fun i j o _ => ⟨mean1 _ _ _, mean1 _ _ _⟩)
    (fun i j o _ _ => ⟨rfl, rfl, rfl⟩)
  refine ⟨L, hL, fun doGradients => ⟨M, fun ω => ?_, ?_⟩⟩
  · unfold measuredAt
    rw [qnRun_ops (fun A => est A ω) doGradients h2 (hg _).1 (hg _).2, hM]
    exact r1 ω
  · obtain ⟨L', hL', h⟩ := C104_naive ht hb hW hq excitations
    obtain rfl : L = L' := Except.ok.inj (hL.symm.trans hL')
    obtain ⟨M0, hM0, h⟩ := h false doGradients
    have e : qnRun tiny big (meanOf μ est) W false doGradients L = .ok S := by
      unfold meanOf
      rw [qnRun_ops m doGradients h2 (hg _).1 (hg _).2, hM]
      exact r2
    obtain rfl : M0 = S := Except.ok.inj (hM0.symm.trans e)
    intro i j Xi Xid Xj Xjd hi hj hid hjd
    obtain ⟨a, -, c, d⟩ := h i j Xi Xid Xj Xjd hi hj hid hjd
    obtain ⟨u, v, w⟩ := r3 i j
    refine ⟨w.trans a, fun h1 h2 h3 => ?_, fun h1 => ?_⟩
    · obtain ⟨c1, c2⟩ := (c h1 h2).1 (Or.inr h3)
      exact ⟨u.trans c1, v.trans c2⟩
    · obtain ⟨d1, d2⟩ := d h1
      exact ⟨u.trans d1, v.trans d2⟩

/-- Estimates that scatter around the exact values, by a coin. -/
example (ci : CIInfo) (c : Vec ℝ) : ∃ (μ : Measure Bool) (est : Dict ℝ → Bool → ℝ), IsProbabilityMeasure μ ∧
    FiniteVariance μ est ∧ ExactQuantum ci c (meanOf μ est) ∧ ∀ A, est A true ≠ est A false := by
  refine ⟨(PMF.uniformOfFintype Bool).toMeasure,
    fun A b => expv (stateOf ci c) (sumOp A) + if b then 1 else -1, inferInstance, fun A => MemLp.of_discrete,
    fun A _ _ => ?_, fun A => by norm_num⟩
  unfold meanOf
  rw [PMF.integral_eq_sum]
  simp
  ring

end SQ
