import Verif.Lemmas.Trig
import Mathlib.Analysis.Real.Pi.Bounds

/-! # C42-C45: RotoSolve and the parameter-shift gradient -/

namespace SQ

/-! ### C43 -/

theorem wrapUp_spec (x : ℝ) : ∃ (N : ℕ) (y : ℝ), (∀ n, N ≤ n → wrapUp n x = .ok y) ∧ Real.pi ≤ y ∧
    (y < 3 * Real.pi ∨ y = x) ∧ ∃ k : ℕ, y = x + 2 * Real.pi * k := by
  have hpi := Real.pi_pos
  obtain ⟨m, hm⟩ := exists_nat_gt ((Real.pi - x) / (2 * Real.pi))
  rw [div_lt_iff₀ (by positivity)] at hm
  induction m generalizing x with
  | zero =>
    refine ⟨1, x, fun n hn => ?_, by simp at hm; linarith, Or.inr rfl, 0, by simp⟩
    obtain ⟨n, rfl⟩ := Nat.exists_eq_add_of_le' hn
    unfold wrapUp
    rw [if_neg (by simp at hm; linarith)]
  | succ m ih =>
    by_cases hx : x < Real.pi
    · obtain ⟨N, y, h1, h2, h3, k, h4⟩ := ih (x + 2 * Real.pi) (by push_cast at hm; linarith)
      refine ⟨N + 1, y, fun n hn => ?_, h2, Or.inl ?_, k + 1, by rw [h4]; push_cast; ring⟩
      · obtain ⟨n, rfl⟩ := Nat.exists_eq_add_of_le' (show 1 ≤ n by omega)
        unfold wrapUp
        rw [if_pos hx]
        exact h1 n (by omega)
      · rcases h3 with h3 | h3
        · exact h3
        · rw [h3]; linarith
    · refine ⟨1, x, fun n hn => ?_, not_lt.1 hx, Or.inr rfl, 0, by simp⟩
      obtain ⟨n, rfl⟩ := Nat.exists_eq_add_of_le' hn
      unfold wrapUp
      rw [if_neg hx]

theorem wrapDown_spec (x : ℝ) (hx : Real.pi ≤ x) : ∃ (N : ℕ) (y : ℝ), (∀ n, N ≤ n → wrapDown n x = .ok y) ∧
    -Real.pi < y ∧ y ≤ Real.pi ∧ ∃ k : ℕ, y = x - 2 * Real.pi * k := by
  have hpi := Real.pi_pos
  suffices ∀ m : ℕ, ∀ x : ℝ, -Real.pi < x → x ≤ Real.pi + 2 * Real.pi * m → ∃ (N : ℕ) (y : ℝ),
      (∀ n, N ≤ n → wrapDown n x = .ok y) ∧ -Real.pi < y ∧ y ≤ Real.pi ∧ ∃ k : ℕ, y = x - 2 * Real.pi * k by
    obtain ⟨m, hm⟩ := exists_nat_gt ((x - Real.pi) / (2 * Real.pi))
    rw [div_lt_iff₀ (by positivity)] at hm
    exact this m x (by linarith) (by linarith)
  intro m
  induction m with
  | zero =>
    intro x h1 h2
    refine ⟨1, x, fun n hn => ?_, h1, by simpa using h2, 0, by simp⟩
    obtain ⟨n, rfl⟩ := Nat.exists_eq_add_of_le' hn
    unfold wrapDown
    rw [if_neg (by simp at h2; linarith)]
  | succ m ih =>
    intro x h1 h2
    by_cases hx : x > Real.pi
    · obtain ⟨N, y, g1, g2, g3, k, g4⟩ := ih (x - 2 * Real.pi) (by linarith) (by push_cast at h2; linarith)
      refine ⟨N + 1, y, fun n hn => ?_, g2, g3, k + 1, by rw [g4]; push_cast; ring⟩
      obtain ⟨n, rfl⟩ := Nat.exists_eq_add_of_le' (show 1 ≤ n by omega)
      unfold wrapDown
      rw [if_pos hx]
      exact g1 n (by omega)
    · refine ⟨1, x, fun n hn => ?_, h1, not_lt.1 hx, 0, by simp⟩
      obtain ⟨n, rfl⟩ := Nat.exists_eq_add_of_le' hn
      unfold wrapDown
      rw [if_neg hx]

/-- C43: the two loops end, and the angle they leave differs from the given one by a multiple of `2π` and
lies in `(-π, π]`. -/
theorem C43_wrap (x : ℝ) : ∃ (N : ℕ) (y : ℝ), (∀ n, N ≤ n → wrapAngle n x = .ok y) ∧ -Real.pi < y ∧ y ≤ Real.pi ∧
    ∃ k : ℤ, y = x + 2 * Real.pi * k := by
  obtain ⟨N1, y, h1, h2, -, k1, h3⟩ := wrapUp_spec x
  obtain ⟨N2, z, g1, g2, g3, k2, g4⟩ := wrapDown_spec y h2
  refine ⟨max N1 N2, z, fun n hn => ?_, g2, g3, (k1 : ℤ) - k2, by rw [g4, h3]; push_cast; ring⟩
  unfold wrapAngle
  rw [h1 n (le_trans (le_max_left _ _) hn)]
  exact g1 n (le_trans (le_max_right _ _) hn)

/-- C43: an answer of the loops, with any bound on the rounds, is the one of `C43_wrap`. -/
theorem C43_wrap_only {n : ℕ} {x y : ℝ} (h : wrapAngle n x = .ok y) : -Real.pi < y ∧ y ≤ Real.pi ∧
    ∃ k : ℤ, y = x + 2 * Real.pi * k := by
  have up : ∀ (n : ℕ) (x z : ℝ), wrapUp n x = .ok z → ∀ m, n ≤ m → wrapUp m x = .ok z := by
    intro n
    induction n with
    | zero => intro x z h; cases h
    | succ n ih =>
      intro x z h m hm
      obtain ⟨m, rfl⟩ := Nat.exists_eq_add_of_le' (show 1 ≤ m by omega)
      unfold wrapUp at h ⊢
      split_ifs at h ⊢ with hx
      · exact ih _ _ h m (by omega)
      · exact h
  have down : ∀ (n : ℕ) (x z : ℝ), wrapDown n x = .ok z → ∀ m, n ≤ m → wrapDown m x = .ok z := by
    intro n
    induction n with
    | zero => intro x z h; cases h
    | succ n ih =>
      intro x z h m hm
      obtain ⟨m, rfl⟩ := Nat.exists_eq_add_of_le' (show 1 ≤ m by omega)
      unfold wrapDown at h ⊢
      split_ifs at h ⊢ with hx
      · exact ih _ _ h m (by omega)
      · exact h
  obtain ⟨N, w, h1, h2⟩ := C43_wrap x
  have : wrapAngle (max n N) x = .ok y := by
    unfold wrapAngle at h ⊢
    cases hu : wrapUp n x with
    | error e => rw [hu] at h; cases h
    | ok z =>
      rw [hu] at h
      rw [up n x z hu _ (le_max_left _ _)]
      exact down n z y h _ (le_max_left _ _)
  rw [h1 _ (le_max_right _ _)] at this
  cases this
  exact h2

/-! ### C44 -/

/-- C44: from the sampled values of a trigonometric polynomial of degree at most `R`, `reconstructed_f`
returns its value at every angle `x` for which no `x - x_μ` is a nonzero multiple of `2π` (there the code
divides 0 by 0). -/
theorem C44_exact {R : ℕ} {E : ℝ → ℝ} (h : TrigPoly R E) (x : ℝ)
    (hx : ∀ j < 2 * R + 1, x - xMu R j = 0 ∨ Real.sin ((x - xMu R j) / 2) ≠ 0) :
    reconstructedF ((List.range (2 * R + 1)).map fun j => E (xMu R j)) R x = E x := by
  unfold reconstructedF
  rw [list_sum_zipIdx (fun e j => e * kernelF R (x - xMu R j)), ← trig_kernel h x]
  exact Finset.sum_congr rfl fun j hj => by rw [kernelF_eq R (hx j (Finset.mem_range.1 hj))]

/-- C44: in particular at every angle between `-π` and `π`, with the values `get_energy_evals` samples. -/
theorem C44_period {R : ℕ} {f : List ℝ → ℝ} {x : List ℝ} {i : ℕ} (hi : i < x.length)
    (h : TrigPoly R fun t => f (x.set i t)) :
    ∃ evals, getEnergyEvals f x i R = .ok evals ∧ evals.length = 2 * R + 1 ∧
      ∀ t, |t| ≤ Real.pi → reconstructedF evals R t = f (x.set i t) := by
  refine ⟨(List.range (2 * R + 1)).map fun j => f (x.set i (xMu R j)), by unfold getEnergyEvals; rw [if_pos hi],
    by simp, fun t ht => ?_⟩
  exact C44_exact h t fun j hj => in_period hj ht

/-- C44: with energies of several states the result is the sum of the energies over `2R+1`: the mean of the
states times a positive constant, so it has the same lowest points. -/
theorem C44_states {R n : ℕ} {E : Fin n → ℝ → ℝ} (h : ∀ s, TrigPoly R (E s)) (x : ℝ) (hx : |x| ≤ Real.pi) :
    reconstructedSA ((List.range (2 * R + 1)).map fun j => List.ofFn fun s => E s (xMu R j)) R x =
      (∑ s, E s x) / (2 * R + 1 : ℕ) := by
  unfold reconstructedSA
  rw [list_sum_zipIdx (fun (e : List ℝ) j => (e.map fun e => e * kernelF R (x - xMu R j)).sum)]
  have e : ∀ j ∈ Finset.range (2 * R + 1), ((List.ofFn fun s => E s (xMu R j)).map fun e => e * kernelF R (x - xMu R j)).sum =
      ∑ s, E s (xMu R j) * (dirichlet R (x - xMu R j) / (2 * R + 1)) := by
    intro j hj
    rw [List.map_ofFn, List.sum_ofFn]
    refine Finset.sum_congr rfl fun s _ => ?_
    simp only [Function.comp_apply]
    rw [kernelF_eq R (in_period (Finset.mem_range.1 hj) hx)]
  rw [Finset.sum_congr rfl e, Finset.sum_comm, Finset.sum_congr rfl fun s _ => trig_kernel (h s) x]
  simp

/-- The result for several states is not the mean the docstring promises: two states of energy 1, `R = 2`; the mean is 1, the result 2/5. -/
theorem C44_states_disagree :
    reconstructedSA ((List.range 5).map fun _ => [(1 : ℝ), 1]) 2 0 = 2 / 5 := by
  have h := C44_states (R := 2) (n := 2) (E := fun _ _ => 1)
    (fun s => ⟨fun k => if k = 0 then 1 else 0, fun _ => 0, fun x => by simp⟩) 0 (by simp [Real.pi_pos.le])
  simpa using h

/-- C44: `reconstructed_f_derivative` is the derivative of `reconstructed_f`, away from the points where
the code's cut-off `1e-12` for the argument of sinc' takes effect without the argument being zero. -/
theorem C44_derivative (R : ℕ) (evals : List ℝ) (x : ℝ)
    (hx : ∀ j < evals.length, x - xMu R j = 0 ∨
      (Real.sin ((x - xMu R j) / 2) ≠ 0 ∧ |1 / 2 * (x - xMu R j) / Real.pi| > 1 / 10 ^ 12)) :
    HasDerivAt (reconstructedF evals R) (reconstructedD evals R x) x := by
  have e1 : ∀ g : ℝ → ℕ → ℝ, (evals.zipIdx.map fun ei => g ei.1 ei.2).sum = ∑ j ∈ Finset.range evals.length, g (evals.getD j 0) j := by
    intro g
    have h := list_sum_zipIdx g (fun j => evals.getD j 0) evals.length
    rw [← h]
    have hl : (List.range evals.length).map (fun j => evals.getD j 0) = evals := by
      apply List.ext_getElem
      · simp
      · intro i h1 h2
        simp [List.getD_eq_getElem?_getD, List.getElem?_eq_getElem h2]
    rw [hl]
  have e2 : reconstructedF evals R = fun x => ∑ j ∈ Finset.range evals.length, evals.getD j 0 * kernelF R (x - xMu R j) := by
    funext x
    exact e1 fun e j => e * kernelF R (x - xMu R j)
  have e3 : reconstructedD evals R x = ∑ j ∈ Finset.range evals.length, evals.getD j 0 * kernelD R (x - xMu R j) :=
    e1 fun e j => e * kernelD R (x - xMu R j)
  rw [e2, e3]
  refine HasDerivAt.fun_sum fun j hj => ?_
  have hk := kernelF_deriv R (hx j (Finset.mem_range.1 hj))
  have hs : HasDerivAt (fun x : ℝ => x - xMu R j) 1 x := (hasDerivAt_id x).sub_const _
  have := hk.comp x hs
  rw [mul_one] at this
  exact this.const_mul _

/-- A function of degree 2: an energy along one fermionic rotation. -/
example : TrigPoly 2 fun x => 3 + Real.sin x - 2 * Real.cos (2 * x) :=
  ⟨fun k => if k = 0 then 3 else if k = 2 then -2 else 0, fun k => if k = 1 then 1 else 0, fun x => by
    simp [Finset.sum_range_succ]; ring⟩

/-! ### C45 -/

/-- C45: for a trigonometric polynomial of degree at most `R` in parameter `i`, the shift rule with the
values `_get_energy_evals_for_grad` samples is the derivative at the present value of the parameter. -/
theorem C45_gradient {R : ℕ} (hR : 0 < R) {E : List ℝ → ℝ} {x : List ℝ} {i : ℕ} {t : ℝ} (hi : x[i]? = some t)
    (h : TrigPoly R fun t => E (x.set i t)) :
    ∃ evals, gradEvals E x i R = .ok evals ∧ HasDerivAt (fun t => E (x.set i t)) (shiftGradient evals R) t := by
  refine ⟨_, by unfold gradEvals; rw [hi], ?_⟩
  obtain ⟨a, b, hE⟩ := h
  have hfun : (fun t => E (x.set i t)) = fun t => ∑ k ∈ Finset.range (R + 1), (a k * Real.cos (k * t) + b k * Real.sin (k * t)) :=
    funext hE
  have hgrad : shiftGradient ((List.range (2 * R)).map fun j => E (x.set i (xShift R j + t))) R =
      ∑ k ∈ Finset.range (R + 1), (a k * (-Real.sin (k * t) * k) + b k * (Real.cos (k * t) * k)) := by
    unfold shiftGradient
    rw [list_sum_zipIdx (fun e j => e * (-1) ^ j / (4 * R * Real.sin (1 / 2 * xShift R j) ^ 2))]
    have e1 : ∀ j ∈ Finset.range (2 * R), E (x.set i (xShift R j + t)) * (-1) ^ j / (4 * R * Real.sin (1 / 2 * xShift R j) ^ 2) =
        ∑ k ∈ Finset.range (R + 1), ((a k * Real.cos (k * t) + b k * Real.sin (k * t)) * (shiftWeight R j * Real.cos (k * xShift R j)) +
          (b k * Real.cos (k * t) - a k * Real.sin (k * t)) * (shiftWeight R j * Real.sin (k * xShift R j))) := by
      intro j _
      have h1 := hE (xShift R j + t)
      simp only at h1
      rw [h1, mul_div_assoc]
      change _ * shiftWeight R j = _
      rw [Finset.sum_mul]
      refine Finset.sum_congr rfl fun k _ => ?_
      rw [mul_add, Real.cos_add, Real.sin_add]
      ring
    rw [Finset.sum_congr rfl e1, Finset.sum_comm]
    refine Finset.sum_congr rfl fun k hk => ?_
    rw [Finset.sum_add_distrib, ← Finset.mul_sum, ← Finset.mul_sum, weight_cos,
      weight_sin hR k (by have := Finset.mem_range.1 hk; omega)]
    ring
  rw [hfun, hgrad]
  refine HasDerivAt.fun_sum fun k _ => ?_
  have hm : HasDerivAt (fun t : ℝ => (k : ℝ) * t) k t := by simpa using (hasDerivAt_id t).const_mul (k : ℝ)
  exact (hm.cos.const_mul (a k)).add (hm.sin.const_mul (b k))

/-! ### C42 -/

theorem loop_spec (s : Roto) (fuel : ℕ) : ∀ (n : ℕ) (x : List ℝ) (fBest : ℝ) (xBest : List ℝ) (fails : ℕ) (res : RotoResult),
    s.loop fuel n x fBest xBest fails = .ok res →
      res.calls.length ≤ n ∧
      (res.success = true → res.calls.getLast? = some res.x ∧ res.fn = s.f res.x ∧ res.fn < fBest + s.threshold ∧
        ∀ y ∈ res.calls, res.fn < s.f y + s.threshold) ∧
      (res.success = false → ((res.x = xBest ∧ res.fn = fBest) ∨ (res.x ∈ res.calls ∧ res.fn = s.f res.x)) ∧
        res.fn ≤ fBest ∧ ∀ y ∈ res.calls, res.fn ≤ s.f y) := by
  intro n
  induction n with
  | zero =>
    intro x fBest xBest fails res h
    unfold Roto.loop at h
    cases h
    simp
  | succ n ih =>
    intro x fBest xBest fails res h
    unfold Roto.loop at h
    cases hs : s.sweep fuel x with
    | error e => rw [hs] at h; cases h
    | ok x1 =>
      rw [hs] at h
      simp only [bind, Except.bind, pure, Except.pure] at h
      split_ifs at h with h1 h2 h3 h4
      · cases h
        have := abs_lt.1 h1
        have h0 : 0 < s.threshold := lt_of_le_of_lt (abs_nonneg _) h1
        refine ⟨by simp, fun _ => ⟨by simp, rfl, by simp only; linarith, fun y hy => ?_⟩, by simp⟩
        simp only [List.mem_singleton] at hy
        subst hy
        simp only
        linarith
      · cases h
        refine ⟨by simp, by simp, fun _ => ⟨Or.inl ⟨rfl, rfl⟩, le_refl _, fun y hy => ?_⟩⟩
        simp only [List.mem_singleton] at hy
        subst hy
        simp only
        linarith
      · cases hl : s.loop fuel n x1 fBest xBest (fails + 1) with
        | error e => rw [hl] at h; cases h
        | ok r =>
          rw [hl] at h
          cases h
          obtain ⟨g1, g2, g3⟩ := ih _ _ _ _ _ hl
          refine ⟨by simpa using g1, fun hr => ?_, fun hr => ?_⟩
          · obtain ⟨a, b, c, d⟩ := g2 hr
            refine ⟨by simp only [List.getLast?_cons]; rw [a]; rfl, b, c, fun y hy => ?_⟩
            rcases List.mem_cons.1 hy with rfl | hy
            · simp only; linarith
            · exact d y hy
          · obtain ⟨a, b, c⟩ := g3 hr
            refine ⟨a.imp id (fun ha => ⟨List.mem_cons_of_mem _ ha.1, ha.2⟩), b, fun y hy => ?_⟩
            rcases List.mem_cons.1 hy with rfl | hy
            · simp only; linarith
            · exact c y hy
      · cases h
        refine ⟨by simp, by simp, fun _ => ⟨Or.inr ⟨by simp, rfl⟩, by simp only; linarith, fun y hy => ?_⟩⟩
        simp only [List.mem_singleton] at hy
        subst hy
        exact le_refl _
      · cases hl : s.loop fuel n x1 (s.f x1) x1 fails with
        | error e => rw [hl] at h; cases h
        | ok r =>
          rw [hl] at h
          cases h
          obtain ⟨g1, g2, g3⟩ := ih _ _ _ _ _ hl
          refine ⟨by simpa using g1, fun hr => ?_, fun hr => ?_⟩
          · obtain ⟨a, b, c, d⟩ := g2 hr
            refine ⟨by simp only [List.getLast?_cons]; rw [a]; rfl, b, by simp only; linarith, fun y hy => ?_⟩
            rcases List.mem_cons.1 hy with rfl | hy
            · exact c
            · exact d y hy
          · obtain ⟨a, b, c⟩ := g3 hr
            refine ⟨Or.inr ?_, by simp only; linarith, fun y hy => ?_⟩
            · rcases a with ⟨a1, a2⟩ | ⟨a1, a2⟩
              · refine ⟨by simp only [a1]; simp, ?_⟩
                simp only
                rw [a2, a1]
              · exact ⟨List.mem_cons_of_mem _ a1, a2⟩
            · rcases List.mem_cons.1 hy with rfl | hy
              · exact b
              · exact c y hy

/-- C42: at most `maxiter` sweeps are made. The reported value was seen at the reported point, unless no
sweep ended below `1e20`. Without convergence it is the smallest value seen after a sweep; with
convergence it exceeds the smallest by less than the threshold. -/
theorem C42_best {s : Roto} {fuel : ℕ} {x0 : List ℝ} {res : RotoResult} (h : s.minimize fuel x0 = .ok res) :
    res.calls.length ≤ s.maxiter ∧
    ((res.x ∈ res.calls ∧ res.fn = s.f res.x) ∨ (res.x = x0 ∧ res.fn = 10 ^ 20 ∧ ∀ y ∈ res.calls, 10 ^ 20 ≤ s.f y)) ∧
    (∀ y ∈ res.calls, res.fn ≤ s.f y ∨ (res.success = true ∧ res.fn < s.f y + s.threshold)) := by
  obtain ⟨h1, h2, h3⟩ := loop_spec s fuel _ _ _ _ _ _ h
  refine ⟨h1, ?_, ?_⟩
  · cases hr : res.success with
    | true =>
      obtain ⟨a, b, -⟩ := h2 hr
      exact Or.inl ⟨List.mem_of_getLast? a, b⟩
    | false =>
      obtain ⟨a, b, c⟩ := h3 hr
      rcases a with ⟨a1, a2⟩ | a
      · exact Or.inr ⟨a1, a2, fun y hy => a2 ▸ c y hy⟩
      · exact Or.inl a
  · intro y hy
    cases hr : res.success with
    | true => exact Or.inr ⟨rfl, (h2 hr).2.2.2 y hy⟩
    | false => exact Or.inl ((h3 hr).2.2 y hy)

/-- An objective that goes up by 1 in each sweep. -/
def risingRoto : Roto where
  f x := x.sum
  fOpt := some fun x _ _ => x
  minimizer e _ := e.sum + 1
  R := [("s", 1)]
  names := ["s"]
  maxiter := 5
  threshold := 2

/-- The exact claim fails: the values seen are 1 and 2, the value returned is 2 (threshold 2). -/
theorem C42_threshold_disagree : ∃ res, risingRoto.minimize 2 [0] = .ok res ∧ res.fn = 2 ∧ [1] ∈ res.calls ∧
    risingRoto.f [1] = 1 := by
  have hpi := Real.pi_gt_three
  have w : ∀ t : ℝ, 0 ≤ t → t ≤ 2 → wrapAngle 2 t = .ok t := by
    intro t h0 h2
    unfold wrapAngle wrapUp wrapUp
    rw [if_pos (by linarith), if_neg (by linarith)]
    change wrapDown 2 _ = _
    unfold wrapDown wrapDown
    rw [if_pos (by linarith), if_neg (by linarith)]
    congr 1
    ring
  have sw : ∀ t : ℝ, 0 ≤ t → t ≤ 1 → risingRoto.sweep 2 [t] = .ok [t + 1] := by
    intro t h0 h1
    have e : risingRoto.sweep 2 [t] = risingRoto.update 2 [t] 0 "s" := by
      unfold Roto.sweep
      simp [risingRoto, bind_pure]
    rw [e]
    unfold Roto.update
    simp only [risingRoto, List.lookup, beq_self_eq_true, bind, Except.bind, getEnergyEvalsOptimized, List.sum_cons,
      List.sum_nil, add_zero]
    rw [w _ (by linarith) (by linarith)]
    simp
  refine ⟨⟨[2], 2, true, [[1], [2]]⟩, ?_, rfl, by simp, by simp [risingRoto]⟩
  unfold Roto.minimize
  change Roto.loop _ _ 5 _ _ _ _ = _
  unfold Roto.loop Roto.loop
  rw [sw 0 (le_refl _) (by norm_num)]
  simp only [bind, Except.bind]
  have f1 : risingRoto.f [0 + 1] = 1 := by simp [risingRoto]
  rw [f1, if_neg (by rw [abs_of_pos (by norm_num)]; norm_num [risingRoto]), if_neg (by norm_num), if_neg (by norm_num)]
  rw [zero_add, sw 1 (by norm_num) (le_refl _)]
  simp only
  have f2 : risingRoto.f [1 + 1] = 2 := by norm_num [risingRoto]
  rw [f2, if_pos (by norm_num [risingRoto])]
  norm_num [pure, Except.pure]

theorem TrigPoly.periodic {R : ℕ} {E : ℝ → ℝ} (h : TrigPoly R E) (x : ℝ) (k : ℤ) : E (x + 2 * Real.pi * k) = E x := by
  obtain ⟨a, b, h⟩ := h
  rw [h, h]
  refine Finset.sum_congr rfl fun m _ => ?_
  have e : (m : ℝ) * (x + 2 * Real.pi * k) = m * x + ((m * k : ℤ) : ℝ) * (2 * Real.pi) := by push_cast; ring
  rw [e, Real.cos_add_int_mul_two_pi, Real.sin_add_int_mul_two_pi]

/-- What is asked of the one-dimensional minimization: it ends in a lowest point of the reconstructed
function between `-π` and `π`. -/
def FindsMinimum (m : List ℝ → ℕ → ℝ) : Prop :=
  ∀ (evals : List ℝ) (R : ℕ), evals.length = 2 * R + 1 → |m evals R| ≤ Real.pi ∧
    ∀ t, |t| ≤ Real.pi → reconstructedF evals R (m evals R) ≤ reconstructedF evals R t

/-- There is such a minimization. -/
theorem findsMinimum_exists : ∃ m, FindsMinimum m := by
  have key : ∀ (evals : List ℝ) (R : ℕ), ∃ t : ℝ, evals.length = 2 * R + 1 → |t| ≤ Real.pi ∧
      ∀ u, |u| ≤ Real.pi → reconstructedF evals R t ≤ reconstructedF evals R u := by
    intro evals R
    by_cases hl : evals.length = 2 * R + 1
    swap
    · exact ⟨0, fun h => absurd h hl⟩
    have e : ∀ u : ℝ, |u| ≤ Real.pi → reconstructedF evals R u =
        ∑ j ∈ Finset.range (2 * R + 1), evals.getD j 0 * (dirichlet R (u - xMu R j) / (2 * R + 1)) := by
      intro u hu
      have h := list_sum_zipIdx (fun e j => e * kernelF R (u - xMu R j)) (fun j => evals.getD j 0) evals.length
      have hl' : (List.range evals.length).map (fun j => evals.getD j 0) = evals := by
        apply List.ext_getElem
        · simp
        · intro i h1 h2
          simp [List.getD_eq_getElem?_getD, List.getElem?_eq_getElem h2]
      rw [hl'] at h
      unfold reconstructedF
      rw [h, hl]
      exact Finset.sum_congr rfl fun j hj => by rw [kernelF_eq R (in_period (Finset.mem_range.1 hj) hu)]
    have hc : Continuous fun u : ℝ =>
        ∑ j ∈ Finset.range (2 * R + 1), evals.getD j 0 * (dirichlet R (u - xMu R j) / (2 * R + 1)) := by
      unfold dirichlet
      fun_prop
    obtain ⟨t, ht, hm⟩ := (isCompact_Icc (a := -Real.pi) (b := Real.pi)).exists_isMinOn
      ⟨0, by constructor <;> linarith [Real.pi_pos]⟩ hc.continuousOn
    refine ⟨t, fun _ => ⟨abs_le.2 ht, fun u hu => ?_⟩⟩
    rw [e t (abs_le.2 ht), e u hu]
    exact hm (abs_le.1 hu)
  choose m hm using key
  exact ⟨m, fun evals R h => hm evals R h⟩

/-- The objective is, in each parameter, a trigonometric polynomial of the degree given for its name. -/
def Roto.Trig (s : Roto) (len : ℕ) : Prop :=
  ∀ (i : ℕ) (name : String), s.names[i]? = some name → ∀ R, s.R.lookup name = some R →
    ∀ x : List ℝ, x.length = len → TrigPoly R fun t => s.f (x.set i t)

/-- After the update of a parameter no other value of that parameter gives less. -/
theorem update_lowest {s : Roto} {len fuel i : ℕ} {name : String} {x x' : List ℝ} (hm : FindsMinimum s.minimizer)
    (ho : s.fOpt = none) (ht : s.Trig len) (hx : x.length = len) (hn : s.names[i]? = some name)
    (h : s.update fuel x i name = .ok x') : x'.length = len ∧ ∀ t, s.f x' ≤ s.f (x.set i t) := by
  unfold Roto.update at h
  cases hR : s.R.lookup name with
  | none => rw [hR] at h; cases h
  | some R =>
    rw [hR, ho] at h
    simp only [bind, Except.bind] at h
    by_cases hi : i < x.length
    swap
    · unfold getEnergyEvals at h
      rw [if_neg hi] at h
      cases h
    have tp := ht i name hn R hR x hx
    obtain ⟨evals, e1, e2, e3⟩ := C44_period hi tp
    rw [e1] at h
    simp only at h
    cases hw : wrapAngle fuel (s.minimizer evals R) with
    | error e => rw [hw] at h; cases h
    | ok y =>
      rw [hw] at h
      simp only [if_pos hi] at h
      cases h
      refine ⟨by simpa using hx, fun t => ?_⟩
      obtain ⟨-, -, k, hk⟩ := C43_wrap_only hw
      obtain ⟨m1, m2⟩ := hm evals R e2
      obtain ⟨-, y0, -, q1, q2, k0, q3⟩ := C43_wrap t
      have hy0 : |y0| ≤ Real.pi := abs_le.2 ⟨q1.le, q2⟩
      have p1 := tp.periodic (s.minimizer evals R) k
      have p2 := tp.periodic t k0
      rw [hk, p1, ← e3 _ m1]
      refine le_trans (m2 y0 hy0) ?_
      rw [e3 _ hy0, q3, p2]

theorem update_descent {s : Roto} {len fuel i : ℕ} {name : String} {x x' : List ℝ} (hm : FindsMinimum s.minimizer)
    (ho : s.fOpt = none) (ht : s.Trig len) (hx : x.length = len) (hn : s.names[i]? = some name)
    (h : s.update fuel x i name = .ok x') : x'.length = len ∧ s.f x' ≤ s.f x := by
  obtain ⟨a, b⟩ := update_lowest hm ho ht hx hn h
  refine ⟨a, ?_⟩
  by_cases hi : i < x.length
  · have := b x[i]
    rwa [List.set_getElem_self] at this
  · simpa [List.set_eq_of_length_le (not_lt.1 hi)] using b 0

theorem sweep_descent {s : Roto} {len fuel : ℕ} {x x' : List ℝ} (hm : FindsMinimum s.minimizer)
    (ho : s.fOpt = none) (ht : s.Trig len) (hx : x.length = len) (h : s.sweep fuel x = .ok x') :
    x'.length = len ∧ s.f x' ≤ s.f x := by
  unfold Roto.sweep at h
  have gen : ∀ (l : List (String × ℕ)), (∀ ni ∈ l, s.names[ni.2]? = some ni.1) → ∀ x, x.length = len →
      l.foldlM (fun x ni => s.update fuel x ni.2 ni.1) x = .ok x' → x'.length = len ∧ s.f x' ≤ s.f x := by
    intro l
    induction l with
    | nil => intro _ x hx h; cases h; exact ⟨hx, le_refl _⟩
    | cons ni l ih =>
      intro hl x hx h
      rw [List.foldlM_cons] at h
      cases hu : s.update fuel x ni.2 ni.1 with
      | error e => rw [hu] at h; cases h
      | ok x1 =>
        rw [hu] at h
        obtain ⟨a, b⟩ := update_descent hm ho ht hx (hl ni (by simp)) hu
        obtain ⟨c, d⟩ := ih (fun q hq => hl q (List.mem_cons_of_mem _ hq)) x1 a h
        exact ⟨c, le_trans d b⟩
  refine gen _ (fun ni hni => ?_) x hx h
  obtain ⟨nm, i⟩ := ni
  have := List.mem_zipIdx hni
  simp only at this ⊢
  obtain ⟨-, h2, h3⟩ := this
  rw [h3]
  simp only [Nat.sub_zero]
  exact List.getElem?_eq_getElem _

theorem descent_of_sweep {s : Roto} {fuel : ℕ} {x0 : List ℝ} {res : RotoResult}
    (hsw : ∀ x x', x.length = x0.length → s.sweep fuel x = .ok x' → x'.length = x0.length ∧ s.f x' ≤ s.f x)
    (h : s.minimize fuel x0 = .ok res) :
    List.Pairwise (fun y z => s.f z ≤ s.f y) (x0 :: res.calls) ∧
      (∀ y ∈ res.calls, res.fn ≤ s.f y) := by
  have gen : ∀ (n : ℕ) (x : List ℝ) (fBest : ℝ) (xBest : List ℝ) (fails : ℕ) (res : RotoResult), x.length = x0.length →
      s.loop fuel n x fBest xBest fails = .ok res → List.IsChain (fun y z => s.f z ≤ s.f y) (x :: res.calls) := by
    intro n
    induction n with
    | zero =>
      intro x fBest xBest fails res hx h
      unfold Roto.loop at h
      cases h
      simp
    | succ n ih =>
      intro x fBest xBest fails res hx h
      unfold Roto.loop at h
      cases hs : s.sweep fuel x with
      | error e => rw [hs] at h; cases h
      | ok x1 =>
        rw [hs] at h
        obtain ⟨a, b⟩ := hsw x x1 hx hs
        simp only [bind, Except.bind, pure, Except.pure] at h
        split_ifs at h with h1 h2 h3 h4
        · cases h; simpa using b
        · cases h; simpa using b
        · cases hl : s.loop fuel n x1 fBest xBest (fails + 1) with
          | error e => rw [hl] at h; cases h
          | ok r =>
            rw [hl] at h
            cases h
            simp only [List.isChain_cons_cons]
            exact ⟨b, ih _ _ _ _ _ a hl⟩
        · cases h; simpa using b
        · cases hl : s.loop fuel n x1 (s.f x1) x1 fails with
          | error e => rw [hl] at h; cases h
          | ok r =>
            rw [hl] at h
            cases h
            simp only [List.isChain_cons_cons]
            exact ⟨b, ih _ _ _ _ _ a hl⟩
  have hc := gen _ _ _ _ _ _ rfl h
  haveI : IsTrans (List ℝ) fun y z => s.f z ≤ s.f y := ⟨fun a b c h1 h2 => le_trans h2 h1⟩
  have hp := List.isChain_iff_pairwise.1 hc
  refine ⟨hp, fun y hy => ?_⟩
  obtain ⟨-, h2, h3⟩ := loop_spec s fuel _ _ _ _ _ _ h
  cases hr : res.success with
  | false => exact (h3 hr).2.2 y hy
  | true =>
    obtain ⟨a, b, -⟩ := h2 hr
    rw [b]
    have hp' := (List.pairwise_cons.1 hp).2
    obtain ⟨ys, hys⟩ := List.getLast?_eq_some_iff.1 a
    rw [hys] at hp' hy
    rcases List.mem_append.1 hy with hy | hy
    · exact (List.pairwise_append.1 hp').2.2 y hy res.x (by simp)
    · simp only [List.mem_singleton] at hy; subst hy; exact le_refl _

/-- C42: for an objective that is in each parameter a trigonometric polynomial of the degree in `R`, with
a one-dimensional minimization that finds the lowest point, the objective never rises from one sweep to
the next, so the value returned is the smallest seen and not above the value at the start. -/
theorem C42_descent {s : Roto} {fuel : ℕ} {x0 : List ℝ} {res : RotoResult} (hm : FindsMinimum s.minimizer)
    (ho : s.fOpt = none) (ht : s.Trig x0.length) (h : s.minimize fuel x0 = .ok res) :
    List.Pairwise (fun y z => s.f z ≤ s.f y) (x0 :: res.calls) ∧
      (∀ y ∈ res.calls, res.fn ≤ s.f y) :=
  descent_of_sweep (fun _ _ hx hs => sweep_descent hm ho ht hx hs) h

end SQ
