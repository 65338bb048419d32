import Verif.Spec.StatesRoto
import Verif.Props.Optimizers
import Mathlib.Tactic.IntervalCases

/-! # C144: RotoSolve for the energies of several states -/

namespace SQ

theorem sum_mul_map (l : List ℝ) (c : ℝ) : (l.map fun e => e * c).sum = l.sum * c := by
  rw [List.sum_map_mul_right, List.map_id']

theorem reconstructedSA_sum (evals : List (List ℝ)) (R : ℕ) (x : ℝ) :
    reconstructedSA evals R x = reconstructedF (evals.map List.sum) R x / evals.length := by
  unfold reconstructedSA reconstructedF
  rw [List.zipIdx_map, List.map_map]
  simp only [sum_mul_map]
  rfl

theorem reconstructedSAD_sum (evals : List (List ℝ)) (R : ℕ) (x : ℝ) :
    reconstructedSAD evals R x = reconstructedD (evals.map List.sum) R x / evals.length := by
  unfold reconstructedSAD reconstructedD
  rw [List.zipIdx_map, List.map_map]
  simp only [sum_mul_map]
  rfl

/-- C144: for several states too, `reconstructed_f_derivative` is the derivative of `reconstructed_f`, away from the points
where the cut-off `1e-12` takes effect without the argument being zero. -/
theorem C144_derivative (R : ℕ) (evals : List (List ℝ)) (x : ℝ)
    (hx : ∀ j < evals.length, x - xMu R j = 0 ∨
      (Real.sin ((x - xMu R j) / 2) ≠ 0 ∧ |1 / 2 * (x - xMu R j) / Real.pi| > 1 / 10 ^ 12)) :
    HasDerivAt (reconstructedSA evals R) (reconstructedSAD evals R x) x := by
  have h := (C44_derivative R (evals.map List.sum) x (by simpa using hx)).div_const (evals.length : ℝ)
  rw [reconstructedSAD_sum]
  exact h.congr_of_eventuallyEq (Filter.Eventually.of_forall fun t => reconstructedSA_sum evals R t)

/-- Two states, three sampled points each. -/
example : HasDerivAt (reconstructedSA [[1, 2], [3, 4], [5, 7]] 1) (reconstructedSAD [[1, 2], [3, 4], [5, 7]] 1 (xMu 1 1)) (xMu 1 1) := by
  have hpi := Real.pi_gt_three
  refine C144_derivative 1 _ _ fun j hj => ?_
  have key : ∀ y : ℝ, y = 2 / 3 * Real.pi ∨ y = -(2 / 3 * Real.pi) → Real.sin (y / 2) ≠ 0 ∧ |1 / 2 * y / Real.pi| > 1 / 10 ^ 12 := by
    intro y hy
    have p : 0 < Real.sin (Real.pi / 3) := Real.sin_pos_of_pos_of_lt_pi (by positivity) (by linarith)
    have q : ∀ z : ℝ, |z| = 1 / 3 → |z| > 1 / 10 ^ 12 := fun z hz => by rw [hz]; norm_num
    rcases hy with rfl | rfl
    · refine ⟨by rw [show 2 / 3 * Real.pi / 2 = Real.pi / 3 by ring]; exact p.ne', q _ ?_⟩
      rw [show 1 / 2 * (2 / 3 * Real.pi) / Real.pi = 1 / 3 by field_simp]
      norm_num
    · refine ⟨by rw [show -(2 / 3 * Real.pi) / 2 = -(Real.pi / 3) by ring, Real.sin_neg]; exact neg_ne_zero.2 p.ne', q _ ?_⟩
      rw [show 1 / 2 * -(2 / 3 * Real.pi) / Real.pi = -(1 / 3) by field_simp]
      norm_num
  have hj : j < 3 := hj
  have m : ∀ k : ℕ, xMu 1 k = 2 * ((k : ℝ) - 1) / 3 * Real.pi := fun k => by unfold xMu; norm_num
  interval_cases j
  · exact .inr (key _ (.inl (by rw [m, m]; push_cast; ring)))
  · exact .inl (sub_self _)
  · exact .inr (key _ (.inr (by rw [m, m]; push_cast; ring)))

/-! ### The optimization as one of the mean -/

/-- The optimization of the mean with the angles the other one takes. -/
noncomputable def StatesRoto.meanRoto (s : StatesRoto) : Roto where
  f := fun x => npMean (s.f x)
  fOpt := some fun x diffs i => [s.minimizer (diffs.map fun d => s.f (x.set i d)) ((diffs.length - 1) / 2)]
  minimizer := fun evals _ => evals.headD 0
  R := s.R
  names := s.names
  maxiter := s.maxiter
  threshold := s.threshold

theorem StatesRoto.update_eq (s : StatesRoto) (fuel : ℕ) {x : List ℝ} {i : ℕ} (name : String) (hi : i < x.length) :
    s.update fuel x i name = s.meanRoto.update fuel x i name := by
  unfold StatesRoto.update Roto.update getStateEvals
  rw [show s.meanRoto.R = s.R from rfl]
  cases s.R.lookup name with
  | none => rfl
  | some R =>
    simp only [if_pos hi]
    have e : s.meanRoto.minimizer (getEnergyEvalsOptimized (fun x diffs i =>
        [s.minimizer (diffs.map fun d => s.f (x.set i d)) ((diffs.length - 1) / 2)]) x i R) R =
        s.minimizer ((List.range (2 * R + 1)).map fun j => s.f (x.set i (xMu R j))) R := by
      show s.minimizer (List.map _ (List.map _ _)) (((List.map _ _).length - 1) / 2) = _
      rw [List.map_map, List.length_map, List.length_range, show (2 * R + 1 - 1) / 2 = R by omega]
      rfl
    rw [← e]
    rfl

theorem StatesRoto.update_length {s : StatesRoto} {fuel : ℕ} {x x' : List ℝ} {i : ℕ} {name : String}
    (h : s.update fuel x i name = .ok x') : i < x.length ∧ x'.length = x.length := by
  unfold StatesRoto.update getStateEvals at h
  cases hR : s.R.lookup name with
  | none => rw [hR] at h; cases h
  | some R =>
    rw [hR] at h
    by_cases hi : i < x.length
    · simp only [if_pos hi] at h
      cases hw : wrapAngle fuel (s.minimizer ((List.range (2 * R + 1)).map fun j => s.f (x.set i (xMu R j))) R) with
      | error e => rw [hw] at h; cases h
      | ok y =>
        rw [hw] at h
        cases h
        exact ⟨hi, by simp⟩
    · simp only [if_neg hi] at h
      cases h

theorem StatesRoto.sweep_length {s : StatesRoto} {fuel : ℕ} {x x' : List ℝ} (h : s.sweep fuel x = .ok x') :
    x'.length = x.length := by
  have gen : ∀ (l : List (String × ℕ)) (x : List ℝ), l.foldlM (fun x ni => s.update fuel x ni.2 ni.1) x = .ok x' →
      x'.length = x.length := by
    intro l
    induction l with
    | nil => intro x h; cases h; rfl
    | cons ni l ih =>
      intro x h
      rw [List.foldlM_cons] at h
      cases hu : s.update fuel x ni.2 ni.1 with
      | error e => rw [hu] at h; cases h
      | ok x1 =>
        rw [hu] at h
        exact (ih x1 h).trans (StatesRoto.update_length hu).2
  exact gen _ x h

theorem StatesRoto.calls_length {s : StatesRoto} {fuel : ℕ} {x0 : List ℝ} {res : RotoResult} (h : s.minimize fuel x0 = .ok res) :
    ∀ y ∈ res.calls, y.length = x0.length := by
  have gen : ∀ (n : ℕ) (x : List ℝ) (fb : ℝ) (xb : List ℝ) (fails : ℕ) (res : RotoResult), x.length = x0.length →
      s.loop fuel n x fb xb fails = .ok res → ∀ y ∈ res.calls, y.length = x0.length := by
    intro n
    induction n with
    | zero =>
      intro x fb xb fails res _ h
      cases h
      simp
    | succ n ih =>
      intro x fb xb fails res hx h
      unfold StatesRoto.loop at h
      cases hs : s.sweep fuel x with
      | error e => rw [hs] at h; cases h
      | ok x1 =>
        rw [hs] at h
        have a := (StatesRoto.sweep_length hs).trans hx
        simp only [bind, Except.bind, pure, Except.pure] at h
        split_ifs at h with h1 h2 h3 h4
        · cases h; simpa using a
        · cases h; simpa using a
        · cases hl : s.loop fuel n x1 fb xb (fails + 1) with
          | error e => rw [hl] at h; cases h
          | ok r =>
            rw [hl] at h
            cases h
            simpa [a] using ih _ _ _ _ _ a hl
        · cases h; simpa using a
        · cases hl : s.loop fuel n x1 (npMean (s.f x1)) x1 fails with
          | error e => rw [hl] at h; cases h
          | ok r =>
            rw [hl] at h
            cases h
            simpa [a] using ih _ _ _ _ _ a hl
  exact gen _ _ _ _ _ _ rfl h

theorem StatesRoto.minimize_eq (s : StatesRoto) (fuel : ℕ) {x0 : List ℝ} (hn : s.names.length ≤ x0.length) :
    s.minimize fuel x0 = s.meanRoto.minimize fuel x0 := by
  have sw : ∀ (l : List (String × ℕ)), (∀ ni ∈ l, ni.2 < x0.length) → ∀ x, x.length = x0.length →
      l.foldlM (fun x ni => s.update fuel x ni.2 ni.1) x = l.foldlM (fun x ni => s.meanRoto.update fuel x ni.2 ni.1) x ∧
      ∀ x', l.foldlM (fun x ni => s.update fuel x ni.2 ni.1) x = .ok x' → x'.length = x0.length := by
    intro l
    induction l with
    | nil => intro _ x h; exact ⟨rfl, fun x' h' => by cases h'; exact h⟩
    | cons ni l ih =>
      intro hl x h
      rw [List.foldlM_cons, List.foldlM_cons, ← s.update_eq fuel ni.1 (h ▸ hl ni List.mem_cons_self)]
      cases hu : s.update fuel x ni.2 ni.1 with
      | error e => exact ⟨rfl, fun x' h' => by cases h'⟩
      | ok x1 => exact ih (fun q hq => hl q (List.mem_cons_of_mem _ hq)) x1 ((StatesRoto.update_length hu).2.trans h)
  have hz : ∀ ni ∈ s.names.zipIdx, ni.2 < x0.length := fun ni h => by
    have := (List.mem_zipIdx (x := ni.1) (i := ni.2) h).2.1
    omega
  have lp : ∀ (n : ℕ) (x : List ℝ) (fb : ℝ) (xb : List ℝ) (fails : ℕ), x.length = x0.length →
      s.loop fuel n x fb xb fails = s.meanRoto.loop fuel n x fb xb fails := by
    intro n
    induction n with
    | zero => intro x fb xb fails _; rfl
    | succ n ih =>
      intro x fb xb fails h
      obtain ⟨a, b⟩ := sw s.names.zipIdx hz x h
      unfold StatesRoto.loop Roto.loop
      have a' : s.meanRoto.sweep fuel x = s.sweep fuel x := a.symm
      rw [a']
      cases hu : s.sweep fuel x with
      | error e => rfl
      | ok x1 =>
        have h1 : x1.length = x0.length := b x1 hu
        show (_ >>= _) = (_ >>= _)
        simp only [bind, Except.bind, ih x1 _ _ _ h1]
        rfl
  exact lp _ _ _ _ _ rfl

/-- There is a minimization along one parameter that finds the lowest point. -/
theorem findsLowest_exists : ∃ m, FindsLowest m := by
  obtain ⟨m, hm⟩ := findsMinimum_exists
  refine ⟨fun evals R => m (evals.map List.sum) R, fun evals R h => ?_⟩
  obtain ⟨a, b⟩ := hm (evals.map List.sum) R (by simpa using h)
  refine ⟨a, fun t ht => ?_⟩
  rw [reconstructedSA_sum, reconstructedSA_sum]
  exact div_le_div_of_nonneg_right (b t ht) (Nat.cast_nonneg _)

theorem wrapAngle_near (k : ℕ) {x : ℝ} (hx : |x| ≤ Real.pi) : ∃ y, wrapAngle (k + 2) x = .ok y := by
  obtain ⟨a, b⟩ := abs_le.1 hx
  have hp := Real.pi_pos
  unfold wrapAngle
  by_cases h1 : x < Real.pi
  · have u : wrapUp (k + 2) x = .ok (x + 2 * Real.pi) := by
      unfold wrapUp
      rw [if_pos h1]
      unfold wrapUp
      rw [if_neg (by linarith)]
    rw [u]
    show ∃ y, wrapDown (k + 2) (x + 2 * Real.pi) = .ok y
    unfold wrapDown
    split
    · unfold wrapDown
      rw [if_neg (by linarith)]
      exact ⟨_, rfl⟩
    · exact ⟨_, rfl⟩
  · have u : wrapUp (k + 2) x = .ok x := by
      unfold wrapUp
      rw [if_neg h1]
    rw [u]
    show ∃ y, wrapDown (k + 2) x = .ok y
    unfold wrapDown
    rw [if_neg (by linarith)]
    exact ⟨_, rfl⟩

/-- C144: if each parameter has a name, each name a number of frequencies, and the minimization along one parameter stays in
the period, the optimization returns for all energies, without raising. -/
theorem C144_returns {s : StatesRoto} (hm : FindsLowest s.minimizer) {x0 : List ℝ} (hn : s.names.length = x0.length)
    (hR : ∀ name ∈ s.names, ∃ R, s.R.lookup name = some R) (k : ℕ) : ∃ res, s.minimize (k + 2) x0 = .ok res := by
  have up : ∀ (x : List ℝ) (i : ℕ) (name : String), i < x.length → name ∈ s.names →
      ∃ x', s.update (k + 2) x i name = .ok x' := by
    intro x i name hi hname
    obtain ⟨R, hR⟩ := hR name hname
    unfold StatesRoto.update getStateEvals
    rw [hR]
    simp only [if_pos hi]
    obtain ⟨y, hy⟩ := wrapAngle_near k (hm ((List.range (2 * R + 1)).map fun j => s.f (x.set i (xMu R j))) R (by simp)).1
    rw [hy]
    exact ⟨_, rfl⟩
  have sw : ∀ (l : List (String × ℕ)), (∀ ni ∈ l, ni.2 < x0.length ∧ ni.1 ∈ s.names) → ∀ x, x.length = x0.length →
      ∃ x', l.foldlM (fun x ni => s.update (k + 2) x ni.2 ni.1) x = .ok x' := by
    intro l
    induction l with
    | nil => intro _ x _; exact ⟨x, rfl⟩
    | cons ni l ih =>
      intro hl x hx
      obtain ⟨a, b⟩ := hl ni List.mem_cons_self
      obtain ⟨x1, h1⟩ := up x ni.2 ni.1 (hx ▸ a) b
      obtain ⟨x2, h2⟩ := ih (fun q hq => hl q (List.mem_cons_of_mem _ hq)) x1 ((StatesRoto.update_length h1).2.trans hx)
      exact ⟨x2, by rw [List.foldlM_cons, h1]; exact h2⟩
  have hz : ∀ ni ∈ s.names.zipIdx, ni.2 < x0.length ∧ ni.1 ∈ s.names := fun ni h => by
    obtain ⟨-, h2, h3⟩ := List.mem_zipIdx (x := ni.1) (i := ni.2) h
    exact ⟨by omega, h3 ▸ List.getElem_mem _⟩
  have lp : ∀ (n : ℕ) (x : List ℝ) (fb : ℝ) (xb : List ℝ) (fails : ℕ), x.length = x0.length →
      ∃ res, s.loop (k + 2) n x fb xb fails = .ok res := by
    intro n
    induction n with
    | zero => intro x fb xb fails _; exact ⟨_, rfl⟩
    | succ n ih =>
      intro x fb xb fails hx
      obtain ⟨x1, h1⟩ := sw s.names.zipIdx hz x hx
      have h1 : s.sweep (k + 2) x = .ok x1 := h1
      have hx1 := (StatesRoto.sweep_length h1).trans hx
      unfold StatesRoto.loop
      rw [h1]
      simp only [bind, Except.bind, pure, Except.pure]
      obtain ⟨r1, e1⟩ := ih x1 fb xb (fails + 1) hx1
      obtain ⟨r2, e2⟩ := ih x1 (npMean (s.f x1)) x1 fails hx1
      rw [e1, e2]
      split_ifs <;> exact ⟨_, rfl⟩
  exact lp _ _ _ _ _ rfl

/-- C144: with one name per parameter, the point returned is the start or one of the points at the end of a sweep, with its
mean energy; no mean energy seen is lower, up to the threshold at convergence. -/
theorem C144_best {s : StatesRoto} {fuel : ℕ} {x0 : List ℝ} {res : RotoResult} (hn : s.names.length = x0.length)
    (h : s.minimize fuel x0 = .ok res) :
    res.calls.length ≤ s.maxiter ∧
    ((res.x ∈ res.calls ∧ res.fn = npMean (s.f res.x)) ∨
      (res.x = x0 ∧ res.fn = 10 ^ 20 ∧ ∀ y ∈ res.calls, 10 ^ 20 ≤ npMean (s.f y))) ∧
    (∀ y ∈ res.calls, res.fn ≤ npMean (s.f y) ∨ (res.success = true ∧ res.fn < npMean (s.f y) + s.threshold)) := by
  rw [s.minimize_eq fuel hn.le] at h
  exact C42_best h

theorem states_mean {n : ℕ} {l : List ℝ} (hl : l.length = n) :
    l = List.ofFn (fun k : Fin n => l.getD k 0) ∧ npMean l = (∑ k : Fin n, l.getD k 0) / n := by
  have e : l = List.ofFn (fun k : Fin n => l.getD k 0) := by
    refine List.ext_getElem (by simp [hl]) fun k h1 h2 => ?_
    simp [List.getD_eq_getElem?_getD, List.getElem?_eq_getElem h1]
  refine ⟨e, ?_⟩
  unfold npMean
  rw [hl, ← List.sum_ofFn, ← e]

/-- After the update of a parameter no other value of that parameter gives a lower mean. -/
theorem states_update_lowest {s : StatesRoto} {n len fuel i : ℕ} {name : String} {x x' : List ℝ} (hm : FindsLowest s.minimizer)
    (ht : s.Trig n len) (hx : x.length = len) (hn : s.names[i]? = some name)
    (h : s.update fuel x i name = .ok x') : ∀ t, npMean (s.f x') ≤ npMean (s.f (x.set i t)) := by
  intro tt
  obtain ⟨hi, -⟩ := StatesRoto.update_length h
  unfold StatesRoto.update getStateEvals at h
  cases hR : s.R.lookup name with
  | none => rw [hR] at h; cases h
  | some R =>
    rw [hR] at h
    simp only [if_pos hi] at h
    set evals := (List.range (2 * R + 1)).map fun j => s.f (x.set i (xMu R j)) with he
    have tp := ht.trig i name hn R hR x hx
    have hlen : ∀ t, (s.f (x.set i t)).length = n := fun t => ht.states _ (by simpa using hx)
    have he' : evals = (List.range (2 * R + 1)).map fun j => List.ofFn fun k : Fin n => (s.f (x.set i (xMu R j))).getD k 0 := by
      rw [he]
      exact List.map_congr_left fun j _ => (states_mean (hlen (xMu R j))).1
    have hrec : ∀ t, |t| ≤ Real.pi → reconstructedSA evals R t = npMean (s.f (x.set i t)) * (n / (2 * R + 1 : ℕ)) := by
      intro t ht'
      rw [he', C44_states (E := fun k t => (s.f (x.set i t)).getD k 0) (fun k => tp k k.2) t ht', (states_mean (hlen t)).2]
      have : (n : ℝ) ≠ 0 := Nat.cast_ne_zero.2 ht.pos.ne'
      field_simp
    have per : ∀ t (k : ℤ), npMean (s.f (x.set i (t + 2 * Real.pi * k))) = npMean (s.f (x.set i t)) := by
      intro t k
      rw [(states_mean (hlen _)).2, (states_mean (hlen _)).2]
      congr 1
      exact Finset.sum_congr rfl fun q _ => (tp q q.2).periodic t k
    cases hw : wrapAngle fuel (s.minimizer evals R) with
    | error e => rw [hw] at h; cases h
    | ok y =>
      rw [hw] at h
      cases h
      obtain ⟨-, -, k, hk⟩ := C43_wrap_only hw
      obtain ⟨m1, m2⟩ := hm evals R (by simp [he])
      obtain ⟨-, y0, -, q1, q2, k0, q3⟩ := C43_wrap tt
      have hy0 : |y0| ≤ Real.pi := abs_le.2 ⟨q1.le, q2⟩
      have hc : (0 : ℝ) < n / (2 * R + 1 : ℕ) := div_pos (Nat.cast_pos.2 ht.pos) (Nat.cast_pos.2 (by omega))
      have := m2 y0 hy0
      rw [hrec _ m1, hrec _ hy0] at this
      have := le_of_mul_le_mul_right this hc
      rw [q3, per] at this
      rw [hk, per]
      exact this

theorem states_update_descent {s : StatesRoto} {n len fuel i : ℕ} {name : String} {x x' : List ℝ} (hm : FindsLowest s.minimizer)
    (ht : s.Trig n len) (hx : x.length = len) (hn : s.names[i]? = some name)
    (h : s.update fuel x i name = .ok x') : npMean (s.f x') ≤ npMean (s.f x) := by
  obtain ⟨hi, -⟩ := StatesRoto.update_length h
  have := states_update_lowest hm ht hx hn h x[i]
  rwa [List.set_getElem_self] at this

/-- C144: if the energies of the states are in each parameter trigonometric polynomials of the degree in `R`, and the
minimization along one parameter finds the lowest point of the reconstructed function, the mean energy never rises from one
sweep to the next, so the value returned is the smallest seen. -/
theorem C144_descent {s : StatesRoto} {n fuel : ℕ} {x0 : List ℝ} {res : RotoResult} (hn : s.names.length = x0.length)
    (hm : FindsLowest s.minimizer) (ht : s.Trig n x0.length) (h : s.minimize fuel x0 = .ok res) :
    List.Pairwise (fun y z => npMean (s.f z) ≤ npMean (s.f y)) (x0 :: res.calls) ∧
      (∀ y ∈ res.calls, res.fn ≤ npMean (s.f y)) := by
  rw [s.minimize_eq fuel hn.le] at h
  refine descent_of_sweep (s := s.meanRoto) (fun x x' hx hs => ?_) h
  have gen : ∀ (l : List (String × ℕ)), (∀ ni ∈ l, s.names[ni.2]? = some ni.1) → ∀ x, x.length = x0.length →
      l.foldlM (fun x ni => s.meanRoto.update fuel x ni.2 ni.1) x = .ok x' →
        x'.length = x0.length ∧ npMean (s.f x') ≤ npMean (s.f x) := by
    intro l
    induction l with
    | nil => intro _ x hx h; cases h; exact ⟨hx, le_refl _⟩
    | cons ni l ih =>
      intro hl x hx h
      have hni := hl ni List.mem_cons_self
      have hi : ni.2 < x.length := by
        have := (List.getElem?_eq_some_iff.1 hni).1
        omega
      rw [List.foldlM_cons, ← s.update_eq fuel ni.1 hi] at h
      cases hu : s.update fuel x ni.2 ni.1 with
      | error e => rw [hu] at h; cases h
      | ok x1 =>
        rw [hu] at h
        have a := (StatesRoto.update_length hu).2.trans hx
        have b := states_update_descent hm ht hx hni hu
        obtain ⟨c, d⟩ := ih (fun q hq => hl q (List.mem_cons_of_mem _ hq)) x1 a h
        exact ⟨c, le_trans d b⟩
  refine gen _ (fun ni hni => ?_) x hx hs
  obtain ⟨nm, i⟩ := ni
  have := List.mem_zipIdx hni
  simp only at this ⊢
  obtain ⟨-, h2, h3⟩ := this
  rw [h3]
  simp only [Nat.sub_zero]
  exact List.getElem?_eq_getElem _

end SQ
