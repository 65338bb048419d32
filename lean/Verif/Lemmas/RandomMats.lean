import Verif.Spec.QuantumStd
import Verif.Lemmas.QuantumResponse
import Mathlib.Probability.Moments.Variance
import Mathlib.Probability.Moments.Covariance

/-!
# Lemmas: two passes of a loop with the same operators, and variances of combinations of estimates
-/

namespace SQ

/-! ### Two passes of a loop with the same operators -/

theorem foldlM_pair {Ω α τ σ σ' : Type} {ops : α → Res τ} {up : Ω → σ → α → τ → σ} {up' : σ' → α → τ → σ'}
    (P : (Ω → σ) → σ' → Prop) (l : List α)
    (hP : ∀ x ∈ l, ∀ o M S, ops x = .ok o → P M S → P (fun ω => up ω (M ω) x o) (up' S x o))
    (hok : ∀ x ∈ l, ∃ o, ops x = .ok o) {M : Ω → σ} {S : σ'} (h : P M S) :
    ∃ M' S', (∀ ω, l.foldlM (fun s x => do let o ← ops x; pure (up ω s x o)) (M ω) = .ok (M' ω)) ∧
      l.foldlM (fun s x => do let o ← ops x; pure (up' s x o)) S = (.ok S' : Res σ') ∧ P M' S' := by
  induction l generalizing M S with
  | nil => exact ⟨M, S, fun _ => rfl, rfl, h⟩
  | cons x l ih =>
    obtain ⟨o, ho⟩ := hok x (by simp)
    obtain ⟨M', S', h1, h2, h3⟩ := ih (fun y hy => hP y (by simp [hy])) (fun y hy => hok y (by simp [hy]))
      (hP x (by simp) o M S ho h)
    refine ⟨M', S', fun ω => ?_, ?_, h3⟩
    · rw [List.foldlM_cons, ho]
      exact h1 ω
    · rw [List.foldlM_cons, ho]
      exact h2

/-- Two loops over the same positions, whose entries are computed from the same operators. -/
theorem lrLoop_pair {Ω α β τ ν ν' : Type} {js : List (α × ℕ)} {is : ℕ → List (β × ℕ)}
    {ops : α × ℕ → β × ℕ → Res τ} {f : Ω → τ → ν} {s : τ → ν'}
    {put : LRMats → ℕ → ℕ → ν → LRMats} {put' : LRMats → ℕ → ℕ → ν' → LRMats}
    {entry : Ω → α → α × ℕ → β × ℕ → Res ν} {entry' : α → α × ℕ → β × ℕ → Res ν'}
    (he : ∀ ω k x y, entry ω k x y = (do let o ← ops x y; pure (f ω o)))
    (he' : ∀ k x y, entry' k x y = (do let o ← ops x y; pure (s o)))
    (P : (Ω → LRMats) → LRMats → Prop)
    (hP : ∀ x ∈ js, ∀ y ∈ is x.2, ∀ o M S, ops x y = .ok o → P M S →
      P (fun ω => put (M ω) y.2 x.2 (f ω o)) (put' S y.2 x.2 (s o)))
    (hok : ∀ x ∈ js, ∀ y ∈ is x.2, ∃ o, ops x y = .ok o) {M : Ω → LRMats} {S : LRMats} (h : P M S) :
    ∃ M' S', (∀ ω, lrLoop js is (fun x => pure x) (entry ω) put (M ω) = .ok (M' ω)) ∧
      lrLoop js is (fun x => pure x) entry' put' S = .ok S' ∧ P M' S' := by
  induction js generalizing M S with
  | nil => exact ⟨M, S, fun _ => rfl, rfl, h⟩
  | cons x js ih =>
    obtain ⟨M1, S1, a1, a2, a3⟩ := foldlM_pair (ops := fun y => ops x y)
      (up := fun ω M y o => put M y.2 x.2 (f ω o)) (up' := fun S y o => put' S y.2 x.2 (s o)) P (is x.2)
      (fun y hy o M S ho hPM => hP x (by simp) y hy o M S ho hPM) (fun y hy => hok x (by simp) y hy) h
    obtain ⟨M', S', h1, h2, h3⟩ := ih (fun y hy => hP y (by simp [hy])) (fun y hy => hok y (by simp [hy])) a3
    refine ⟨M', S', fun ω => ?_, ?_, h3⟩
    · unfold lrLoop at h1 ⊢
      rw [List.foldlM_cons]
      have e : (is x.2).foldlM (fun M y => do let v ← entry ω x.1 x y; pure (put M y.2 x.2 v)) (M ω) = .ok (M1 ω) := by
        rw [← a1 ω]
        congr 1
        funext M y
        rw [he]
        cases ops x y <;> rfl
      show ((is x.2).foldlM _ (M ω) >>= _) = _
      rw [e]
      exact h1 ω
    · unfold lrLoop at h2 ⊢
      rw [List.foldlM_cons]
      have e : (is x.2).foldlM (fun S y => do let v ← entry' x.1 x y; pure (put' S y.2 x.2 v)) S = .ok S1 := by
        rw [← a2]
        congr 1
        funext M y
        rw [he']
        cases ops x y <;> rfl
      show ((is x.2).foldlM _ S >>= _) = _
      rw [e]
      exact h2

/-! ### Variances of combinations -/

open MeasureTheory ProbabilityTheory

variable {Ω : Type} [MeasurableSpace Ω] {μ : Measure Ω} [IsProbabilityMeasure μ]

section
variable {X Y Z : Ω → ℝ}

theorem var_comb (hX : MemLp X 2 μ) (hY : MemLp Y 2 μ) (hZ : MemLp Z 2 μ) (a b c : ℝ) :
    variance (fun ω => a * X ω + b * Y ω + c * Z ω) μ = a ^ 2 * variance X μ + b ^ 2 * variance Y μ + c ^ 2 * variance Z μ +
      2 * (a * b * covariance X Y μ + a * c * covariance X Z μ + b * c * covariance Y Z μ) := by
  have e : (fun ω => a * X ω + b * Y ω + c * Z ω) = a • X + b • Y + c • Z := rfl
  have mX := hX.const_smul a
  have mY := hY.const_smul b
  have mZ := hZ.const_smul c
  rw [e, variance_add (mX.add mY) mZ, variance_add mX mY, variance_smul, variance_smul, variance_smul,
    covariance_add_left mX mY mZ]
  simp only [covariance_smul_left, covariance_smul_right]
  ring

end

/-- An entry `X` of a matrix with the deviation `s`: at most twice the square for any correlations, at most the square
without (`unc`). -/
structure EntryOK (μ : Measure Ω) (unc : Prop) (X : Ω → ℝ) (s : ℝ) : Prop where
  nonneg : 0 ≤ s
  two : variance X μ ≤ 2 * s ^ 2
  one : unc → variance X μ ≤ s ^ 2

/-- An entry `X` of a matrix whose deviation is exactly `s`. -/
structure EntryEq (μ : Measure Ω) (X : Ω → ℝ) (s : ℝ) : Prop where
  nonneg : 0 ≤ s
  eq : variance X μ = s ^ 2

omit [IsProbabilityMeasure μ] in
theorem EntryEq.ok {X : Ω → ℝ} {s : ℝ} (h : EntryEq μ X s) (unc : Prop) : EntryOK μ unc X s :=
  ⟨h.nonneg, by rw [h.eq]; nlinarith [sq_nonneg s], fun _ => h.eq.le⟩

omit [IsProbabilityMeasure μ] in
theorem entryEq_zero : EntryEq μ (fun _ => (0 : ℝ)) 0 :=
  ⟨le_rfl, by rw [show (fun _ : Ω => (0 : ℝ)) = 0 from rfl, variance_zero]; norm_num⟩

section
variable {est : Dict ℝ → Ω → ℝ}

omit [IsProbabilityMeasure μ] in
theorem entry_single (A : Dict ℝ) : EntryEq μ (fun ω => est A ω) (√(variance (est A) μ)) :=
  ⟨Real.sqrt_nonneg _, (Real.sq_sqrt (variance_nonneg _ _)).symm⟩

omit [IsProbabilityMeasure μ] in
theorem entry_neg (A : Dict ℝ) : EntryEq μ (fun ω => -est A ω) (√(variance (est A) μ)) :=
  ⟨Real.sqrt_nonneg _, by
    rw [Real.sq_sqrt (variance_nonneg _ _), show (fun ω => -est A ω) = (-1 : ℝ) • est A from by
      funext ω; simp, variance_smul]
    ring⟩

theorem entry_sub (hl : ∀ A, MemLp (est A) 2 μ) (A B : Dict ℝ) :
    EntryOK μ (Uncorr μ est) (fun ω => est A ω - est B ω) (√(variance (est A) μ + variance (est B) μ)) := by
  have vA := variance_nonneg (est A) μ
  have vB := variance_nonneg (est B) μ
  have e : variance (fun ω => est A ω - est B ω) μ = variance (est A) μ + variance (est B) μ -
      2 * covariance (est A) (est B) μ := by
    have := var_comb (hl A) (hl B) (hl B) 1 (-1) 0
    rw [show (fun ω => est A ω - est B ω) = fun ω => 1 * est A ω + -1 * est B ω + 0 * est B ω from by
      funext ω; ring, this]
    ring
  have p : 0 ≤ variance (est A) μ + variance (est B) μ + 2 * covariance (est A) (est B) μ := by
    have h0 := variance_nonneg (fun ω => 1 * est A ω + 1 * est B ω + 0 * est B ω) μ
    rw [var_comb (hl A) (hl B) (hl B)] at h0
    linarith
  refine ⟨Real.sqrt_nonneg _, ?_, fun hu => ?_⟩
  · rw [Real.sq_sqrt (add_nonneg vA vB), e]
    linarith
  · rw [Real.sq_sqrt (add_nonneg vA vB), e]
    by_cases h : A = B
    · subst h
      rw [covariance_self (hl A).aemeasurable]
      linarith
    · rw [hu A B h]
      linarith

theorem entry_mixed (hl : ∀ A, MemLp (est A) 2 μ) (A B C : Dict ℝ) :
    EntryOK μ (Uncorr μ est) (fun ω => est A ω - 1 / 2 * est B ω - 1 / 2 * est C ω)
      (√(variance (est A) μ + 1 / 2 * variance (est B) μ + 1 / 2 * variance (est C) μ)) := by
  have vA := variance_nonneg (est A) μ
  have vB := variance_nonneg (est B) μ
  have vC := variance_nonneg (est C) μ
  have e : variance (fun ω => est A ω - 1 / 2 * est B ω - 1 / 2 * est C ω) μ = variance (est A) μ +
      1 / 4 * variance (est B) μ + 1 / 4 * variance (est C) μ - covariance (est A) (est B) μ -
      covariance (est A) (est C) μ + 1 / 2 * covariance (est B) (est C) μ := by
    have := var_comb (hl A) (hl B) (hl C) 1 (-(1 / 2)) (-(1 / 2))
    rw [show (fun ω => est A ω - 1 / 2 * est B ω - 1 / 2 * est C ω) =
      fun ω => 1 * est A ω + -(1 / 2) * est B ω + -(1 / 2) * est C ω from by funext ω; ring, this]
    ring
  have p : 0 ≤ variance (est A) μ + 1 / 4 * variance (est B) μ + 1 / 4 * variance (est C) μ +
      covariance (est A) (est B) μ + covariance (est A) (est C) μ + 1 / 2 * covariance (est B) (est C) μ := by
    have h0 := variance_nonneg (fun ω => 1 * est A ω + 1 / 2 * est B ω + 1 / 2 * est C ω) μ
    rw [var_comb (hl A) (hl B) (hl C)] at h0
    linarith
  have q : 0 ≤ variance (est B) μ + variance (est C) μ - 2 * covariance (est B) (est C) μ := by
    have h0 := variance_nonneg (fun ω => 0 * est A ω + 1 * est B ω + -1 * est C ω) μ
    rw [var_comb (hl A) (hl B) (hl C)] at h0
    linarith
  have cBC : ∀ {X Y : Dict ℝ}, Uncorr μ est → 0 ≤ covariance (est X) (est Y) μ := by
    intro X Y hu
    by_cases h : X = Y
    · subst h
      rw [covariance_self (hl X).aemeasurable]
      exact variance_nonneg _ _
    · rw [hu X Y h]
  have s0 : 0 ≤ variance (est A) μ + 1 / 2 * variance (est B) μ + 1 / 2 * variance (est C) μ := by positivity
  refine ⟨Real.sqrt_nonneg _, ?_, fun hu => ?_⟩
  · rw [Real.sq_sqrt s0, e]
    linarith
  · rw [Real.sq_sqrt s0, e]
    linarith [cBC (X := A) (Y := B) hu, cBC (X := A) (Y := C) hu]

end

/-! ### Writing entries -/

omit [MeasurableSpace Ω] in
/-- A property of the entries of two matrices survives writing two numbers that have it. -/
theorem setSym_pair {R : ℕ → ℕ → (Ω → ℝ) → ℝ → Prop} {X : Ω → Mat ℝ} {Y : Mat ℝ} {i j : ℕ} {v : Ω → ℝ} {s : ℝ}
    (h : ∀ r c, R r c (fun ω => X ω r c) (Y r c)) (h1 : R i j v s) (h2 : R j i v s) (r c : ℕ) :
    R r c (fun ω => setSym (X ω) i j (v ω) r c) (setSym Y i j s r c) := by
  unfold setSym set2
  by_cases a : r = j ∧ c = i
  · obtain ⟨rfl, rfl⟩ := a
    simpa using h2
  · by_cases b : r = i ∧ c = j
    · obtain ⟨rfl, rfl⟩ := b
      simp only [a, if_false, and_self, if_true]
      simpa using h1
    · simpa only [a, b, if_false] using h r c

end SQ
