import Verif.Lemmas.Contributions
import Verif.Props.QuantumStd
import Verif.Props.ProjStd

/-!
# C141: the analysis at the end of `run_std`; C142: the table of contributions
-/

namespace SQ

variable {argsort : List ℝ → List ℕ} {q g : ℕ} {run : Res LRMats} {o : LRObj q g} {S M : LRMats}
  {m : RMat ((q + g) + (q + g))}

/-- Sorting the positions by their values is what is asked of `np.argsort`. -/
theorem sortsPositions_mergeSort :
    SortsPositions fun l => (List.range l.length).mergeSort fun a b => decide (l.getD a 0 ≤ l.getD b 0) := by
  intro l
  refine ⟨List.mergeSort_perm _ _, ?_⟩
  refine (List.pairwise_mergeSort (le := fun a b => decide (l.getD a 0 ≤ l.getD b 0)) ?_ ?_ _).imp ?_
  · intro a b c h1 h2
    simp only [decide_eq_true_eq] at *
    exact h1.trans h2
  · intro a b
    simpa using le_total _ _
  · intro a b h x y hx hy
    simpa [List.getD_eq_getElem?_getD, hx, hy] using h

/-- **C141.** Once the excitation energies have been calculated, with at least two response parameters and a metric
that can be inverted, `run_std` returns the deviations it computed.  It keeps the means of their rows exactly if it
prints and saves, and the rows of coefficients of variation exactly if these are asked for too and every matrix has
enough entries that are not small. -/
theorem C141_returns_partial (ha : SortsPositions argsort) (hm : o.metric = some m) (hd : m.det ≠ 0) (hn : 2 ≤ q + g)
    {noCoeffs verbose cv save : Bool} (hM : noCoeffs = false → cv = true → MatricesUsed (q + g) run o.M M) :
    let withCV := noCoeffs = false ∧ cv = true
    ∃ o', stdAnalysed argsort run (.ok S) o noCoeffs verbose cv save = .ok (S, o') ∧
      o'.metric = o.metric ∧ o'.vectors = o.vectors ∧ (withCV → o'.M = M) ∧ (¬withCV → o'.M = o.M) ∧
      (verbose = true ∧ save = true → ∃ R, o'.stdRows = some R ∧ IsMeanRows (q + g) S R) ∧
      (¬(verbose = true ∧ save = true) → o'.stdRows = o.stdRows) ∧
      (withCV ∧ verbose = true ∧ save = true ∧ EnoughIn (q + g) M →
        ∃ R, o'.cvRows = some R ∧ IsCVRows (q + g) S M R) ∧
      (¬(withCV ∧ verbose = true ∧ save = true ∧ EnoughIn (q + g) M) → o'.cvRows = o.cvRows) := by
  classical
  intro withCV
  have hcv : ((if noCoeffs then false else cv) = true) ↔ withCV := by
    cases noCoeffs <;> simp [withCV]
  obtain ⟨o', ta, tb, ts, ct, h, -, -, -, h1, h2, h3, h4, h5⟩ := analyzeStd_ok ha (S := S) (M := M) (run := run)
    (verbose := verbose) (cv := if noCoeffs then false else cv) (save := save) hm hd hn
    (fun c => hM (hcv.1 c).1 (hcv.1 c).2)
  refine ⟨o', by unfold stdAnalysed; rw [ok_bind, h]; rfl, h1, h2, ?_, ?_, ?_, ?_, ?_, ?_⟩
  · intro c; rw [h3, if_pos (hcv.2 c)]
  · intro c; rw [h3, if_neg fun c' => c (hcv.1 c')]
  · intro c; rw [if_pos (by simpa using c)] at h4; exact h4
  · intro c; rw [if_neg (by simpa using c)] at h4; exact h4
  · rintro ⟨c1, c2, c3, c4⟩
    rw [if_pos ⟨hcv.2 c1, by simp [c2, c3], c4⟩] at h5
    exact h5
  · intro c
    rw [if_neg fun c' => c ⟨hcv.1 c'.1, (Bool.and_eq_true_iff.1 c'.2.1).1, (Bool.and_eq_true_iff.1 c'.2.1).2, c'.2.2⟩] at h5
    exact h5

/-- **C141.** The positions printed for the deviations of each matrix are those of four largest ones, with the right
names of the blocks. -/
theorem C141_largest_partial (ha : SortsPositions argsort) (hm : o.metric = some m) (hd : m.det ≠ 0) (hn : 2 ≤ q + g)
    {verbose cv save : Bool} (hM : cv = true → MatricesUsed (q + g) run o.M M) :
    ∃ o' ta tb ts cvTops, analyzeStd argsort run o S verbose cv save = .ok (o', [ta, tb, ts], cvTops) ∧
      IsLargest q (q + g) 4 S.A ta ∧ IsLargest q (q + g) 4 S.B tb ∧ IsLargest q (q + g) 4 S.Sigma ts := by
  obtain ⟨o', ta, tb, ts, ct, h, h1, h2, h3, -⟩ := analyzeStd_ok ha (S := S) (M := M) (verbose := verbose)
    (save := save) hm hd hn hM
  exact ⟨o', ta, tb, ts, ct, h, h1, h2, h3⟩

/-- The hypotheses can be met: two orbital rotations, a metric that is one, and a saving call with the
deviations one everywhere and the matrices of the object two everywhere. -/
example : ∃ (o : LRObj 2 0) (m : RMat ((2 + 0) + (2 + 0))), o.metric = some m ∧ m.det ≠ 0 ∧
    MatricesUsed (2 + 0) (.error .runtimeError) o.M ⟨fun _ _ => 2, fun _ _ => 2, fun _ _ => 2, fun _ _ => 0⟩ ∧
    EnoughIn (2 + 0) o.M := by
  refine ⟨⟨⟨fun _ _ => 2, fun _ _ => 2, fun _ _ => 2, fun _ _ => 0⟩, some 1, none, none, none⟩, 1, rfl, ?_, ?_, ?_⟩
  · rw [Matrix.det_one]; exact one_ne_zero
  · exact Or.inr ⟨⟨0, by norm_num, 0, by norm_num, two_ne_zero⟩, rfl⟩
  · have : EnoughEntries (2 + 0) fun _ _ => (2 : ℝ) := by
      unfold EnoughEntries notSmall
      have h : (1 : ℝ) / 10 ^ 6 ≤ |2| := by rw [abs_of_pos two_pos]; norm_num
      simp only [h, Finset.filter_true, Finset.card_univ, Fintype.card_fin, Finset.sum_const, smul_eq_mul]
      norm_num
    exact ⟨this, this, this⟩

/-- **C141.** What stops the analysis, and with it `run_std` after all measurements: the energies have not been
calculated (`AttributeError`), there are no parameters, or the metric is singular (`LinAlgError`). -/
theorem C141_stops {noCoeffs verbose cv save : Bool} :
    (o.metric = none → stdAnalysed argsort run (.ok S) o noCoeffs verbose cv save = .error .attributeError) ∧
    (o.metric = some m → q + g = 0 → stdAnalysed argsort run (.ok S) o noCoeffs verbose cv save = .error .valueError) ∧
    (o.metric = some m → m.det = 0 → stdAnalysed argsort run (.ok S) o noCoeffs verbose cv save = .error .valueError) ∧
    ∀ e, stdAnalysed argsort run (.error e) o noCoeffs verbose cv save = .error e := by
  refine ⟨fun h => ?_, fun h h0 => ?_, fun h h0 => ?_, fun e => rfl⟩
  · unfold stdAnalysed analyzeStd
    rw [ok_bind, h]
    rfl
  · have : getAttr o.metric = .ok m := by rw [h]; rfl
    unfold stdAnalysed analyzeStd
    rw [ok_bind, this, ok_bind, if_pos h0]
    rfl
  · have : getAttr o.metric = .ok m := by rw [h]; rfl
    unfold stdAnalysed analyzeStd
    rw [ok_bind, this, ok_bind]
    by_cases c : q + g = 0
    · rw [if_pos c]; rfl
    · rw [if_neg c, if_pos h0]; rfl

/-- **C141 fails.** With exactly one response parameter `run_std` raises `IndexError` whatever its arguments are: it
prints the four largest entries of a matrix that has one. -/
theorem C141_one_parameter_disagree (ha : SortsPositions argsort) (hm : o.metric = some m) (hd : m.det ≠ 0)
    (hn : q + g = 1) {noCoeffs verbose cv save : Bool} :
    stdAnalysed argsort run (.ok S) o noCoeffs verbose cv save = .error .indexError := by
  have eg : getAttr o.metric = .ok m := by rw [hm]; rfl
  have es : largestAt argsort q (q + g) 4 S.A = .error .indexError := largestAt_short ha S.A (by rw [hn]; norm_num)
  unfold stdAnalysed analyzeStd
  rw [ok_bind, eg, ok_bind, if_neg (by omega), if_neg hd, List.mapM_cons, es]
  rfl

/-- There is such an object. -/
example : ∃ (o : LRObj 1 0) (m : RMat ((1 + 0) + (1 + 0))), o.metric = some m ∧ m.det ≠ 0 :=
  ⟨⟨LRMats.zero, some 1, none, none, none⟩, 1, rfl, by rw [Matrix.det_one]; exact one_ne_zero⟩

open MeasureTheory ProbabilityTheory in
/-- **C141 for naive linear response.** With the deviations of C136: after the energies, with at least two parameters
and a metric that can be inverted, `run_std` returns them. -/
theorem C141_naive_partial {tiny big : ℝ → Bool} {W : RespWf} {Ω : Type} [MeasurableSpace Ω] {μ : Measure Ω}
    [IsProbabilityMeasure μ] {est : Dict ℝ → Ω → ℝ} (ht : ExactTiny tiny) (hb : ExactBig big) (hW : W.Proper)
    (hv : FiniteVariance μ est) (excitations : String) (ha : SortsPositions argsort) :
    ∃ L S, qlrInit tiny big W excitations = .ok L ∧ qnStd tiny big (varianceOf μ est) W L = .ok S ∧
      ∀ (o : LRObj L.Q.length L.G.length) m, o.metric = some m → m.det ≠ 0 → 2 ≤ L.Q.length + L.G.length →
        ∀ noCoeffs verbose save, ∃ o',
          stdAnalysed argsort run (qnStd tiny big (varianceOf μ est) W L) o noCoeffs verbose false save =
            .ok (S, o') := by
  obtain ⟨L, S, hL, hS, -⟩ := C136_deviation ht hb hW hv excitations
  refine ⟨L, S, hL, hS, fun o m hm hd hn noCoeffs verbose save => ?_⟩
  rw [hS]
  obtain ⟨o', h, -⟩ := C141_returns_partial (S := S) (M := S) (run := run) (noCoeffs := noCoeffs) (verbose := verbose)
    (cv := false) (save := save) ha hm hd hn (by simp)
  exact ⟨o', h⟩

/-- The trends for given rows. -/
theorem trends_mean {n : ℕ} {S : LRMats} {R : RowAvgs n} {vs : List (Fin (n + n) → ℝ)} (hR : IsMeanRows n S R)
    (hl : vs.length = n) (hn : 0 < n) : trends (some vs) (some R) =
    .ok (vs.map fun v => some (∑ i, opWeight v i * ((∑ j : Fin n, S.A i j) / n)),
      vs.map fun v => some (∑ i, opWeight v i * ((∑ j : Fin n, S.B i j) / n)),
      vs.map fun v => some (∑ i, opWeight v i * ((∑ j : Fin n, S.Sigma i j) / n))) := by
  have key : ∀ (row : Fin n → Option ℝ) (X : Mat ℝ), (∀ i, row i = some ((∑ j : Fin n, X i j) / n)) →
      ∀ v, trendOf row v = some (∑ i, opWeight v i * ((∑ j : Fin n, X i j) / n)) := by
    intro row X h v
    unfold trendOf opWeight
    rw [if_pos fun i => by rw [h i]; rfl]
    congr 1
    refine Finset.sum_congr rfl fun i _ => ?_
    rw [h i, sq_abs, sq_abs]
    rfl
  unfold trends
  dsimp only
  rw [if_neg (by rintro rfl; simp at hl; omega), if_neg (by omega), hl, Nat.sub_self]
  simp only [List.replicate_zero, List.append_nil, List.map_congr_left fun v _ => key R.A S.A hR.A v,
    List.map_congr_left fun v _ => key R.B S.B hR.B v, List.map_congr_left fun v _ => key R.Sigma S.Sigma hR.Sigma v]

/-- **C141.** The trend of the deviations gives for every excited state the mean deviations of the operators, weighted
with the squares of the components of its response vector. -/
theorem C141_trend_partial (ha : SortsPositions argsort) (hm : o.metric = some m) (hd : m.det ≠ 0) (hn : 2 ≤ q + g)
    {vs : List (Fin ((q + g) + (q + g)) → ℝ)} (hv : o.vectors = some vs) (hl : vs.length = q + g) {reCalc : Bool}
    (hr : o.stdRows = none ∨ reCalc = true ∨ ∃ R, o.stdRows = some R ∧ IsMeanRows (q + g) S R) :
    stdTrend argsort run (.ok S) o reCalc =
      .ok (vs.map fun v => some (∑ i, opWeight v i * ((∑ j : Fin (q + g), S.A i j) / (q + g : ℕ))),
        vs.map fun v => some (∑ i, opWeight v i * ((∑ j : Fin (q + g), S.B i j) / (q + g : ℕ))),
        vs.map fun v => some (∑ i, opWeight v i * ((∑ j : Fin (q + g), S.Sigma i j) / (q + g : ℕ)))) := by
  obtain ⟨o', h, -, h2, -, -, h3, -⟩ := C141_returns_partial (S := S) (M := LRMats.zero) (run := run) ha hm hd hn
    (noCoeffs := false) (verbose := true) (cv := false) (save := true) (by simp)
  obtain ⟨R, hR, hR'⟩ := h3 ⟨rfl, rfl⟩
  unfold stdTrend
  by_cases c : (o.stdRows.isNone || reCalc) = true
  · rw [if_pos c, h, ok_bind, ok_bind]
    dsimp only
    rw [hR, h2, hv]
    exact trends_mean hR' hl (by omega)
  · rw [if_neg c, ok_bind]
    obtain ⟨R, h1, h1'⟩ : ∃ R, o.stdRows = some R ∧ IsMeanRows (q + g) S R := by
      rcases hr with hr | hr | hr
      · exact absurd (by rw [hr]; rfl) c
      · exact absurd (by rw [hr, Bool.or_true]) c
      · exact hr
    dsimp only
    rw [h1, hv]
    exact trends_mean h1' hl (by omega)

/-- **C141.** For a response vector of length one (which is what `scipy.linalg.eig` gives when it is real) the weighted
mean lies between the smallest and the largest deviation. -/
theorem C141_trend_between {n : ℕ} {X : Mat ℝ} {lo hi : ℝ} (h : ∀ i < n, ∀ j < n, lo ≤ X i j ∧ X i j ≤ hi)
    (v : Fin (n + n) → ℝ) (hv : ∑ k, v k ^ 2 = 1) :
    lo ≤ ∑ i, opWeight v i * ((∑ j : Fin n, X i j) / n) ∧ ∑ i, opWeight v i * ((∑ j : Fin n, X i j) / n) ≤ hi := by
  have hw : ∑ i, opWeight v i = 1 := by
    unfold opWeight
    rw [Finset.sum_add_distrib, ← Fin.sum_univ_add fun k => v k ^ 2]
    exact hv
  have h0 : ∀ i, 0 ≤ opWeight v i := fun i => add_nonneg (sq_nonneg _) (sq_nonneg _)
  have hrow : ∀ i : Fin n, lo ≤ (∑ j : Fin n, X i j) / n ∧ (∑ j : Fin n, X i j) / n ≤ hi := by
    intro i
    have hp : (0 : ℝ) < n := Nat.cast_pos.2 (Nat.lt_of_le_of_lt (Nat.zero_le _) i.2)
    rw [le_div_iff₀ hp, div_le_iff₀ hp]
    constructor
    · calc lo * n = ∑ _j : Fin n, lo := by simp [mul_comm]
        _ ≤ _ := Finset.sum_le_sum fun j _ => (h i i.2 j j.2).1
    · calc ∑ j : Fin n, X i j ≤ ∑ _j : Fin n, hi := Finset.sum_le_sum fun j _ => (h i i.2 j j.2).2
        _ = hi * n := by simp [mul_comm]
  constructor
  · calc lo = ∑ i, opWeight v i * lo := by rw [← Finset.sum_mul, hw, one_mul]
      _ ≤ _ := Finset.sum_le_sum fun i _ => mul_le_mul_of_nonneg_left (hrow i).1 (h0 i)
  · calc _ ≤ ∑ i, opWeight v i * hi := Finset.sum_le_sum fun i _ => mul_le_mul_of_nonneg_left (hrow i).2 (h0 i)
      _ = hi := by rw [← Finset.sum_mul, hw, one_mul]

/-- **C141 fails.** If some matrix has fewer entries that are not small than it has rows, the trend of the coefficients
of variation raises `AttributeError`: the analysis returns before it keeps the rows. -/
theorem C141_cv_missing_disagree (ha : SortsPositions argsort) (hm : o.metric = some m) (hd : m.det ≠ 0)
    (hn : 2 ≤ q + g) {vs : List (Fin ((q + g) + (q + g)) → ℝ)} (hv : o.vectors = some vs) (hl : vs.length = q + g)
    (hM : MatricesUsed (q + g) run o.M M) (hc : o.cvRows = none) (he : ¬EnoughIn (q + g) M) (reCalc : Bool) :
    cvTrend argsort run (.ok S) o reCalc = .error .attributeError := by
  obtain ⟨o', h, -, h2, -, -, -, -, -, h3⟩ := C141_returns_partial (S := S) ha hm hd hn (noCoeffs := false)
    (verbose := true) (cv := true) (save := true) (fun _ _ => hM)
  have h3 := h3 fun c => he c.2.2.2
  unfold cvTrend
  rw [if_pos (by rw [hc]; rfl), h, ok_bind, ok_bind]
  dsimp only
  rw [h2, hv, h3, hc]
  unfold trends
  dsimp only
  rw [if_neg (by rintro rfl; simp at hl; omega)]

/-- **C141 fails.** If all entries of `B` in some row are small (in all-projected linear response those of every
orbital rotation vanish), the trend of the coefficients of variation of `B` is nan for every state, or the trend
raises. -/
theorem C141_cv_nan_disagree (ha : SortsPositions argsort) (hm : o.metric = some m) (hd : m.det ≠ 0) (hn : 2 ≤ q + g)
    {vs : List (Fin ((q + g) + (q + g)) → ℝ)} (hv : o.vectors = some vs) (hl : vs.length = q + g)
    (hM : MatricesUsed (q + g) run o.M M) (hc : o.cvRows = none) {i : Fin (q + g)} (hB : notSmall (q + g) M.B i = ∅)
    (reCalc : Bool) : cvTrend argsort run (.ok S) o reCalc = .error .attributeError ∨
      ∃ TA TS, cvTrend argsort run (.ok S) o reCalc = .ok (TA, List.replicate (q + g) none, TS) := by
  by_cases he : EnoughIn (q + g) M
  · right
    obtain ⟨o', h, -, h2, -, -, -, -, h3, -⟩ := C141_returns_partial (S := S) ha hm hd hn (noCoeffs := false)
      (verbose := true) (cv := true) (save := true) (fun _ _ => hM)
    obtain ⟨R, hR, hR'⟩ := h3 ⟨⟨rfl, rfl⟩, rfl, rfl, he⟩
    have hb : ∀ v, trendOf R.B v = none := by
      intro v
      unfold trendOf
      rw [if_neg fun hs => by have := hs i; rw [(hR'.B i).2 hB] at this; cases this]
    unfold cvTrend
    rw [if_pos (by rw [hc]; rfl), h, ok_bind, ok_bind]
    dsimp only
    rw [h2, hv, hR]
    unfold trends
    dsimp only
    rw [if_neg (by rintro rfl; simp at hl; omega), if_neg (by omega)]
    rw [show vs.map (trendOf R.B) ++ List.replicate (q + g - vs.length) (some 0) = List.replicate (q + g) none by
      rw [hl, Nat.sub_self, List.replicate_zero, List.append_nil, List.map_congr_left fun v _ => hb v,
        List.map_const', hl]]
    exact ⟨_, _, rfl⟩
  · exact Or.inl (C141_cv_missing_disagree ha hm hd hn hv hl hM hc he reCalc)

open MeasureTheory ProbabilityTheory in
/-- **C141 fails for all-projected linear response.** With orbital rotations, and with the matrices that `run` leaves,
the trend of the coefficients of variation never gives a number for `B`. -/
theorem C141_all_projected_disagree {tiny big : ℝ → Bool} {W : RespWf} {Ω : Type} [MeasurableSpace Ω] {μ : Measure Ω}
    [IsProbabilityMeasure μ] {est : Dict ℝ → Ω → ℝ} (ht : ExactTiny tiny) (hb : ExactBig big) (hW : W.Proper)
    (hv : FiniteVariance μ est) (excitations : String) (ha : SortsPositions argsort) (hk : W.kappa ≠ []) (ω : Ω) :
    ∃ L S E M E', qlrInit tiny big W excitations = .ok L ∧
      qaStd tiny big (meanOf μ est) (varianceOf μ est) (W.atMean L μ est) [] L = .ok (S, E) ∧
      qaRun tiny big (measuredAt est ω) (W.atOutcome L est ω) true L = .ok (M, E') ∧
      ∀ (o : LRObj L.Q.length L.G.length) m vs, o.metric = some m → m.det ≠ 0 → 2 ≤ L.Q.length + L.G.length →
        o.vectors = some vs → vs.length = L.Q.length + L.G.length → o.cvRows = none →
        MatricesUsed (L.Q.length + L.G.length) (.ok M) o.M M → ∀ reCalc,
          cvTrend argsort (.ok M) (.ok S) o reCalc = .error .attributeError ∨
          ∃ TA TS, cvTrend argsort (.ok M) (.ok S) o reCalc =
            .ok (TA, List.replicate (L.Q.length + L.G.length) none, TS) := by
  obtain ⟨L, S, E, hL, hS, M, hM, h⟩ := C139_all_projected_partial ht hb hW hv excitations
  obtain ⟨L', H2, hL', -, hn, -⟩ := qlrInit_gens ht hb hW excitations
  obtain rfl : L = L' := Except.ok.inj (hL.symm.trans hL')
  obtain ⟨E', hM⟩ := hM ω true
  have hpos : 0 < W.kappa.length := List.length_pos_iff.2 hk
  refine ⟨L, S, E, M ω, E', hL, hS, hM, fun o m vs hm hd h2 hvs hl hc hU reCalc => ?_⟩
  refine C141_cv_nan_disagree ha hm hd h2 hvs hl hU hc (i := ⟨0, by omega⟩) ?_ reCalc
  unfold notSmall
  refine Finset.filter_eq_empty_iff.2 fun j _ => ?_
  rw [((h 0 j).2.1 (Or.inl hpos)).2.1 ω, abs_zero]
  norm_num

/-- There are such objects: one orbital rotation, one active operator, and no entry of `B` for the rotation. -/
example : ∃ (o : LRObj 1 1) (m : RMat ((1 + 1) + (1 + 1))) (vs : _) (i : Fin (1 + 1)), o.metric = some m ∧ m.det ≠ 0 ∧
    o.vectors = some vs ∧ vs.length = 1 + 1 ∧ o.cvRows = none ∧ MatricesUsed (1 + 1) (.error .runtimeError) o.M o.M ∧
    notSmall (1 + 1) o.M.B i = ∅ := by
  refine ⟨⟨⟨fun _ _ => 1, fun i j => if i = 1 ∧ j = 1 then 1 else 0, fun _ _ => 1, fun _ _ => 0⟩, some 1,
    some [fun _ => 1, fun _ => 0], none, none⟩, 1, _, 0, rfl, ?_, rfl, rfl, rfl, ?_, ?_⟩
  · rw [Matrix.det_one]; exact one_ne_zero
  · exact Or.inr ⟨⟨0, by norm_num, 0, by norm_num, one_ne_zero⟩, rfl⟩
  · unfold notSmall
    ext j
    simp
    rw [if_neg (by norm_num)]
    exact Finset.notMem_empty j

/-- **C142.** Without a limit, the table of a state lists exactly the operators whose squared component reaches the
cutoff, each once, with its value, its position and its name, and the values do not increase. -/
theorem C142_all (ha : SortsPositions argsort) (cutoff : ℝ) (v : Fin ((q + g) + (q + g)) → ℝ) :
    ∃ rows, contributionTable argsort none cutoff v = .ok rows ∧
      (∀ x k s, (x, k, s) ∈ rows ↔ ∃ h : k < (q + g) + (q + g), x = v ⟨k, h⟩ ^ 2 ∧ cutoff ≤ x ∧
        (operatorNames q g)[k]? = some s) ∧
      (rows.map fun r => r.2.1).Nodup ∧ rows.Pairwise fun a b => b.1 ≤ a.1 := by
  have h := contributionTable_eq ha none cutoff v
  rw [if_neg (by simp; omega)] at h
  have ht : (orderOf argsort v).take ((none : Option ℕ).getD ((q + g) * 2)) = orderOf argsort v := by
    rw [List.take_of_length_le]
    rw [length_orderOf ha]
    simp
    omega
  rw [ht] at h
  refine ⟨_, h, fun x k s => ?_, rows_nodup (nodup_orderOf ha v), rows_desc (orderOf_desc ha v)⟩
  rw [mem_rows fun k hk => (mem_orderOf ha).1 hk]
  exact ⟨fun h => h.2, fun h => ⟨(mem_orderOf ha).2 h.1, h⟩⟩

/-- **C142.** With a limit `num` not above the number of components, at most `num` rows are listed, each as in
`C142_all`; an operator that reaches the cutoff is left out only if `num` rows are listed and none of them has a
smaller value.  With a larger limit the call raises `IndexError`. -/
theorem C142_limit (ha : SortsPositions argsort) (cutoff : ℝ) (v : Fin ((q + g) + (q + g)) → ℝ) (num : ℕ) :
    (num ≤ (q + g) + (q + g) → ∃ rows, contributionTable argsort (some num) cutoff v = .ok rows ∧ rows.length ≤ num ∧
      (∀ x k s, (x, k, s) ∈ rows → ∃ h : k < (q + g) + (q + g), x = v ⟨k, h⟩ ^ 2 ∧ cutoff ≤ x ∧
        (operatorNames q g)[k]? = some s) ∧
      (rows.map fun r => r.2.1).Nodup ∧ (rows.Pairwise fun a b => b.1 ≤ a.1) ∧
      ∀ k : Fin ((q + g) + (q + g)), cutoff ≤ v k ^ 2 → (k : ℕ) ∉ rows.map (fun r => r.2.1) →
        rows.length = num ∧ ∀ r ∈ rows, v k ^ 2 ≤ r.1) ∧
    ((q + g) + (q + g) < num → contributionTable argsort (some num) cutoff v = .error .indexError) := by
  have h := contributionTable_eq ha (some num) cutoff v
  refine ⟨fun hn => ?_, fun hn => by rw [h, Option.getD_some, if_pos hn]⟩
  rw [Option.getD_some, if_neg (by omega)] at h
  set ks := (orderOf argsort v).take num with hks
  have hin : ∀ k ∈ ks, k < (q + g) + (q + g) := fun k hk => (mem_orderOf ha).1 (List.mem_of_mem_take hk)
  have hlen : ks.length = num := by rw [hks, List.length_take, length_orderOf ha]; omega
  refine ⟨_, h, (List.length_filterMap_le _ _).trans hlen.le, fun x k s hx => ((mem_rows hin).1 hx).2,
    rows_nodup ((nodup_orderOf ha v).sublist (List.take_sublist _ _)),
    rows_desc ((orderOf_desc ha v).sublist (List.take_sublist _ _)), fun k hk hk' => ?_⟩
  have ek : sqAt v k = v k ^ 2 := by unfold sqAt; rw [dif_pos k.2]
  have hknot : (k : ℕ) ∉ ks := by
    intro hc
    refine hk' (List.mem_map.2 ⟨_, (mem_rows hin (x := v k ^ 2) (k := k)).2 ⟨hc, k.2, rfl, hk, operatorNames_get k.2⟩,
      rfl⟩)
  have hge : ∀ a ∈ ks, v k ^ 2 ≤ sqAt v a := by
    intro a hka
    rw [← ek]
    refine sq_le_of_abs v k.2 (hin a hka) (ha.rest _ num hka (by rw [List.length_ofFn]; exact k.2) hknot)
  constructor
  · have : ks.filterMap (contribRow q g cutoff v) = ks.map fun a => (sqAt v a, a, operatorIndex q (q + g) a) := by
      rw [← List.filterMap_eq_map]
      refine List.filterMap_congr fun a hka => ?_
      unfold contribRow
      rw [if_neg (not_lt.2 (hk.trans (hge a hka)))]
      rfl
    rw [this, List.length_map, hlen]
  · rintro ⟨x, a, s⟩ hr
    obtain ⟨hka, h1, rfl, -⟩ := (mem_rows hin).1 hr
    have := hge a hka
    unfold sqAt at this
    rw [dif_pos h1] at this
    exact this

/-- **C142.** One table is printed for every excited state, in order; before the excitation vectors were calculated the
call raises `ValueError`. -/
theorem C142_states (numContr : Option ℕ) (cutoff : ℝ) :
    (o.vectors = none → stateContributions argsort o numContr cutoff = .error .valueError) ∧
    ∀ vs tables, o.vectors = some vs → vs.map (contributionTable argsort numContr cutoff) = tables.map Except.ok →
      stateContributions argsort o numContr cutoff = .ok tables := by
  refine ⟨fun h => by unfold stateContributions; rw [h], fun vs tables h ht => ?_⟩
  unfold stateContributions
  rw [h]
  clear h
  dsimp only
  induction vs generalizing tables with
  | nil =>
    cases tables with
    | nil => rfl
    | cons t ts => cases ht
  | cons v vs ih =>
    cases tables with
    | nil => cases ht
    | cons t ts =>
      simp only [List.map_cons, List.cons.injEq] at ht
      rw [List.mapM_cons, ht.1, ok_bind, ih ts ht.2]
      rfl

/-- One orbital rotation and one active operator: with the vector `(0, 2, 1, 0)` and the cutoff one half, the active
excitation is listed first and the de-excitation of the rotation second. -/
example : operatorNames 1 1 = ["q0", "G0", "q0^d", "G0^d"] := by decide

end SQ
