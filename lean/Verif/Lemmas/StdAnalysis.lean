import Verif.Spec.StdAnalysis
import Verif.Lemmas.SwapBits
import Verif.Lemmas.OperatorsSem

/-! # Lemmas: the analysis of deviations and of excited states -/

namespace SQ

theorem readIdx_ok {α : Type} {l : List α} {i : ℕ} {a : α} (h : l[i]? = some a) : readIdx l i = .ok a := by
  unfold readIdx; rw [h]

theorem readIdx_none {α : Type} {l : List α} {i : ℕ} (h : l.length ≤ i) : readIdx l i = .error .indexError := by
  unfold readIdx; rw [List.getElem?_eq_none h]

/-- Reading the first entries of a list one after the other. -/
theorem mapM_read {α β : Type} (l : List α) (f : α → β) (m : ℕ) :
    ((List.range m).mapM fun i => do
      let a ← readIdx l i
      (.ok (f a) : Res β)) = if l.length < m then .error .indexError else .ok ((l.take m).map f) := by
  induction m with
  | zero => simp; rfl
  | succ m ih =>
    rw [List.range_succ, List.mapM_append, ih]
    by_cases h : l.length < m
    · rw [if_pos h, if_pos (by omega)]; rfl
    · rw [if_neg h]
      by_cases h' : l.length < m + 1
      · rw [if_pos h']
        simp only [List.mapM_cons, List.mapM_nil, readIdx_none (show l.length ≤ m by omega)]
        rfl
      · rw [if_neg h']
        have hm : m < l.length := by omega
        have : l[m]? = some l[m] := List.getElem?_eq_getElem hm
        rw [List.take_add_one, this]
        simp only [readIdx_ok this, List.mapM_cons, List.mapM_nil, List.map_append]
        rfl

variable {argsort : List ℝ → List ℕ}

theorem SortsPositions.lt (h : SortsPositions argsort) {l : List ℝ} {k : ℕ} : k ∈ argsort l ↔ k < l.length := by
  rw [(h l).1.mem_iff, List.mem_range]

theorem SortsPositions.length (h : SortsPositions argsort) (l : List ℝ) : (argsort l).length = l.length := by
  rw [(h l).1.length_eq, List.length_range]

theorem SortsPositions.nodup (h : SortsPositions argsort) (l : List ℝ) : (argsort l).Nodup :=
  (h l).1.nodup_iff.2 List.nodup_range

/-- The reversed positions: values do not increase. -/
theorem SortsPositions.desc (h : SortsPositions argsort) (l : List ℝ) :
    (argsort l).reverse.Pairwise fun a b => ∀ x y, l[a]? = some x → l[b]? = some y → y ≤ x := by
  rw [List.pairwise_reverse]
  exact (h l).2.imp fun hab x y hx hy => hab y x hy hx

/-- What is left out of the first positions has no larger value. -/
theorem SortsPositions.rest (h : SortsPositions argsort) (l : List ℝ) (m : ℕ) {a b : ℕ}
    (ha : a ∈ (argsort l).reverse.take m) (hb : b < l.length) (hb' : b ∉ (argsort l).reverse.take m) :
    ∀ x y, l[a]? = some x → l[b]? = some y → y ≤ x := by
  have hp := h.desc l
  rw [← List.take_append_drop m (argsort l).reverse, List.pairwise_append] at hp
  refine hp.2.2 a ha b ?_
  have : b ∈ (argsort l).reverse := List.mem_reverse.2 (h.lt.2 hb)
  rw [← List.take_append_drop m (argsort l).reverse, List.mem_append] at this
  exact this.resolve_left hb'

theorem largestAt_eq (q n m : ℕ) (X : Mat ℝ) : largestAt argsort q n m X =
    if ((argsort ((List.range (n * n)).map fun k => |X (k / n) (k % n)|)).reverse.take m).length < m
    then .error .indexError
    else .ok ((((argsort ((List.range (n * n)).map fun k => |X (k / n) (k % n)|)).reverse.take m).take m).map fun k =>
      (k / n, k % n, areaLetter q (k / n) ++ areaLetter q (k % n))) :=
  mapM_read _ (fun k => (k / n, k % n, areaLetter q (k / n) ++ areaLetter q (k % n))) m

theorem largestAt_short (h : SortsPositions argsort) {q n m : ℕ} (X : Mat ℝ) (hm : n * n < m) :
    largestAt argsort q n m X = .error .indexError := by
  rw [largestAt_eq, if_pos]
  simp [h.length]
  omega

theorem largestAt_ok (h : SortsPositions argsort) {q n m : ℕ} (X : Mat ℝ) (hm : m ≤ n * n) :
    ∃ out, largestAt argsort q n m X = .ok out ∧ IsLargest q n m X out := by
  rw [largestAt_eq]
  set flat := (List.range (n * n)).map fun k => |X (k / n) (k % n)| with hflat
  have hl : flat.length = n * n := by simp [hflat]
  rw [if_neg (by simp [h.length, hl]; omega)]
  have hget : ∀ k < n * n, flat[k]? = some |X (k / n) (k % n)| := by
    intro k hk
    simp [hflat, hk]
  have hin : ∀ k ∈ (argsort flat).reverse.take m, k < n * n := fun k hk => by
    rw [← hl]; exact h.lt.1 (List.mem_reverse.1 (List.mem_of_mem_take hk))
  refine ⟨_, rfl, ?_⟩
  rw [List.take_take, min_self]
  have hinj : ∀ k < n * n, ∀ k' < n * n, k / n = k' / n → k % n = k' % n → k = k' := by
    intro k _ k' _ h1 h2
    rw [← Nat.div_add_mod k n, ← Nat.div_add_mod k' n, h1, h2]
  have hpos : ∀ k < n * n, 0 < n := fun k hk => by
    rcases Nat.eq_zero_or_pos n with h0 | h0
    · subst h0; simp at hk
    · exact h0
  refine ⟨?_, ?_, ?_, ?_⟩
  · simp [h.length, hl]; omega
  · rw [List.map_map]
    refine List.Nodup.map_on ?_ ((List.nodup_reverse.2 (h.nodup flat)).sublist (List.take_sublist _ _))
    intro k hk k' hk' e
    simp only [Function.comp_apply, Prod.mk.injEq] at e
    exact hinj k (hin k hk) k' (hin k' hk') e.1 e.2
  · intro t ht
    obtain ⟨k, hk, rfl⟩ := List.mem_map.1 ht
    have := hin k hk
    exact ⟨Nat.div_lt_of_lt_mul this, Nat.mod_lt _ (hpos k this), rfl⟩
  · intro t ht i hi j hj hij
    obtain ⟨k, hk, rfl⟩ := List.mem_map.1 ht
    have hn : 0 < n := by omega
    have e1 : (i * n + j) / n = i := by
      rw [mul_comm, Nat.mul_add_div hn, Nat.div_eq_of_lt hj, add_zero]
    have e2 : (i * n + j) % n = j := by
      rw [mul_comm, Nat.mul_add_mod, Nat.mod_eq_of_lt hj]
    have hlt : i * n + j < n * n := by
      have : (i + 1) * n ≤ n * n := Nat.mul_le_mul_right _ hi
      linarith [Nat.succ_mul i n, Nat.add_one_mul i n]
    have hb : i * n + j ∉ (argsort flat).reverse.take m := by
      intro hc
      refine hij ?_
      rw [List.map_map]
      refine List.mem_map.2 ⟨_, hc, ?_⟩
      simp only [Function.comp_apply, e1, e2]
    have := h.rest flat m hk (by rw [hl]; exact hlt) hb _ _ (hget k (hin k hk)) (hget _ hlt)
    rw [e1, e2] at this
    exact this

theorem mem_cvMask {n : ℕ} {X : Mat ℝ} {i j : Fin n} : (i, j) ∈ cvMask n X ↔ j ∈ notSmall n X i := by
  unfold cvMask notSmall
  simp

theorem card_cvMask (n : ℕ) (X : Mat ℝ) : (cvMask n X).card = ∑ i, (notSmall n X i).card := by
  classical
  rw [← Finset.card_sigma]
  refine Finset.card_bij' (fun p _ => ⟨p.1, p.2⟩) (fun p _ => (p.1, p.2)) ?_ ?_ ?_ ?_
  · rintro ⟨i, j⟩ h
    simpa using mem_cvMask.1 h
  · rintro ⟨i, j⟩ h
    exact mem_cvMask.2 (by simpa using h)
  · simp
  · simp

theorem maskedAvg_eq {n : ℕ} (S X : Mat ℝ) (i : Fin n) : maskedAvg n (cvOf S X) X i =
    if (notSmall n X i).Nonempty then some (meanCV n S X i) else none := by
  classical
  unfold maskedAvg meanCV
  have : (Finset.univ.filter fun j : Fin n => (i, j) ∈ cvMask n X) = notSmall n X i := by
    ext j
    simp [mem_cvMask]
  simp only [this]
  by_cases h : (notSmall n X i).Nonempty
  · rw [if_pos h, if_neg (by simpa [Finset.card_eq_zero] using h.ne_empty)]
    simp only [cvOf, abs_div]
  · rw [if_neg h, if_pos (by simpa [Finset.card_eq_zero] using h)]

theorem rowAvg_cv {n : ℕ} (S X : Mat ℝ) (i : Fin n) (h : cvMask n X = Finset.univ) : rowAvg n (cvOf S X) i =
    if (notSmall n X i).Nonempty then some (meanCV n S X i) else none := by
  have hu : notSmall n X i = Finset.univ := by
    ext j
    simp only [Finset.mem_univ, iff_true]
    exact mem_cvMask.1 (by rw [h]; exact Finset.mem_univ _)
  have hne : (notSmall n X i).Nonempty := by rw [hu]; exact ⟨i, Finset.mem_univ i⟩
  rw [if_pos hne]
  unfold rowAvg meanCV
  simp only [hu, cvOf, abs_div, Finset.card_univ, Fintype.card_fin]

theorem operatorNames_get {q g k : ℕ} (hk : k < (q + g) + (q + g)) :
    (operatorNames q g)[k]? = some (operatorIndex q (q + g) k) := by
  have hu : ∀ k, k < q + g → ((List.range q).map (fun i => "q" ++ toString i) ++
      (List.range g).map fun i => "G" ++ toString i)[k]? =
      some (if k < q then "q" ++ toString k else "G" ++ toString (k - q)) := by
    intro k hk
    by_cases h : k < q
    · rw [List.getElem?_append_left (by simpa using h), if_pos h]
      simp [h]
    · rw [List.getElem?_append_right (by simpa using h), if_neg h]
      have : k - q < g := by omega
      simp [this]
  unfold operatorNames operatorIndex
  by_cases h : k < q + g
  · rw [if_pos h, List.getElem?_append_left (by simpa using h), hu k h]
  · rw [if_neg h, List.getElem?_append_right (by simpa using h), List.getElem?_map]
    have hlen : k - ((List.range q).map (fun i => "q" ++ toString i) ++
      (List.range g).map fun i => "G" ++ toString i).length = k - (q + g) := by simp
    rw [hlen, hu _ (by omega)]
    by_cases h' : k - (q + g) < q
    · simp [h']
    · simp [h']

theorem cv_row {n : ℕ} {S X : Mat ℝ} {i : Fin n} {r : Option ℝ}
    (h : r = if (notSmall n X i).Nonempty then some (meanCV n S X i) else none) :
    ((notSmall n X i).Nonempty → r = some (meanCV n S X i)) ∧ (notSmall n X i = ∅ → r = none) := by
  refine ⟨fun c => by rw [h, if_pos c], fun c => by rw [h, if_neg (by rw [c]; exact Finset.not_nonempty_empty)]⟩

theorem cvMatrices_ok {n : ℕ} {run : Res LRMats} {old M : LRMats} (h : MatricesUsed n run old M) :
    cvMatrices n run old = .ok M := by
  unfold cvMatrices
  rcases h with ⟨h0, hr⟩ | ⟨⟨i, hi, j, hj, h0⟩, hr⟩
  · rw [if_pos fun (i j : Fin n) => h0 i i.2 j j.2, hr]
  · rw [if_neg fun h => h0 (h ⟨i, hi⟩ ⟨j, hj⟩), hr]

open Classical in
/-- The coefficients of variation when nothing stops the analysis. -/
theorem analyzeCV_ok (ha : SortsPositions argsort) {q g : ℕ} {run : Res LRMats} {o : LRObj q g} {S M : LRMats}
    {verbose save : Bool} (hn : 2 ≤ q + g) (hM : MatricesUsed (q + g) run o.M M) :
    ∃ o' cvTops, analyzeCV argsort run o S verbose save = .ok (o', cvTops) ∧
      o'.metric = o.metric ∧ o'.vectors = o.vectors ∧ o'.M = M ∧ o'.stdRows = o.stdRows ∧
      (if (verbose && save) = true ∧ EnoughIn (q + g) M then ∃ R, o'.cvRows = some R ∧ IsCVRows (q + g) S M R
        else o'.cvRows = o.cvRows) := by
  have h4 : 4 ≤ (q + g) * (q + g) := Nat.mul_le_mul hn hn
  unfold analyzeCV
  rw [cvMatrices_ok hM, ok_bind]
  dsimp only
  set pairs := [(cvOf S.A M.A, cvMask (q + g) M.A), (cvOf S.B M.B, cvMask (q + g) M.B),
      (cvOf S.Sigma M.Sigma, cvMask (q + g) M.Sigma)] with hpairs
  obtain ⟨ct, hct⟩ : ∃ ct, (pairs.mapM fun p =>
      if p.2 = Finset.univ then largestAt argsort q (q + g) 4 p.1 else .ok []) = Except.ok ct := by
    refine ⟨_, mapM_ok (g := fun p => if p.2 = Finset.univ then (largestAt_ok ha (q := q) p.1 h4).choose else [])
      fun p _ => ?_⟩
    by_cases hp : p.2 = Finset.univ
    · rw [if_pos hp, if_pos hp]
      exact (largestAt_ok ha (q := q) p.1 h4).choose_spec.1
    · rw [if_neg hp, if_neg hp]
  rw [hct, ok_bind]
  have henough : EnoughIn (q + g) M ↔ ¬(pairs.any fun p => p.2.card < q + g) = true := by
    simp only [EnoughIn, EnoughEntries, hpairs, List.any_cons, List.any_nil, card_cvMask, Bool.or_eq_true,
      decide_eq_true_eq, not_or, not_lt, Bool.or_false]
  by_cases cvb : verbose = false
  · subst cvb
    rw [if_pos rfl]
    refine ⟨_, ct, rfl, rfl, rfl, rfl, rfl, ?_⟩
    rw [if_neg (by simp)]
  · rw [if_neg cvb]
    have cvb' : verbose = true := by simpa using cvb
    subst cvb'
    by_cases call : (pairs.all fun p => p.2 = Finset.univ) = true
    · rw [if_pos call]
      have hu : cvMask (q + g) M.A = Finset.univ ∧ cvMask (q + g) M.B = Finset.univ ∧
          cvMask (q + g) M.Sigma = Finset.univ := by
        simpa [hpairs] using call
      have hen : EnoughIn (q + g) M := by
        have : ∀ X, cvMask (q + g) X = Finset.univ → EnoughEntries (q + g) X := by
          intro X hX
          unfold EnoughEntries
          rw [← card_cvMask, hX, Finset.card_univ, Fintype.card_prod, Fintype.card_fin]
          exact Nat.le_mul_of_pos_left _ (by omega)
        exact ⟨this _ hu.1, this _ hu.2.1, this _ hu.2.2⟩
      cases save
      · refine ⟨_, ct, rfl, rfl, rfl, rfl, rfl, ?_⟩
        rw [if_neg (by simp)]
        rfl
      · refine ⟨_, ct, rfl, rfl, rfl, rfl, rfl, ?_⟩
        rw [if_pos ⟨rfl, hen⟩]
        exact ⟨_, rfl, fun i => cv_row (rowAvg_cv _ _ i hu.1), fun i => cv_row (rowAvg_cv _ _ i hu.2.1),
          fun i => cv_row (rowAvg_cv _ _ i hu.2.2)⟩
    · rw [if_neg call]
      by_cases cany : (pairs.any fun p => p.2.card < q + g) = true
      · rw [if_pos cany]
        refine ⟨_, ct, rfl, rfl, rfl, rfl, rfl, ?_⟩
        rw [if_neg fun h => henough.1 h.2 cany]
      · rw [if_neg cany]
        cases save
        · refine ⟨_, ct, rfl, rfl, rfl, rfl, rfl, ?_⟩
          rw [if_neg (by simp)]
          rfl
        · refine ⟨_, ct, rfl, rfl, rfl, rfl, rfl, ?_⟩
          rw [if_pos ⟨rfl, henough.2 cany⟩]
          exact ⟨_, rfl, fun i => cv_row (maskedAvg_eq _ _ i), fun i => cv_row (maskedAvg_eq _ _ i),
            fun i => cv_row (maskedAvg_eq _ _ i)⟩

open Classical in
/-- The whole analysis when nothing stops it. -/
theorem analyzeStd_ok (ha : SortsPositions argsort) {q g : ℕ} {run : Res LRMats} {o : LRObj q g}
    {m : RMat ((q + g) + (q + g))} {S M : LRMats} {verbose cv save : Bool} (hm : o.metric = some m) (hd : m.det ≠ 0)
    (hn : 2 ≤ q + g) (hM : cv = true → MatricesUsed (q + g) run o.M M) :
    ∃ o' ta tb ts cvTops, analyzeStd argsort run o S verbose cv save = .ok (o', [ta, tb, ts], cvTops) ∧
      IsLargest q (q + g) 4 S.A ta ∧ IsLargest q (q + g) 4 S.B tb ∧ IsLargest q (q + g) 4 S.Sigma ts ∧
      o'.metric = o.metric ∧ o'.vectors = o.vectors ∧ o'.M = (if cv then M else o.M) ∧
      (if verbose && save then ∃ R, o'.stdRows = some R ∧ IsMeanRows (q + g) S R else o'.stdRows = o.stdRows) ∧
      (if cv = true ∧ (verbose && save) = true ∧ EnoughIn (q + g) M then
        ∃ R, o'.cvRows = some R ∧ IsCVRows (q + g) S M R else o'.cvRows = o.cvRows) := by
  have h4 : 4 ≤ (q + g) * (q + g) := Nat.mul_le_mul hn hn
  obtain ⟨ta, ea, la⟩ := largestAt_ok ha (q := q) S.A h4
  obtain ⟨tb, eb, lb⟩ := largestAt_ok ha (q := q) S.B h4
  obtain ⟨ts, es, ls⟩ := largestAt_ok ha (q := q) S.Sigma h4
  have et : [S.A, S.B, S.Sigma].mapM (largestAt argsort q (q + g) 4) = .ok [ta, tb, ts] := by
    simp only [List.mapM_cons, List.mapM_nil, ea, eb, es]; rfl
  have hmr : IsMeanRows (q + g) S ⟨rowAvg _ S.A, rowAvg _ S.B, rowAvg _ S.Sigma⟩ :=
    ⟨fun _ => rfl, fun _ => rfl, fun _ => rfl⟩
  have e1 : (keepStdRows o S verbose save).M = o.M := by unfold keepStdRows; split <;> rfl
  have e2 : (keepStdRows o S verbose save).metric = o.metric := by unfold keepStdRows; split <;> rfl
  have e3 : (keepStdRows o S verbose save).vectors = o.vectors := by unfold keepStdRows; split <;> rfl
  have e4 : (keepStdRows o S verbose save).cvRows = o.cvRows := by unfold keepStdRows; split <;> rfl
  have e5 : if verbose && save then ∃ R, (keepStdRows o S verbose save).stdRows = some R ∧ IsMeanRows (q + g) S R
      else (keepStdRows o S verbose save).stdRows = o.stdRows := by
    unfold keepStdRows
    split
    · exact ⟨_, rfl, hmr⟩
    · rfl
  have eg : getAttr o.metric = .ok m := by rw [hm]; rfl
  unfold analyzeStd
  rw [eg, ok_bind, if_neg hd, if_neg (show ¬q + g = 0 by omega), et, ok_bind]
  cases cv
  · exact ⟨_, ta, tb, ts, [], rfl, la, lb, ls, e2, e3, e1, e5, by rw [if_neg (by simp)]; exact e4⟩
  · obtain ⟨o', ct, h1, h2, h3, h4, h5, h6⟩ := analyzeCV_ok ha (S := S) (verbose := verbose) (save := save)
      (o := keepStdRows o S verbose save) hn (by rw [e1]; exact hM rfl)
    refine ⟨o', ta, tb, ts, ct, ?_, la, lb, ls, h2.trans e2, h3.trans e3, h4, ?_, ?_⟩
    · rw [if_pos rfl, h1]; rfl
    · rw [h5]; exact e5
    · rw [e4] at h6
      simpa using h6

end SQ
