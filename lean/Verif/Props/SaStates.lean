import Verif.Lemmas.SaStates
import Verif.Props.Ansatz
import Verif.Props.CISpaces

/-!
# C121: the states given to a state-averaged UPS wave function

`csfFock`, `Csf.Good`, `detSet`: Spec/QuantumTransfer.lean; `InCAS`: Spec/CISpace.lean.
-/

namespace SQ

variable {nI nA nV : ℕ} {na nb : ℤ} {ci : CIInfo}

/-- C121: each row of `csf_coeffs` is the superposition of determinants that was given, if no determinant is given twice
for a state. -/
theorem C121_rows (hA : 0 < nA) (hci : getIndexing nI nA nV na nb = .ok ci) {coeffs : List (List ℝ)}
    {dets : List (List (List Char))} {M : Mat ℝ} (h : saCsf ci (2 * nA) coeffs dets = .ok M) {i : ℕ} {s : Csf}
    (hi : (coeffs.zip dets)[i]? = some s) (hn : s.2.Nodup) : stateOf ci (M i) = csfFock s := by
  obtain ⟨ci', h1, -, rfl, -, -, hv, -⟩ := C17_space hA nI nV na nb
  obtain rfl : ci = ci' := by rw [hci] at h1; exact Except.ok.inj h1
  unfold saCsf at h
  cases hr : (coeffs.zip dets).mapM (saRow ci (2 * ci.nA)) with
  | error e => rw [hr] at h; cases h
  | ok rows =>
    rw [hr, ok_bind] at h
    simp only at h
    split_ifs at h
    cases h
    obtain ⟨hi1, rfl⟩ := List.getElem?_eq_some_iff.1 hi
    have hl : rows.length = (coeffs.zip dets).length := mapM_length hr
    have := mapM_zip hr ((coeffs.zip dets)[i], rows[i]'(by omega))
      (List.mem_iff_getElem.2 ⟨i, by rw [List.length_zip]; omega, by simp⟩)
    simp only at this ⊢
    rw [List.getD_eq_getElem _ _ (by omega)]
    exact saRow_state hv hA hn this

/-- C121: the states are accepted exactly if there are as many lists of determinants as lists of coefficients, every
state has as many coefficients as determinants, these are occupation strings with the right numbers of alpha and beta
electrons in the active orbitals, and the states are orthonormal up to `10**-10`. -/
theorem C121_accepts (hA : 0 < nA) (hci : getIndexing nI nA nV na nb = .ok ci) {coeffs : List (List ℝ)}
    {dets : List (List (List Char))} (hn : ∀ s ∈ coeffs.zip dets, s.2.Nodup) :
    (∃ M, saCsf ci (2 * nA) coeffs dets = .ok M) ↔ coeffs.length ≤ dets.length ∧
      (∀ s ∈ coeffs.zip dets, Csf.Good nA s ∧ ∀ d ∈ s.2, InCAS nA na nb (detSet d)) ∧
      ∀ (i j : ℕ) (s t : Csf), (coeffs.zip dets)[i]? = some s → (coeffs.zip dets)[j]? = some t →
        |inner (csfFock s) (csfFock t) - if i = j then 1 else 0| ≤ 1 / 10 ^ 10 := by
  obtain ⟨ci', h1, -, rfl, -, -, hv, -, hm⟩ := C17_space hA nI nV na nb
  obtain rfl : ci = ci' := by rw [hci] at h1; exact Except.ok.inj h1
  have row : ∀ s ∈ coeffs.zip dets, (∃ w, saRow ci (2 * ci.nA) s = .ok w) ↔
      Csf.Good ci.nA s ∧ ∀ d ∈ s.2, InCAS ci.nA na nb (detSet d) := by
    intro s _
    rw [saRow_iff hv hA]
    simp only [hm]
  -- the test in terms of states
  have bad : ∀ (M : Mat ℝ) i j, saBad ci.idx2det.length M i j = false ↔
      |inner (stateOf ci (M i)) (stateOf ci (M j)) - if i = j then 1 else 0| ≤ 1 / 10 ^ 10 := by
    intro M i j
    unfold saBad
    rw [dot_eq_inner hv]
    by_cases hij : i = j
    · rw [if_pos hij, if_pos hij, decide_eq_false_iff_not, not_lt, abs_sub_comm]
    · rw [if_neg hij, if_neg hij, decide_eq_false_iff_not, not_lt, sub_zero]
  constructor
  · rintro ⟨M, h⟩
    have hrow := fun i s hi hn => C121_rows (i := i) (s := s) hA hci h hi hn
    unfold saCsf at h
    cases hr : (coeffs.zip dets).mapM (saRow ci (2 * ci.nA)) with
    | error e => rw [hr] at h; cases h
    | ok rows =>
      rw [hr, ok_bind] at h
      simp only at h
      split_ifs at h with hb
      have hl : rows.length = (coeffs.zip dets).length := mapM_length hr
      have hgood : ∀ i j, i < coeffs.length → j < coeffs.length → saBad ci.idx2det.length (fun i => rows.getD i 0) i j = false := by
        intro i j hi hj
        rw [Bool.not_eq_true, List.any_eq_false] at hb
        have := hb i (List.mem_range.2 hi)
        rw [Bool.not_eq_true, List.any_eq_false] at this
        exact Bool.not_eq_true _ ▸ this j (List.mem_range.2 hj)
      have e := Except.ok.inj h
      rw [e] at hgood
      refine ⟨?_, fun s hs => (row s hs).1 ?_, fun i j s t hi hj => ?_⟩
      · by_contra hlt
        rw [not_le] at hlt
        have := (bad M dets.length dets.length).1 (hgood _ _ hlt hlt)
        have hz : M dets.length = 0 := by
          rw [← e]
          rw [List.length_zip] at hl
          simp only
          rw [List.getD_eq_default _ _ (by omega)]
        rw [hz, stateOf_zero, if_pos rfl, inner_zero_left, zero_sub, abs_neg, abs_one] at this
        norm_num at this
      · obtain ⟨i, hi, rfl⟩ := List.mem_iff_getElem.1 hs
        exact ⟨_, mapM_zip hr ((coeffs.zip dets)[i], rows[i]'(by omega))
          (List.mem_iff_getElem.2 ⟨i, by rw [List.length_zip]; omega, by simp⟩)⟩
      · have hi' := (List.getElem?_eq_some_iff.1 hi).1
        have hj' := (List.getElem?_eq_some_iff.1 hj).1
        rw [List.length_zip] at hi' hj'
        rw [← hrow i s hi (hn s (List.mem_of_getElem? hi)), ← hrow j t hj (hn t (List.mem_of_getElem? hj))]
        exact (bad M i j).1 (hgood i j (by omega) (by omega))
  · rintro ⟨hl, hg, ho⟩
    obtain ⟨rows, hr, hf⟩ := mapM_ok_exists (fun s w => saRow ci (2 * ci.nA) s = .ok w) (coeffs.zip dets)
      fun s hs => by
        obtain ⟨w, hw⟩ := (row s hs).2 (hg s hs)
        exact ⟨w, hw, hw⟩
    refine ⟨fun i => rows.getD i 0, ?_⟩
    unfold saCsf
    rw [hr, ok_bind]
    simp only
    rw [if_neg]
    rw [Bool.not_eq_true, List.any_eq_false]
    intro i hi
    rw [Bool.not_eq_true, List.any_eq_false]
    intro j hj
    rw [List.mem_range] at hi hj
    have hlen : rows.length = (coeffs.zip dets).length := mapM_length hr
    have hz : (coeffs.zip dets).length = coeffs.length := by rw [List.length_zip]; omega
    have hst : ∀ i (hi : i < coeffs.length), stateOf ci (rows.getD i 0) = csfFock ((coeffs.zip dets)[i]'(by omega)) := by
      intro i hi
      rw [List.getD_eq_getElem _ _ (by omega)]
      exact saRow_state hv hA (hn _ (List.getElem_mem _)) (mapM_zip hr ((coeffs.zip dets)[i]'(by omega), rows[i]'(by omega))
        (List.mem_iff_getElem.2 ⟨i, by rw [List.length_zip]; omega, by simp⟩))
    rw [Bool.not_eq_true, bad, hst i hi, hst j hj]
    exact ho i j _ _ (List.getElem?_eq_getElem _) (List.getElem?_eq_getElem _)

/-- C121: states that are not accepted raise `ValueError`, or `KeyError` if a determinant does not have the right numbers
of electrons. -/
theorem C121_refused (hA : 0 < nA) (hci : getIndexing nI nA nV na nb = .ok ci) {coeffs : List (List ℝ)}
    {dets : List (List (List Char))} {e : PyErr} (h : saCsf ci (2 * nA) coeffs dets = .error e) :
    e = .valueError ∨ (e = .keyError ∧ ∃ s ∈ coeffs.zip dets, ∃ d ∈ s.2, ¬ InCAS nA na nb (detSet d)) := by
  obtain ⟨ci', h1, -, rfl, -, -, hv, -, hm⟩ := C17_space hA nI nV na nb
  obtain rfl : ci = ci' := by rw [hci] at h1; exact Except.ok.inj h1
  unfold saCsf at h
  cases hr : (coeffs.zip dets).mapM (saRow ci (2 * ci.nA)) with
  | ok rows =>
    rw [hr, ok_bind] at h
    simp only at h
    split_ifs at h
    cases h
    exact .inl rfl
  | error x =>
    rw [hr] at h
    cases h
    clear hci
    revert hr
    generalize coeffs.zip dets = l
    induction l with
    | nil => intro hr; cases hr
    | cons s l ih =>
      intro hr
      rw [List.mapM_cons] at hr
      cases hs : saRow ci (2 * ci.nA) s with
      | error y =>
        rw [hs] at hr
        cases hr
        rcases saRow_error hv hA hs with h | ⟨h, d, hd, h'⟩
        · exact .inl h
        · exact .inr ⟨h, s, by simp, d, hd, fun hx => h' ((hm _).2 hx)⟩
      | ok w =>
        rw [hs, ok_bind] at hr
        cases hl : l.mapM (saRow ci (2 * ci.nA)) with
        | error y =>
          rw [hl] at hr
          cases hr
          rcases ih hl with h | ⟨h, s', hs', d, hd, h'⟩
          · exact .inl h
          · exact .inr ⟨h, s', by simp [hs'], d, hd, h'⟩
        | ok ws => rw [hl] at hr; cases hr

/-- Two states in two orbitals with two electrons: the Hartree-Fock determinant and an open-shell singlet-like pair. -/
theorem saCsf_case : ∃ ci M, getIndexing 0 2 0 1 1 = .ok ci ∧
    saCsf ci 4 [[1], [3 / 5, 4 / 5]] [["1100".toList], ["1001".toList, "0110".toList]] = .ok M := by
  obtain ⟨ci, h1, -⟩ := C17_space (nA := 2) (by decide) 0 0 1 1
  obtain ⟨M, h⟩ := (C121_accepts (nA := 2) (by decide) h1 (coeffs := [[1], [3 / 5, 4 / 5]])
    (dets := [["1100".toList], ["1001".toList, "0110".toList]]) (by simp)).2 (by
      refine ⟨by simp, ?_, ?_⟩
      · intro s hs
        have hs' : s = ([1], ["1100".toList]) ∨ s = ([3 / 5, 4 / 5], ["1001".toList, "0110".toList]) := by simpa using hs
        rcases hs' with rfl | rfl
        · refine ⟨⟨rfl, ?_⟩, ?_⟩ <;> simp only [List.mem_singleton, forall_eq]
          · unfold IsDet; decide
          · unfold InCAS; decide
        · refine ⟨⟨rfl, ?_⟩, ?_⟩ <;> simp only [List.mem_cons, List.not_mem_nil, or_false, forall_eq_or_imp, forall_eq]
          · unfold IsDet; decide
          · unfold InCAS; decide
      · have d1 : detSet "1100".toList = {0, 1} := by decide
        have d2 : detSet "1001".toList = {0, 3} := by decide
        have d3 : detSet "0110".toList = {1, 2} := by decide
        have e1 : csfFock ([1], ["1100".toList]) = sgl {0, 1} 1 := by
          simp only [csfFock, List.zip_cons_cons, List.zip_nil_right, List.map_cons, List.map_nil, d1, List.sum_cons, List.sum_nil, add_zero]
        have e2 : csfFock ([3 / 5, 4 / 5], ["1001".toList, "0110".toList]) = sgl {0, 3} (3 / 5) + sgl {1, 2} (4 / 5) := by
          simp only [csfFock, List.zip_cons_cons, List.zip_nil_right, List.map_cons, List.map_nil, d2, d3, List.sum_cons, List.sum_nil, add_zero]
        have n1 : (({0, 1} : Finset ℕ) = {0, 3}) = False := by decide
        have n2 : (({0, 1} : Finset ℕ) = {1, 2}) = False := by decide
        have n3 : (({0, 3} : Finset ℕ) = {1, 2}) = False := by decide
        have n4 : (({0, 3} : Finset ℕ) = {0, 1}) = False := by decide
        have n5 : (({1, 2} : Finset ℕ) = {0, 1}) = False := by decide
        have n6 : (({1, 2} : Finset ℕ) = {0, 3}) = False := by decide
        intro i j s t hi hj
        have two : ∀ {k : ℕ} {u : Csf}, (List.zip [[1], [3 / 5, 4 / 5]] [["1100".toList], ["1001".toList, "0110".toList]])[k]? = some u →
            (k = 0 ∧ u = ([1], ["1100".toList])) ∨ (k = 1 ∧ u = ([3 / 5, 4 / 5], ["1001".toList, "0110".toList])) := by
          intro k u hu
          match k, hu with
          | 0, hu => exact .inl ⟨rfl, (Option.some.inj hu).symm⟩
          | 1, hu => exact .inr ⟨rfl, (Option.some.inj hu).symm⟩
          | k + 2, hu => simp at hu
        rcases two hi with ⟨rfl, rfl⟩ | ⟨rfl, rfl⟩ <;> rcases two hj with ⟨rfl, rfl⟩ | ⟨rfl, rfl⟩ <;>
          simp only [e1, e2, inner_add_left, inner_add_right, inner_single_single, n1, n2, n3, n4, n5, n6, if_true, if_false] <;>
          norm_num)
  exact ⟨ci, M, h1, h⟩

/-- C121 fails for a determinant that is given twice: the class keeps the last coefficient and accepts the state as
normalised, while for the circuit classes (and in the notation of the argument) the coefficients add up, here to a state of
norm four. -/
theorem C121_duplicate_disagree : ∃ ci M, getIndexing 0 1 0 1 1 = .ok ci ∧
    let s : Csf := ([1, 1], ["11".toList, "11".toList])
    saCsf ci 2 [s.1] [s.2] = .ok M ∧ inner (csfFock s) (csfFock s) = 4 ∧
      inner (stateOf ci (M 0)) (stateOf ci (M 0)) = 1 ∧ stateOf ci (M 0) ≠ csfFock s := by
  obtain ⟨ci, h1, -, h3, -, -, hv, -, hm⟩ := C17_space (nA := 1) (by decide) 0 0 1 1
  have hd : IsDet ci.nA "11".toList := by rw [h3]; unfold IsDet; decide
  have hM : ci.Mem (detSet "11".toList) := by rw [hm]; unfold InCAS; decide
  have step := fun v => saStep_ok (cd := (1, "11".toList)) (v := v) hv (by omega) hd hM
  obtain ⟨i, i1, i2, e⟩ := step 0
  obtain ⟨j, j1, j2, e'⟩ := step (Function.update 0 i 1)
  obtain rfl := hv.D_inj i1 j1 (i2.trans j2.symm)
  rw [h3] at e e'
  have hrow : saRow ci 2 ([1, 1], ["11".toList, "11".toList]) = .ok (Function.update 0 i 1) := by
    rw [saRow_eq, if_neg (by simp)]
    rw [show (([1, 1] : List ℝ).zip ["11".toList, "11".toList]) = [(1, "11".toList), (1, "11".toList)] from rfl,
      List.foldlM_cons, e, ok_bind, List.foldlM_cons, e', ok_bind, Function.update_idem]
    rfl
  have hst : stateOf ci (Function.update (0 : Vec ℝ) i 1) = sgl {0, 1} 1 := by
    have := stateOf_update (ci := ci) (0 : Vec ℝ) i1 1
    rw [Pi.zero_apply, zero_add, stateOf_zero, zero_add, i2] at this
    rw [this]
    rfl
  have hc : csfFock ([1, 1], ["11".toList, "11".toList]) = sgl {0, 1} 2 := by
    have d1 : detSet "11".toList = {0, 1} := by decide
    simp only [csfFock, List.zip_cons_cons, List.zip_nil_right, List.map_cons, List.map_nil, d1, List.sum_cons, List.sum_nil, add_zero]
    rw [← sgl_add]
    norm_num
  refine ⟨ci, fun k => [Function.update (0 : Vec ℝ) i 1].getD k 0, h1, ?_, ?_, ?_, ?_⟩
  · unfold saCsf
    rw [show ([[1, 1]] : List (List ℝ)).zip [["11".toList, "11".toList]] = [([1, 1], ["11".toList, "11".toList])] from rfl,
      List.mapM_cons, hrow]
    simp only [ok_bind, List.mapM_nil, pure_bind]
    change (if _ then _ else _) = _
    rw [if_neg]
    rw [Bool.not_eq_true, List.any_eq_false]
    intro a ha
    rw [Bool.not_eq_true, List.any_eq_false]
    intro b hb
    have ha' : a = 0 := by simpa using ha
    have hb' : b = 0 := by simpa using hb
    subst ha' hb'
    unfold saBad
    rw [if_pos rfl, dot_eq_inner hv]
    simp only [List.getD_cons_zero]
    rw [hst, inner_single_single, if_pos rfl]
    norm_num
  · rw [hc, inner_single_single, if_pos rfl]; norm_num
  · simp only [List.getD_cons_zero]
    rw [hst, inner_single_single, if_pos rfl]; norm_num
  · simp only [List.getD_cons_zero]
    rw [hst, hc]
    intro h
    have := congrArg (fun x => coeff x {0, 1}) h
    simp only [coeff_sgl, if_true] at this
    norm_num at this

end SQ
