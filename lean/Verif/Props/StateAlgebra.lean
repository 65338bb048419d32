import Verif.Lemmas.StateOps
import Mathlib.Data.Nat.Size

/-!
# C19-C25: operators acting on CI vectors

Hypotheses shared by the theorems: `ci.Valid` (the index maps are inverse to each other, see
`Spec/CIState.lean`; C17 and C18 prove it for the spaces the program builds), `ExactTiny tiny` (the
cut-off `abs(x) < 1e-28` only skips zeros) and, for threads, that the schedule runs every loop
iteration exactly once.
-/

namespace SQ

variable {R : Type*} [CommRing R]

/-! ## C19 -/

/-- C19: `bitcount` counts the one bits. -/
theorem C19_bitcount (x : ℕ) :
    bitcount x = ((Finset.range x.size).filter fun i => x.testBit i).card :=
  bitcount_eq _ _ (Nat.lt_size_self x)

/-- C19: and there are no one bits beyond those counted. -/
theorem C19_all_bits (x i : ℕ) (h : x.testBit i = true) : i < x.size := by
  by_contra hlt
  have : x < 2 ^ i := lt_of_lt_of_le (Nat.lt_size_self x) (Nat.pow_le_pow_right (by norm_num) (by omega))
  rw [Nat.testBit_lt_two_pow this] at h; cases h

example : bitcount 0b101101 = 4 := by simp [bitcount]

/-! ## C20 -/

/-- C20 (one thread): a normal-ordered number-conserving operator on the orbitals of the space maps
the CI vector of a state to the CI vector of the operator applied to that state; with `do_unsafe` the
result is projected on the space. -/
theorem C20_apply {tiny : R → Bool} (ht : ExactTiny tiny) {ci : CIInfo} (hv : ci.Valid)
    (U : Bool → Vec R → Res (Vec R)) {A : Dict R} (hA : NumCons A)
    (hr : ∀ kv ∈ A, ∀ o ∈ kv.1, o.1 < 2 * ci.nA) (v : Vec R) :
    (∀ w, propagateState tiny .one ci U false false [.op A] v = .ok w →
      stateOf ci w = sumOp A (stateOf ci v)) ∧
    (∃ w, propagateState tiny .one ci U false true [.op A] v = .ok w ∧
      stateOf ci w = ci.proj (sumOp A (stateOf ci v))) := by
  have e : ∀ b, propagateState tiny .one ci U false b [.op A] v = applyOp tiny .one ci b v A := by
    intro b
    unfold propagateState propStep
    simp
  refine ⟨fun w hw => ?_, ?_⟩
  · rw [e] at hw
    have := applyOp_one_sem ht hv false v (hA.good hr) w hw
    rw [this]; rfl
  · rw [e]
    rcases res_cases (applyOp tiny .one ci true v A) with ⟨w, hw⟩ | ⟨er, hw⟩
    · exact ⟨w, hw, applyOp_one_sem ht hv true v (hA.good hr) w hw⟩
    · exfalso
      have := foldlM_ok_iff (fun tmp (kv : Str × R) => applySerial tiny ci true v kv.1 kv.2 tmp)
        (fun _ => True) A (fun kv _ b => ⟨fun _ => trivial, fun _ => by
          rw [applySerial_eq]
          refine (foldlM_ok_iff _ (fun _ => True) _ (fun p _ b => ⟨fun _ => trivial, fun _ => ?_⟩) _).2
            (fun _ _ => trivial)
          unfold sStep serialStep
          split
          · exact ⟨_, rfl⟩
          · split
            · exact ⟨_, rfl⟩
            · split
              · exact ⟨_, rfl⟩
              · exact deliver_unsafe _ _ _ _⟩) 0
      obtain ⟨w, hw'⟩ := this.2 fun _ _ => trivial
      have h2 : applyOp tiny .one ci true v A = .ok w := hw'
      rw [hw] at h2; cases h2

/-- C20 (many threads): as before, always projected; number conservation is not needed. -/
theorem C20_apply_threaded (tiny : R → Bool) {ci : CIInfo} (hv : ci.Valid)
    (U : Bool → Vec R → Res (Vec R)) {A : Dict R} (hA : ∀ kv ∈ A, NormalOrdered kv.1)
    (hr : ∀ kv ∈ A, ∀ o ∈ kv.1, o.1 < 2 * ci.nA) {sched : Str → List ℕ}
    (hs : ∀ s, (sched s).Perm (List.range ci.idx2det.length)) (doUnsafe : Bool) (v w : Vec R)
    (hw : propagateState tiny (.many sched) ci U false doUnsafe [.op A] v = .ok w) :
    stateOf ci w = ci.proj (sumOp A (stateOf ci v)) := by
  unfold propagateState propStep at hw
  simp only [List.length_cons, List.length_nil, zero_add, one_ne_zero, if_false, List.reverse_singleton,
    List.foldlM_cons, List.foldlM_nil, Bool.false_eq_true, bind_pure] at hw
  exact applyOp_many_sem tiny hv doUnsafe v hA hr hs w hw

/-- C20 with folding, any number of threads: `expectation_value(bra, [A], ket)` is the matrix element
of `A` between the two states with the inactive orbitals filled. -/
theorem C20_expectation {tiny : R → Bool} (ht : ExactTiny tiny) {ci : CIInfo} (hv : ci.Valid)
    (U : Bool → Vec R → Res (Vec R)) {A : Dict R} (hA : NumCons A)
    (hr : ∀ kv ∈ A, ∀ o ∈ kv.1, o.1 < 2 * (ci.nI + ci.nA + ci.nV)) {th : Threads}
    (hth : th.Fair ci.idx2det.length) (doUnsafe : Bool) (bra kt : Vec R) (val : R)
    (h : expectationValue tiny th ci U true doUnsafe bra [.op A] kt = .ok val) :
    val = inner (core (2 * ci.nI) (stateOf ci bra)) (sumOp A (core (2 * ci.nI) (stateOf ci kt))) := by
  unfold expectationValue propagateState propStep at h
  simp only [List.length_cons, List.length_nil, zero_add, one_ne_zero, if_false, List.reverse_singleton,
    List.foldlM_cons, List.foldlM_nil, if_true, bind_pure] at h
  have hg := getFolded_good hA hr
  rcases res_cases (applyOp tiny th ci doUnsafe kt (getFolded ci.nI ci.nA ci.nV A)) with ⟨w, hw⟩ | ⟨e, hw⟩
  · rw [hw] at h
    have hval : dot ci.idx2det.length bra w = val := by injection h
    rw [← hval, dot_eq_inner hv, ← getFolded_sem ci.nI ci.nA ci.nV A hA.ord hA.bal hr
      (below_stateOf ci bra) (below_stateOf ci kt)]
    cases th with
    | one =>
      rw [applyOp_one_sem ht hv doUnsafe kt hg w hw]
      unfold CIInfo.P
      split
      · rw [inner_proj hv]
      · rfl
    | many sched =>
      rw [applyOp_many_sem tiny hv doUnsafe kt hg.ord hg.rng hth w hw, inner_proj hv]
  · rw [hw] at h; cases h

/-- A space with two determinants of one electron in the first of the active orbitals' two spin
orbitals, `|10⟩` and `|01⟩`. -/
def exampleSpace : CIInfo := { nI := 0, nA := 1, nV := 0, idx2det := [2, 1], det2idx := [(2, 0), (1, 1)] }

theorem exampleSpace_valid : exampleSpace.Valid := by
  constructor
  · intro d i
    unfold CIInfo.find exampleSpace
    simp only [List.lookup]
    rcases i with _ | _ | i
    · by_cases h : d = 2
      · subst h; simp
      · by_cases h1 : d = 1
        · subst h1; simp
        · simp [h, h1, beq_eq_false_iff_ne.2 h, beq_eq_false_iff_ne.2 h1]; exact fun e => h e.symm
    · by_cases h : d = 2
      · subst h; simp
      · by_cases h1 : d = 1
        · subst h1; simp
        · simp [h, h1, beq_eq_false_iff_ne.2 h, beq_eq_false_iff_ne.2 h1]; exact fun e => h1 e.symm
    · by_cases h : d = 2
      · subst h; simp
      · by_cases h1 : d = 1
        · subst h1; simp
        · simp [h, h1, beq_eq_false_iff_ne.2 h, beq_eq_false_iff_ne.2 h1]
  · decide

/-- The hypotheses are met by a spin flip on that space. -/
example : ExactTiny (fun x : ℤ => x == 0) ∧ exampleSpace.Valid ∧
    NumCons ([([(1, true), (0, false)], 3)] : Dict ℤ) ∧
    (∀ kv ∈ ([([(1, true), (0, false)], 3)] : Dict ℤ), ∀ o ∈ kv.1, o.1 < 2 * exampleSpace.nA) ∧
    Threads.Fair (.many fun _ => [1, 0]) exampleSpace.idx2det.length :=
  ⟨fun x h => by simpa using h, exampleSpace_valid, ⟨by decide, by decide, by decide⟩, by decide,
    fun _ => by unfold exampleSpace; dsimp only; decide⟩

/-- In C20 with one thread number conservation is needed: `a_1 a_0` on `|11⟩` is `|00⟩`, and the
serial kernel, which applies the annihilation operators left to right, returns `-|00⟩`. -/
theorem C20_nonconserving :
    let ci : CIInfo := { nI := 0, nA := 1, nV := 0, idx2det := [3, 0], det2idx := [(3, 0), (0, 1)] }
    let v : Vec ℤ := fun i => if i = 0 then 1 else 0
    let A : Dict ℤ := [([(1, false), (0, false)], 1)]
    (∃ w, applyOp (fun x => x == 0) .one ci false v A = .ok w ∧ w 1 = -1) ∧
    (∃ w, applyOp (fun x => x == 0) (.many fun _ => [0, 1]) ci false v A = .ok w ∧ w 1 = 1) ∧
    strOp [(1, false), (0, false)] (ket {0, 1} : Fock ℤ) = ket ∅ := by
  refine ⟨⟨_, rfl, ?_⟩, ⟨_, rfl, ?_⟩, ?_⟩
  · show (0 : ℤ) + signOf (flips 1 (parityCheck 1) [1, 0] 3).2 * 1 * 1 = -1
    have : flips 1 (parityCheck 1) [1, 0] 3 = (0, 1) := by
      show (0, 0 + bitcount 2 + bitcount 0) = (0, 1)
      rw [bitcount_zero, bitcount_double 1, bitcount_double_add 0, bitcount_zero]
    rw [this]; rfl
  · show (0 : ℤ) + signOf (flips 1 (parityCheck 1) [1, 0] 0).2 * 1 * 1 = 1
    have : flips 1 (parityCheck 1) [1, 0] 0 = (3, 0) := by
      show (3, 0 + bitcount 0 + bitcount 0) = (3, 0)
      rw [bitcount_zero]
    rw [this]; rfl
  · simp only [strOp_cons, strOp_nil, mul_one, ladder, Bool.false_eq_true, if_false, Module.End.mul_apply]
    rw [an_single, if_pos (by decide), an_single, if_pos (by decide)]
    have : (({0, 1} : Finset ℕ).erase 0).erase 1 = ∅ := by decide
    rw [this]
    have : (1 * (phase ({0, 1} : Finset ℕ) 0 : ℤ)) * phase (({0, 1} : Finset ℕ).erase 0) 1 = 1 := by decide
    rw [this]

/-- C20: no integer used by the kernels reaches `2^(2n)`: masks, parity masks and the determinants
after every prefix of the string; so with `2n ≤ 63` spin orbitals `int64` does not overflow. -/
theorem C20_no_overflow {n : ℕ} (hn : 2 * n ≤ 63) {l : List ℕ} (hl : ∀ o ∈ l, o < 2 * n) {det : ℕ}
    (hd : det < 2 ^ (2 * n)) (k : ℕ) :
    maskOf (2 * n - 1) l < 2 ^ 63 ∧ (k ≤ 2 * n → (parityCheck n).getD k 0 < 2 ^ 63) ∧
    (flips (2 * n - 1) (parityCheck n) (l.take k) det).1 < 2 ^ 63 := by
  have hle : 2 ^ (2 * n) ≤ 2 ^ 63 := Nat.pow_le_pow_right (by norm_num) hn
  refine ⟨lt_of_lt_of_le ?_ hle, fun hk => lt_of_lt_of_le ?_ hle, lt_of_lt_of_le ?_ hle⟩
  · apply Nat.lt_pow_two_of_testBit
    intro i hi
    by_contra hc
    obtain ⟨o, ho, rfl⟩ := (maskOf_testBit _ _ _).1 (by simpa using hc)
    have := hl o ho
    omega
  · apply Nat.lt_pow_two_of_testBit
    intro i hi
    rw [parity_testBit hk]
    simp; omega
  · exact flips_lt _ (fun o ho => hl o (List.mem_of_mem_take ho)) hd

/-! ## C21 -/

/-- C21 (one thread): with `do_unsafe=False` a `KeyError` is raised exactly when some string of the
operator maps some determinant with non-negligible amplitude to a determinant outside the space, and
nothing else can be raised. (With `do_unsafe=True`: `C20_apply`.) -/
theorem C21_raises [Nontrivial R] (tiny : R → Bool) {ci : CIInfo} (hv : ci.Valid)
    (U : Bool → Vec R → Res (Vec R)) {A : Dict R} (hA : NumCons A)
    (hr : ∀ kv ∈ A, ∀ o ∈ kv.1, o.1 < 2 * ci.nA) (v : Vec R) :
    (propagateState tiny .one ci U false false [.op A] v = .error .keyError ↔
      ∃ kv ∈ A, ∃ i d, ci.idx2det[i]? = some d ∧ tiny (v i) = false ∧
        ∃ S, coeff (strOp kv.1 (ket (decode ci.nA d)) : Fock R) S ≠ 0 ∧ ¬ ci.Mem S) ∧
    (∀ e, propagateState tiny .one ci U false false [.op A] v = .error e → e = .keyError) := by
  have e : propagateState tiny .one ci U false false [.op A] v = applyOp tiny .one ci false v A := by
    unfold propagateState propStep
    simp
  rw [e]
  refine ⟨?_, fun er her => applyOp_one_err tiny false v A er her⟩
  have hiff := applyOp_one_ok_iff tiny hv false v (hA.good hr)
  constructor
  · intro herr
    have hno : ¬ ∃ w, applyOp tiny .one ci false v A = .ok w := by
      rintro ⟨w, hw⟩; rw [herr] at hw; cases hw
    rw [hiff] at hno
    push Not at hno
    obtain ⟨kv, hkv, hin⟩ := hno.2
    unfold InsideFor at hin
    push Not at hin
    obtain ⟨i, hi, h1, S, h2, h3⟩ := hin
    refine ⟨kv, hkv, i, ci.idx2det.getD i 0, ?_, by simpa using h1, S, h2, h3⟩
    rw [List.getD_eq_getElem _ _ hi, List.getElem?_eq_getElem hi]
  · rintro ⟨kv, hkv, i, d, hd, h1, S, h2, h3⟩
    rcases res_cases (applyOp tiny .one ci false v A) with hok | ⟨er, her⟩
    · exfalso
      rcases hiff.1 hok with h | h
      · cases h
      · obtain ⟨hi, hd'⟩ := List.getElem?_eq_some_iff.1 hd
        rcases h kv hkv i hi with h | h
        · rw [h] at h1; cases h1
        · have hD : ci.D i = decode ci.nA d := by
            unfold CIInfo.D; rw [List.getD_eq_getElem _ _ hi, hd']
          rw [hD] at h
          exact h3 (h S h2)
    · rw [her, applyOp_one_err tiny false v A er her]

/-- The space holding only `|10⟩`. -/
def tinySpace : CIInfo := { nI := 0, nA := 1, nV := 0, idx2det := [2], det2idx := [(2, 0)] }

/-- C21 does not hold with several threads: on the space `{|10⟩}`, `a†_1 a_0` takes the only
determinant out of the space and the serial program raises, but the threaded one returns the zero
vector; and `a†_0 a_1`, which gives zero, makes the threaded program raise. -/
theorem C21_threaded_disagrees :
    let out : Dict ℤ := [([(1, true), (0, false)], 1)]
    let inn : Dict ℤ := [([(0, true), (1, false)], 1)]
    let v : Vec ℤ := fun _ => 1
    let tiny : ℤ → Bool := fun x => x == 0
    applyOp tiny .one tinySpace false v out = .error .keyError ∧
    applyOp tiny (.many fun _ => [0]) tinySpace false v out = .ok 0 ∧
    applyOp tiny .one tinySpace false v inn = .ok 0 ∧
    applyOp tiny (.many fun _ => [0]) tinySpace false v inn = .error .keyError :=
  ⟨rfl, rfl, rfl, rfl⟩

/-- C21, many threads, what does hold: with `do_unsafe=True` nothing is raised. -/
theorem C21_threaded_unsafe_partial (tiny : R → Bool) (ci : CIInfo) (U : Bool → Vec R → Res (Vec R))
    (A : Dict R) {sched : Str → List ℕ} (hs : ∀ s, (sched s).Perm (List.range ci.idx2det.length))
    (v : Vec R) : ∃ w, propagateState tiny (.many sched) ci U false true [.op A] v = .ok w := by
  obtain ⟨w, hw⟩ := applyOp_many_unsafe tiny v A hs
  refine ⟨w, ?_⟩
  unfold propagateState propStep
  simpa using hw

/-! ## C22 -/

/-- C22: whatever order the loop iterations run in, the threaded program gives the serial result
whenever both return; with `do_unsafe=True` both do return. -/
theorem C22_threads {tiny : R → Bool} (ht : ExactTiny tiny) {ci : CIInfo} (hv : ci.Valid)
    (U : Bool → Vec R → Res (Vec R)) {A : Dict R} (hA : NumCons A)
    (hr : ∀ kv ∈ A, ∀ o ∈ kv.1, o.1 < 2 * ci.nA) {sched : Str → List ℕ}
    (hs : ∀ s, (sched s).Perm (List.range ci.idx2det.length)) (v : Vec R) :
    (∃ w w', propagateState tiny .one ci U false true [.op A] v = .ok w ∧
      propagateState tiny (.many sched) ci U false true [.op A] v = .ok w' ∧
      ∀ i < ci.idx2det.length, w i = w' i) ∧
    (∀ w w', propagateState tiny .one ci U false false [.op A] v = .ok w →
      propagateState tiny (.many sched) ci U false false [.op A] v = .ok w' →
      ∀ i < ci.idx2det.length, w i = w' i) := by
  have h := C20_apply ht hv U hA hr v
  constructor
  · obtain ⟨w, hw, he⟩ := h.2
    obtain ⟨w', hw'⟩ := C21_threaded_unsafe_partial tiny ci U A hs v
    refine ⟨w, w', hw, hw', stateOf_inj hv ?_⟩
    rw [he, C20_apply_threaded tiny hv U hA.ord hr hs true v w' hw']
  · intro w w' hw hw'
    apply stateOf_inj hv
    rw [C20_apply_threaded tiny hv U hA.ord hr hs false v w' hw', ← h.1 w hw, proj_stateOf]

/-- C22: any two schedules give the same vector, also for operators that change the particle number. -/
theorem C22_schedules (tiny : R → Bool) {ci : CIInfo} (hv : ci.Valid)
    (U : Bool → Vec R → Res (Vec R)) {A : Dict R} (hA : ∀ kv ∈ A, NormalOrdered kv.1)
    (hr : ∀ kv ∈ A, ∀ o ∈ kv.1, o.1 < 2 * ci.nA) {sched sched' : Str → List ℕ}
    (hs : ∀ s, (sched s).Perm (List.range ci.idx2det.length))
    (hs' : ∀ s, (sched' s).Perm (List.range ci.idx2det.length)) (b : Bool) (v w w' : Vec R)
    (hw : propagateState tiny (.many sched) ci U false b [.op A] v = .ok w)
    (hw' : propagateState tiny (.many sched') ci U false b [.op A] v = .ok w') :
    ∀ i < ci.idx2det.length, w i = w' i := by
  apply stateOf_inj hv
  rw [C20_apply_threaded tiny hv U hA hr hs b v w hw, C20_apply_threaded tiny hv U hA hr hs' b v w' hw']

/-! ## C23 -/

/-- C23: the matrix times a vector is the operator applied to the vector, whenever the matrix can be
built; with `do_unsafe=True` it always can. -/
theorem C23_matrix {tiny : R → Bool} (ht : ExactTiny tiny) {ci : CIInfo} (hv : ci.Valid)
    (U : Bool → Vec R → Res (Vec R)) (doUnsafe : Bool) (A : Dict R) :
    (∀ M, buildMatrix ci doUnsafe A = .ok M → ∀ v,
      ∃ w, propagateState tiny .one ci U false doUnsafe [.op A] v = .ok w ∧
        ∀ j < ci.idx2det.length, w j = ∑ i ∈ Finset.range ci.idx2det.length, M j i * v i) ∧
    (doUnsafe = true → ∃ M, buildMatrix ci doUnsafe A = .ok M) := by
  refine ⟨fun M hM v => ?_, fun h => by subst h; exact buildMatrix_unsafe ci A⟩
  obtain ⟨w, hw, he⟩ := buildMatrix_apply ht hv doUnsafe A v hM
  refine ⟨w, ?_, he⟩
  unfold propagateState propStep
  simpa using hw

/-- C23: the matrix has the entries `⟨j|A|i⟩`. -/
theorem C23_entries {ci : CIInfo} (hv : ci.Valid) (doUnsafe : Bool) {A : Dict R} (hA : NumCons A)
    (hr : ∀ kv ∈ A, ∀ o ∈ kv.1, o.1 < 2 * ci.nA) {M : Mat R} (hM : buildMatrix ci doUnsafe A = .ok M)
    {i j di dj : ℕ} (hi : ci.idx2det[i]? = some di) (hj : ci.idx2det[j]? = some dj) :
    M j i = inner (ket (decode ci.nA dj)) (sumOp A (ket (decode ci.nA di))) := by
  have ht : ExactTiny (fun _ : R => false) := fun x h => by cases h
  obtain ⟨w, hw, he⟩ := buildMatrix_apply ht hv doUnsafe A (fun k => if k = i then 1 else 0) hM
  obtain ⟨hi', hdi⟩ := List.getElem?_eq_some_iff.1 hi
  obtain ⟨hj', hdj⟩ := List.getElem?_eq_some_iff.1 hj
  have hDi : ci.D i = decode ci.nA di := by unfold CIInfo.D; rw [List.getD_eq_getElem _ _ hi', hdi]
  have hDj : ci.D j = decode ci.nA dj := by unfold CIInfo.D; rw [List.getD_eq_getElem _ _ hj', hdj]
  have h1 := he j hj'
  simp only [mul_ite, mul_one, mul_zero] at h1
  rw [Finset.sum_ite_eq', if_pos (Finset.mem_range.2 hi')] at h1
  rw [← h1, ← coeff_stateOf hv w hj', applyOp_one_sem ht hv doUnsafe _ (hA.good hr) w hw,
    inner_ket_left, hDj]
  have hst : stateOf ci (fun k => if k = i then (1 : R) else 0) = ket (decode ci.nA di) := by
    rw [stateOf_eq, Finset.sum_eq_single i]
    · rw [if_pos rfl, hDi]
    · intro k _ hk; rw [if_neg hk, sgl_zero]
    · intro h; exact absurd (Finset.mem_range.2 hi') h
  rw [hst]
  unfold CIInfo.P
  split
  · rw [← hDj, coeff_proj hv _ hj']
  · rfl

/-- A matrix that is built without error. -/
example : (match buildMatrix exampleSpace false ([([(1, true), (0, false)], 3)] : Dict ℤ) with
    | .ok _ => true | .error _ => false) = true := rfl

/-! ## C24 -/

/-- C24: the ensemble version succeeds exactly when all single-state runs do, and then row `a` of the
result is the single-state result; when it raises, some single-state run raises the same exception.
`USA` and `U` stand for the ensemble and single-state versions of the ansatz. -/
theorem C24_rows {tiny big : R → Bool} (ht : ∀ x, tiny x = true ↔ x = 0)
    (hb : ∀ x, big x = false ↔ x = 0) (th : Threads) (ci : CIInfo)
    (USA : Bool → Mat R → Res (Mat R)) (U : Bool → Vec R → Res (Vec R)) (doFolding doUnsafe : Bool)
    {n : ℕ} (hn : 0 < n)
    (hU : ∀ b M, (∃ M', USA b M = .ok M' ∧ ∀ a < n, U b (M a) = .ok (M' a)) ∨
      ∃ e, USA b M = .error e ∧ ∃ a < n, U b (M a) = .error e)
    (ops : List (StateOp R)) (state : Mat R) :
    (∃ M, propagateStateSA big th ci USA doFolding doUnsafe n ops state = .ok M ∧
      ∀ a < n, propagateState tiny th ci U doFolding doUnsafe ops (state a) = .ok (M a)) ∨
    ∃ e, propagateStateSA big th ci USA doFolding doUnsafe n ops state = .error e ∧
      ∃ a < n, propagateState tiny th ci U doFolding doUnsafe ops (state a) = .error e :=
  propagateStateSA_rows ht hb th ci USA U doFolding doUnsafe hn hU ops state

/-- C24: the ensemble expectation value is the mean of the single-state expectation values. -/
theorem C24_mean {K : Type*} [Field K] {tiny big : K → Bool} (ht : ∀ x, tiny x = true ↔ x = 0)
    (hb : ∀ x, big x = false ↔ x = 0) (th : Threads) (ci : CIInfo)
    (USA : Bool → Mat K → Res (Mat K)) (U : Bool → Vec K → Res (Vec K)) (doFolding : Bool)
    {n : ℕ} (hn : 0 < n)
    (hU : ∀ b M, (∃ M', USA b M = .ok M' ∧ ∀ a < n, U b (M a) = .ok (M' a)) ∨
      ∃ e, USA b M = .error e ∧ ∃ a < n, U b (M a) = .error e)
    (bra kt : Mat K) (ops : List (StateOp K)) :
    (∃ val : ℕ → K, (∀ a < n, expectationValue tiny th ci U doFolding false (bra a) ops (kt a)
        = .ok (val a)) ∧
      expectationValueSA big th ci USA doFolding n bra ops kt
        = .ok ((∑ a ∈ Finset.range n, val a) / n)) ∨
    ∃ e, expectationValueSA big th ci USA doFolding n bra ops kt = .error e ∧
      ∃ a < n, expectationValue tiny th ci U doFolding false (bra a) ops (kt a) = .error e := by
  rcases C24_rows ht hb th ci USA U doFolding false hn hU ops kt with ⟨M, h1, h2⟩ | ⟨e, h1, a, ha, h2⟩
  · refine Or.inl ⟨fun a => dot ci.idx2det.length (bra a) (M a), fun a ha => ?_, ?_⟩
    · unfold expectationValue; rw [h2 a ha]; rfl
    · unfold expectationValueSA
      rw [h1]
      dsimp only
      rw [if_neg (by omega)]
      congr 2
      have : ∀ (l : List ℕ) (x : K), l.foldl (fun val a => val + dot ci.idx2det.length (bra a) (M a)) x
          = x + (l.map fun a => dot ci.idx2det.length (bra a) (M a)).sum := by
        intro l
        induction l with
        | nil => intro x; simp
        | cons a t ih => intro x; rw [List.foldl_cons, ih, List.map_cons, List.sum_cons, add_assoc]
      rw [this, zero_add, list_sum_range]
  · refine Or.inr ⟨e, ?_, a, ha, ?_⟩
    · unfold expectationValueSA; rw [h1]
    · unfold expectationValue; rw [h2]; rfl

/-- The hypotheses on the cut-offs and on the ansatz are met, for example by exact tests and by an
ansatz that negates the state. -/
example : (∀ x : ℚ, (x == 0) = true ↔ x = 0) ∧ (∀ x : ℚ, (x != 0) = false ↔ x = 0) ∧
    ∀ (_ : Bool) (M : Mat ℚ), (∃ M', (Except.ok fun a i => -M a i : Res (Mat ℚ)) = .ok M' ∧
      ∀ a < 2, (Except.ok fun i => -M a i : Res (Vec ℚ)) = .ok (M' a)) ∨
      ∃ e, (Except.ok fun a i => -M a i : Res (Mat ℚ)) = .error e ∧
        ∃ a < 2, (Except.ok fun i => -M a i : Res (Vec ℚ)) = .error e :=
  ⟨by simp, by simp, fun _ M => Or.inl ⟨_, rfl, fun _ _ => rfl⟩⟩

/-! ## C25 -/

/-- C25: an empty list returns the vector, and a longer list is applied from the right: first the tail,
then the head. -/
theorem C25_right_to_left (tiny : R → Bool) (th : Threads) (ci : CIInfo)
    (U : Bool → Vec R → Res (Vec R)) (doFolding doUnsafe : Bool) (v : Vec R) :
    propagateState tiny th ci U doFolding doUnsafe [] v = .ok v ∧
    (∀ o ops, propagateState tiny th ci U doFolding doUnsafe (o :: ops) v =
      (propagateState tiny th ci U doFolding doUnsafe ops v >>= fun w =>
        propagateState tiny th ci U doFolding doUnsafe [o] w)) ∧
    (∀ ops ops', propagateState tiny th ci U doFolding doUnsafe (ops ++ ops') v =
      (propagateState tiny th ci U doFolding doUnsafe ops' v >>= fun w =>
        propagateState tiny th ci U doFolding doUnsafe ops w)) := by
  have key : ∀ ops v, propagateState tiny th ci U doFolding doUnsafe ops v
      = ops.reverse.foldlM (propStep tiny th ci U doFolding doUnsafe) v := by
    intro ops v
    unfold propagateState
    split
    · next h => rw [List.length_eq_zero_iff.1 h]; rfl
    · rfl
  refine ⟨rfl, fun o ops => ?_, fun ops ops' => ?_⟩
  · simp only [key]
    rw [List.reverse_cons, List.foldlM_append]
    rfl
  · simp only [key]
    rw [List.reverse_append, List.foldlM_append]

/-- C25: `'U'` and `'Ud'` apply the ansatz and its inverse, any other string raises. -/
theorem C25_names (tiny : R → Bool) (th : Threads) (ci : CIInfo)
    (U : Bool → Vec R → Res (Vec R)) (doFolding doUnsafe : Bool) (v : Vec R) :
    propagateState tiny th ci U doFolding doUnsafe [.name "U"] v = U false v ∧
    propagateState tiny th ci U doFolding doUnsafe [.name "Ud"] v = U true v ∧
    ∀ s, s ≠ "U" → s ≠ "Ud" →
      propagateState tiny th ci U doFolding doUnsafe [.name s] v = .error .valueError := by
  refine ⟨?_, ?_, fun s h1 h2 => ?_⟩
  · simp [propagateState, propStep]
  · simp [propagateState, propStep]
  · simp [propagateState, propStep, h1, h2]

end SQ
