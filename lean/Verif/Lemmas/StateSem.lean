import Verif.Lemmas.StateKernel
import Verif.Lemmas.OperatorsSem
import Mathlib.Algebra.BigOperators.Group.List.Basic
import Mathlib.Algebra.BigOperators.Intervals

/-! # CI vectors: loops over determinants -/

namespace SQ

variable {R : Type*} [CommRing R]
universe u v

/-! ### Loops that may raise -/

theorem foldlM_add {α : Type*} {β : Type u} {M : Type*} [AddCommMonoid M] (f : β → α → Res β) (Φ : β → M)
    (g : α → M) (l : List α) (h : ∀ a ∈ l, ∀ b b', f b a = .ok b' → Φ b' = Φ b + g a) :
    ∀ b b', l.foldlM f b = .ok b' → Φ b' = Φ b + (l.map g).sum := by
  induction l with
  | nil => intro b b' hb; cases hb; simp
  | cons a t ih =>
    intro b b' hb
    rw [List.foldlM_cons] at hb
    cases hf : f b a with
    | error e => rw [hf] at hb; cases hb
    | ok c =>
      rw [hf] at hb
      have h1 := ih (fun x hx => h x (by simp [hx])) c b' hb
      rw [h1, h a (by simp) b c hf, List.map_cons, List.sum_cons, add_assoc]

theorem foldlM_ok_iff {α : Type*} {β : Type u} (f : β → α → Res β) (P : α → Prop) (l : List α)
    (h : ∀ a ∈ l, ∀ b, (∃ b', f b a = .ok b') ↔ P a) :
    ∀ b, (∃ b', l.foldlM f b = .ok b') ↔ ∀ a ∈ l, P a := by
  induction l with
  | nil => intro b; simp only [List.foldlM_nil, List.not_mem_nil, false_imp_iff, implies_true, iff_true]
           exact ⟨b, rfl⟩
  | cons a t ih =>
    intro b
    rw [List.foldlM_cons]
    have ih := ih fun x hx => h x (by simp [hx])
    cases hf : f b a with
    | error e =>
      have hna : ¬ P a := by
        intro hp
        obtain ⟨b', hb'⟩ := (h a (by simp) b).2 hp
        rw [hf] at hb'; cases hb'
      constructor
      · rintro ⟨b', hb'⟩; cases hb'
      · intro hall; exact absurd (hall a (by simp)) hna
    | ok c =>
      have hpa : P a := (h a (by simp) b).1 ⟨c, hf⟩
      show (∃ b', t.foldlM f c = .ok b') ↔ _
      rw [ih c]
      simp [hpa]

theorem foldlM_err {α : Type*} {β : Type u} (f : β → α → Res β) (err : PyErr) (l : List α)
    (h : ∀ a ∈ l, ∀ b e, f b a = .error e → e = err) :
    ∀ b e, l.foldlM f b = .error e → e = err := by
  induction l with
  | nil => intro b e hb; cases hb
  | cons a t ih =>
    intro b e hb
    rw [List.foldlM_cons] at hb
    cases hf : f b a with
    | error e' =>
      rw [hf] at hb
      have : e' = e := by cases hb; rfl
      rw [← this]; exact h a (by simp) b e' hf
    | ok c =>
      rw [hf] at hb
      exact ih (fun x hx => h x (by simp [hx])) c e hb

/-- Two loops in lockstep: the second succeeds when the first does. -/
theorem foldlM_lockstep {α : Type*} {β : Type u} {γ : Type v} (f : β → α → Res β) (g : γ → α → Res γ)
    (Rel : β → γ → Prop) (l : List α)
    (h : ∀ a ∈ l, ∀ b c b', Rel b c → f b a = .ok b' → ∃ c', g c a = .ok c' ∧ Rel b' c') :
    ∀ b c b', Rel b c → l.foldlM f b = .ok b' → ∃ c', l.foldlM g c = .ok c' ∧ Rel b' c' := by
  induction l with
  | nil => intro b c b' hr hb; cases hb; exact ⟨c, rfl, hr⟩
  | cons a t ih =>
    intro b c b' hr hb
    rw [List.foldlM_cons] at hb
    cases hf : f b a with
    | error e => rw [hf] at hb; cases hb
    | ok b1 =>
      rw [hf] at hb
      obtain ⟨c1, hc1, hr1⟩ := h a (by simp) b c b1 hr hf
      obtain ⟨c', hc', hr'⟩ := ih (fun x hx => h x (by simp [hx])) b1 c1 b' hr1 hb
      refine ⟨c', ?_, hr'⟩
      rw [List.foldlM_cons, hc1]; exact hc'

theorem res_cases {α : Type*} (r : Res α) : (∃ a, r = .ok a) ∨ ∃ e, r = .error e := by
  cases r with
  | ok a => exact Or.inl ⟨a, rfl⟩
  | error e => exact Or.inr ⟨e, rfl⟩

/-! ### `stateOf` -/

/-- Determinant number `i` as a set of spin orbitals. -/
def CIInfo.D (ci : CIInfo) (i : ℕ) : Finset ℕ := decode ci.nA (ci.idx2det.getD i 0)

theorem zipIdx_sum {M : Type*} [AddCommMonoid M] (f : ℕ × ℕ → M) (l : List ℕ) : ∀ k,
    ((l.zipIdx k).map f).sum = ∑ i ∈ Finset.range l.length, f (l.getD i 0, k + i) := by
  induction l with
  | nil => intro k; simp
  | cons d t ih =>
    intro k
    rw [List.zipIdx_cons, List.map_cons, List.sum_cons, ih, List.length_cons, Finset.sum_range_succ']
    rw [add_comm]
    congr 1
    refine Finset.sum_congr rfl fun i _ => ?_
    rw [List.getD_cons_succ]; congr 2; ring

theorem stateOf_eq (ci : CIInfo) (v : Vec R) :
    stateOf ci v = ∑ i ∈ Finset.range ci.idx2det.length, sgl (ci.D i) (v i) := by
  unfold stateOf
  rw [zipIdx_sum (fun p => (sgl (decode ci.nA p.1) (v p.2) : Fock R))]
  simp [CIInfo.D]

theorem CIInfo.Valid.find_lt {ci : CIInfo} (h : ci.Valid) {d j : ℕ} (hf : ci.find d = some j) :
    j < ci.idx2det.length ∧ ci.idx2det.getD j 0 = d := by
  have h1 := (h.inv d j).1 hf
  obtain ⟨h2, h3⟩ := List.getElem?_eq_some_iff.1 h1
  exact ⟨h2, by rw [List.getD_eq_getElem?_getD, h1]; rfl⟩

theorem CIInfo.Valid.getD_mem {ci : CIInfo} {i : ℕ} (hi : i < ci.idx2det.length) :
    ci.idx2det.getD i 0 ∈ ci.idx2det := by
  rw [List.getD_eq_getElem _ _ hi]; exact List.getElem_mem hi

theorem CIInfo.Valid.find_D {ci : CIInfo} (h : ci.Valid) {i : ℕ} (hi : i < ci.idx2det.length) :
    ci.find (ci.idx2det.getD i 0) = some i := by
  rw [h.inv, List.getD_eq_getElem _ _ hi, List.getElem?_eq_getElem hi]

theorem CIInfo.Valid.D_inj {ci : CIInfo} (h : ci.Valid) {i j : ℕ} (hi : i < ci.idx2det.length)
    (hj : j < ci.idx2det.length) (he : ci.D i = ci.D j) : i = j := by
  have h1 := decode_inj (h.bits _ (Valid.getD_mem hi)) (h.bits _ (Valid.getD_mem hj)) he
  have h2 := h.find_D hi
  rw [h1, h.find_D hj] at h2
  exact (Option.some.inj h2).symm

theorem CIInfo.Valid.mem_iff {ci : CIInfo} (S : Finset ℕ) :
    ci.Mem S ↔ ∃ i, i < ci.idx2det.length ∧ ci.D i = S := by
  constructor
  · rintro ⟨d, hd, rfl⟩
    obtain ⟨i, hi, rfl⟩ := List.getElem_of_mem hd
    exact ⟨i, hi, by unfold D; rw [List.getD_eq_getElem _ _ hi]⟩
  · rintro ⟨i, hi, rfl⟩
    exact ⟨_, Valid.getD_mem hi, rfl⟩

theorem CIInfo.Valid.find_none {ci : CIInfo} (h : ci.Valid) {d : ℕ} (hd : d < 2 ^ (2 * ci.nA))
    (hf : ci.find d = none) : ¬ ci.Mem (decode ci.nA d) := by
  rintro ⟨e, he, heq⟩
  have := decode_inj (h.bits e he) hd heq
  subst this
  obtain ⟨i, hi, rfl⟩ := List.getElem_of_mem he
  have h2 := h.find_D hi
  rw [List.getD_eq_getElem _ _ hi, hf] at h2
  cases h2

theorem CIInfo.Valid.find_some_mem {ci : CIInfo} (h : ci.Valid) {d j : ℕ} (hf : ci.find d = some j) :
    ci.Mem (decode ci.nA d) ∧ ci.D j = decode ci.nA d := by
  obtain ⟨h1, h2⟩ := h.find_lt hf
  have : ci.D j = decode ci.nA d := by unfold CIInfo.D; rw [h2]
  exact ⟨(mem_iff _).2 ⟨j, h1, this⟩, this⟩

theorem coeff_sum {ι : Type*} (s : Finset ι) (f : ι → Fock R) (T : Finset ℕ) :
    coeff (∑ i ∈ s, f i) T = ∑ i ∈ s, coeff (f i) T := by
  classical
  induction s using Finset.induction_on with
  | empty => simp [coeff]; rfl
  | insert a s ha ih => rw [Finset.sum_insert ha, Finset.sum_insert ha, coeff_add, ih]

theorem coeff_stateOf {ci : CIInfo} (h : ci.Valid) (v : Vec R) {i : ℕ} (hi : i < ci.idx2det.length) :
    coeff (stateOf ci v) (ci.D i) = v i := by
  rw [stateOf_eq, coeff_sum, Finset.sum_eq_single i]
  · rw [coeff_sgl, if_pos rfl]
  · intro j hj hne
    rw [coeff_sgl, if_neg]
    intro he
    exact hne (h.D_inj (Finset.mem_range.1 hj) hi he)
  · intro hn; exact absurd (Finset.mem_range.2 hi) hn

theorem stateOf_inj {ci : CIInfo} (h : ci.Valid) {v w : Vec R} (he : stateOf ci v = stateOf ci w) :
    ∀ i < ci.idx2det.length, v i = w i := by
  intro i hi
  rw [← coeff_stateOf h v hi, he, coeff_stateOf h w hi]

theorem coeff_stateOf_ne {ci : CIInfo} (v : Vec R) {S : Finset ℕ} (hS : ¬ ci.Mem S) :
    coeff (stateOf ci v) S = 0 := by
  rw [stateOf_eq, coeff_sum]
  refine Finset.sum_eq_zero fun i hi => ?_
  rw [coeff_sgl, if_neg]
  intro he
  exact hS ((CIInfo.Valid.mem_iff S).2 ⟨i, Finset.mem_range.1 hi, he⟩)

theorem stateOf_update {ci : CIInfo} (tmp : Vec R) {j : ℕ} (hj : j < ci.idx2det.length) (x : R) :
    stateOf ci (Function.update tmp j (tmp j + x)) = stateOf ci tmp + sgl (ci.D j) x := by
  rw [stateOf_eq, stateOf_eq]
  have : ∀ i ∈ Finset.range ci.idx2det.length,
      (sgl (ci.D i) (Function.update tmp j (tmp j + x) i) : Fock R)
        = sgl (ci.D i) (tmp i) + if i = j then sgl (ci.D j) x else 0 := by
    intro i _
    by_cases h : i = j
    · subst h; rw [Function.update_self, if_pos rfl, sgl_add]
    · rw [Function.update_of_ne h, if_neg h, add_zero]
  rw [Finset.sum_congr rfl this, Finset.sum_add_distrib, Finset.sum_ite_eq' _ j,
    if_pos (Finset.mem_range.2 hj)]

theorem stateOf_zero (ci : CIInfo) : stateOf ci (0 : Vec R) = 0 := by
  rw [stateOf_eq]; simp

theorem proj_sgl (ci : CIInfo) (S : Finset ℕ) (c : R) :
    ci.proj (sgl S c) = if ci.Mem S then sgl S c else 0 := by
  unfold CIInfo.proj
  rw [liftOp_single]
  split
  · rw [smul_sgl, mul_one]
  · simp

theorem proj_eq {ci : CIInfo} (h : ci.Valid) (x : Fock R) :
    ci.proj x = ∑ i ∈ Finset.range ci.idx2det.length, sgl (ci.D i) (coeff x (ci.D i)) := by
  have key : (ci.proj : FOp R) = ∑ i ∈ Finset.range ci.idx2det.length,
      (liftOp fun S => if S = ci.D i then ket S else 0 : FOp R) := by
    apply fop_ext
    intro S
    rw [proj_sgl, LinearMap.sum_apply]
    simp only [liftOp_single, one_smul]
    by_cases hS : ci.Mem S
    · rw [if_pos hS]
      obtain ⟨i, hi, hiS⟩ := (CIInfo.Valid.mem_iff S).1 hS
      rw [Finset.sum_eq_single i]
      · rw [if_pos hiS.symm]
      · intro j hj hne
        rw [if_neg]
        intro he
        exact hne (h.D_inj (Finset.mem_range.1 hj) hi (by rw [← he, hiS]))
      · intro hn; exact absurd (Finset.mem_range.2 hi) hn
    · rw [if_neg hS]
      refine (Finset.sum_eq_zero fun i hi => ?_).symm
      rw [if_neg]
      intro he
      exact hS ((CIInfo.Valid.mem_iff S).2 ⟨i, Finset.mem_range.1 hi, he.symm⟩)
  rw [key, LinearMap.sum_apply]
  refine Finset.sum_congr rfl fun i _ => ?_
  have : (liftOp fun S => if S = ci.D i then ket S else 0 : FOp R) x = sgl (ci.D i) (coeff x (ci.D i)) := by
    apply fock_ext
    intro T
    rw [coeff_sgl]
    -- both sides are linear in x
    have lin : ∀ y : Finset ℕ →₀ R, coeff ((liftOp fun S => if S = ci.D i then ket S else 0 : FOp R)
        (show Fock R from y)) T = if ci.D i = T then y (ci.D i) else 0 := by
      intro y
      induction y using Finsupp.induction_linear with
      | zero =>
        have : (liftOp fun S => if S = ci.D i then ket S else 0 : FOp R) (0 : Fock R) = 0 := map_zero _
        rw [show ((0 : Finset ℕ →₀ R) : Fock R) = (0 : Fock R) from rfl, this]
        show (0 : R) = if ci.D i = T then 0 else 0
        simp
      | add f g hf hg =>
        have : (liftOp fun S => if S = ci.D i then ket S else 0 : FOp R) (show Fock R from f + g)
            = (liftOp fun S => if S = ci.D i then ket S else 0 : FOp R) (show Fock R from f)
              + (liftOp fun S => if S = ci.D i then ket S else 0 : FOp R) (show Fock R from g) :=
          map_add _ (show Fock R from f) (show Fock R from g)
        rw [this, coeff_add, hf, hg]
        split <;> simp
      | single S c =>
        have : (liftOp fun S => if S = ci.D i then ket S else 0 : FOp R) (sgl S c)
            = c • if S = ci.D i then ket S else 0 := liftOp_single _ _ _
        show coeff ((liftOp fun S => if S = ci.D i then ket S else 0 : FOp R) (sgl S c)) T = _
        rw [this]
        by_cases hS : S = ci.D i
        · subst hS
          rw [if_pos rfl, smul_sgl, mul_one, coeff_sgl]
          simp
        · rw [if_neg hS, smul_zero, Finsupp.single_apply, if_neg hS]
          simp [coeff]; rfl
    exact lin x
  exact this

theorem proj_stateOf (ci : CIInfo) (v : Vec R) : ci.proj (stateOf ci v) = stateOf ci v := by
  rw [stateOf_eq, map_sum]
  refine Finset.sum_congr rfl fun i hi => ?_
  rw [proj_sgl, if_pos ((CIInfo.Valid.mem_iff _).2 ⟨i, Finset.mem_range.1 hi, rfl⟩)]

/-- Projection when contributions outside are ignored, identity otherwise. -/
noncomputable def CIInfo.P (ci : CIInfo) (doUnsafe : Bool) : FOp R := if doUnsafe then ci.proj else 1

/-! ### Serial kernel -/

/-- A string the kernels are meant for. -/
structure GoodStr (n : ℕ) (s : Str) : Prop where
  ord : NormalOrdered s
  bal : Balanced s
  rng : ∀ o ∈ s, o.1 < 2 * n

theorem deliver_err {β : Type _} {ci : CIInfo} {b : Bool} {d : ℕ} {tmp : β} {upd : ℕ → β} {e : PyErr}
    (h : deliver ci b d tmp upd = .error e) : e = .keyError := by
  unfold deliver at h
  split at h
  · cases h
  · cases b
    · cases h; rfl
    · cases h

theorem deliver_unsafe {β : Type _} (ci : CIInfo) (d : ℕ) (tmp : β) (upd : ℕ → β) :
    ∃ t, deliver ci true d tmp upd = .ok t := by
  unfold deliver
  split
  · exact ⟨_, rfl⟩
  · exact ⟨_, rfl⟩

theorem mem_zipIdx_iff {ci : CIInfo} {p : ℕ × ℕ} (hp : p ∈ ci.idx2det.zipIdx) :
    p.2 < ci.idx2det.length ∧ p.1 = ci.idx2det.getD p.2 0 ∧ p.1 ∈ ci.idx2det := by
  obtain ⟨d, i⟩ := p
  have h := List.mem_zipIdx hp
  simp only [zero_add] at h
  refine ⟨h.2.1, ?_, ?_⟩
  · rw [List.getD_eq_getElem _ _ h.2.1]; simpa using h.2.2
  · rw [h.2.2]; exact List.getElem_mem _

/-- Step of `applySerial` written with its parameters filled in. -/
def sStep (tiny : R → Bool) (ci : CIInfo) (doUnsafe : Bool) (state : Vec R) (s : Str) (factor : R) :
    Vec R → ℕ × ℕ → Res (Vec R) :=
  serialStep tiny ci (parityCheck ci.nA) doUnsafe state (anniIdx s ++ createIdx s)
    (maskOf (2 * ci.nA - 1) ((createIdx s).filter fun i => !(anniIdx s).contains i))
    (maskOf (2 * ci.nA - 1) (anniIdx s)) factor

theorem applySerial_eq (tiny : R → Bool) (ci : CIInfo) (doUnsafe : Bool) (state : Vec R) (s : Str)
    (factor : R) (tmp : Vec R) : applySerial tiny ci doUnsafe state s factor tmp
      = ci.idx2det.zipIdx.foldlM (sStep tiny ci doUnsafe state s factor) tmp := rfl

/-- The step in terms of the determinant. -/
theorem sStep_eq (tiny : R → Bool) {ci : CIInfo} (doUnsafe : Bool) (state : Vec R) {s : Str}
    (hr : ∀ o ∈ s, o.1 < 2 * ci.nA) (factor : R) (tmp : Vec R) (p : ℕ × ℕ) :
    sStep tiny ci doUnsafe state s factor tmp p =
      if ¬ Passes s (decode ci.nA p.1) then .ok tmp
      else if tiny (state p.2) then .ok tmp
      else deliver ci doUnsafe
        (flips (2 * ci.nA - 1) (parityCheck ci.nA) (anniIdx s ++ createIdx s) p.1).1 tmp fun j =>
          Function.update tmp j (tmp j + signOf (flips (2 * ci.nA - 1)
            (parityCheck ci.nA) (anniIdx s ++ createIdx s) p.1).2 * factor * state p.2) := by
  have hm := masks_serial hr p.1
  unfold sStep serialStep
  by_cases h1 : p.1 &&& maskOf (2 * ci.nA - 1) (anniIdx s) = maskOf (2 * ci.nA - 1) (anniIdx s)
  · by_cases h2 : p.1 &&& maskOf (2 * ci.nA - 1)
      ((createIdx s).filter fun i => !(anniIdx s).contains i) = 0
    · have hp := hm.1 ⟨h1, h2⟩
      rw [if_neg (not_not.2 h1), if_neg (not_not.2 h2), if_neg (not_not.2 hp)]
    · have hp : ¬ Passes s (decode ci.nA p.1) := fun hp => h2 (hm.2 hp).2
      rw [if_neg (not_not.2 h1), if_pos h2, if_pos hp]
  · have hp : ¬ Passes s (decode ci.nA p.1) := fun hp => h1 (hm.2 hp).1
    rw [if_pos h1, if_pos hp]

theorem sStep_sem {tiny : R → Bool} (ht : ExactTiny tiny) {ci : CIInfo} (hv : ci.Valid)
    (doUnsafe : Bool) (state : Vec R) {s : Str} (hs : GoodStr ci.nA s) (factor : R)
    {p : ℕ × ℕ} (hp : p ∈ ci.idx2det.zipIdx) (tmp tmp' : Vec R)
    (hok : sStep tiny ci doUnsafe state s factor tmp p = .ok tmp') :
    stateOf ci tmp' = stateOf ci tmp
      + ci.P doUnsafe (factor • strOp s (sgl (decode ci.nA p.1) (state p.2))) := by
  obtain ⟨h1, h2, h3⟩ := mem_zipIdx_iff hp
  rw [sStep_eq _ _ _ hs.rng] at hok
  by_cases hpass : Passes s (decode ci.nA p.1)
  · rw [if_neg (not_not.2 hpass)] at hok
    rw [strOp_pass hs.ord hs.bal hs.rng hpass]
    by_cases hz : tiny (state p.2) = true
    · rw [if_pos hz] at hok
      cases hok
      rw [ht _ hz]; simp
    · rw [if_neg hz] at hok
      set r := flips (2 * ci.nA - 1) (parityCheck ci.nA) (anniIdx s ++ createIdx s) p.1 with hrdef
      have hlt : r.1 < 2 ^ (2 * ci.nA) := by
        apply flips_lt
        · intro o ho
          rcases List.mem_append.1 ho with h | h
          · exact hs.rng _ (mem_anniIdx.1 h)
          · exact hs.rng _ (mem_createIdx.1 h)
        · exact hv.bits _ h3
      cases hf : ci.find r.1 with
      | some j =>
        unfold deliver at hok; rw [hf] at hok
        cases hok
        obtain ⟨hm, hD⟩ := hv.find_some_mem hf
        rw [stateOf_update _ (hv.find_lt hf).1, hD, smul_sgl]
        have : ci.P doUnsafe (sgl (decode ci.nA r.1) (factor * (state p.2 * signOf r.2)))
            = (sgl (decode ci.nA r.1) (factor * (state p.2 * signOf r.2)) : Fock R) := by
          unfold CIInfo.P; split
          · rw [proj_sgl, if_pos hm]
          · rfl
        rw [this]
        congr 2; ring
      | none =>
        unfold deliver at hok; rw [hf] at hok
        cases doUnsafe
        · simp at hok
        · have : tmp = tmp' := by simpa using hok
          subst this
          unfold CIInfo.P
          rw [if_pos rfl, smul_sgl, proj_sgl, if_neg (hv.find_none hlt hf), add_zero]
  · rw [if_pos hpass] at hok
    cases hok
    rw [strOp_fail hs.ord hpass]; simp

/-- When the step raises. -/
theorem sStep_ok_iff (tiny : R → Bool) {ci : CIInfo} (hv : ci.Valid) [Nontrivial R]
    (doUnsafe : Bool) (state : Vec R) {s : Str} (hs : GoodStr ci.nA s) (factor : R)
    {p : ℕ × ℕ} (hp : p ∈ ci.idx2det.zipIdx) (tmp : Vec R) :
    (∃ tmp', sStep tiny ci doUnsafe state s factor tmp p = .ok tmp') ↔
      (doUnsafe = true ∨ tiny (state p.2) = true ∨
        ∀ S, coeff (strOp s (ket (decode ci.nA p.1)) : Fock R) S ≠ 0 → ci.Mem S) := by
  obtain ⟨h1, h2, h3⟩ := mem_zipIdx_iff hp
  rw [sStep_eq _ _ _ hs.rng]
  by_cases hpass : Passes s (decode ci.nA p.1)
  · rw [if_neg (not_not.2 hpass), strOp_pass hs.ord hs.bal hs.rng hpass]
    by_cases hz : tiny (state p.2) = true
    · rw [if_pos hz]
      exact ⟨fun _ => Or.inr (Or.inl hz), fun _ => ⟨tmp, rfl⟩⟩
    · rw [if_neg hz]
      set r := flips (2 * ci.nA - 1) (parityCheck ci.nA) (anniIdx s ++ createIdx s) p.1 with hrdef
      have hlt : r.1 < 2 ^ (2 * ci.nA) := by
        apply flips_lt
        · intro o ho
          rcases List.mem_append.1 ho with h | h
          · exact hs.rng _ (mem_anniIdx.1 h)
          · exact hs.rng _ (mem_createIdx.1 h)
        · exact hv.bits _ h3
      cases hf : ci.find r.1 with
      | some j =>
        refine ⟨fun _ => Or.inr (Or.inr ?_), fun _ => by unfold deliver; rw [hf]; exact ⟨_, rfl⟩⟩
        intro S hS
        rw [coeff_sgl] at hS
        split at hS
        · next h => rw [← h]; exact (hv.find_some_mem hf).1
        · exact absurd rfl hS
      | none =>
        have hn := hv.find_none hlt hf
        unfold deliver; rw [hf]
        cases doUnsafe
        · simp only [Bool.false_eq_true, if_false, false_or, reduceCtorEq, exists_false, false_iff]
          rintro (h | h)
          · exact hz h
          · apply hn
            apply h
            rw [coeff_sgl, if_pos rfl, one_mul, signOf_eq]
            intro h0
            have : ((-1 : R) ^ r.2) * (-1) ^ r.2 = 1 := by
              rw [← pow_add, ← two_mul, pow_mul]; simp
            rw [h0] at this; simp at this
        · simp
  · rw [if_pos hpass]
    refine ⟨fun _ => Or.inr (Or.inr ?_), fun _ => ⟨tmp, rfl⟩⟩
    intro S hS
    rw [strOp_fail hs.ord hpass] at hS
    exact absurd rfl hS

theorem sStep_err (tiny : R → Bool) {ci : CIInfo} (doUnsafe : Bool) (state : Vec R) {s : Str}
    (factor : R) (p : ℕ × ℕ) (tmp : Vec R) (e : PyErr)
    (h : sStep tiny ci doUnsafe state s factor tmp p = .error e) : e = .keyError := by
  unfold sStep serialStep at h
  split at h
  · cases h
  · split at h
    · cases h
    · split at h
      · cases h
      · exact deliver_err h

theorem map_list_sum' (T : FOp R) (l : List (Fock R)) : T l.sum = (l.map T).sum := by
  induction l with
  | nil => simp
  | cons a t ih => simp [ih]

theorem applySerial_sem {tiny : R → Bool} (ht : ExactTiny tiny) {ci : CIInfo} (hv : ci.Valid)
    (doUnsafe : Bool) (state : Vec R) {s : Str} (hs : GoodStr ci.nA s) (factor : R)
    (tmp tmp' : Vec R) (hok : applySerial tiny ci doUnsafe state s factor tmp = .ok tmp') :
    stateOf ci tmp' = stateOf ci tmp + ci.P doUnsafe (factor • strOp s (stateOf ci state)) := by
  rw [applySerial_eq] at hok
  have key := foldlM_add (sStep tiny ci doUnsafe state s factor) (stateOf ci)
    (fun p => ci.P doUnsafe (factor • strOp s (sgl (decode ci.nA p.1) (state p.2))))
    ci.idx2det.zipIdx (fun p hp b b' h => sStep_sem ht hv doUnsafe state hs factor hp b b' h) tmp tmp' hok
  rw [key]
  congr 1
  have hT : ∀ x : Fock R, (ci.P doUnsafe * (factor • strOp s) : FOp R) x
      = ci.P doUnsafe (factor • strOp s x) := fun x => rfl
  unfold stateOf
  rw [← hT, map_list_sum', List.map_map]
  refine congrArg List.sum (List.map_congr_left fun p _ => ?_)
  rw [Function.comp, hT]

/-- The string can be applied inside the space. -/
def InsideFor (tiny : R → Bool) (ci : CIInfo) (state : Vec R) (s : Str) : Prop :=
  ∀ i < ci.idx2det.length, tiny (state i) = true ∨
    ∀ S, coeff (strOp s (ket (ci.D i)) : Fock R) S ≠ 0 → ci.Mem S

theorem applySerial_ok_iff (tiny : R → Bool) {ci : CIInfo} (hv : ci.Valid) [Nontrivial R]
    (doUnsafe : Bool) (state : Vec R) {s : Str} (hs : GoodStr ci.nA s) (factor : R) (tmp : Vec R) :
    (∃ tmp', applySerial tiny ci doUnsafe state s factor tmp = .ok tmp') ↔
      (doUnsafe = true ∨ InsideFor tiny ci state s) := by
  rw [applySerial_eq, foldlM_ok_iff _ _ _ fun p hp b => sStep_ok_iff tiny hv doUnsafe state hs factor hp b]
  constructor
  · intro h
    cases doUnsafe
    · right
      intro i hi
      have hm : (ci.idx2det.getD i 0, i) ∈ ci.idx2det.zipIdx := by
        rw [List.mem_zipIdx_iff_getElem?, List.getD_eq_getElem _ _ hi, List.getElem?_eq_getElem hi]
      rcases h _ hm with h | h
      · cases h
      · exact h
    · exact Or.inl rfl
  · rintro (h | h) p hp
    · exact Or.inl h
    · obtain ⟨h1, h2, _⟩ := mem_zipIdx_iff hp
      right
      have := h p.2 h1
      unfold CIInfo.D at this
      rw [← h2] at this; exact this

theorem applySerial_err (tiny : R → Bool) {ci : CIInfo} (doUnsafe : Bool) (state : Vec R) {s : Str}
    (factor : R) (tmp : Vec R) (e : PyErr)
    (h : applySerial tiny ci doUnsafe state s factor tmp = .error e) : e = .keyError := by
  rw [applySerial_eq] at h
  exact foldlM_err _ _ _ (fun p _ b e => sStep_err tiny doUnsafe state factor p b e) _ _ h

/-! ### Threaded kernel -/

/-- Step of `applyThreaded` with its parameters filled in. -/
def tStep (ci : CIInfo) (doUnsafe : Bool) (state : Vec R) (s : Str) (factor : R) :
    Vec R → ℕ → Res (Vec R) :=
  threadedStep ci (parityCheck ci.nA) doUnsafe state (createIdx s ++ anniIdx s)
    (maskOf (2 * ci.nA - 1) (createIdx s))
    (maskOf (2 * ci.nA - 1) ((anniIdx s).filter fun i => !(createIdx s).contains i)) factor

theorem applyThreaded_eq (ci : CIInfo) (doUnsafe : Bool) (order : List ℕ) (state : Vec R) (s : Str)
    (factor : R) (tmp : Vec R) : applyThreaded ci doUnsafe order state s factor tmp
      = order.foldlM (tStep ci doUnsafe state s factor) tmp := rfl

theorem tStep_eq {ci : CIInfo} (doUnsafe : Bool) (state : Vec R) {s : Str}
    (hr : ∀ o ∈ s, o.1 < 2 * ci.nA) (factor : R) (tmp : Vec R) {i : ℕ} (hi : i < ci.idx2det.length) :
    tStep ci doUnsafe state s factor tmp i =
      if ¬ PassesT s (ci.D i) then .ok tmp
      else deliver ci doUnsafe (flips (2 * ci.nA - 1) (parityCheck ci.nA) (createIdx s ++ anniIdx s)
          (ci.idx2det.getD i 0)).1 tmp fun j =>
          Function.update tmp i (tmp i + signOf (flips (2 * ci.nA - 1)
            (parityCheck ci.nA) (createIdx s ++ anniIdx s) (ci.idx2det.getD i 0)).2 * factor * state j) := by
  have hm := masks_threaded hr (ci.idx2det.getD i 0)
  have hg : ci.idx2det[i]? = some (ci.idx2det.getD i 0) := by
    rw [List.getD_eq_getElem _ _ hi, List.getElem?_eq_getElem hi]
  unfold tStep threadedStep
  rw [hg]
  dsimp only
  by_cases h1 : ci.idx2det.getD i 0 &&& maskOf (2 * ci.nA - 1) (createIdx s)
      = maskOf (2 * ci.nA - 1) (createIdx s)
  · by_cases h2 : ci.idx2det.getD i 0 &&& maskOf (2 * ci.nA - 1)
      ((anniIdx s).filter fun i => !(createIdx s).contains i) = 0
    · have hp := hm.1 ⟨h1, h2⟩
      rw [if_neg (not_not.2 h1), if_neg (not_not.2 h2), if_neg (not_not.2 (show PassesT s (ci.D i) from hp))]
    · have hp : ¬ PassesT s (ci.D i) := fun hp => h2 (hm.2 hp).2
      rw [if_neg (not_not.2 h1), if_pos h2, if_pos hp]
  · have hp : ¬ PassesT s (ci.D i) := fun hp => h1 (hm.2 hp).1
    rw [if_pos h1, if_pos hp]

theorem coeff_strOp_adj (s : Str) (S : Finset ℕ) (x : Fock R) :
    coeff (strOp s x) S = inner (strOp (adjStr s) (ket S)) x := by
  rw [← inner_ket_left, inner_comm, (adj_isAdjoint s) x (ket S), inner_comm]

theorem tStep_sem {ci : CIInfo} (hv : ci.Valid)
    (doUnsafe : Bool) (state : Vec R) {s : Str} (hn : NormalOrdered s)
    (hr : ∀ o ∈ s, o.1 < 2 * ci.nA) (factor : R)
    {i : ℕ} (hi : i < ci.idx2det.length) (tmp tmp' : Vec R)
    (hok : tStep ci doUnsafe state s factor tmp i = .ok tmp') :
    stateOf ci tmp' = stateOf ci tmp
      + sgl (ci.D i) (coeff (factor • strOp s (stateOf ci state)) (ci.D i)) := by
  rw [tStep_eq _ _ hr _ _ hi] at hok
  rw [coeff_smul, coeff_strOp_adj]
  by_cases hpass : PassesT s (ci.D i)
  · rw [if_neg (not_not.2 hpass)] at hok
    have hadj := adj_pass (R := R) hn hr (det := ci.idx2det.getD i 0) hpass 1
    set r := flips (2 * ci.nA - 1) (parityCheck ci.nA) (createIdx s ++ anniIdx s)
      (ci.idx2det.getD i 0) with hrdef
    have hlt : r.1 < 2 ^ (2 * ci.nA) := by
      apply flips_lt
      · intro o ho
        rcases List.mem_append.1 ho with h | h
        · exact hr _ (mem_createIdx.1 h)
        · exact hr _ (mem_anniIdx.1 h)
      · exact hv.bits _ (CIInfo.Valid.getD_mem hi)
    have hin : inner (strOp (adjStr s) (ket (ci.D i))) (stateOf ci state)
        = signOf r.2 * coeff (stateOf ci state) (decode ci.nA r.1) := by
      show inner (strOp (adjStr s) (sgl (decode ci.nA (ci.idx2det.getD i 0)) 1)) _ = _
      rw [hadj, one_mul, ← mul_one (signOf r.2), ← smul_sgl, inner_smul_left, inner_ket_left, mul_one]
    rw [hin]
    cases hf : ci.find r.1 with
    | some j =>
      unfold deliver at hok; rw [hf] at hok
      cases hok
      obtain ⟨_, hD⟩ := hv.find_some_mem hf
      rw [stateOf_update _ hi, ← hD, coeff_stateOf hv _ (hv.find_lt hf).1]
      congr 2; ring
    | none =>
      unfold deliver at hok; rw [hf] at hok
      cases doUnsafe
      · simp at hok
      · have : tmp = tmp' := by simpa using hok
        subst this
        rw [coeff_stateOf_ne _ (hv.find_none hlt hf)]; simp
  · rw [if_pos hpass] at hok
    cases hok
    rw [adj_fail hn hpass]
    have h0 : inner (0 : Fock R) (stateOf ci state) = 0 := by
      have := inner_smul_left (0 : R) (0 : Fock R) (stateOf ci state)
      rwa [zero_smul, zero_mul] at this
    rw [h0]; simp

theorem applyThreaded_sem {ci : CIInfo} (hv : ci.Valid)
    (doUnsafe : Bool) (state : Vec R) {s : Str} (hn : NormalOrdered s)
    (hr : ∀ o ∈ s, o.1 < 2 * ci.nA) (factor : R) {order : List ℕ}
    (ho : order.Perm (List.range ci.idx2det.length)) (tmp tmp' : Vec R)
    (hok : applyThreaded ci doUnsafe order state s factor tmp = .ok tmp') :
    stateOf ci tmp' = stateOf ci tmp + ci.proj (factor • strOp s (stateOf ci state)) := by
  rw [applyThreaded_eq] at hok
  rw [foldlM_add (tStep ci doUnsafe state s factor) (stateOf ci) (fun i => sgl (ci.D i) (coeff (factor • strOp s (stateOf ci state)) (ci.D i)))
    _ (fun i hi b b' h => tStep_sem hv doUnsafe state hn hr factor
      (List.mem_range.1 (ho.mem_iff.1 hi)) b b' h) tmp tmp' hok]
  congr 1
  rw [proj_eq hv, (ho.map _).sum_eq, list_sum_range]

theorem tStep_unsafe {ci : CIInfo} (state : Vec R) (s : Str) (factor : R) (tmp : Vec R) {i : ℕ}
    (hi : i < ci.idx2det.length) : ∃ tmp', tStep ci true state s factor tmp i = .ok tmp' := by
  unfold tStep threadedStep
  rw [List.getElem?_eq_getElem hi]
  dsimp only
  split
  · exact ⟨_, rfl⟩
  · split
    · exact ⟨_, rfl⟩
    · exact deliver_unsafe _ _ _ _

theorem applyThreaded_unsafe {ci : CIInfo} (state : Vec R) (s : Str) (factor : R) (tmp : Vec R)
    {order : List ℕ} (ho : order.Perm (List.range ci.idx2det.length)) :
    ∃ tmp', applyThreaded ci true order state s factor tmp = .ok tmp' := by
  rw [applyThreaded_eq]
  rw [foldlM_ok_iff _ (fun _ => True) order fun i hi b =>
    ⟨fun _ => trivial, fun _ => tStep_unsafe state s factor b (List.mem_range.1 (ho.mem_iff.1 hi))⟩]
  simp

/-! ### Whole operators -/

/-- An operator the kernels are meant for. -/
structure GoodOp (n : ℕ) (A : Dict R) : Prop where
  ord : ∀ kv ∈ A, NormalOrdered kv.1
  bal : ∀ kv ∈ A, Balanced kv.1
  rng : ∀ kv ∈ A, ∀ o ∈ kv.1, o.1 < 2 * n

theorem GoodOp.str {n : ℕ} {A : Dict R} (h : GoodOp n A) {kv : Str × R} (hk : kv ∈ A) :
    GoodStr n kv.1 := ⟨h.ord kv hk, h.bal kv hk, h.rng kv hk⟩

theorem sumOp_apply (A : Dict R) (x : Fock R) :
    sumOp A x = (A.map fun kv => kv.2 • strOp kv.1 x).sum := by
  induction A with
  | nil => simp
  | cons kv t ih => simp [ih]

theorem applyOp_one_sem {tiny : R → Bool} (ht : ExactTiny tiny) {ci : CIInfo} (hv : ci.Valid)
    (doUnsafe : Bool) (state : Vec R) {A : Dict R} (hA : GoodOp ci.nA A) (v' : Vec R)
    (hok : applyOp tiny .one ci doUnsafe state A = .ok v') :
    stateOf ci v' = ci.P doUnsafe (sumOp A (stateOf ci state)) := by
  rw [foldlM_add _ (stateOf ci) (fun kv : Str × R => ci.P doUnsafe (kv.2 • strOp kv.1 (stateOf ci state)))
    A (fun kv hk b b' h => applySerial_sem ht hv doUnsafe state (hA.str hk) kv.2 b b' h) 0 v' hok,
    stateOf_zero, zero_add, sumOp_apply, map_list_sum', List.map_map]
  rfl

theorem applyOp_many_sem (tiny : R → Bool) {ci : CIInfo} (hv : ci.Valid)
    (doUnsafe : Bool) (state : Vec R) {A : Dict R} (hn : ∀ kv ∈ A, NormalOrdered kv.1)
    (hr : ∀ kv ∈ A, ∀ o ∈ kv.1, o.1 < 2 * ci.nA) {sched : Str → List ℕ}
    (hs : ∀ s, (sched s).Perm (List.range ci.idx2det.length)) (v' : Vec R)
    (hok : applyOp tiny (.many sched) ci doUnsafe state A = .ok v') :
    stateOf ci v' = ci.proj (sumOp A (stateOf ci state)) := by
  rw [foldlM_add _ (stateOf ci) (fun kv : Str × R => ci.proj (kv.2 • strOp kv.1 (stateOf ci state)))
    A (fun kv hk b b' h => applyThreaded_sem hv doUnsafe state (hn kv hk) (hr kv hk) kv.2 (hs kv.1) b b' h)
    0 v' hok, stateOf_zero, zero_add, sumOp_apply, map_list_sum', List.map_map]
  rfl

theorem applyOp_one_ok_iff (tiny : R → Bool) {ci : CIInfo} (hv : ci.Valid) [Nontrivial R]
    (doUnsafe : Bool) (state : Vec R) {A : Dict R} (hA : GoodOp ci.nA A) :
    (∃ v', applyOp tiny .one ci doUnsafe state A = .ok v') ↔
      (doUnsafe = true ∨ ∀ kv ∈ A, InsideFor tiny ci state kv.1) := by
  show (∃ v', A.foldlM (fun tmp kv => applySerial tiny ci doUnsafe state kv.1 kv.2 tmp) 0 = .ok v') ↔ _
  rw [foldlM_ok_iff _ _ A fun kv hk b => applySerial_ok_iff tiny hv doUnsafe state (hA.str hk) kv.2 b]
  constructor
  · intro h
    cases doUnsafe
    · right; intro kv hk
      rcases h kv hk with h | h
      · cases h
      · exact h
    · exact Or.inl rfl
  · rintro (h | h) kv hk
    · exact Or.inl h
    · exact Or.inr (h kv hk)

theorem applyOp_one_err (tiny : R → Bool) {ci : CIInfo} (doUnsafe : Bool) (state : Vec R) (A : Dict R)
    (e : PyErr) (h : applyOp tiny .one ci doUnsafe state A = .error e) : e = .keyError :=
  foldlM_err _ _ A (fun kv _ b e => applySerial_err tiny doUnsafe state kv.2 b e) 0 e h

theorem applyOp_many_unsafe (tiny : R → Bool) {ci : CIInfo} (state : Vec R) (A : Dict R)
    {sched : Str → List ℕ} (hs : ∀ s, (sched s).Perm (List.range ci.idx2det.length)) :
    ∃ v', applyOp tiny (.many sched) ci true state A = .ok v' := by
  show ∃ v', A.foldlM (fun tmp kv => applyThreaded ci true (sched kv.1) state kv.1 kv.2 tmp) 0 = .ok v'
  rw [foldlM_ok_iff _ (fun _ => True) A fun kv _ b =>
    ⟨fun _ => trivial, fun _ => applyThreaded_unsafe state kv.1 kv.2 b (hs kv.1)⟩]
  simp

end SQ
