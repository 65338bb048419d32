import Verif.Lemmas.DetCircuits
import Mathlib.Analysis.SpecialFunctions.Pow.Real
import Mathlib.Algebra.BigOperators.Ring.List

/-!
# Lemmas: expectation values between linear combinations of determinants
-/

namespace SQ

/-! ### The reordering sign -/

theorem det_occString {norb : ℕ} {det : List Char} (h : IsDet norb det) :
    det = occString (2 * norb) ((Finset.range (2 * norb)).filter fun p => det[p]? = some '1') := by
  unfold occString
  apply List.ext_getElem?
  intro i
  by_cases hi : i < 2 * norb
  · have hl : i < det.length := by rw [h.1]; exact hi
    rw [List.getElem?_map, List.getElem?_range hi, List.getElem?_eq_getElem hl]
    simp only [Option.map_some, Finset.mem_filter, Finset.mem_range, hi, true_and]
    rw [List.getElem?_eq_getElem hl]
    rcases h.2 _ (List.getElem_mem hl) with e | e <;> rw [e] <;> simp
  · rw [List.getElem?_eq_none (by rw [h.1]; omega), List.getElem?_eq_none (by simp; omega)]

theorem sign_crossings {norb : ℕ} {det : List Char} (h : IsDet norb det) :
    getReorderingSign det = (-1) ^ (crossings det).card := by
  have e := sign_eq norb ((Finset.range (2 * norb)).filter fun p => det[p]? = some '1')
  rw [← det_occString h] at e
  rw [e, Finset.prod_pow_eq_pow_sum]
  congr 1
  unfold above crossings oddBelow
  rw [h.1, ← Finset.card_sigma]
  refine Finset.card_bij' (fun x _ => (x.1, x.2)) (fun p _ => ⟨p.1, p.2⟩) ?_ ?_ ?_ ?_
  · rintro ⟨a, b⟩ hx
    simp only [Finset.mem_sigma, Finset.mem_filter, Finset.mem_range, Finset.mem_product] at hx ⊢
    tauto
  · rintro ⟨a, b⟩ hx
    simp only [Finset.mem_sigma, Finset.mem_filter, Finset.mem_range, Finset.mem_product] at hx ⊢
    tauto
  · intros; rfl
  · intros; rfl

/-! ### The order of the two determinants -/

theorem lt_position : ∀ {x y : List Char}, x.length = y.length → (∀ c ∈ x, c = '0' ∨ c = '1') →
    (∀ c ∈ y, c = '0' ∨ c = '1') → x < y → ∃ i : ℕ, x[i]? = some '0' ∧ y[i]? = some '1' := by
  intro x
  induction x with
  | nil =>
    intro y hl _ _ hlt
    cases y with
    | nil => exact absurd hlt (List.lt_irrefl _)
    | cons b y => simp at hl
  | cons a x ih =>
    intro y hl hx hy hlt
    cases y with
    | nil => simp at hl
    | cons b y =>
      rcases List.cons_lt_cons_iff.1 hlt with h | ⟨rfl, h⟩
      · refine ⟨0, ?_⟩
        rcases hx a (by simp) with rfl | rfl <;> rcases hy b (by simp) with rfl | rfl
        · exact absurd h (by decide)
        · simp
        · exact absurd h (by decide)
        · exact absurd h (by decide)
      · obtain ⟨i, h1, h2⟩ := ih (by simpa using hl) (fun c hc => hx c (by simp [hc])) (fun c hc => hy c (by simp [hc])) h
        exact ⟨i + 1, by simpa using h1, by simpa using h2⟩

theorem count_le_of_none : ∀ {x y : List Char}, x.length = y.length → (∀ c ∈ x, c = '0' ∨ c = '1') →
    (∀ c ∈ y, c = '0' ∨ c = '1') → (¬ ∃ i : ℕ, x[i]? = some '0' ∧ y[i]? = some '1') →
    y.count '1' ≤ x.count '1' ∧ (y.count '1' = x.count '1' → x = y) := by
  intro x
  induction x with
  | nil =>
    intro y hl _ _ _
    cases y with
    | nil => simp
    | cons b y => simp at hl
  | cons a x ih =>
    intro y hl hx hy hno
    cases y with
    | nil => simp at hl
    | cons b y =>
      have hno' : ¬ ∃ i : ℕ, x[i]? = some '0' ∧ y[i]? = some '1' := by
        rintro ⟨i, h1, h2⟩
        exact hno ⟨i + 1, by simpa using h1, by simpa using h2⟩
      obtain ⟨h1, h2⟩ := ih (by simpa using hl) (fun c hc => hx c (by simp [hc])) (fun c hc => hy c (by simp [hc])) hno'
      have h01 : ¬ (a = '0' ∧ b = '1') := by
        rintro ⟨rfl, rfl⟩
        exact hno ⟨0, by simp, by simp⟩
      rcases hx a (by simp) with rfl | rfl <;> rcases hy b (by simp) with rfl | rfl
      · simp only [List.count_cons]
        simp only [show (('0' : Char) == '1') = false from rfl, Bool.false_eq_true, if_false, add_zero]
        exact ⟨h1, fun h => by rw [h2 h]⟩
      · exact absurd ⟨rfl, rfl⟩ h01
      · simp only [List.count_cons]
        simp only [show (('0' : Char) == '1') = false from rfl, Bool.false_eq_true, if_false, add_zero, beq_self_eq_true, if_true]
        exact ⟨by omega, fun h => by omega⟩
      · simp only [List.count_cons, beq_self_eq_true, if_true]
        exact ⟨by omega, fun h => by rw [h2 (by omega)]⟩

theorem sortedPair_position {norb : ℕ} {r : Bool} {a b : List Char} (ha : IsDet norb a) (hb : IsDet norb b)
    (hr : r = true → a.count '1' = b.count '1') (hne : (sortedPair r a b).1 ≠ (sortedPair r a b).2) :
    ∃ i : ℕ, (sortedPair r a b).1[i]? = some '0' ∧ (sortedPair r a b).2[i]? = some '1' := by
  have hl : a.length = b.length := by rw [ha.1, hb.1]
  cases r with
  | false =>
    unfold sortedPair at hne ⊢
    simp only [Bool.false_eq_true, if_false] at hne ⊢
    split_ifs at hne ⊢ with h
    · exact lt_position hl.symm hb.2 ha.2 h
    · refine lt_position hl ha.2 hb.2 (Classical.byContradiction fun h' => hne ?_)
      exact List.le_antisymm (List.not_lt.1 h) (List.not_lt.1 h')
  | true =>
    have hc := hr rfl
    by_contra hno
    unfold sortedPair at hne hno
    simp only [if_true] at hne hno
    split_ifs at hne hno with h
    · exact hne ((count_le_of_none hl.symm hb.2 ha.2 hno).2 hc)
    · exact hne ((count_le_of_none hl ha.2 hb.2 hno).2 hc.symm)

theorem sortedPair_cases (r : Bool) (a b : List Char) : sortedPair r a b = (a, b) ∨ sortedPair r a b = (b, a) := by
  unfold sortedPair; split_ifs <;> simp

/-! ### Summing equal pairs -/

theorem addWeight_keys (d : List ((List Char × List Char) × ℝ)) (k : List Char × List Char) (w : ℝ) :
    (addWeight d k w).map Prod.fst = if k ∈ d.map Prod.fst then d.map Prod.fst else d.map Prod.fst ++ [k] := by
  unfold addWeight
  have hiff : (d.any fun kv => kv.1 == k) = true ↔ k ∈ d.map Prod.fst := by
    rw [List.any_eq_true, List.mem_map]
    simp only [beq_iff_eq]
  by_cases h : k ∈ d.map Prod.fst
  · rw [if_pos (hiff.2 h), if_pos h, List.map_map]
    refine List.map_congr_left fun kv _ => ?_
    simp only [Function.comp]
    split_ifs with e
    · exact e.symm
    · rfl
  · rw [if_neg (fun h' => h (hiff.1 h')), if_neg h]; simp

theorem addWeight_sum (F : List Char × List Char → ℝ) (d : List ((List Char × List Char) × ℝ)) (hd : (d.map Prod.fst).Nodup)
    (k : List Char × List Char) (w : ℝ) :
    ((addWeight d k w).map fun kv => kv.2 * F kv.1).sum = (d.map fun kv => kv.2 * F kv.1).sum + w * F k := by
  have hmap : ∀ d : List ((List Char × List Char) × ℝ), (d.map Prod.fst).Nodup →
      ((d.map fun kv => if kv.1 = k then (k, kv.2 + w) else kv).map fun kv => kv.2 * F kv.1).sum
        = (d.map fun kv => kv.2 * F kv.1).sum + if k ∈ d.map Prod.fst then w * F k else 0 := by
    intro d
    induction d with
    | nil => intro _; simp
    | cons x d ih =>
      intro hn
      rw [List.map_cons, List.nodup_cons] at hn
      have := ih hn.2
      simp only [List.map_cons, List.sum_cons, this, List.mem_cons]
      by_cases e : x.1 = k
      · have hk : k ∉ d.map Prod.fst := by rw [← e]; exact hn.1
        rw [if_pos e, if_neg hk, if_pos (Or.inl e.symm), e]; ring
      · by_cases hk : k ∈ d.map Prod.fst
        · rw [if_neg e, if_pos hk, if_pos (Or.inr hk)]; ring
        · rw [if_neg e, if_neg hk, if_neg (by rintro (h | h); exacts [e h.symm, hk h])]; ring
  unfold addWeight
  have hiff : (d.any fun kv => kv.1 == k) = true ↔ k ∈ d.map Prod.fst := by
    rw [List.any_eq_true, List.mem_map]
    simp only [beq_iff_eq]
  by_cases h : k ∈ d.map Prod.fst
  · rw [if_pos (hiff.2 h), hmap d hd, if_pos h]
  · rw [if_neg (fun h' => h (hiff.1 h'))]; simp

theorem addWeights_spec (F : List Char × List Char → ℝ) : ∀ (l : List ((List Char × List Char) × ℝ))
    (d : List ((List Char × List Char) × ℝ)), (d.map Prod.fst).Nodup →
    ((l.foldl (fun d x => addWeight d x.1 x.2) d).map fun kv => kv.2 * F kv.1).sum
      = (d.map fun kv => kv.2 * F kv.1).sum + (l.map fun kv => kv.2 * F kv.1).sum ∧
    ∀ k ∈ (l.foldl (fun d x => addWeight d x.1 x.2) d).map Prod.fst, k ∈ d.map Prod.fst ∨ k ∈ l.map Prod.fst := by
  intro l
  induction l with
  | nil => intro d _; exact ⟨by simp, fun k hk => Or.inl hk⟩
  | cons x l ih =>
    intro d hd
    have hn : ((addWeight d x.1 x.2).map Prod.fst).Nodup := by
      rw [addWeight_keys]
      split_ifs with h
      · exact hd
      · rw [List.nodup_append]
        refine ⟨hd, by simp, ?_⟩
        rintro a ha b hb rfl
        rw [List.mem_singleton] at hb
        exact h (hb ▸ ha)
    obtain ⟨h1, h2⟩ := ih _ hn
    refine ⟨?_, fun k hk => ?_⟩
    · rw [List.foldl_cons, h1, addWeight_sum F d hd, List.map_cons, List.sum_cons]; ring
    · rcases h2 k hk with h | h
      · rw [addWeight_keys] at h
        split_ifs at h with hc
        · exact Or.inl h
        · rcases List.mem_append.1 h with h | h
          · exact Or.inl h
          · exact Or.inr (by simp [List.mem_singleton.1 h])
      · exact Or.inr (by rw [List.map_cons]; exact List.mem_cons_of_mem _ h)

/-! ### The bilinear form -/

section form

variable {n : ℕ}

theorem qinner_add_left (φ φ' ψ : QState n) : qinner (φ + φ') ψ = qinner φ ψ + qinner φ' ψ := by
  unfold qinner; simp [add_mul, Finset.sum_add_distrib]

theorem qinner_add_right (φ ψ ψ' : QState n) : qinner φ (ψ + ψ') = qinner φ ψ + qinner φ ψ' := by
  unfold qinner; simp [mul_add, Finset.sum_add_distrib]

theorem qinner_smul_left (c : ℂ) (φ ψ : QState n) : qinner (c • φ) ψ = (starRingEnd ℂ) c * qinner φ ψ := by
  unfold qinner; simp [Finset.mul_sum, mul_assoc]

theorem qinner_smul_right (c : ℂ) (φ ψ : QState n) : qinner φ (c • ψ) = c * qinner φ ψ := by
  unfold qinner; simp [Finset.mul_sum, mul_left_comm]

theorem qinner_zero_left (ψ : QState n) : qinner 0 ψ = 0 := by unfold qinner; simp

theorem qinner_zero_right (φ : QState n) : qinner φ 0 = 0 := by unfold qinner; simp

theorem qinner_list_left {α : Type} (l : List α) (c : α → ℝ) (φ : α → QState n) (ψ : QState n) :
    qinner (l.map fun x => ((c x : ℝ) : ℂ) • φ x).sum ψ = (l.map fun x => (c x : ℂ) * qinner (φ x) ψ).sum := by
  induction l with
  | nil => simp [qinner_zero_left]
  | cons x l ih => simp only [List.map_cons, List.sum_cons, qinner_add_left, qinner_smul_left, ih, Complex.conj_ofReal]

theorem qinner_list_right {α : Type} (l : List α) (c : α → ℝ) (φ : α → QState n) (A : QState n →ₗ[ℂ] QState n)
    (ψ : QState n) :
    qinner ψ (A (l.map fun x => ((c x : ℝ) : ℂ) • φ x).sum) = (l.map fun x => (c x : ℂ) * qinner ψ (A (φ x))).sum := by
  induction l with
  | nil => simp [qinner_zero_right]
  | cons x l ih => simp only [List.map_cons, List.sum_cons, map_add, map_smul, qinner_add_right, qinner_smul_right, ih]

/-- The combination of three expectation values. -/
theorem polarization (A : QState n →ₗ[ℂ] QState n) (hA : ∀ φ ψ, qinner φ (A ψ) = (starRingEnd ℂ) (qinner ψ (A φ)))
    (u v : QState n) :
    (qinner (((Real.sqrt 2 : ℝ) : ℂ)⁻¹ • (u + v)) (A (((Real.sqrt 2 : ℝ) : ℂ)⁻¹ • (u + v)))).re
      = (qinner u (A v)).re + 0.5 * (qinner u (A u)).re + 0.5 * (qinner v (A v)).re := by
  have hs : (starRingEnd ℂ) (((Real.sqrt 2 : ℝ) : ℂ)⁻¹) * (((Real.sqrt 2 : ℝ) : ℂ)⁻¹) = ((0.5 : ℝ) : ℂ) := by
    rw [map_inv₀, Complex.conj_ofReal, ← mul_inv, ← Complex.ofReal_mul, Real.mul_self_sqrt (by norm_num)]
    norm_num
  rw [map_smul, qinner_smul_left, qinner_smul_right, ← mul_assoc, hs, map_add, qinner_add_left, qinner_add_right,
    qinner_add_right, Complex.re_ofReal_mul]
  have h := congrArg Complex.re (hA v u)
  rw [Complex.conj_re] at h
  simp only [Complex.add_re, h]
  ring

end form

theorem foldlM_sum {α : Type} (f : α → Res ℝ) (g : α → ℝ) : ∀ (l : List α) (v : ℝ), (∀ x ∈ l, f x = .ok (g x)) →
    l.foldlM (fun val x => do let t ← f x; return val + t) v = Except.ok (v + (l.map g).sum) := by
  intro l
  induction l with
  | nil => intro v _; simp [pure, Except.pure]
  | cons x l ih =>
    intro v h
    rw [List.foldlM_cons, h x (by simp)]
    refine (ih (v + g x) fun y hy => h y (by simp [hy])).trans ?_
    rw [List.map_cons, List.sum_cons, add_assoc]

/-- Real part of a matrix element. -/
noncomputable def elemRe {norb : ℕ} (A : QState (2 * norb) →ₗ[ℂ] QState (2 * norb)) (k : List Char × List Char) : ℝ :=
  (qinner (basis (detBits norb k.1)) (A (basis (detBits norb k.2)))).re

theorem elemRe_sorted {norb : ℕ} (A : QState (2 * norb) →ₗ[ℂ] QState (2 * norb))
    (hA : ∀ φ ψ, qinner φ (A ψ) = (starRingEnd ℂ) (qinner ψ (A φ))) (r : Bool) (a b : List Char) :
    elemRe A (sortedPair r a b) = elemRe A (a, b) := by
  rcases sortedPair_cases r a b with h | h <;> rw [h]
  unfold elemRe
  rw [hA, Complex.conj_re]

theorem csfsTerm_ok {norb : ℕ} (A : QState (2 * norb) →ₗ[ℂ] QState (2 * norb))
    (hA : ∀ φ ψ, qinner φ (A ψ) = (starRingEnd ℂ) (qinner ψ (A φ))) (E : List (Gate (2 * norb)) → ℝ)
    (hE : ∀ gs, E gs = (qinner (runCircuit gs (zeroState _)) (A (runCircuit gs (zeroState _)))).re)
    {x : (List Char × List Char) × ℝ} (h1 : IsDet norb x.1.1) (h2 : IsDet norb x.1.2)
    (hx : x.1.1 ≠ x.1.2 → ∃ i : ℕ, x.1.1[i]? = some '0' ∧ x.1.2[i]? = some '1') :
    csfsTerm E x = .ok (x.2 * elemRe A x.1) := by
  have hd : ∀ det, IsDet norb det → ∃ c, determinantReference det norb .jordanWigner = .ok c ∧
      E c = (qinner (basis (detBits norb det)) (A (basis (detBits norb det)))).re := by
    intro det hdet
    obtain ⟨gs, e1, e2⟩ := emit_det norb (det := det) (by rw [hdet.1])
    refine ⟨gs, ?_, ?_⟩
    · unfold determinantReference; rw [if_neg (by decide), e1]
    · rw [hE, e2]
  obtain ⟨c1, d1, e1⟩ := hd _ h1
  obtain ⟨c2, d2, e2⟩ := hd _ h2
  unfold csfsTerm
  split_ifs with h
  · rw [d1]
    change Except.ok (x.2 * E c1) = _
    rw [e1]
    unfold elemRe
    rw [← h]
  · obtain ⟨s, f1, f2⟩ := superposition_ok h1 h2 (hx h)
    rw [f1, d1, d2]
    change Except.ok (x.2 * E s - 0.5 * x.2 * E c1 - 0.5 * x.2 * E c2) = _
    rw [e1, e2, hE, f2, polarization A hA]
    unfold elemRe
    congr 1
    ring

theorem csfs_ok {norb : ℕ} (A : QState (2 * norb) →ₗ[ℂ] QState (2 * norb))
    (hA : ∀ φ ψ, qinner φ (A ψ) = (starRingEnd ℂ) (qinner ψ (A φ))) (E : List (Gate (2 * norb)) → ℝ)
    (hE : ∀ gs, E gs = (qinner (runCircuit gs (zeroState _)) (A (runCircuit gs (zeroState _)))).re)
    (r : Bool) (bra ket : List ℝ × List (List Char))
    (hb : ∀ d ∈ bra.2, IsDet norb d) (hk : ∀ d ∈ ket.2, IsDet norb d)
    (lb : bra.2.length ≤ bra.1.length) (lk : ket.2.length ≤ ket.1.length)
    (hr : r = true → ∀ d ∈ bra.2, ∀ d' ∈ ket.2, d.count '1' = d'.count '1') :
    expectationCsfs E .jordanWigner r bra ket
      = .ok (qinner (csfState norb bra.1 bra.2) (A (csfState norb ket.1 ket.2))).re := by
  have hbz : ∀ x ∈ bra.1.zip bra.2, x.2 ∈ bra.2 := fun x hx => (List.of_mem_zip (a := x.1) (b := x.2) hx).2
  have hkz : ∀ x ∈ ket.1.zip ket.2, x.2 ∈ ket.2 := fun x hx => (List.of_mem_zip (a := x.1) (b := x.2) hx).2
  unfold expectationCsfs
  rw [if_neg (by decide)]
  split_ifs with hemp
  · congr 1
    rcases hemp with h | h
    · rw [h]; unfold csfState; rw [List.zip_nil_right]; simp [qinner_zero_left]
    · rw [h]; unfold csfState; rw [List.zip_nil_right]; simp [qinner_zero_right]
  · have z1 : zipCsf bra = .ok (bra.1.zip bra.2) := by unfold zipCsf; rw [if_neg (by omega)]
    have z2 : zipCsf ket = .ok (ket.1.zip ket.2) := by unfold zipCsf; rw [if_neg (by omega)]
    rw [z1, z2]
    change List.foldlM _ 0 (uniqueCombinations r (bra.1.zip bra.2) (ket.1.zip ket.2)) = _
    obtain ⟨s1, s2⟩ := addWeights_spec (elemRe A) ((bra.1.zip bra.2).flatMap fun b => (ket.1.zip ket.2).map fun k =>
      (sortedPair r b.2 k.2, b.1 * k.1 * (getReorderingSign b.2 : ℝ) * (getReorderingSign k.2 : ℝ))) [] (by simp)
    rw [foldlM_sum (csfsTerm E) (fun x => x.2 * elemRe A x.1)]
    · congr 1
      unfold uniqueCombinations
      rw [s1, zero_add, List.map_nil, List.sum_nil, zero_add]
      unfold csfState
      rw [qinner_list_left]
      have hre : ∀ {α : Type} (l : List α) (f : α → ℂ), (l.map f).sum.re = (l.map fun x => (f x).re).sum := by
        intro α l f
        induction l with
        | nil => simp
        | cons x l ih => simp [ih]
      rw [hre, List.map_flatMap, List.flatMap_def, List.sum_flatten, List.map_map]
      congr 1
      refine List.map_congr_left fun b hbm => ?_
      simp only [Function.comp, List.map_map]
      rw [qinner_list_right, Complex.re_ofReal_mul, hre, ← List.sum_map_mul_left]
      congr 1
      refine List.map_congr_left fun k hkm => ?_
      simp only [Function.comp]
      rw [elemRe_sorted A hA, Complex.re_ofReal_mul, sign_crossings (hb _ (hbz b hbm)),
        sign_crossings (hk _ (hkz k hkm))]
      unfold elemRe
      push_cast
      ring
    · intro x hx
      have hx' := s2 x.1 (List.mem_map.2 ⟨x, hx, rfl⟩)
      rcases hx' with h | h
      · simp at h
      · obtain ⟨y, hy, e⟩ := List.mem_map.1 h
        obtain ⟨b, hbm, hy⟩ := List.mem_flatMap.1 hy
        obtain ⟨k, hkm, rfl⟩ := List.mem_map.1 hy
        have hbd := hb _ (hbz b hbm)
        have hkd := hk _ (hkz k hkm)
        have hdets : IsDet norb x.1.1 ∧ IsDet norb x.1.2 := by
          rw [← e]
          rcases sortedPair_cases r b.2 k.2 with h | h <;> simp only [h]
          · exact ⟨hbd, hkd⟩
          · exact ⟨hkd, hbd⟩
        refine csfsTerm_ok A hA E hE hdets.1 hdets.2 fun hne => ?_
        rw [← e] at hne ⊢
        exact sortedPair_position hbd hkd (fun h => hr h _ (hbz b hbm) _ (hkz k hkm)) hne

end SQ
