import Verif.Lemmas.QubitMap

/-!
# Lemmas: labels of operators without diagonal elements
-/

namespace SQ

open Finset

variable {n : ℕ}

/-! ### A mapper that merges equal labels and leaves out those that cancel -/

theorem obsOp_coeff (o : List (List Char × ℂ)) {Q : Finset (List Char)} (hQ : ∀ pc ∈ o, pc.1 ∈ Q) (ψ : QState n) :
    obsOp n o ψ = ∑ q ∈ Q, labelCoeff o q • pauliOp n q ψ := by
  induction o with
  | nil => simp [obsOp, labelCoeff]
  | cons x o ih =>
    have e : ∀ q, labelCoeff (x :: o) q = (if x.1 = q then x.2 else 0) + labelCoeff o q := fun q => by
      unfold labelCoeff
      rw [List.map_cons, List.sum_cons]
    rw [obsOp_cons, ih fun y hy => hQ y (by simp [hy])]
    simp only [e, add_smul, Finset.sum_add_distrib, ite_smul, zero_smul]
    rw [Finset.sum_ite_eq, if_pos (hQ x (by simp))]

/-- Every label once, only `I…I` with a coefficient that may be zero. -/
noncomputable def tidy (n : ℕ) (o : List (List Char × ℂ)) : List (List Char × ℂ) :=
  (insert (List.replicate n 'I') ((o.map Prod.fst).toFinset.filter fun q => labelCoeff o q ≠ 0)).toList.map
    fun q => (q, labelCoeff o q)

theorem tidy_coeff (o : List (List Char × ℂ)) (q : List Char) : labelCoeff (tidy n o) q = labelCoeff o q := by
  conv_lhs => unfold labelCoeff tidy
  rw [List.map_map, Finset.sum_map_toList]
  simp only [Function.comp_apply]
  rw [Finset.sum_ite_eq' _ q]
  split_ifs with h
  · rfl
  · by_contra hc
    refine h (Finset.mem_insert_of_mem (Finset.mem_filter.2 ⟨?_, fun e => hc e.symm⟩))
    by_contra hn
    exact hc (labelCoeff_ne (by simpa using hn)).symm

theorem tidy_listed {o : List (List Char × ℂ)} {q : List Char} (h : q ∈ (tidy n o).map Prod.fst) :
    q = List.replicate n 'I' ∨ q ∈ o.map Prod.fst ∧ labelCoeff o q ≠ 0 := by
  unfold tidy at h
  rw [List.map_map] at h
  obtain ⟨p, hp, rfl⟩ := List.mem_map.1 h
  rw [Finset.mem_toList] at hp
  rcases Finset.mem_insert.1 hp with hp | hp
  · exact Or.inl hp
  · obtain ⟨h1, h2⟩ := Finset.mem_filter.1 hp
    exact Or.inr ⟨by simpa using h1, h2⟩

theorem label_allI (n : ℕ) : PauliLabel n (List.replicate n 'I') :=
  ⟨by simp, fun l hl => Or.inl (List.eq_of_mem_replicate hl)⟩

theorem tidy_labels {o : List (List Char × ℂ)} (ho : ∀ pc ∈ o, PauliLabel n pc.1) :
    tidy n o ≠ [] ∧ ∀ pc ∈ tidy n o, PauliLabel n pc.1 := by
  constructor
  · unfold tidy
    simp
  · intro pc hp
    rcases tidy_listed (List.mem_map_of_mem (f := Prod.fst) hp) with h | ⟨h, -⟩
    · rw [h]; exact label_allI n
    · obtain ⟨x, hx, e⟩ := List.mem_map.1 h
      rw [← e]; exact ho x hx

theorem tidy_op (o : List (List Char × ℂ)) (ψ : QState n) : obsOp n (tidy n o) ψ = obsOp n o ψ := by
  let Q := (o.map Prod.fst).toFinset ∪ ((tidy n o).map Prod.fst).toFinset
  rw [obsOp_coeff (tidy n o) (Q := Q) (fun pc hp => Finset.mem_union_right _ (List.mem_toFinset.2 (List.mem_map_of_mem hp))),
    obsOp_coeff o (Q := Q) (fun pc hp => Finset.mem_union_left _ (List.mem_toFinset.2 (List.mem_map_of_mem hp)))]
  simp only [tidy_coeff]

/-- There is a mapper that lists no label with the coefficient zero, but for `I…I`. -/
theorem tidyMapper_exists (n : ℕ) : ∃ map, JWMapper n map ∧ ∀ terms obs, map terms = .ok obs →
    ∀ q ∈ obs.map Prod.fst, q = List.replicate n 'I' ∨ labelCoeff obs q ≠ 0 := by
  obtain ⟨map, h⟩ := jwMapper_exists n
  refine ⟨fun t => (map t).map (tidy n), ⟨fun terms obs ho => ?_, fun T hT hr => ?_⟩, fun terms obs ho q hq => ?_⟩
  · cases em : map terms with
    | error e => rw [em] at ho; cases ho
    | ok o =>
      rw [em] at ho
      cases ho
      exact tidy_labels (h.labels _ _ em).2
  · obtain ⟨obs, e1, e2⟩ := h.exact T hT hr
    refine ⟨tidy n obs, by rw [e1]; rfl, fun X hX => ?_⟩
    rw [tidy_op, e2 X hX]
  · cases em : map terms with
    | error e => dsimp only at ho; rw [em] at ho; cases ho
    | ok o =>
      dsimp only at ho
      rw [em] at ho
      cases ho
      rw [tidy_coeff]
      exact (tidy_listed hq).imp_right And.right

/-! ### Labels on determinants -/

/-- All letters of the label are `I` or `Z`. -/
def ZType (n : ℕ) (p : List Char) : Prop := ∀ i : Fin n, letter p i = 'I' ∨ letter p i = 'Z'

theorem diag_zero {p : List Char} (hp : PauliLabel n p) (hz : ¬ ZType n p) (b : Fin n → Bool) :
    pauliOp n p (basis b) b = 0 := by
  unfold ZType at hz
  push Not at hz
  obtain ⟨i, h1, h2⟩ := hz
  unfold pauliOp
  rw [tensor_basis]
  refine Finset.prod_eq_zero (Finset.mem_univ i) ?_
  rcases letter_label hp i with h | h | h | h
  · exact absurd h h1
  · rw [h]; simp [sigma, sigmaX]
  · rw [h]; simp [sigma, sigmaY]
  · exact absurd h h2

theorem ztype_apply {p : List Char} (hz : ZType n p) (ψ : QState n) (b : Fin n → Bool) :
    pauliOp n p ψ b = (∏ i : Fin n, sigma (letter p i) (b i) (b i)) * ψ b := by
  unfold pauliOp tensor
  rw [Finset.sum_eq_single b]
  · intro c _ hc
    obtain ⟨i, hi⟩ : ∃ i, b i ≠ c i := by
      by_contra h
      push Not at h
      exact hc (funext fun i => (h i).symm)
    have z : sigma (letter p i) (b i) (c i) = 0 := by
      rcases hz i with h | h
      · rw [h]; simp [sigma, Matrix.one_apply, hi]
      · rw [h]; simp [sigma, sigmaZ, hi]
    rw [Finset.prod_eq_zero (Finset.mem_univ i) z, zero_mul]
  · simp

theorem allI_apply (ψ : QState n) : pauliOp n (List.replicate n 'I') ψ = ψ := by
  have hl : ∀ i : Fin n, letter (List.replicate n 'I') i = 'I' := fun i => by
    unfold letter
    rw [List.reverse_replicate]
    simp
  funext b
  rw [ztype_apply (fun i => Or.inl (hl i))]
  simp [hl, sigma]

/-- An operator without diagonal elements has no label of `I` and `Z` only. -/
theorem ztype_coeff {obs : List (List Char × ℂ)} (ho : ∀ pc ∈ obs, PauliLabel n pc.1)
    (hd : ∀ b : Fin n → Bool, obsOp n obs (basis b) b = 0) {q : List Char} (hq : PauliLabel n q) (hz : ZType n q) :
    labelCoeff obs q = 0 := by
  have := obs_trace ho hq
  rw [Finset.sum_eq_zero fun b _ => by rw [ztype_apply hz, hd, mul_zero]] at this
  exact (mul_eq_zero.1 this.symm).resolve_left (pow_ne_zero n two_ne_zero)

theorem basis_inner (b : Fin n → Bool) (ψ : QState n) : qinner (basis b) ψ = ψ b := by
  unfold qinner basis
  rw [Finset.sum_eq_single b]
  · simp
  · intro c _ hc; simp [hc]
  · simp

/-! ### Determinants on the register -/

/-- Bits are a determinant. -/
theorem basis_det (norb : ℕ) (b : Fin (2 * norb) → Bool) : ∃ (S : Finset ℕ) (c : ℝ), c * c = 1 ∧ (∀ p ∈ S, p < 2 * norb) ∧
    basis b = onRegister norb (sgl S c) := by
  let d : List Char := List.ofFn fun p : Fin (2 * norb) =>
    if b ⟨f2q p norb, f2q_bound p.2⟩ = true then '1' else '0'
  have hd : IsDet norb d := by
    refine ⟨by simp [d], fun c hc => ?_⟩
    obtain ⟨i, rfl⟩ := (List.mem_ofFn' _ _).1 hc
    dsimp only
    split_ifs <;> simp
  have hb : detBits norb d = b := by
    funext q
    unfold detBits
    have e : d[modeOf norb q]? = some (if b q = true then '1' else '0') := by
      rw [List.getElem?_eq_getElem (by rw [hd.1]; exact modeOf_lt q.2), List.getElem_ofFn]
      simp only [f2q_modeOf q.2]
    rw [e]
    cases b q <;> simp
  refine ⟨detSet d, (-1) ^ (crossings d).card, by rw [← mul_pow]; norm_num, fun q hq => ?_, ?_⟩
  · have := (Finset.mem_filter.1 hq).1
    rw [Finset.mem_range, hd.1] at this
    exact this
  · rw [onRegister_sgl hd, hb, ← mul_pow]
    norm_num

/-- A determinant is bits. -/
theorem det_basis {norb : ℕ} {S : Finset ℕ} (hS : ∀ p ∈ S, p < 2 * norb) : ∃ (b : Fin (2 * norb) → Bool) (c : ℝ), c * c = 1 ∧
    onRegister norb (sgl S 1) = (c : ℂ) • basis b := by
  let d : List Char := List.ofFn fun p : Fin (2 * norb) => if (p : ℕ) ∈ S then '1' else '0'
  have hd : IsDet norb d := by
    refine ⟨by simp [d], fun c hc => ?_⟩
    obtain ⟨i, rfl⟩ := (List.mem_ofFn' _ _).1 hc
    dsimp only
    split_ifs <;> simp
  have hs : detSet d = S := by
    ext p
    unfold detSet
    rw [Finset.mem_filter, Finset.mem_range, hd.1]
    constructor
    · rintro ⟨h1, h2⟩
      rw [List.getElem?_eq_getElem (by rw [hd.1]; exact h1), List.getElem_ofFn] at h2
      by_contra hn
      simp [hn] at h2
    · intro h
      refine ⟨hS p h, ?_⟩
      rw [List.getElem?_eq_getElem (by rw [hd.1]; exact hS p h), List.getElem_ofFn]
      simp [h]
  refine ⟨detBits norb d, (-1) ^ (crossings d).card, by rw [← mul_pow]; norm_num, ?_⟩
  have := onRegister_sgl hd 1
  rw [hs, one_mul] at this
  exact this

/-! ### The values of the labels in a state -/

/-- The value of a label in a state. -/
noncomputable def stateValue (norb : ℕ) (x : Fock ℝ) (p : List Char) : ℝ :=
  (qinner (onRegister norb x) (pauliOp (2 * norb) p (onRegister norb x))).re

theorem stateValue_op {norb : ℕ} {A : Dict ℝ} {obs : List (List Char × ℂ)}
    (ho : ∀ x, Below (2 * norb) x → obsOp (2 * norb) obs (onRegister norb x) = onRegister norb (sumOp A x))
    (hr : ∀ kv ∈ A, ∀ o ∈ kv.1, o.1 < 2 * norb) {x : Fock ℝ} (hx : Below (2 * norb) x) :
    valueWith (stateValue norb x) obs = inner x (sumOp A x) := by
  have h := (labelSum_herm (onRegister norb x) obs).trans (hermLin_register ho hr hx hx)
  rw [show (1 / 2 : ℝ) * (inner x (sumOp A x) + inner x (sumOp A x)) = inner x (sumOp A x) by ring] at h
  rw [← h]
  unfold valueWith labelSum realParts stateValue
  rw [List.map_map]
  rfl

theorem stateValue_det {norb : ℕ} {S : Finset ℕ} (hS : ∀ p ∈ S, p < 2 * norb) {q : List Char} (hq : PauliLabel (2 * norb) q) :
    (¬ ZType (2 * norb) q → stateValue norb (sgl S 1) q = 0) ∧
      (q = List.replicate (2 * norb) 'I' → stateValue norb (sgl S 1) q = 1) := by
  obtain ⟨b, c, hc, hb⟩ := det_basis hS
  have key : stateValue norb (sgl S 1) q = (pauliOp (2 * norb) q (basis b) b).re := by
    unfold stateValue
    rw [hb]
    have : pauliOp (2 * norb) q ((c : ℂ) • basis b) = (c : ℂ) • pauliOp (2 * norb) q (basis b) :=
      (pauliLin (2 * norb) q).map_smul _ _
    rw [this, qinner_smul_left, qinner_smul_right, basis_inner, Complex.conj_ofReal, ← mul_assoc, ← Complex.ofReal_mul, hc,
      Complex.ofReal_one, one_mul]
  rw [key]
  constructor
  · intro hz
    rw [diag_zero hq hz, Complex.zero_re]
  · rintro rfl
    rw [allI_apply]
    simp [basis]

/-- No diagonal elements. -/
def NoDiag (norb : ℕ) (A : Dict ℝ) : Prop :=
  ∀ S : Finset ℕ, (∀ p ∈ S, p < 2 * norb) → inner (sgl S 1) (sumOp A (sgl S 1)) = 0

theorem noDiag_ztype {norb : ℕ} {A : Dict ℝ} {obs : List (List Char × ℂ)} (hl : ∀ pc ∈ obs, PauliLabel (2 * norb) pc.1)
    (ho : ∀ x, Below (2 * norb) x → obsOp (2 * norb) obs (onRegister norb x) = onRegister norb (sumOp A x))
    (hr : ∀ kv ∈ A, ∀ o ∈ kv.1, o.1 < 2 * norb) (hd : NoDiag norb A) {q : List Char} (hq : PauliLabel (2 * norb) q)
    (hz : ZType (2 * norb) q) : labelCoeff obs q = 0 := by
  refine ztype_coeff hl (fun b => ?_) hq hz
  obtain ⟨S, c, hc, hS, hb⟩ := basis_det norb b
  have hx : Below (2 * norb) (sgl S c : Fock ℝ) := below_sgl hS c
  rw [← basis_inner b (obsOp _ _ _), hb, ho _ hx, register_qinner hx (below_of hr hx)]
  have e : (sgl S c : Fock ℝ) = c • sgl S 1 := by
    apply fock_ext
    intro T
    rw [coeff_smul, coeff_sgl, coeff_sgl]
    split_ifs <;> simp
  rw [e, map_smul, inner_smul_left, inner_smul_right, hd S hS]
  simp

/-- With a mapper that lists no label with the coefficient zero: if an operator has different diagonal elements, then
there are values of labels that differ in one label which no operator without diagonal elements has, and the value of the
operator differs. -/
theorem lost_label {norb : ℕ} {map : SDict ℝ → Res (List (List Char × ℂ))} (hM : JWMapper (2 * norb) map)
    (ht : ∀ terms obs, map terms = .ok obs → ∀ q ∈ obs.map Prod.fst, q = List.replicate (2 * norb) 'I' ∨ labelCoeff obs q ≠ 0)
    {A : Dict ℝ} (hA : WF A) (hr : ∀ kv ∈ A, ∀ o ∈ kv.1, o.1 < 2 * norb) {S T : Finset ℕ} (hS : ∀ p ∈ S, p < 2 * norb)
    (hT : ∀ p ∈ T, p < 2 * norb) (hd : inner (sgl S 1) (sumOp A (sgl S 1)) ≠ inner (sgl T 1) (sumOp A (sgl T 1)))
    (v : List Char → ℝ) :
    ∃ v', (∀ B obs, WF B → (∀ kv ∈ B, ∀ o ∈ kv.1, o.1 < 2 * norb) → NoDiag norb B → opToQbit map norb B = .ok obs →
        ∀ q ∈ obs.map Prod.fst, v q = v' q) ∧
      ∀ obs, opToQbit map norb A = .ok obs → valueWith v obs ≠ valueWith v' obs := by
  obtain ⟨obs, o1, o2⟩ := opToQbit_ok hM hA hr
  obtain ⟨-, o3⟩ := opToQbit_labels hM o1
  rw [← stateValue_op o2 hr (below_sgl hS 1), ← stateValue_op o2 hr (below_sgl hT 1)] at hd
  let Q := (obs.map Prod.fst).toFinset
  have hQ : ∀ pc ∈ obs, pc.1 ∈ Q := fun pc hp => List.mem_toFinset.2 (List.mem_map_of_mem hp)
  rw [valueWith_coeff _ obs hQ, valueWith_coeff _ obs hQ] at hd
  obtain ⟨q, q1, q2⟩ : ∃ q ∈ Q, (labelCoeff obs q).re * stateValue norb (sgl S 1) q
      ≠ (labelCoeff obs q).re * stateValue norb (sgl T 1) q := by
    by_contra hc
    push Not at hc
    exact hd (Finset.sum_congr rfl hc)
  have hq : PauliLabel (2 * norb) q := by
    obtain ⟨pc, h1, rfl⟩ := List.mem_map.1 (List.mem_toFinset.1 q1)
    exact o3 pc h1
  have hz : ZType (2 * norb) q := by
    by_contra hn
    rw [(stateValue_det hS hq).1 hn, (stateValue_det hT hq).1 hn] at q2
    exact q2 rfl
  have hI : q ≠ List.replicate (2 * norb) 'I' := by
    intro hn
    rw [(stateValue_det hS hq).2 hn, (stateValue_det hT hq).2 hn] at q2
    exact q2 rfl
  have hc : (labelCoeff obs q).re ≠ 0 := fun h => q2 (by rw [h, zero_mul, zero_mul])
  refine ⟨Function.update v q (v q + 1), fun B obs' hB hrB hdB oB p hp => ?_, fun obs' oA => ?_⟩
  · by_cases e : p = q
    · subst e
      obtain ⟨obs2, b1, b2⟩ := opToQbit_ok hM hB hrB
      rw [oB] at b1
      obtain rfl := Except.ok.inj b1
      have l := (opToQbit_labels hM oB).2
      have z := noDiag_ztype l b2 hrB hdB hq hz
      unfold opToQbit at oB
      cases ef : getQiskitForm norb B with
      | error e => rw [ef] at oB; cases oB
      | ok form =>
        rw [ef] at oB
        exact absurd z ((ht _ _ oB p hp).resolve_left hI)
    · rw [Function.update_of_ne e]
  · rw [o1] at oA
    obtain rfl := Except.ok.inj oA
    rw [valueWith_coeff _ obs hQ, valueWith_coeff _ obs hQ]
    intro he
    have d : ∑ p ∈ Q, ((labelCoeff obs p).re * Function.update v q (v q + 1) p - (labelCoeff obs p).re * v p)
        = (labelCoeff obs q).re := by
      rw [Finset.sum_eq_single q]
      · rw [Function.update_self]; ring
      · intro p _ hp
        rw [Function.update_of_ne hp, sub_self]
      · intro h; exact absurd q1 h
    rw [Finset.sum_sub_distrib, ← he, sub_self] at d
    exact hc d.symm

end SQ
