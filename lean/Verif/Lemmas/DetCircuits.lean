import Verif.Spec.DetCircuits
import Verif.Model.Determinants
import Verif.Lemmas.Reorder
import Verif.Lemmas.Qubits
import Mathlib.Tactic.Linarith

/-!
# Lemmas: determinant circuits
-/

namespace SQ

section gates

variable {n : ℕ}

theorem act_add (g : Gate n) (φ ψ : QState n) : g.act (φ + ψ) = g.act φ + g.act ψ := by
  funext b
  cases g <;> simp only [Gate.act, onQubit, Pi.add_apply, mul_add, Finset.sum_add_distrib]
  split_ifs <;> rfl

theorem act_smul (g : Gate n) (c : ℂ) (ψ : QState n) : g.act (c • ψ) = c • g.act ψ := by
  funext b
  cases g <;> simp only [Gate.act, onQubit, Pi.smul_apply, smul_eq_mul, Finset.mul_sum, mul_left_comm]
  split_ifs <;> rfl

theorem run_nil (ψ : QState n) : runCircuit [] ψ = ψ := rfl

theorem run_append (a b : List (Gate n)) (ψ : QState n) : runCircuit (a ++ b) ψ = runCircuit b (runCircuit a ψ) := by
  unfold runCircuit; rw [List.foldl_append]

theorem run_cons (g : Gate n) (b : List (Gate n)) (ψ : QState n) : runCircuit (g :: b) ψ = runCircuit b (g.act ψ) := rfl

theorem run_add (gs : List (Gate n)) (φ ψ : QState n) : runCircuit gs (φ + ψ) = runCircuit gs φ + runCircuit gs ψ := by
  induction gs generalizing φ ψ with
  | nil => rfl
  | cons g gs ih => rw [run_cons, run_cons, run_cons, act_add, ih]

theorem run_smul (gs : List (Gate n)) (c : ℂ) (ψ : QState n) : runCircuit gs (c • ψ) = c • runCircuit gs ψ := by
  induction gs generalizing ψ with
  | nil => rfl
  | cons g gs ih => rw [run_cons, run_cons, act_smul, ih]

theorem flip_eq_iff (b c : Fin n → Bool) (q : Fin n) :
    Function.update c q (!c q) = b ↔ c = Function.update b q (!b q) := by
  constructor
  · rintro rfl
    funext i
    by_cases h : i = q
    · subst h; simp
    · simp [h]
  · rintro rfl
    funext i
    by_cases h : i = q
    · subst h; simp
    · simp [h]

theorem x_basis (q : Fin n) (b : Fin n → Bool) : (Gate.x q).act (basis b) = basis (Function.update b q (!b q)) := by
  funext c
  have key : (Gate.x q).act (basis b) c = basis b (Function.update c q (!c q)) := by
    simp only [Gate.act, onQubit, Fintype.sum_bool, sigmaX]
    cases c q <;> simp
  rw [key]
  unfold basis
  exact if_congr (flip_eq_iff b c q) rfl rfl

theorem cx_basis_on {q t : Fin n} (hqt : q ≠ t) {b : Fin n → Bool} (hb : b q = true) :
    (Gate.cx q t).act (basis b) = basis (Function.update b t (!b t)) := by
  funext c
  simp only [Gate.act]
  split_ifs with hc
  · exact if_congr (flip_eq_iff b c t) rfl rfl
  · unfold basis
    rw [if_neg (by rintro rfl; exact hc hb), if_neg]
    rintro rfl
    rw [Function.update_of_ne hqt] at hc
    exact hc hb

theorem cx_basis_off {q t : Fin n} (hqt : q ≠ t) {b : Fin n → Bool} (hb : b q = false) :
    (Gate.cx q t).act (basis b) = basis b := by
  funext c
  simp only [Gate.act]
  split_ifs with hc
  · unfold basis
    rw [if_neg, if_neg (by rintro rfl; rw [hb] at hc; cases hc)]
    intro h
    have := congrFun h q
    rw [Function.update_of_ne hqt, hc, hb] at this
    cases this
  · rfl

theorem h_basis {q : Fin n} {b : Fin n → Bool} (hb : b q = false) :
    (Gate.h q).act (basis b) = ((Real.sqrt 2 : ℝ) : ℂ)⁻¹ • (basis b + basis (Function.update b q true)) := by
  funext c
  simp only [Gate.act, onQubit, Fintype.sum_bool, hadamard, Pi.smul_apply, Pi.add_apply, smul_eq_mul, and_true,
    Bool.false_eq_true, and_false, if_false, mul_one]
  have h1 : basis b (Function.update c q true) = 0 := by
    unfold basis
    rw [if_neg]
    intro h
    have := congrFun h q
    rw [Function.update_self, hb] at this
    cases this
  rw [h1, mul_zero, zero_add]
  congr 1
  unfold basis
  cases hc : c q
  · have e : Function.update c q false = c := by rw [← hc, Function.update_eq_self]
    rw [e, if_neg (show ¬ c = Function.update b q true from ?_), add_zero]
    intro h
    rw [h, Function.update_self] at hc
    cases hc
  · rw [if_neg (show ¬ c = b from by rintro rfl; rw [hb] at hc; cases hc), zero_add]
    refine if_congr ⟨?_, ?_⟩ rfl rfl
    · rintro rfl
      rw [Function.update_idem, ← hc, Function.update_eq_self]
    · rintro rfl
      rw [Function.update_idem, ← hb, Function.update_eq_self]

end gates

/-! ### Qubits and spin orbitals -/

theorem f2q_lt {norb i : ℕ} (h : i < 2 * norb) : f2q i norb < 2 * norb := by
  unfold f2q; split_ifs <;> omega

theorem modeOf_f2q {norb i : ℕ} (h : i < 2 * norb) : modeOf norb (f2q i norb) = i := by
  unfold f2q modeOf; split_ifs <;> omega

theorem f2q_modeOf {norb q : ℕ} (h : q < 2 * norb) : f2q (modeOf norb q) norb = q := by
  unfold f2q modeOf; split_ifs <;> omega

theorem modeOf_lt {norb q : ℕ} (h : q < 2 * norb) : modeOf norb q < 2 * norb := by
  unfold modeOf; split_ifs <;> omega

/-- Flags of the qubits, for a list starting at spin orbital `k`. -/
def flagAt (norb k : ℕ) (flags : List Bool) (q : Fin (2 * norb)) : Bool :=
  decide (k ≤ modeOf norb q ∧ flags[modeOf norb q - k]? = some true)

theorem emit_aux (norb : ℕ) (g : Fin (2 * norb) → Gate (2 * norb)) (P : (Fin (2 * norb) → Bool) → Prop) :
    ∀ (flags : List Bool) (k : ℕ) (gs0 : List (Gate (2 * norb))), k + flags.length ≤ 2 * norb →
    (∀ q, flagAt norb k flags q = true → ∀ b, P b →
      (g q).act (basis b) = basis (Function.update b q (!b q)) ∧ P (Function.update b q (!b q))) →
    ∃ gs, (flags.zipIdx k).foldlM (fun gs x =>
      if x.1 = true then
        if h : f2q x.2 norb < 2 * norb then Except.ok (gs ++ [g ⟨f2q x.2 norb, h⟩]) else Except.error PyErr.runtimeError
      else Except.ok gs) gs0 = Except.ok (gs0 ++ gs) ∧
      ∀ b, P b → runCircuit gs (basis b) = basis (fun q => xor (b q) (flagAt norb k flags q)) := by
  intro flags
  induction flags with
  | nil =>
    intro k gs0 _ _
    refine ⟨[], by simp [pure, Except.pure], fun b _ => ?_⟩
    rw [run_nil]; congr 1; funext q; simp [flagAt]
  | cons f flags ih =>
    intro k gs0 hk hP
    rw [List.length_cons] at hk
    have hkl : k < 2 * norb := by omega
    have hstep : ∀ q, flagAt norb (k + 1) flags q = true → flagAt norb k (f :: flags) q = true := by
      intro q h
      unfold flagAt at h ⊢
      rw [decide_eq_true_eq] at h ⊢
      refine ⟨by omega, ?_⟩
      rw [show modeOf norb q - k = (modeOf norb q - (k + 1)) + 1 by omega, List.getElem?_cons_succ]
      exact h.2
    have hrest : ∀ q, flagAt norb k (f :: flags) q
        = if modeOf norb q = k then f else flagAt norb (k + 1) flags q := by
      intro q
      split_ifs with h
      · unfold flagAt; rw [h]; cases f <;> simp
      · unfold flagAt
        refine decide_eq_decide.2 ?_
        constructor
        · rintro ⟨h1, h2⟩
          rw [show modeOf norb q - k = (modeOf norb q - (k + 1)) + 1 by omega, List.getElem?_cons_succ] at h2
          exact ⟨by omega, h2⟩
        · rintro ⟨h1, h2⟩
          rw [show modeOf norb q - k = (modeOf norb q - (k + 1)) + 1 by omega, List.getElem?_cons_succ]
          exact ⟨by omega, h2⟩
    rw [List.zipIdx_cons, List.foldlM_cons]
    cases f with
    | false =>
      obtain ⟨gs, h1, h2⟩ := ih (k + 1) gs0 (by omega) (fun q h => hP q (hstep q h))
      refine ⟨gs, h1, fun b hb => ?_⟩
      rw [h2 b hb]
      congr 1; funext q
      rw [hrest]
      split_ifs with h
      · have : flagAt norb (k + 1) flags q = false := by
          unfold flagAt; rw [decide_eq_false_iff_not]; omega
        rw [this]
      · rfl
    | true =>
      have hlt := f2q_lt hkl
      obtain ⟨gs, h1, h2⟩ := ih (k + 1) (gs0 ++ [g ⟨f2q k norb, hlt⟩]) (by omega) (fun q h => hP q (hstep q h))
      refine ⟨g ⟨f2q k norb, hlt⟩ :: gs, ?_, fun b hb => ?_⟩
      · simp only [if_true, dif_pos hlt]
        refine Eq.trans h1 ?_
        rw [List.append_assoc]; rfl
      · have hq : flagAt norb k (true :: flags) ⟨f2q k norb, hlt⟩ = true := by
          rw [hrest, if_pos (modeOf_f2q hkl)]
        obtain ⟨e1, e2⟩ := hP _ hq b hb
        rw [run_cons, e1, h2 _ e2]
        congr 1; funext q
        rw [hrest]
        by_cases h : modeOf norb q = k
        · have hqe : q = ⟨f2q k norb, hlt⟩ := by
            apply Fin.ext; simp only [← h]; exact (f2q_modeOf q.2).symm
          have : flagAt norb (k + 1) flags q = false := by
            unfold flagAt; rw [decide_eq_false_iff_not]; omega
          rw [if_pos h, this, ← hqe, Function.update_self]
          cases b q <;> rfl
        · rw [if_neg h, Function.update_of_ne]
          rintro rfl
          exact h (modeOf_f2q hkl)

theorem emit_spec (norb : ℕ) (g : Fin (2 * norb) → Gate (2 * norb)) (P : (Fin (2 * norb) → Bool) → Prop)
    (flags : List Bool) (hl : flags.length ≤ 2 * norb)
    (hP : ∀ q, flagAt norb 0 flags q = true → ∀ b, P b →
      (g q).act (basis b) = basis (Function.update b q (!b q)) ∧ P (Function.update b q (!b q))) :
    ∃ gs, emitGates norb g flags = .ok gs ∧
      ∀ b, P b → runCircuit gs (basis b) = basis (fun q => xor (b q) (flagAt norb 0 flags q)) := by
  obtain ⟨gs, h1, h2⟩ := emit_aux norb g P flags 0 [] (by omega) hP
  exact ⟨gs, h1, h2⟩

/-- Every gate that is emitted belongs to a flagged qubit. -/
theorem emit_mem_aux (norb : ℕ) (g : Fin (2 * norb) → Gate (2 * norb)) :
    ∀ (flags : List Bool) (k : ℕ) (gs0 gs : List (Gate (2 * norb))), k + flags.length ≤ 2 * norb →
    (flags.zipIdx k).foldlM (fun gs x =>
      if x.1 = true then
        if h : f2q x.2 norb < 2 * norb then Except.ok (gs ++ [g ⟨f2q x.2 norb, h⟩]) else Except.error PyErr.runtimeError
      else Except.ok gs) gs0 = Except.ok gs →
    ∀ a ∈ gs, a ∈ gs0 ∨ ∃ q, flagAt norb k flags q = true ∧ a = g q := by
  intro flags
  induction flags with
  | nil =>
    intro k gs0 gs _ h a ha
    simp only [List.zipIdx_nil, List.foldlM_nil] at h
    cases h
    exact Or.inl ha
  | cons f flags ih =>
    intro k gs0 gs hk h a ha
    rw [List.length_cons] at hk
    have hkl : k < 2 * norb := by omega
    have hstep : ∀ q, flagAt norb (k + 1) flags q = true → flagAt norb k (f :: flags) q = true := by
      intro q h
      unfold flagAt at h ⊢
      rw [decide_eq_true_eq] at h ⊢
      refine ⟨by omega, ?_⟩
      rw [show modeOf norb q - k = (modeOf norb q - (k + 1)) + 1 by omega, List.getElem?_cons_succ]
      exact h.2
    rw [List.zipIdx_cons, List.foldlM_cons] at h
    cases f with
    | false =>
      rcases ih (k + 1) gs0 gs (by omega) h a ha with h1 | ⟨q, h1, h2⟩
      · exact Or.inl h1
      · exact Or.inr ⟨q, hstep q h1, h2⟩
    | true =>
      have hlt := f2q_lt hkl
      simp only [if_true, dif_pos hlt] at h
      rcases ih (k + 1) (gs0 ++ [g ⟨f2q k norb, hlt⟩]) gs (by omega) h a ha with h1 | ⟨q, h1, h2⟩
      · rcases List.mem_append.1 h1 with h1 | h1
        · exact Or.inl h1
        · refine Or.inr ⟨⟨f2q k norb, hlt⟩, ?_, List.mem_singleton.1 h1⟩
          unfold flagAt
          simp [modeOf_f2q hkl]
      · exact Or.inr ⟨q, hstep q h1, h2⟩

theorem run_off {n : ℕ} {h : Fin n} {b : Fin n → Bool} (hb : b h = false) (gs : List (Gate n))
    (hgs : ∀ a ∈ gs, ∃ q, h ≠ q ∧ a = Gate.cx h q) : runCircuit gs (basis b) = basis b := by
  induction gs with
  | nil => rfl
  | cons a gs ih =>
    obtain ⟨q, h1, rfl⟩ := hgs a (by simp)
    rw [run_cons, cx_basis_off h1 hb]
    exact ih fun a ha => hgs a (by simp [ha])

theorem flag_det (norb : ℕ) (det : List Char) (q : Fin (2 * norb)) :
    flagAt norb 0 (det.map fun occ => decide (occ = '1')) q = detBits norb det q := by
  unfold flagAt detBits
  refine decide_eq_decide.2 ?_
  rw [Nat.sub_zero, List.getElem?_map]
  cases det[modeOf norb q]? <;> simp

theorem x_flip {n : ℕ} (q : Fin n) (b : Fin n → Bool) :
    (Gate.x q).act (basis b) = basis (Function.update b q (!b q)) ∧ True := ⟨x_basis q b, trivial⟩

/-- The circuit of a determinant. -/
theorem emit_det (norb : ℕ) {det : List Char} (hl : det.length ≤ 2 * norb) :
    ∃ gs, emitGates norb .x (det.map fun occ => decide (occ = '1')) = .ok gs ∧
      runCircuit gs (zeroState (2 * norb)) = basis (detBits norb det) := by
  obtain ⟨gs, h1, h2⟩ := emit_spec norb .x (fun _ => True) (det.map fun occ => decide (occ = '1')) (by simpa using hl)
    (fun q _ b _ => x_flip q b)
  refine ⟨gs, h1, ?_⟩
  unfold zeroState
  rw [h2 _ trivial]
  congr 1; funext q
  rw [flag_det, Bool.false_xor]

theorem hadamard_some {det1 det2 : List Char} {norb h : ℕ} (hh : hadamardIndex det1 det2 norb = .ok h) :
    ∃ i : ℕ, det1[i]? = some '0' ∧ det2[i]? = some '1' ∧ h = f2q i norb := by
  unfold hadamardIndex at hh
  split at hh
  · next i hi =>
    cases hh
    obtain ⟨hi1, hi2, _⟩ := List.findIdx?_eq_some_iff_getElem.1 hi
    rw [List.length_zip] at hi1
    simp only [List.getElem_zip, decide_eq_true_eq] at hi2
    refine ⟨i, ?_, ?_, rfl⟩
    · rw [List.getElem?_eq_getElem (by omega), hi2.1]
    · rw [List.getElem?_eq_getElem (by omega), hi2.2]
  · cases hh

theorem hadamard_none {det1 det2 : List Char} {norb : ℕ} :
    (¬ ∃ i : ℕ, det1[i]? = some '0' ∧ det2[i]? = some '1') ↔ hadamardIndex det1 det2 norb = .error .valueError := by
  unfold hadamardIndex
  constructor
  · intro hno
    rw [List.findIdx?_eq_none_iff.2]
    intro x hx
    rw [decide_eq_false_iff_not]
    rintro ⟨h1, h2⟩
    obtain ⟨i, hi, rfl⟩ := List.getElem_of_mem hx
    rw [List.length_zip] at hi
    rw [List.getElem_zip] at h1 h2
    refine hno ⟨i, ?_, ?_⟩
    · rw [List.getElem?_eq_getElem (by omega)]; exact congrArg some h1
    · rw [List.getElem?_eq_getElem (by omega)]; exact congrArg some h2
  · rintro hh ⟨i, h1, h2⟩
    split at hh
    · cases hh
    · next hn =>
      rw [List.findIdx?_eq_none_iff] at hn
      have hz : (det1.zip det2)[i]? = some ('0', '1') := by
        rw [List.getElem?_zip_eq_some]; exact ⟨h1, h2⟩
      have := hn _ (List.mem_of_getElem? hz)
      simp at this

theorem cxFlags_length (det1 det2 : List Char) (norb h : ℕ) :
    (cxFlags det1 det2 norb h).length = min det1.length det2.length := by
  unfold cxFlags; simp

theorem flag_cx {norb : ℕ} {det1 det2 : List Char} (h1 : IsDet norb det1) (h2 : IsDet norb det2) (h : ℕ)
    (q : Fin (2 * norb)) :
    flagAt norb 0 (cxFlags det1 det2 norb h) q
      = if q.val = h then false else xor (detBits norb det1 q) (detBits norb det2 q) := by
  have hm := modeOf_lt q.2
  have hf := f2q_modeOf q.2
  have l1 : modeOf norb q < det1.length := by rw [h1.1]; exact hm
  have l2 : modeOf norb q < det2.length := by rw [h2.1]; exact hm
  have e1 : det1[modeOf norb q]? = some det1[modeOf norb q] := List.getElem?_eq_getElem l1
  have e2 : det2[modeOf norb q]? = some det2[modeOf norb q] := List.getElem?_eq_getElem l2
  have c1 := h1.2 _ (List.getElem_mem l1)
  have c2 := h2.2 _ (List.getElem_mem l2)
  have hz : (det1.zip det2)[modeOf norb q]? = some (det1[modeOf norb q], det2[modeOf norb q]) := by
    rw [List.getElem?_zip_eq_some]; exact ⟨e1, e2⟩
  unfold flagAt detBits cxFlags
  rw [Nat.sub_zero, List.getElem?_map, List.getElem?_zipIdx, hz, e1, e2]
  simp only [Option.map_some, Option.some.injEq, zero_add, hf]
  generalize det1[modeOf norb q] = a at *
  generalize det2[modeOf norb q] = b at *
  by_cases hq : q.val = h
  · simp [hq]
  · rcases c1 with rfl | rfl <;> rcases c2 with rfl | rfl <;> simp [hq]

/-- The circuit of a superposition. -/
theorem superposition_ok {norb : ℕ} {det1 det2 : List Char} (h1 : IsDet norb det1) (h2 : IsDet norb det2)
    (hex : ∃ i : ℕ, det1[i]? = some '0' ∧ det2[i]? = some '1') :
    ∃ gs, superpositionReference det1 det2 norb .jordanWigner = .ok gs ∧
      runCircuit gs (zeroState (2 * norb))
        = ((Real.sqrt 2 : ℝ) : ℂ)⁻¹ • (basis (detBits norb det1) + basis (detBits norb det2)) := by
  obtain ⟨xs, hx1, hx2⟩ := emit_det norb (det := det1) (by rw [h1.1])
  have hok : ∃ hI, hadamardIndex det1 det2 norb = .ok hI := by
    cases e : hadamardIndex det1 det2 norb with
    | ok v => exact ⟨v, rfl⟩
    | error r =>
      exfalso
      refine (hadamard_none (norb := norb)).2 ?_ hex
      rw [e]
      unfold hadamardIndex at e
      split at e
      · cases e
      · cases e; rfl
  obtain ⟨hI, hH⟩ := hok
  obtain ⟨i, i1, i2, rfl⟩ := hadamard_some hH
  have hil : i < 2 * norb := by
    rw [← h1.1]
    by_contra hc
    rw [List.getElem?_eq_none (by omega)] at i1
    cases i1
  have hlt := f2q_lt hil
  set hq : Fin (2 * norb) := ⟨f2q i norb, hlt⟩ with hhq
  have hlen : (cxFlags det1 det2 norb (f2q i norb)).length ≤ 2 * norb := by
    rw [cxFlags_length, h1.1, h2.1, min_self]
  have hne : ∀ q, flagAt norb 0 (cxFlags det1 det2 norb (f2q i norb)) q = true → hq ≠ q := by
    rintro q hf rfl
    rw [flag_cx h1 h2, if_pos rfl] at hf
    cases hf
  obtain ⟨cxs, hc1, hc2⟩ := emit_spec norb (.cx hq) (fun b => b hq = true) (cxFlags det1 det2 norb (f2q i norb)) hlen
    (fun q hf b hb => ⟨cx_basis_on (hne q hf) hb, by rw [Function.update_of_ne (hne q hf)]; exact hb⟩)
  have hmem := emit_mem_aux norb (.cx hq) (cxFlags det1 det2 norb (f2q i norb)) 0 [] cxs (by omega) hc1
  have hb1 : detBits norb det1 hq = false := by
    unfold detBits
    rw [hhq]
    simp only [modeOf_f2q hil, i1]
    decide
  have hb2 : detBits norb det2 hq = true := by
    unfold detBits
    rw [hhq]
    simp only [modeOf_f2q hil, i2]
    decide
  refine ⟨xs ++ .h hq :: cxs, ?_, ?_⟩
  · unfold superpositionReference
    rw [if_neg (by decide), hx1]
    change (do let hIdx ← hadamardIndex det1 det2 norb; _) = _
    rw [hH]
    change (if h : f2q i norb < 2 * norb then _ else _) = _
    rw [dif_pos hlt]
    change (do let cxs ← emitGates norb (.cx hq) (cxFlags det1 det2 norb (f2q i norb)); _) = _
    rw [hc1]
    rfl
  · rw [run_append, hx2, run_cons, h_basis hb1, run_smul, run_add]
    congr 1
    refine congrArg₂ (· + ·) ?_ ?_
    · refine run_off hb1 cxs fun a ha => ?_
      rcases hmem a ha with h | ⟨q, hf, rfl⟩
      · cases h
      · exact ⟨q, hne q hf, rfl⟩
    · rw [hc2 _ (Function.update_self ..)]
      congr 1; funext q
      rw [flag_cx h1 h2]
      by_cases hqq : q = hq
      · rw [hqq, Function.update_self, if_pos rfl, hb2]; rfl
      · rw [Function.update_of_ne hqq, if_neg (fun h => hqq (Fin.ext h)), ← Bool.xor_assoc, Bool.xor_self, Bool.false_xor]

theorem superposition_error {norb : ℕ} {det1 det2 : List Char} (h1 : det1.length ≤ 2 * norb)
    (hno : ¬ ∃ i : ℕ, det1[i]? = some '0' ∧ det2[i]? = some '1') :
    superpositionReference det1 det2 norb .jordanWigner = .error .valueError := by
  obtain ⟨xs, hx1, -⟩ := emit_det norb h1
  unfold superpositionReference
  rw [if_neg (by decide), hx1]
  change (do let hIdx ← hadamardIndex det1 det2 norb; _) = _
  rw [hadamard_none.1 hno]
  rfl

end SQ
