import Verif.Lemmas.Qubits
import Verif.Lemmas.Cliques
import Mathlib.Data.Nat.Size
import Mathlib.Data.Nat.Bits

/-! # Lemmas: bit string signs and measurement circuits -/

namespace SQ

open Finset

/-! ### Signs -/

theorem bitCount_zero : bitCount 0 = 0 := rfl

theorem bitCount_rec (x : ℕ) : bitCount x = bitCount (x / 2) + x % 2 := by
  obtain ⟨m, rfl | rfl⟩ : ∃ m, x = 2 * m ∨ x = 2 * m + 1 := ⟨x / 2, by omega⟩
  · rw [show 2 * m / 2 = m by omega, show 2 * m % 2 = 0 by omega]
    by_cases hm : m = 0
    · subst hm; rfl
    · unfold bitCount
      rw [Nat.bit0_bits m hm]; rfl
  · rw [show (2 * m + 1) / 2 = m by omega, show (2 * m + 1) % 2 = 1 by omega]
    unfold bitCount
    rw [Nat.bit1_bits m]
    simp

theorem sign_bitCount (n : ℕ) : ∀ x : ℕ, x < 2 ^ n →
    (∏ i ∈ range n, if x.testBit i = true then (-1 : ℤ) else 1) = if bitCount x % 2 = 1 then -1 else 1 := by
  induction n with
  | zero =>
    intro x hx
    obtain rfl : x = 0 := by simpa using hx
    simp [bitCount_zero]
  | succ n ih =>
    intro x hx
    have hx2 : x / 2 < 2 ^ n := by rw [pow_succ] at hx; omega
    rw [Finset.prod_range_succ', bitCount_rec x]
    have : ∏ i ∈ range n, (if x.testBit (i + 1) = true then (-1 : ℤ) else 1) =
        ∏ i ∈ range n, (if (x / 2).testBit i = true then (-1 : ℤ) else 1) :=
      Finset.prod_congr rfl fun i _ => by rw [Nat.testBit_succ]
    rw [this, ih _ hx2]
    have h0 : x.testBit 0 = true ↔ x % 2 = 1 := by simp
    rcases Nat.mod_two_eq_zero_or_one x with h | h
    · have h0' : ¬ x.testBit 0 = true := by rw [h0]; omega
      rw [if_neg h0', h, mul_one, add_zero]
    · rw [if_pos (h0.2 h), h]
      by_cases hb : bitCount (x / 2) % 2 = 1
      · rw [if_pos hb, if_neg (by omega)]; norm_num
      · rw [if_neg hb, if_pos (by omega)]; norm_num

theorem letter_append_zero (ps : List Char) (l : Char) : letter (ps ++ [l]) 0 = l := by simp [letter]

theorem letter_append_succ (ps : List Char) (l : Char) (i : ℕ) : letter (ps ++ [l]) (i + 1) = letter ps i := by
  simp [letter]

theorem opBits_fold (op : List Char) (hl : ∀ l ∈ op, l = 'I' ∨ l = 'X' ∨ l = 'Y' ∨ l = 'Z') :
    ∃ o, op.foldlM (fun r l => if l = 'I' then Except.ok (2 * r)
      else if l = 'Z' ∨ l = 'X' ∨ l = 'Y' then .ok (2 * r + 1) else .error PyErr.valueError) 0 = .ok o ∧
      o < 2 ^ op.length ∧ ∀ i, i < op.length → (o.testBit i = true ↔ letter op i ≠ 'I') := by
  induction op using List.reverseRecOn with
  | nil => exact ⟨0, rfl, by simp, fun i hi => by simp at hi⟩
  | append_singleton ps l ih =>
    obtain ⟨o, h1, h2, h3⟩ := ih fun x hx => hl x (by simp [hx])
    have hl' := hl l (by simp)
    rw [List.foldlM_append, h1]
    by_cases hI : l = 'I'
    · refine ⟨2 * o, by subst hI; rfl, by rw [List.length_append]; simp only [List.length_singleton, pow_succ]; omega,
        fun i hi => ?_⟩
      cases i with
      | zero => rw [letter_append_zero]; simp [hI]
      | succ i =>
        rw [letter_append_succ, Nat.testBit_succ, show 2 * o / 2 = o by omega]
        exact h3 i (by simpa using hi)
    · have h4 : l = 'Z' ∨ l = 'X' ∨ l = 'Y' := by tauto
      refine ⟨2 * o + 1, ?_, by rw [List.length_append]; simp only [List.length_singleton, pow_succ]; omega,
        fun i hi => ?_⟩
      · show (do let b ← (Except.ok o : Res ℕ); List.foldlM (fun r l => if l = 'I' then Except.ok (2 * r)
          else if l = 'Z' ∨ l = 'X' ∨ l = 'Y' then Except.ok (2 * r + 1) else Except.error PyErr.valueError) b [l]) = _
        simp only [bind, Except.bind, List.foldlM_cons, List.foldlM_nil]
        rw [if_neg hI, if_pos h4]
        rfl
      cases i with
      | zero => rw [letter_append_zero]; simp [hI]
      | succ i =>
        rw [letter_append_succ, Nat.testBit_succ, show (2 * o + 1) / 2 = o by omega]
        exact h3 i (by simpa using hi)

theorem opBits_spec {n : ℕ} {op : List Char} (h : PauliLabel n op) (hn : 0 < n) :
    ∃ o, opBits op = .ok o ∧ o < 2 ^ n ∧ ∀ i, i < n → (o.testBit i = true ↔ letter op i ≠ 'I') := by
  obtain ⟨o, h1, h2, h3⟩ := opBits_fold op h.2
  rw [h.1] at h2 h3
  refine ⟨o, ?_, h2, h3⟩
  unfold opBits
  rw [if_neg (by rintro rfl; exact absurd h.1 (by simp; omega))]
  exact h1

theorem sign_spec {n : ℕ} {op : List Char} (h : PauliLabel n op) (hn : 0 < n) (b : ℕ) :
    getBitstringSign op b = .ok (∏ i : Fin n, if letter op i ≠ 'I' ∧ b.testBit i = true then -1 else 1) := by
  obtain ⟨o, h1, h2, h3⟩ := opBits_spec h hn
  have hlt : o &&& b < 2 ^ n := lt_of_le_of_lt Nat.and_le_left h2
  unfold getBitstringSign
  rw [h1]
  show Except.ok _ = _
  congr 1
  rw [← sign_bitCount n _ hlt, ← Fin.prod_univ_eq_prod_range (fun i => if (o &&& b).testBit i = true then (-1 : ℤ) else 1)]
  refine Finset.prod_congr rfl fun i _ => ?_
  refine if_congr ?_ rfl rfl
  rw [Nat.testBit_and, Bool.and_eq_true, h3 i i.2]

/-! ### Measurement circuits -/

/-- The rotation in front of a measurement of this letter. -/
noncomputable def rotation (l : Char) : Matrix Bool Bool ℂ :=
  if l = 'X' then hadamard else if l = 'Y' then hadamard * sDagger else 1

theorem isqrt2_mul : (((Real.sqrt 2 : ℝ) : ℂ)⁻¹) * (((Real.sqrt 2 : ℝ) : ℂ)⁻¹) = 1 / 2 := by
  rw [← mul_inv, ← Complex.ofReal_mul, Real.mul_self_sqrt (by norm_num)]
  norm_num

theorem hadamard_conj : hadamard.conjTranspose = hadamard := by
  ext b c
  simp only [Matrix.conjTranspose_apply, hadamard, RCLike.star_def, map_mul, map_inv₀, Complex.conj_ofReal, and_comm]
  split_ifs <;> simp

theorem hadamard_sq : hadamard * hadamard = 1 := by
  ext b c
  simp only [Matrix.mul_apply, hadamard, Fintype.sum_bool, Matrix.one_apply]
  cases b <;> cases c <;> simp <;> linear_combination (2 : ℂ) * isqrt2_mul

theorem hzh : hadamard * sigmaZ * hadamard = sigmaX := by
  ext b c
  simp only [Matrix.mul_apply, hadamard, sigmaZ, sigmaX, Fintype.sum_bool]
  cases b <;> cases c <;> simp <;> linear_combination (2 : ℂ) * isqrt2_mul

theorem sdg_sq : sDagger.conjTranspose * sDagger = 1 := by
  ext b c
  simp only [Matrix.mul_apply, Matrix.conjTranspose_apply, sDagger, Fintype.sum_bool, Matrix.one_apply]
  cases b <;> cases c <;> simp

theorem sxs : sDagger.conjTranspose * sigmaX * sDagger = sigmaY := by
  ext b c
  simp only [Matrix.mul_apply, Matrix.conjTranspose_apply, sDagger, sigmaX, sigmaY, Fintype.sum_bool]
  cases b <;> cases c <;> simp

/-- The rotation turns the Pauli letter into a computational-basis measurement. -/
theorem rotation_unitary (l : Char) : (rotation l).conjTranspose * rotation l = 1 := by
  unfold rotation
  split_ifs
  · rw [hadamard_conj, hadamard_sq]
  · rw [Matrix.conjTranspose_mul, hadamard_conj, Matrix.mul_assoc, ← Matrix.mul_assoc hadamard, hadamard_sq,
      Matrix.one_mul, sdg_sq]
  · rw [Matrix.conjTranspose_one, Matrix.one_mul]

theorem rotation_sigma {l : Char} (hl : l = 'X' ∨ l = 'Y' ∨ l = 'Z') :
    (rotation l).conjTranspose * sigmaZ * rotation l = sigma l := by
  rcases hl with rfl | rfl | rfl
  · show hadamard.conjTranspose * sigmaZ * hadamard = sigmaX
    rw [hadamard_conj, hzh]
  · show (hadamard * sDagger).conjTranspose * sigmaZ * (hadamard * sDagger) = sigmaY
    rw [Matrix.conjTranspose_mul, hadamard_conj]
    calc sDagger.conjTranspose * hadamard * sigmaZ * (hadamard * sDagger)
        = sDagger.conjTranspose * (hadamard * sigmaZ * hadamard) * sDagger := by simp only [Matrix.mul_assoc]
      _ = sigmaY := by rw [hzh, sxs]
  · show (1 : Matrix Bool Bool ℂ).conjTranspose * sigmaZ * 1 = sigmaZ
    rw [Matrix.conjTranspose_one, Matrix.one_mul, Matrix.mul_one]

theorem runCircuit_append {n : ℕ} (g h : List (Gate n)) (ψ : QState n) :
    runCircuit (g ++ h) ψ = runCircuit h (runCircuit g ψ) := by
  unfold runCircuit; rw [List.foldl_append]

theorem letter_eq {op : List Char} {i : ℕ} {l : Char} (hl : l ≠ 'I') : op.reverse[i]? = some l ↔ letter op i = l := by
  unfold letter
  cases op.reverse[i]? with
  | none => simp [hl.symm]
  | some x => simp

theorem toCBS_aux {n : ℕ} (op : List Char) (ψ : QState n) (L : List (Fin n)) (hnd : L.Nodup) (N : Fin n → Matrix Bool Bool ℂ) :
    runCircuit (L.flatMap fun i : Fin n =>
      if op.reverse[(i : ℕ)]? = some 'X' then [Gate.h i]
      else if op.reverse[(i : ℕ)]? = some 'Y' then [Gate.sdg i, Gate.h i] else []) (tensor N ψ) =
      tensor (fun i => if i ∈ L then rotation (letter op i) * N i else N i) ψ := by
  induction L generalizing N with
  | nil => simp [runCircuit]
  | cons i L ih =>
    obtain ⟨hi, hnd'⟩ := List.nodup_cons.1 hnd
    have key : runCircuit (if op.reverse[(i : ℕ)]? = some 'X' then [Gate.h i]
        else if op.reverse[(i : ℕ)]? = some 'Y' then [Gate.sdg i, Gate.h i] else []) (tensor N ψ) =
        tensor (Function.update N i (rotation (letter op i) * N i)) ψ := by
      unfold rotation
      by_cases hX : op.reverse[(i : ℕ)]? = some 'X'
      · rw [if_pos hX, if_pos ((letter_eq (by decide)).1 hX)]
        exact onQubit_tensor i hadamard N ψ
      · rw [if_neg hX, if_neg (fun h => hX ((letter_eq (by decide)).2 h))]
        by_cases hY : op.reverse[(i : ℕ)]? = some 'Y'
        · rw [if_pos hY, if_pos ((letter_eq (by decide)).1 hY)]
          show onQubit i hadamard (onQubit i sDagger (tensor N ψ)) = _
          rw [onQubit_tensor, onQubit_tensor, Function.update_self, Function.update_idem, Matrix.mul_assoc]
        · rw [if_neg hY, if_neg (fun h => hY ((letter_eq (by decide)).2 h)), Matrix.one_mul, Function.update_eq_self]
          rfl
    rw [List.flatMap_cons, runCircuit_append, key, ih hnd']
    congr 1
    funext j
    by_cases hj : j = i
    · subst hj
      simp [hi]
    · rw [Function.update_of_ne hj]
      simp [hj]

theorem toCBS_tensor {n : ℕ} (op : List Char) (ψ : QState n) :
    runCircuit (toCBS n op) ψ = tensor (fun i => rotation (letter op i)) ψ := by
  conv_lhs => rw [← tensor_one ψ]
  unfold toCBS
  rw [toCBS_aux op ψ _ (List.nodup_finRange n)]
  simp

theorem covers_letter {head p : List Char} {n : ℕ} (hp : p.length = n) (hc : Covers head p) {i : ℕ} (hi : i < n)
    (hI : letter p i ≠ 'I') : letter head i = letter p i := by
  have h1 : i < p.length := by omega
  have h2 : i < head.length := by rw [hc.1]; omega
  have e1 : letter p i = p[p.length - 1 - i] := by
    unfold letter
    rw [List.getElem?_reverse h1, List.getElem?_eq_getElem (by omega)]
    rfl
  have e2 : letter head i = head[head.length - 1 - i] := by
    unfold letter
    rw [List.getElem?_reverse h2, List.getElem?_eq_getElem (by omega)]
    rfl
  have := hc.2 (p.length - 1 - i) _ (List.getElem?_eq_getElem (by omega)) (by rw [← e1]; exact hI)
  rw [e1, e2]
  rw [List.getElem?_eq_getElem (by rw [hc.1]; omega), Option.some.injEq] at this
  rw [← this]
  congr 1
  rw [hc.1]

/-- A diagonal operator. -/
def diagMat (z : Bool → ℂ) : Matrix Bool Bool ℂ := fun b c => if b = c then z b else 0

theorem tensor_diag {n : ℕ} (z : Fin n → Bool → ℂ) (ψ : QState n) :
    tensor (fun i => diagMat (z i)) ψ = fun b => (∏ i, z i (b i)) * ψ b := by
  funext b
  unfold tensor
  rw [Finset.sum_eq_single b]
  · congr 1
    exact Finset.prod_congr rfl fun i _ => by unfold diagMat; exact if_pos rfl
  · intro c _ hc
    obtain ⟨i, hi⟩ := Function.ne_iff.1 hc
    have h0 : ∏ i, diagMat (z i) (b i) (c i) = 0 :=
      Finset.prod_eq_zero (Finset.mem_univ i) (by unfold diagMat; exact if_neg (Ne.symm hi))
    rw [h0, zero_mul]
  · simp

/-- Measuring the head gives the expectation value of every label it covers. -/
theorem measure_expectation {n : ℕ} {head p : List Char} (hp : PauliLabel n p) (hc : Covers head p) (ψ : QState n) :
    ∑ b ∈ range (2 ^ n), ((prob (runCircuit (toCBS n head) ψ) b : ℝ) : ℂ) *
      ∏ i : Fin n, (if letter p i ≠ 'I' ∧ b.testBit i = true then (-1 : ℂ) else 1) = qinner ψ (pauliOp n p ψ) := by
  have e1 : ∀ b, ((prob (runCircuit (toCBS n head) ψ) b : ℝ) : ℂ) *
      ∏ i : Fin n, (if letter p i ≠ 'I' ∧ b.testBit i = true then (-1 : ℂ) else 1) =
      (fun l => (starRingEnd ℂ) (runCircuit (toCBS n head) ψ l) *
        ((∏ i : Fin n, (if letter p i ≠ 'I' ∧ l i = true then (-1 : ℂ) else 1)) * runCircuit (toCBS n head) ψ l))
        (qubitBits n b) := by
    intro b
    unfold prob
    rw [Complex.normSq_eq_conj_mul_self]
    have comm : ∀ a c P : ℂ, c * a * P = c * (P * a) := fun a c P => by ring
    exact comm _ _ _
  rw [Finset.sum_congr rfl fun b _ => e1 b, sum_outcome (fun l => (starRingEnd ℂ) (runCircuit (toCBS n head) ψ l) *
    ((∏ i : Fin n, (if letter p i ≠ 'I' ∧ l i = true then (-1 : ℂ) else 1)) * runCircuit (toCBS n head) ψ l))]
  have e2 := tensor_diag (fun (i : Fin n) b => if letter p i ≠ 'I' ∧ b = true then (-1 : ℂ) else 1) (runCircuit (toCBS n head) ψ)
  have e3 : (∑ b, (starRingEnd ℂ) (runCircuit (toCBS n head) ψ b) *
      ((∏ i : Fin n, (if letter p i ≠ 'I' ∧ b i = true then (-1 : ℂ) else 1)) * runCircuit (toCBS n head) ψ b)) =
      qinner (runCircuit (toCBS n head) ψ) (tensor (fun i : Fin n => diagMat
        (fun b => if letter p i ≠ 'I' ∧ b = true then (-1 : ℂ) else 1)) (runCircuit (toCBS n head) ψ)) := by
    rw [e2]; rfl
  rw [e3, toCBS_tensor, qinner_tensor, tensor_tensor, tensor_tensor]
  unfold pauliOp
  congr 2
  funext i
  by_cases hI : letter p i = 'I'
  · have : diagMat (fun b => if letter p i ≠ 'I' ∧ b = true then (-1 : ℂ) else 1) =
        (1 : Matrix Bool Bool ℂ) := by
      funext b c
      simp [diagMat, hI, Matrix.one_apply]
    rw [this, Matrix.mul_one, rotation_unitary, hI]
    rfl
  · have : diagMat (fun b => if letter p i ≠ 'I' ∧ b = true then (-1 : ℂ) else 1) = sigmaZ := by
      funext b c
      simp [diagMat, hI, sigmaZ]
    have hmem : letter p i = 'X' ∨ letter p i = 'Y' ∨ letter p i = 'Z' := by
      have h1 : (i : ℕ) < p.reverse.length := by rw [List.length_reverse, hp.1]; exact i.2
      have : letter p i ∈ p := by
        unfold letter
        rw [List.getElem?_eq_getElem h1]
        exact List.mem_reverse.1 (List.getElem_mem h1)
      rcases hp.2 _ this with h | h
      · exact absurd h hI
      · exact h
    rw [this, covers_letter hp.1 hc i.2 hI]
    exact rotation_sigma hmem

end SQ
