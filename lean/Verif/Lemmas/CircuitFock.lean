import Verif.Lemmas.CircuitState

/-! # Generators of the circuits on determinants in the order of the qubits -/

namespace SQ

open Finset

theorem set_single {S : Finset ℕ} {i k : ℕ} (hi : i ∈ S) (hk : k ∉ S) : insert k (S.erase i) = symmDiff S {k, i} := by
  ext q
  simp only [mem_insert, mem_erase, mem_symmDiff, mem_singleton]
  by_cases h1 : q = k
  · subst h1; simp [hk]
  · by_cases h2 : q = i
    · subst h2; simp [hi, h1]
    · simp [h1, h2]

/-- `a†_k a_i - a†_i a_k` on determinants, for `i < k`. -/
theorem single_gen {i k : ℕ} (h : i < k) (S : Finset ℕ) : (cr k * an i - cr i * an k : FOp ℝ) (sgl S 1) =
    if (chi S i ^^ chi S k) = true then sgl (symmDiff S {k, i}) ((if k ∈ S then -1 else 1) * par S (Ioo i k)) else 0 := by
  have hm := phase_mul h.le S
  rw [par_Ico h] at hm
  rw [LinearMap.sub_apply, Module.End.mul_apply, Module.End.mul_apply, an_single, an_single]
  have hik : i ≠ k := h.ne
  by_cases hi : i ∈ S <;> by_cases hk : k ∈ S
  · simp [chi, hi, hk, cr_single, hik, hik.symm]
  · have h1 : k ∉ S.erase i := fun h => hk (mem_of_mem_erase h)
    rw [if_pos hi, if_neg hk, cr_single, if_neg h1, map_zero, sub_zero, set_single hi hk, if_pos (by simp [chi, hi, hk]),
      phase_erase_lt S i k hi h]
    rw [if_pos hi] at hm
    rw [if_neg hk]
    congr 1
    linear_combination -hm
  · have h1 : i ∉ S.erase k := fun h => hi (mem_of_mem_erase h)
    rw [if_neg hi, if_pos hk, cr_single, if_neg h1, map_zero, zero_sub, ← sgl_neg, set_single hk hi, if_pos (by simp [chi, hi, hk]),
      phase_erase_ge S k i (by omega), Finset.pair_comm i k]
    rw [if_neg hi] at hm
    rw [if_pos hk]
    congr 1
    linear_combination -hm
  · simp [chi, hi, hk]

theorem pair_lt {n i k : ℕ} (hi : i < n) (hk : k < n) : ∀ q ∈ ({k, i} : Finset ℕ), q < n := by
  intro q hq
  simp only [mem_insert, mem_singleton] at hq
  rcases hq with rfl | rfl <;> assumption

theorem single_fock {n i k : ℕ} (h : i < k) (hk : k < n) (θ : ℝ) (X : Fock ℝ) :
    regAmp n ((1 + Real.sin θ • (cr k * an i - cr i * an k) + (1 - Real.cos θ) •
      ((cr k * an i - cr i * an k) * (cr k * an i - cr i * an k)) : FOp ℝ) X) =
    giv θ (fun b => b i ^^ b k) (fun b => -sgb (b k) * sgs (Ioo i k) b) {k, i} (regAmp n X) := by
  have hd : Disjoint (Ioo i k) {k, i} := by
    rw [disjoint_left]; intro q hq; simp only [mem_insert, mem_singleton]; rw [mem_Ioo] at hq; omega
  refine exp_amp (c := fun b => b i ^^ b k) (σ := fun S => (if k ∈ S then -1 else 1) * par S (Ioo i k))
    (fun S => single_gen h S) ?_ ?_ ?_ (pair_lt (h.trans hk) hk) ?_ ?_ θ X
  · intro b; simp only [flipAll, mem_insert, mem_singleton, true_or, or_true, if_true]; cases b i <;> cases b k <;> rfl
  · intro S hS
    simp only [par_symm hd, mem_symmDiff, mem_insert, mem_singleton, true_or]
    by_cases hk : k ∈ S <;> simp [hk]
  · intro S
    have := par_sq S (Ioo i k)
    by_cases hk : k ∈ S <;> simp [hk, this]
  · intro b; simp only [chi_occ (h.trans hk), chi_occ hk]
  · intro b
    simp only [sgb_par hk, sgs_par (n := n) (Q := Ioo i k) (fun q hq => by rw [mem_Ioo] at hq; omega)]
    push_cast
    ring

theorem single_circuit {i k : ℕ} (h : i < k) (θ : ℝ) (Ψ : Amp) : runCalls (singleGates k i θ) Ψ =
    giv θ (fun b => b i ^^ b k) (fun b => -sgb (b k) * sgs (Ioo i k) b) {k, i} Ψ := by
  rcases Nat.lt_or_ge (i + 1) k with h' | h'
  · exact single_far h' θ Ψ
  · obtain rfl : k = i + 1 := by omega
    exact single_near i θ Ψ

/-! ### Doubles -/

/-- `a†_k a†_l a_j a_i - a†_i a†_j a_l a_k`. -/
noncomputable def dblT (k l i j : ℕ) : FOp ℝ := excite [k, l] [j, i] - excite [i, j] [l, k]

theorem dblT_swap1 (k l i j : ℕ) : dblT l k i j = -dblT k l i j := by
  unfold dblT excite
  simp only [List.map_cons, List.map_nil, List.prod_cons, List.prod_nil, mul_one]
  rw [cr_cr l k, an_an k l]; simp [neg_add_eq_sub]

theorem dblT_swap2 (k l i j : ℕ) : dblT k l j i = -dblT k l i j := by
  unfold dblT excite
  simp only [List.map_cons, List.map_nil, List.prod_cons, List.prod_nil, mul_one]
  rw [cr_cr j i, an_an i j]; simp [neg_add_eq_sub]

theorem dblT_conj (k l i j : ℕ) : dblT i j k l = -dblT k l i j := by unfold dblT; simp

theorem set_double {S : Finset ℕ} {i j k l : ℕ} (hn : [i, j, k, l].Nodup) (hi : i ∈ S) (hj : j ∈ S) (hk : k ∉ S) (hl : l ∉ S) :
    insert k (insert l ((S.erase i).erase j)) = symmDiff S {k, i, j, l} := by
  ext q
  simp only [mem_insert, mem_erase, mem_symmDiff, mem_singleton]
  simp only [List.nodup_cons, List.mem_cons, List.not_mem_nil, or_false, not_or] at hn
  obtain ⟨⟨a1, a2, a3⟩, ⟨a4, a5⟩, a6, -⟩ := hn
  by_cases h1 : q = k
  · subst h1; simp [hk]
  · by_cases h2 : q = l
    · subst h2; simp [hl]
    · by_cases h3 : q = i
      · subst h3; simp [hi, h1, h2]
      · by_cases h4 : q = j
        · subst h4; simp [hj, h1, h2]
        · simp [h1, h2, h3, h4]

/-- One half of the generator. -/
theorem quad_apply {S : Finset ℕ} {i j k l : ℕ} (hn : [i, j, k, l].Nodup) : (excite [k, l] [j, i] : FOp ℝ) (sgl S 1) =
    if i ∈ S ∧ j ∈ S ∧ k ∉ S ∧ l ∉ S then sgl (symmDiff S {k, i, j, l})
      (phase S i * phase (S.erase i) j * phase ((S.erase i).erase j) l * phase (insert l ((S.erase i).erase j)) k) else 0 := by
  have hn' := hn
  simp only [List.nodup_cons, List.mem_cons, List.not_mem_nil, or_false, not_or] at hn
  obtain ⟨⟨a1, a2, a3⟩, ⟨a4, a5⟩, a6, -⟩ := hn
  unfold excite
  simp only [List.map_cons, List.map_nil, List.prod_cons, List.prod_nil, mul_one, Module.End.mul_apply]
  rw [an_single]
  by_cases hi : i ∈ S
  · rw [if_pos hi, an_single]
    by_cases hj : j ∈ S
    · rw [if_pos (mem_erase.2 ⟨Ne.symm a1, hj⟩), cr_single]
      by_cases hl : l ∈ S
      · rw [if_pos (mem_erase.2 ⟨Ne.symm a5, mem_erase.2 ⟨Ne.symm a3, hl⟩⟩), map_zero, if_neg (by tauto)]
      · rw [if_neg (fun h => hl (mem_of_mem_erase (mem_of_mem_erase h))), cr_single]
        by_cases hk : k ∈ S
        · rw [if_pos (mem_insert.2 (.inr (mem_erase.2 ⟨Ne.symm a4, mem_erase.2 ⟨Ne.symm a2, hk⟩⟩))), if_neg (by tauto)]
        · rw [if_neg (fun h => (mem_insert.1 h).elim a6 fun h => hk (mem_of_mem_erase (mem_of_mem_erase h))),
            if_pos ⟨hi, hj, hk, hl⟩, set_double hn' hi hj hk hl, one_mul]
    · rw [if_neg (fun h => hj (mem_of_mem_erase h)), map_zero, map_zero, if_neg (by tauto)]
  · rw [if_neg hi, map_zero, map_zero, map_zero, if_neg (by tauto)]

/-- The phases with all orbitals in one set. -/
theorem phase_four {i j k l : ℕ} (h1 : i < k) (h2 : i < j) (h3 : k < l) (h4 : j < l) (h5 : j ≠ k) (S : Finset ℕ) :
    (phase S i * phase S j * phase S k * phase S l : ℝ) = (if i ∈ S then -1 else 1) * (if max j k ∈ S then -1 else 1) *
      (par S (Ioo (max j k) l) * par S (Ioo i (min j k))) := by
  have e : (phase S i * phase S j * phase S k * phase S l : ℝ) =
      (phase S i * phase S (min j k)) * (phase S (max j k) * phase S l) := by
    rcases Nat.lt_or_gt_of_ne h5 with h | h
    · rw [min_eq_left h.le, max_eq_right h.le]; ring
    · rw [min_eq_right h.le, max_eq_left h.le]; ring
  rw [e, phase_mul (by omega), phase_mul (by omega), par_Ico (by omega), par_Ico (by omega)]
  ring

theorem quad_comm (k i j l : ℕ) : ({i, k, l, j} : Finset ℕ) = {k, i, j, l} := by
  ext q; simp only [mem_insert, mem_singleton]; tauto

theorem double_gen {i j k l : ℕ} (h1 : i < k) (h2 : i < j) (h3 : k < l) (h4 : j < l) (h5 : j ≠ k) (S : Finset ℕ) :
    dblT k l i j (sgl S 1) = if ((chi S k == chi S l) && (chi S i == chi S j) && (chi S j ^^ chi S l)) = true then
      sgl (symmDiff S {k, i, j, l}) ((if l ∈ S then -1 else 1) * (par S (Ioo (max j k) l) * par S (Ioo i (min j k)))) else 0 := by
  have hn : [i, j, k, l].Nodup := by simp; omega
  have hn' : [k, l, i, j].Nodup := by simp; omega
  have hf := phase_four h1 h2 h3 h4 h5 S
  unfold dblT
  rw [LinearMap.sub_apply, quad_apply hn, quad_apply hn']
  by_cases c1 : i ∈ S ∧ j ∈ S ∧ k ∉ S ∧ l ∉ S
  · obtain ⟨hi, hj, hk, hl⟩ := c1
    rw [if_pos ⟨hi, hj, hk, hl⟩, if_neg (by tauto), sub_zero, if_pos (by simp [chi, hi, hj, hk, hl]), if_neg hl]
    congr 1
    have p1 : (phase (S.erase i) j : ℝ) = -phase S j := phase_erase_lt S i j hi h2
    have p2 : (phase ((S.erase i).erase j) l : ℝ) = phase S l := by
      rw [phase_erase_lt _ j l (mem_erase.2 ⟨h2.ne', hj⟩) h4, phase_erase_lt S i l hi (by omega), neg_neg]
    have p3 : (phase (insert l ((S.erase i).erase j)) k : ℝ) = phase ((S.erase i).erase j) k := phase_insert_ge _ _ _ (by omega)
    rw [p1, p2, p3]
    rcases Nat.lt_or_gt_of_ne h5 with h | h
    · rw [phase_erase_lt _ j k (mem_erase.2 ⟨h2.ne', hj⟩) h, phase_erase_lt S i k hi h1, neg_neg]
      rw [max_eq_right h.le, if_pos hi, if_neg hk] at hf
      rw [max_eq_right h.le]
      linear_combination -hf
    · rw [phase_erase_ge _ j k (by omega), phase_erase_lt S i k hi h1]
      rw [max_eq_left h.le, if_pos hi, if_pos hj] at hf
      rw [max_eq_left h.le]
      linear_combination hf
  · rw [if_neg c1]
    by_cases c2 : k ∈ S ∧ l ∈ S ∧ i ∉ S ∧ j ∉ S
    · obtain ⟨hk, hl, hi, hj⟩ := c2
      rw [if_pos ⟨hk, hl, hi, hj⟩, zero_sub, ← sgl_neg, quad_comm, if_pos (by simp [chi, hi, hj, hk, hl]), if_pos hl]
      congr 1
      have p1 : (phase (S.erase k) l : ℝ) = -phase S l := phase_erase_lt S k l hk h3
      have p2 : (phase (insert j ((S.erase k).erase l)) i : ℝ) = phase S i := by
        rw [phase_insert_ge _ _ _ (by omega), phase_erase_ge _ l i (by omega), phase_erase_ge S k i (by omega)]
      have p3 : (phase ((S.erase k).erase l) j : ℝ) = phase (S.erase k) j := phase_erase_ge _ _ _ (by omega)
      rw [p1, p2, p3]
      rcases Nat.lt_or_gt_of_ne h5 with h | h
      · rw [phase_erase_ge S k j (by omega)]
        rw [max_eq_right h.le, if_neg hi, if_pos hk] at hf
        rw [max_eq_right h.le]
        linear_combination hf
      · rw [phase_erase_lt S k j hk h]
        rw [max_eq_left h.le, if_neg hi, if_neg hj] at hf
        rw [max_eq_left h.le]
        linear_combination -hf
    · rw [if_neg c2, sub_zero, if_neg]
      intro hc
      revert hc
      by_cases hi : i ∈ S <;> by_cases hj : j ∈ S <;> by_cases hk : k ∈ S <;> by_cases hl : l ∈ S <;> simp_all [chi]

theorem quad_lt {n i j k l : ℕ} (h1 : i < l) (h3 : k < l) (h4 : j < l) (hl : l < n) : ∀ q ∈ ({k, i, j, l} : Finset ℕ), q < n := by
  intro q hq
  simp only [mem_insert, mem_singleton] at hq
  omega

theorem double_fock {n i j k l : ℕ} (h1 : i < k) (h2 : i < j) (h3 : k < l) (h4 : j < l) (h5 : j ≠ k) (hl : l < n) (θ : ℝ)
    (X : Fock ℝ) :
    regAmp n ((1 + Real.sin θ • dblT k l i j + (1 - Real.cos θ) • (dblT k l i j * dblT k l i j) : FOp ℝ) X) =
    giv θ (fun b => (b k == b l) && (b i == b j) && (b j ^^ b l))
      (fun b => -sgb (b l) * sgs (Ioo (max j k) l) b * sgs (Ioo i (min j k)) b) {k, i, j, l} (regAmp n X) := by
  have hd1 : Disjoint (Ioo (max j k) l) {k, i, j, l} := by
    rw [disjoint_left]; intro q hq; simp only [mem_insert, mem_singleton]; rw [mem_Ioo] at hq; omega
  have hd2 : Disjoint (Ioo i (min j k)) {k, i, j, l} := by
    rw [disjoint_left]; intro q hq; simp only [mem_insert, mem_singleton]; rw [mem_Ioo] at hq; omega
  refine exp_amp (c := fun b => (b k == b l) && (b i == b j) && (b j ^^ b l))
    (σ := fun S => (if l ∈ S then -1 else 1) * (par S (Ioo (max j k) l) * par S (Ioo i (min j k))))
    (fun S => double_gen h1 h2 h3 h4 h5 S) ?_ ?_ ?_ (quad_lt (h1.trans h3) h3 h4 hl) ?_ ?_ θ X
  · intro b
    simp only [flipAll, mem_insert, mem_singleton, true_or, or_true, if_true]
    cases b i <;> cases b j <;> cases b k <;> cases b l <;> rfl
  · intro S hS
    simp only [par_symm hd1, par_symm hd2, mem_symmDiff, mem_insert, mem_singleton, or_true]
    by_cases hk : l ∈ S <;> simp [hk]
  · intro S
    have a1 := par_sq S (Ioo (max j k) l)
    have a2 := par_sq S (Ioo i (min j k))
    have a3 : (if l ∈ S then -1 else 1 : ℝ) * (if l ∈ S then -1 else 1) = 1 := by split <;> norm_num
    linear_combination (par S (Ioo (max j k) l) * par S (Ioo i (min j k))) ^ 2 * a3 +
      (par S (Ioo (max j k) l)) ^ 2 * a2 + a1
  · intro b
    simp only [chi_occ hl, chi_occ (h3.trans hl), chi_occ (h4.trans hl), chi_occ (h1.trans (h3.trans hl))]
  · intro b
    simp only [sgb_par hl, sgs_par (n := n) (Q := Ioo (max j k) l) (fun q hq => by rw [mem_Ioo] at hq; omega),
      sgs_par (n := n) (Q := Ioo i (min j k)) (fun q hq => by rw [mem_Ioo] at hq; omega)]
    push_cast
    ring

end SQ
