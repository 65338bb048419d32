import Verif.Lemmas.DensityComm

/-! # Double commutators -/

namespace SQ

theorem sum_dl {M : Type*} [AddCommGroup M] [Module ℝ M] {N n : ℕ} (hn : n < N) (f : ℕ → M) :
    ∑ p ∈ Finset.range N, (delta n p : ℝ) • f p = f n := by
  unfold delta
  simp only [ite_smul, one_smul, zero_smul]
  rw [Finset.sum_ite_eq, if_pos (Finset.mem_range.2 hn)]

theorem sum_dr {M : Type*} [AddCommGroup M] [Module ℝ M] {N n : ℕ} (hn : n < N) (f : ℕ → M) :
    ∑ p ∈ Finset.range N, (delta p n : ℝ) • f p = f n := by
  simp only [delta_symm _ n]
  exact sum_dl hn f

/-- Integrals of `[E_mn, Σ h E]`. -/
noncomputable def rot1 (m n : ℕ) (h : ℕ → ℕ → ℝ) (p q : ℕ) : ℝ := delta p m * h n q - delta q n * h p m

/-- Integrals of `[E_mn, Σ g e]`. -/
noncomputable def rot2 (m n : ℕ) (g : ℕ → ℕ → ℕ → ℕ → ℝ) (p q r s : ℕ) : ℝ :=
  delta p m * g n q r s - delta q n * g p m r s + delta r m * g p q n s - delta s n * g p q r m

theorem comm_oneOp (h : ℕ → ℕ → ℝ) {N m n : ℕ} (hm : m < N) (hn : n < N) :
    comm (E m n) (oneOp h N) = oneOp (rot1 m n h) N := by
  unfold oneOp rot1
  simp only [comm_sum_right, comm_smul_right, comm_E_E, smul_sub, sub_smul, Finset.sum_sub_distrib]
  congr 1
  · rw [Finset.sum_comm]
    conv_rhs => rw [Finset.sum_comm]
    refine Finset.sum_congr rfl fun q _ => ?_
    simp only [smul_comm (h _ q) (delta n _ : ℝ), mul_smul]
    rw [sum_dl hn fun p => h p q • E m q, sum_dr hm fun p => h n q • E p q]
  · refine Finset.sum_congr rfl fun p _ => ?_
    simp only [smul_comm (h p _) (delta _ m : ℝ), mul_smul]
    rw [sum_dr hm fun q => h p q • E p n, sum_dr hn fun q => h p m • E p q]

theorem comm_twoOp (g : ℕ → ℕ → ℕ → ℕ → ℝ) {N m n : ℕ} (hm : m < N) (hn : n < N) :
    comm (E m n) (twoOp g N) = twoOp (rot2 m n g) N := by
  unfold twoOp rot2
  simp only [comm_sum_right, comm_smul_right, comm_E_e, smul_sub, sub_smul, smul_add, add_smul,
    Finset.sum_sub_distrib, Finset.sum_add_distrib]
  refine congrArg₂ (· - ·) (congrArg₂ (· + ·) (congrArg₂ (· - ·) ?_ ?_) ?_) ?_
  · · · rw [Finset.sum_comm]
        conv_rhs => rw [Finset.sum_comm]
        refine Finset.sum_congr rfl fun q _ => ?_
        rw [Finset.sum_comm]
        conv_rhs => rw [Finset.sum_comm]
        refine Finset.sum_congr rfl fun r _ => ?_
        rw [Finset.sum_comm]
        conv_rhs => rw [Finset.sum_comm]
        refine Finset.sum_congr rfl fun s _ => ?_
        simp only [smul_comm (g _ q r s) (delta n _ : ℝ), mul_smul]
        rw [sum_dl hn fun p => g p q r s • e m q r s, sum_dr hm fun p => g n q r s • e p q r s]
  · · · refine Finset.sum_congr rfl fun p _ => ?_
        rw [Finset.sum_comm]
        conv_rhs => rw [Finset.sum_comm]
        refine Finset.sum_congr rfl fun r _ => ?_
        rw [Finset.sum_comm]
        conv_rhs => rw [Finset.sum_comm]
        refine Finset.sum_congr rfl fun s _ => ?_
        simp only [smul_comm (g p _ r s) (delta _ m : ℝ), mul_smul]
        rw [sum_dr hm fun q => g p q r s • e p n r s, sum_dr hn fun q => g p m r s • e p q r s]
  · · refine Finset.sum_congr rfl fun p _ => ?_
      refine Finset.sum_congr rfl fun q _ => ?_
      rw [Finset.sum_comm]
      conv_rhs => rw [Finset.sum_comm]
      refine Finset.sum_congr rfl fun s _ => ?_
      simp only [smul_comm (g p q _ s) (delta n _ : ℝ), mul_smul]
      rw [sum_dl hn fun r => g p q r s • e p q m s, sum_dr hm fun r => g p q n s • e p q r s]
  · refine Finset.sum_congr rfl fun p _ => ?_
    refine Finset.sum_congr rfl fun q _ => ?_
    refine Finset.sum_congr rfl fun r _ => ?_
    simp only [smul_comm (g p q r _) (delta _ m : ℝ), mul_smul]
    rw [sum_dr hm fun s => g p q r s • e p q r n, sum_dr hn fun s => g p q r m • e p q r s]

/-! ### Sums over occupied orbitals only -/

theorem loop_eq {n N : ℕ} (hN : n ≤ N) {f : ℕ → ℝ} (hf : ∀ p, n ≤ p → f p = 0) :
    loop n f = ∑ p ∈ Finset.range N, f p := by
  unfold loop
  refine Finset.sum_subset (Finset.range_mono hN) fun p _ hp => hf p ?_
  simpa using hp

theorem loop2_eq {n N : ℕ} (hN : n ≤ N) {f : ℕ → ℕ → ℝ} (h1 : ∀ p q, n ≤ p → f p q = 0)
    (h2 : ∀ p q, n ≤ q → f p q = 0) :
    (loop n fun p => loop n fun q => f p q) = ∑ p ∈ Finset.range N, ∑ q ∈ Finset.range N, f p q := by
  rw [loop_eq hN]
  · exact Finset.sum_congr rfl fun p _ => loop_eq hN (h2 p)
  · intro p hp
    unfold loop
    exact Finset.sum_eq_zero fun q _ => h1 p q hp

theorem loop3_eq {n N : ℕ} (hN : n ≤ N) {f : ℕ → ℕ → ℕ → ℝ} (h1 : ∀ p q r, n ≤ p → f p q r = 0)
    (h2 : ∀ p q r, n ≤ q → f p q r = 0) (h3 : ∀ p q r, n ≤ r → f p q r = 0) :
    (loop n fun p => loop n fun q => loop n fun r => f p q r)
      = ∑ p ∈ Finset.range N, ∑ q ∈ Finset.range N, ∑ r ∈ Finset.range N, f p q r := by
  rw [loop_eq hN]
  · exact Finset.sum_congr rfl fun p _ => loop2_eq hN (h2 p) (h3 p)
  · intro p hp
    unfold loop
    exact Finset.sum_eq_zero fun q _ => Finset.sum_eq_zero fun r _ => h1 p q r hp

theorem loop4_eq {n N : ℕ} (hN : n ≤ N) {f : ℕ → ℕ → ℕ → ℕ → ℝ} (h1 : ∀ p q r s, n ≤ p → f p q r s = 0)
    (h2 : ∀ p q r s, n ≤ q → f p q r s = 0) (h3 : ∀ p q r s, n ≤ r → f p q r s = 0)
    (h4 : ∀ p q r s, n ≤ s → f p q r s = 0) :
    (loop n fun p => loop n fun q => loop n fun r => loop n fun s => f p q r s)
      = ∑ p ∈ Finset.range N, ∑ q ∈ Finset.range N, ∑ r ∈ Finset.range N, ∑ s ∈ Finset.range N,
        f p q r s := by
  rw [loop_eq hN]
  · exact Finset.sum_congr rfl fun p _ => loop3_eq hN (h2 p) (h3 p) (h4 p)
  · intro p hp
    unfold loop
    exact Finset.sum_eq_zero fun q _ => Finset.sum_eq_zero fun r _ => Finset.sum_eq_zero fun s _ =>
      h1 p q r s hp

end SQ
