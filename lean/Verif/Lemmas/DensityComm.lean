import Verif.Lemmas.Density
import Mathlib.Tactic.NoncommRing
import Mathlib.Tactic.Module

/-! # Commutators of excitation operators with the Hamiltonian, in expectation values -/

namespace SQ

theorem delta_symm (p q : ℕ) : (delta p q : ℝ) = delta q p := by simp [delta, eq_comm]

theorem comm_E_E (m n p q : ℕ) :
    comm (E m n) (E p q) = (delta n p : ℝ) • E m q - (delta q m : ℝ) • E p n := E_comm m n p q

theorem e_eq (p q r s : ℕ) : (e p q r s : FOp ℝ) = E p q * E r s - (delta q r : ℝ) • E p s := by
  rw [E_mul_E]; abel

theorem comm_E_e (m n p q r s : ℕ) :
    comm (E m n) (e p q r s) = (delta n p : ℝ) • e m q r s - (delta q m : ℝ) • e p n r s
      + (delta n r : ℝ) • e p q m s - (delta s m : ℝ) • e p q r n := by
  have h1 : comm (E m n) (e p q r s) = comm (E m n) (E p q) * E r s + E p q * comm (E m n) (E r s)
      - (delta q r : ℝ) • comm (E m n) (E p s) := by
    rw [e_eq]
    unfold comm
    simp only [mul_sub, sub_mul, mul_smul_comm, smul_mul_assoc, smul_sub, mul_assoc]
    abel
  rw [h1]
  simp only [comm_E_E, sub_mul, mul_sub, smul_mul_assoc, mul_smul_comm, E_mul_E, smul_add, smul_sub, smul_smul]
  rw [mul_comm (delta q r : ℝ) (delta n p), mul_comm (delta q r : ℝ) (delta s m),
    mul_comm (delta n r : ℝ) (delta q m)]
  abel

theorem comm_anti (A B : FOp ℝ) : comm A B = -comm B A := by unfold comm; abel

theorem comm_add_left (A B C : FOp ℝ) : comm (A + B) C = comm A C + comm B C := by
  unfold comm; rw [add_mul, mul_add]; abel
theorem comm_add_right (A B C : FOp ℝ) : comm C (A + B) = comm C A + comm C B := by
  unfold comm; rw [add_mul, mul_add]; abel
theorem comm_sub_right (A B C : FOp ℝ) : comm C (A - B) = comm C A - comm C B := by
  unfold comm; rw [sub_mul, mul_sub]; abel
theorem comm_sub_left (A B C : FOp ℝ) : comm (A - B) C = comm A C - comm B C := by
  unfold comm; rw [sub_mul, mul_sub]; abel
theorem comm_smul_left (c : ℝ) (A C : FOp ℝ) : comm (c • A) C = c • comm A C := by
  unfold comm; rw [smul_mul_assoc, mul_smul_comm, smul_sub]
theorem comm_smul_right (c : ℝ) (A C : FOp ℝ) : comm C (c • A) = c • comm C A := by
  unfold comm; rw [smul_mul_assoc, mul_smul_comm, smul_sub]
theorem comm_sum_left {ι : Type*} (s : Finset ι) (f : ι → FOp ℝ) (C : FOp ℝ) :
    comm (∑ i ∈ s, f i) C = ∑ i ∈ s, comm (f i) C := by
  unfold comm; rw [Finset.sum_mul, Finset.mul_sum, Finset.sum_sub_distrib]
theorem comm_sum_right {ι : Type*} (s : Finset ι) (f : ι → FOp ℝ) (C : FOp ℝ) :
    comm C (∑ i ∈ s, f i) = ∑ i ∈ s, comm C (f i) := by
  unfold comm; rw [Finset.sum_mul, Finset.mul_sum, Finset.sum_sub_distrib]

section
variable (Ψs : List (Fock ℝ))

theorem mean_sub (A B : FOp ℝ) : mean Ψs (A - B) = mean Ψs A - mean Ψs B := map_sub (meanL Ψs) A B
theorem mean_neg (A : FOp ℝ) : mean Ψs (-A) = -mean Ψs A := map_neg (meanL Ψs) A
theorem mean_sum {ι : Type*} (s : Finset ι) (f : ι → FOp ℝ) :
    mean Ψs (∑ i ∈ s, f i) = ∑ i ∈ s, mean Ψs (f i) := map_sum (meanL Ψs) f s

theorem sum_delta_left {N n : ℕ} (hn : n < N) (f : ℕ → ℝ) :
    ∑ p ∈ Finset.range N, delta n p * f p = f n := by
  unfold delta
  simp only [ite_mul, one_mul, zero_mul]
  rw [Finset.sum_ite_eq, if_pos (Finset.mem_range.2 hn)]

theorem sum_delta_right {N n : ℕ} (hn : n < N) (f : ℕ → ℝ) :
    ∑ p ∈ Finset.range N, delta p n * f p = f n := by
  simp only [delta_symm _ n]
  exact sum_delta_left hn f

/-- `⟨[E_mn, Σ h E]⟩`. -/
theorem mean_comm_one (h : ℕ → ℕ → ℝ) {N m n : ℕ} (hm : m < N) (hn : n < N) :
    mean Ψs (comm (E m n) (oneOp h N)) = ∑ p ∈ Finset.range N, h n p * mean Ψs (E m p)
      - ∑ p ∈ Finset.range N, h p m * mean Ψs (E p n) := by
  unfold oneOp
  simp only [comm_sum_right, comm_smul_right, mean_sum, mean_smul, comm_E_E, mean_sub, mul_sub,
    Finset.sum_sub_distrib]
  congr 1
  · rw [Finset.sum_comm]
    refine Finset.sum_congr rfl fun q _ => ?_
    simp only [mul_left_comm (h _ q)]
    exact sum_delta_left hn fun p => h p q * mean Ψs (E m q)
  · refine Finset.sum_congr rfl fun p _ => ?_
    simp only [mul_left_comm (h p _)]
    exact sum_delta_right hm fun q => h p q * mean Ψs (E p n)

/-- `⟨[E_mn, Σ g e]⟩`. -/
theorem mean_comm_two (g : ℕ → ℕ → ℕ → ℕ → ℝ) {N m n : ℕ} (hm : m < N) (hn : n < N) :
    mean Ψs (comm (E m n) (twoOp g N)) =
      ∑ p ∈ Finset.range N, ∑ q ∈ Finset.range N, ∑ r ∈ Finset.range N,
        (g n p q r * mean Ψs (e m p q r) - g p m q r * mean Ψs (e p n q r)
          + g p q n r * mean Ψs (e p q m r) - g p q r m * mean Ψs (e p q r n)) := by
  unfold twoOp
  simp only [comm_sum_right, comm_smul_right, mean_sum, mean_smul, comm_E_e, mean_sub, mean_add, mul_sub,
    mul_add, Finset.sum_sub_distrib, Finset.sum_add_distrib]
  congr 1
  · congr 1
    · congr 1
      · rw [Finset.sum_comm]
        refine Finset.sum_congr rfl fun q _ => ?_
        rw [Finset.sum_comm]
        refine Finset.sum_congr rfl fun r _ => ?_
        rw [Finset.sum_comm]
        refine Finset.sum_congr rfl fun s _ => ?_
        simp only [mul_left_comm (g _ q r s)]
        exact sum_delta_left hn fun p => g p q r s * mean Ψs (e m q r s)
      · refine Finset.sum_congr rfl fun p _ => ?_
        rw [Finset.sum_comm]
        refine Finset.sum_congr rfl fun r _ => ?_
        rw [Finset.sum_comm]
        refine Finset.sum_congr rfl fun s _ => ?_
        simp only [mul_left_comm (g p _ r s)]
        exact sum_delta_right hm fun q => g p q r s * mean Ψs (e p n r s)
    · refine Finset.sum_congr rfl fun p _ => ?_
      refine Finset.sum_congr rfl fun q _ => ?_
      rw [Finset.sum_comm]
      refine Finset.sum_congr rfl fun s _ => ?_
      simp only [mul_left_comm (g p q _ s)]
      exact sum_delta_left hn fun r => g p q r s * mean Ψs (e p q m s)
  · refine Finset.sum_congr rfl fun p _ => ?_
    refine Finset.sum_congr rfl fun q _ => ?_
    refine Finset.sum_congr rfl fun r _ => ?_
    simp only [mul_left_comm (g p q r _)]
    exact sum_delta_right hm fun s => g p q r s * mean Ψs (e p q r n)

end

end SQ
