import Verif.Spec.WaveFunction
import Mathlib.NumberTheory.Real.Irrational
import Mathlib.Analysis.SpecialFunctions.Exponential
import Mathlib.Analysis.SpecialFunctions.Trigonometric.Deriv
import Mathlib.Analysis.Calculus.MeanValue

/-! # Lemmas: exponentials of rotation generators -/

namespace SQ

open NormedSpace

section algebra

variable {𝔸 : Type*} [NormedRing 𝔸] [NormedAlgebra ℝ 𝔸] [CompleteSpace 𝔸]

/-- `exp(t x) = 1 + sin t x + (1 - cos t) x²` if `x³ = -x`. -/
theorem exp_of_cube {x : 𝔸} (hx : x * x * x = -x) (t : ℝ) :
    exp (t • x) = 1 + Real.sin t • x + (1 - Real.cos t) • (x * x) := by
  have hd : ∀ u : ℝ, HasDerivAt (fun u : ℝ => (1 + Real.sin u • x + (1 - Real.cos u) • (x * x)) * exp (u • (-x))) 0 u := by
    intro u
    have h1 : HasDerivAt (fun u : ℝ => 1 + Real.sin u • x + (1 - Real.cos u) • (x * x))
        (Real.cos u • x + Real.sin u • (x * x)) u := by
      have a := (Real.hasDerivAt_sin u).smul_const x
      have b : HasDerivAt (fun u : ℝ => 1 - Real.cos u) (Real.sin u) u := by
        simpa using (Real.hasDerivAt_cos u).const_sub 1
      have c := b.smul_const (x * x)
      exact (a.const_add 1).add c
    have h2 := hasDerivAt_exp_smul_const' (𝕂 := ℝ) (-x) u
    have h3 := h1.mul h2
    have e : (Real.cos u • x + Real.sin u • (x * x)) * exp (u • (-x)) +
        (1 + Real.sin u • x + (1 - Real.cos u) • (x * x)) * (-x * exp (u • (-x))) = 0 := by
      rw [← mul_assoc, ← add_mul]
      have : Real.cos u • x + Real.sin u • (x * x) + (1 + Real.sin u • x + (1 - Real.cos u) • (x * x)) * -x = 0 := by
        rw [add_mul, add_mul, one_mul, smul_mul_assoc, smul_mul_assoc, mul_neg, mul_neg, hx, neg_neg, sub_smul, one_smul,
          smul_neg]
        abel
      rw [this, zero_mul]
    rw [e] at h3
    exact h3
  have hc := is_const_of_deriv_eq_zero (f := fun u : ℝ => (1 + Real.sin u • x + (1 - Real.cos u) • (x * x)) * exp (u • (-x)))
    (fun u => (hd u).differentiableAt) (fun u => (hd u).deriv) t 0
  simp only [Real.sin_zero, zero_smul, add_zero, Real.cos_zero, sub_self, exp_zero, mul_one] at hc
  have hi : exp (t • (-x)) * exp (t • x) = 1 := by
    have hcom : Commute (t • (-x)) (t • x) := by
      rw [smul_neg]
      exact (Commute.refl _).neg_left
    letI := NormedAlgebra.restrictScalars ℚ ℝ 𝔸
    rw [← exp_add_of_commute hcom, smul_neg, neg_add_cancel, exp_zero]
  calc exp (t • x) = 1 * exp (t • x) := (one_mul _).symm
    _ = (1 + Real.sin t • x + (1 - Real.cos t) • (x * x)) * exp (t • -x) * exp (t • x) := by rw [hc]
    _ = _ := by rw [mul_assoc, hi, mul_one]

/-- The exponential of `A` acts trivially on what `A` annihilates. -/
theorem exp_mul_of_mul_zero {A B : 𝔸} (h : A * B = 0) : exp A * B = B := by
  have hd : ∀ u : ℝ, HasDerivAt (fun u : ℝ => exp (u • A) * B) 0 u := by
    intro u
    have h2 := (hasDerivAt_exp_smul_const (𝕂 := ℝ) A u).mul_const B
    rw [mul_assoc, h, mul_zero] at h2
    exact h2
  have hc := is_const_of_deriv_eq_zero (f := fun u : ℝ => exp (u • A) * B)
    (fun u => (hd u).differentiableAt) (fun u => (hd u).deriv) 1 0
  simpa using hc

end algebra

variable {n : ℕ}

attribute [local instance] Matrix.linftyOpNormedRing Matrix.linftyOpNormedAlgebra

theorem matrix_exp_of_cube {J : Matrix (Fin n) (Fin n) ℝ} (hJ : J * J * J = -J) (t : ℝ) :
    exp (t • J) = 1 + Real.sin t • J + (1 - Real.cos t) • (J * J) := exp_of_cube hJ t

theorem matrix_exp_mul_of_mul_zero {A B : Matrix (Fin n) (Fin n) ℝ} (h : A * B = 0) : exp A * B = B :=
  exp_mul_of_mul_zero h

theorem rotGen_transpose (idx : List (Fin n × Fin n)) (d : List ℝ) : (rotGen idx d).transpose = -rotGen idx d := by
  unfold rotGen
  induction idx.zip d with
  | nil => simp
  | cons x l ih =>
    rw [List.map_cons, List.sum_cons, Matrix.transpose_add, ih, Matrix.transpose_smul, Matrix.transpose_sub,
      Matrix.transpose_single, Matrix.transpose_single, neg_add, ← smul_neg, neg_sub]

/-- The rotation matrices are orthogonal. -/
theorem exp_rotGen_orthogonal (idx : List (Fin n × Fin n)) (d : List ℝ) :
    exp (-rotGen idx d) * (exp (-rotGen idx d)).transpose = 1 ∧
      (exp (-rotGen idx d)).transpose * exp (-rotGen idx d) = 1 := by
  have ht : (exp (-rotGen idx d)).transpose = exp (rotGen idx d) := by
    rw [← Matrix.exp_transpose, Matrix.transpose_neg, rotGen_transpose, neg_neg]
  have h : ∀ A : Matrix (Fin n) (Fin n) ℝ, exp (-A) * exp A = 1 := by
    intro A
    rw [← Matrix.exp_add_of_commute _ _ ((Commute.refl A).neg_left), neg_add_cancel, exp_zero]
  rw [ht]
  refine ⟨h _, ?_⟩
  have := h (-rotGen idx d)
  rwa [neg_neg] at this

/-- `B` is `A` with its columns rotated. -/
def RotOf (A B : Matrix (Fin n) (Fin n) ℝ) : Prop := ∃ U : Matrix (Fin n) (Fin n) ℝ, U.transpose * U = 1 ∧ B = A * U

theorem RotOf.refl (A : Matrix (Fin n) (Fin n) ℝ) : RotOf A A := ⟨1, by simp, by simp⟩

theorem RotOf.rotate {A B : Matrix (Fin n) (Fin n) ℝ} (h : RotOf A B) (idx : List (Fin n × Fin n)) (d : List ℝ) :
    RotOf A (B * exp (-rotGen idx d)) := by
  obtain ⟨U, h1, rfl⟩ := h
  refine ⟨U * exp (-rotGen idx d), ?_, Matrix.mul_assoc _ _ _⟩
  rw [Matrix.transpose_mul, Matrix.mul_assoc, ← Matrix.mul_assoc _ U, h1, Matrix.one_mul, (exp_rotGen_orthogonal _ _).2]

theorem rotGen_add : ∀ (idx : List (Fin n × Fin n)) (a b : List ℝ), a.length = idx.length → b.length = idx.length →
    rotGen idx (List.zipWith (· + ·) a b) = rotGen idx a + rotGen idx b := by
  intro idx
  induction idx with
  | nil => intro a b _ _; simp [rotGen]
  | cons x idx ih =>
    intro a b h1 h2
    obtain ⟨a0, a, rfl⟩ := List.exists_cons_of_length_eq_add_one h1
    obtain ⟨b0, b, rfl⟩ := List.exists_cons_of_length_eq_add_one h2
    have := ih a b (by simpa using h1) (by simpa using h2)
    simp only [rotGen, List.zipWith_cons_cons, List.zip_cons_cons, List.map_cons, List.sum_cons] at this ⊢
    rw [this, add_smul]
    abel

/-- The generators of the listed rotations commute with each other. -/
def CommutingKappa (idx : List (Fin n × Fin n)) : Prop :=
  ∀ x ∈ idx, ∀ y ∈ idx, Commute
    (Matrix.single x.1 x.2 (1 : ℝ) - Matrix.single x.2 x.1 1) (Matrix.single y.1 y.2 (1 : ℝ) - Matrix.single y.2 y.1 1)

theorem rotGen_commute {idx : List (Fin n × Fin n)} (h : CommutingKappa idx) (a b : List ℝ) :
    Commute (rotGen idx a) (rotGen idx b) := by
  unfold rotGen
  refine Commute.list_sum_left _ _ fun A hA => Commute.list_sum_right _ _ fun B hB => ?_
  obtain ⟨x, hx, rfl⟩ := List.mem_map.1 hA
  obtain ⟨y, hy, rfl⟩ := List.mem_map.1 hB
  exact ((h x.1 (List.of_mem_zip hx).1 y.1 (List.of_mem_zip hy).1).smul_left _).smul_right _

/-- One rotation of two orbitals. -/
theorem exp_rotGen_two (x : ℝ) :
    exp (-rotGen [((0 : Fin 2), (1 : Fin 2))] [x]) = !![Real.cos x, -Real.sin x; Real.sin x, Real.cos x] := by
  have h : -rotGen [((0 : Fin 2), (1 : Fin 2))] [x] = x • (!![0, -1; 1, 0] : Matrix (Fin 2) (Fin 2) ℝ) := by
    ext i j
    fin_cases i <;> fin_cases j <;> simp [rotGen]
  rw [h, matrix_exp_of_cube (by ext i j; fin_cases i <;> fin_cases j <;> simp [Matrix.mul_apply, Fin.sum_univ_two])]
  ext i j
  fin_cases i <;> fin_cases j <;> simp [Matrix.mul_apply, Fin.sum_univ_two]

/-- Three orbitals. -/
theorem rotGen_three (a b c : ℝ) : rotGen [((0 : Fin 3), (1 : Fin 3)), (0, 2), (1, 2)] [a, b, c] = !![0, a, b; -a, 0, c; -b, -c, 0] := by
  ext i j
  fin_cases i <;> fin_cases j <;> simp [rotGen]

theorem exp_three_a : exp (-rotGen [((0 : Fin 3), (1 : Fin 3)), (0, 2), (1, 2)] [Real.pi, 0, 0]) = Matrix.diagonal ![-1, -1, 1] := by
  have h : -rotGen [((0 : Fin 3), (1 : Fin 3)), (0, 2), (1, 2)] [Real.pi, 0, 0] = Real.pi • !![0, -1, 0; 1, 0, 0; 0, 0, 0] := by
    rw [rotGen_three]
    ext i j
    fin_cases i <;> fin_cases j <;> simp
  rw [h, matrix_exp_of_cube (by ext i j; fin_cases i <;> fin_cases j <;> simp [Matrix.mul_apply, Fin.sum_univ_three])]
  ext i j
  fin_cases i <;> fin_cases j <;> simp [Matrix.mul_apply, Fin.sum_univ_three] <;> norm_num

theorem exp_three_c : exp (-rotGen [((0 : Fin 3), (1 : Fin 3)), (0, 2), (1, 2)] [0, 0, Real.pi]) = Matrix.diagonal ![1, -1, -1] := by
  have h : -rotGen [((0 : Fin 3), (1 : Fin 3)), (0, 2), (1, 2)] [0, 0, Real.pi] = Real.pi • !![0, 0, 0; 0, 0, -1; 0, 1, 0] := by
    rw [rotGen_three]
    ext i j
    fin_cases i <;> fin_cases j <;> simp
  rw [h, matrix_exp_of_cube (by ext i j; fin_cases i <;> fin_cases j <;> simp [Matrix.mul_apply, Fin.sum_univ_three])]
  ext i j
  fin_cases i <;> fin_cases j <;> simp [Matrix.mul_apply, Fin.sum_univ_three] <;> norm_num

theorem exp_three_ac : exp (-rotGen [((0 : Fin 3), (1 : Fin 3)), (0, 2), (1, 2)] [-Real.pi, 0, -Real.pi]) 1 0 =
    -(Real.sin (Real.pi * √2) / √2) := by
  have h2 : √2 * √2 = 2 := Real.mul_self_sqrt (by norm_num)
  have h0 : √2 ≠ 0 := by positivity
  have h : -rotGen [((0 : Fin 3), (1 : Fin 3)), (0, 2), (1, 2)] [-Real.pi, 0, -Real.pi] =
      (Real.pi * √2) • ((1 / √2) • !![0, 1, 0; -1, 0, 1; 0, -1, 0]) := by
    rw [rotGen_three, smul_smul]
    have : Real.pi * √2 * (1 / √2) = Real.pi := by field_simp
    rw [this]
    ext i j
    fin_cases i <;> fin_cases j <;> simp
  have hc : ((1 / √2) • (!![0, 1, 0; -1, 0, 1; 0, -1, 0] : Matrix (Fin 3) (Fin 3) ℝ)) *
      ((1 / √2) • !![0, 1, 0; -1, 0, 1; 0, -1, 0]) * ((1 / √2) • !![0, 1, 0; -1, 0, 1; 0, -1, 0]) =
      -((1 / √2) • !![0, 1, 0; -1, 0, 1; 0, -1, 0]) := by
    simp only [Matrix.smul_mul, Matrix.mul_smul, smul_smul]
    have e3 : (!![0, 1, 0; -1, 0, 1; 0, -1, 0] : Matrix (Fin 3) (Fin 3) ℝ) * !![0, 1, 0; -1, 0, 1; 0, -1, 0] *
        !![0, 1, 0; -1, 0, 1; 0, -1, 0] = (-2 : ℝ) • !![0, 1, 0; -1, 0, 1; 0, -1, 0] := by
      ext i j
      fin_cases i <;> fin_cases j <;> simp [Matrix.mul_apply, Fin.sum_univ_three] <;> norm_num
    rw [e3, smul_smul, ← neg_smul]
    congr 1
    field_simp
    rw [← sq] at h2
    rw [h2]
  rw [h, matrix_exp_of_cube hc]
  simp only [Matrix.smul_mul, Matrix.mul_smul, smul_smul]
  simp [Matrix.mul_apply, Fin.sum_univ_three]
  ring

theorem sin_pi_sqrt_two : Real.sin (Real.pi * √2) ≠ 0 := by
  intro h
  obtain ⟨n, hn⟩ := Real.sin_eq_zero_iff.1 h
  have h1 : (n : ℝ) = √2 := by
    have := Real.pi_ne_zero
    have h2 : Real.pi * (n : ℝ) = Real.pi * √2 := by linarith
    exact mul_left_cancel₀ this h2
  exact irrational_sqrt_two ⟨n, by exact_mod_cast h1⟩

end SQ
