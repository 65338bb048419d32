import Mathlib.Analysis.Matrix.Spectrum
import Mathlib.LinearAlgebra.Matrix.NonsingularInverse
import Mathlib.Data.Fin.Tuple.Sort
import Mathlib.Tactic.Linarith
import Verif.Spec.HartreeFock

/-!
# Lemmas: orthonormal orbitals and their densities
-/

namespace SQ

open Matrix

variable {n : ℕ}

theorem orth_right {v : HFMat n} (h : vᵀ * v = 1) : v * vᵀ = 1 := by
  exact mul_eq_one_comm.1 h

theorem eigen_pos {lib : HFLib n} (hl : LibOK lib) {S : HFMat n} (hS : S.PosDef) (i : Fin n) :
    0 < (lib.eigh S).1 i := by
  set v := (lib.eigh S).2 with hv
  set w := (lib.eigh S).1 with hw
  have hsym : S.IsSymm := by
    have := hS.isHermitian
    rwa [Matrix.IsHermitian, Matrix.conjTranspose_eq_transpose_of_trivial] at this
  have hd : vᵀ * S * v = Matrix.diagonal w := by
    rw [Matrix.mul_assoc, hl.diagonalises S hsym, ← Matrix.mul_assoc, hl.orthonormal, Matrix.one_mul]
  have hne : (fun a => v a i) ≠ 0 := by
    intro h0
    have h1 : (vᵀ * v) i i = 1 := by rw [hl.orthonormal]; simp
    rw [Matrix.mul_apply] at h1
    have : ∀ a, v a i = 0 := fun a => congrFun h0 a
    simp [this] at h1
  have hp := hS.dotProduct_mulVec_pos hne
  have he : star (fun a => v a i) ⬝ᵥ S *ᵥ (fun a => v a i) = (vᵀ * S * v) i i := by
    simp only [dotProduct, Matrix.mulVec, Matrix.mul_apply, Matrix.transpose_apply, Finset.sum_mul,
      Finset.mul_sum, star_trivial, Pi.star_apply]
    rw [Finset.sum_comm]
    refine Finset.sum_congr rfl fun a _ => Finset.sum_congr rfl fun b _ => by ring
  rw [he, hd, Matrix.diagonal_apply_eq] at hp
  exact hp

theorem invSqrt_symm (lib : HFLib n) (S : HFMat n) : (invSqrt lib S)ᵀ = invSqrt lib S := by
  simp [invSqrt, Matrix.transpose_mul, Matrix.mul_assoc]

theorem invSqrt_spec {lib : HFLib n} (hl : LibOK lib) {S : HFMat n} (hS : S.PosDef) :
    invSqrt lib S * S * invSqrt lib S = 1 := by
  have hsym : S.IsSymm := by
    have := hS.isHermitian
    rwa [Matrix.IsHermitian, Matrix.conjTranspose_eq_transpose_of_trivial] at this
  set v := (lib.eigh S).2 with hv
  set w := (lib.eigh S).1 with hw
  have ho : vᵀ * v = 1 := hl.orthonormal S
  have hd : S * v = v * Matrix.diagonal w := hl.diagonalises S hsym
  have hX : invSqrt lib S = v * Matrix.diagonal (fun i => (w i) ^ (-(1 / 2) : ℝ)) * vᵀ := rfl
  have hdd : Matrix.diagonal (fun i => (w i) ^ (-(1 / 2) : ℝ)) * Matrix.diagonal w *
      Matrix.diagonal (fun i => (w i) ^ (-(1 / 2) : ℝ)) = 1 := by
    rw [Matrix.diagonal_mul_diagonal, Matrix.diagonal_mul_diagonal, ← Matrix.diagonal_one]
    congr 1
    funext i
    have hp : 0 < w i := eigen_pos hl hS i
    rw [← Real.rpow_add_one (ne_of_gt hp), ← Real.rpow_add hp]
    norm_num
  rw [hX]
  calc v * Matrix.diagonal (fun i => (w i) ^ (-(1 / 2) : ℝ)) * vᵀ * S *
        (v * Matrix.diagonal (fun i => (w i) ^ (-(1 / 2) : ℝ)) * vᵀ)
      = v * Matrix.diagonal (fun i => (w i) ^ (-(1 / 2) : ℝ)) * vᵀ * (S * v) *
        Matrix.diagonal (fun i => (w i) ^ (-(1 / 2) : ℝ)) * vᵀ := by simp only [Matrix.mul_assoc]
    _ = v * Matrix.diagonal (fun i => (w i) ^ (-(1 / 2) : ℝ)) * (vᵀ * v) * Matrix.diagonal w *
        Matrix.diagonal (fun i => (w i) ^ (-(1 / 2) : ℝ)) * vᵀ := by rw [hd]; simp only [Matrix.mul_assoc]
    _ = v * (Matrix.diagonal (fun i => (w i) ^ (-(1 / 2) : ℝ)) * Matrix.diagonal w *
        Matrix.diagonal (fun i => (w i) ^ (-(1 / 2) : ℝ))) * vᵀ := by
        rw [ho]; simp only [Matrix.mul_assoc, Matrix.one_mul]
    _ = 1 := by rw [hdd, Matrix.mul_one, orth_right ho]

/-- Orbitals `X v` with `v` orthonormal are orthonormal with respect to the overlap. -/
theorem orbitals_orthonormal {lib : HFLib n} (hl : LibOK lib) {S : HFMat n} (hS : S.PosDef) (A : HFMat n) :
    (invSqrt lib S * (lib.eigh A).2)ᵀ * S * (invSqrt lib S * (lib.eigh A).2) = 1 := by
  have h := invSqrt_spec hl hS
  rw [Matrix.transpose_mul, invSqrt_symm]
  calc (lib.eigh A).2ᵀ * invSqrt lib S * S * (invSqrt lib S * (lib.eigh A).2)
      = (lib.eigh A).2ᵀ * (invSqrt lib S * S * invSqrt lib S) * (lib.eigh A).2 := by
        simp only [Matrix.mul_assoc]
    _ = 1 := by rw [h, Matrix.mul_one, hl.orthonormal]

/-- The projector onto the first `occ` orbitals. -/
def occProj (n occ : ℕ) : HFMat n := Matrix.diagonal fun k => if k.val < occ then 1 else 0

theorem occDensity_eq (C : HFMat n) (occ : ℕ) : occDensity C occ = C * occProj n occ * Cᵀ := by
  ext a b
  simp only [occDensity, occProj, Matrix.mul_apply, Matrix.transpose_apply, Matrix.diagonal_apply, mul_ite,
    mul_one, mul_zero, Finset.sum_ite_eq', Finset.mem_univ, if_true]
  refine Finset.sum_congr rfl fun k _ => ?_
  split_ifs <;> simp

theorem occProj_sq (n occ : ℕ) : occProj n occ * occProj n occ = occProj n occ := by
  rw [occProj, Matrix.diagonal_mul_diagonal]
  congr 1
  funext k
  split_ifs <;> simp

theorem occProj_trace (n occ : ℕ) : Matrix.trace (occProj n occ) = (min occ n : ℕ) := by
  rw [occProj, Matrix.trace_diagonal, Finset.sum_boole]
  congr 1
  rw [Fin.card_filter_val_lt, min_comm]

/-- The density of orthonormal orbitals. -/
theorem density_of_orthonormal {S C : HFMat n} (hC : Cᵀ * S * C = 1) (occ : ℕ) (w : ℝ) :
    IsDensity S (w • occDensity C occ) w (min occ n : ℕ) := by
  have hT : (occProj n occ)ᵀ = occProj n occ := by simp [occProj]
  refine ⟨?_, ?_, ?_⟩
  · rw [Matrix.IsSymm, occDensity_eq, Matrix.transpose_smul, Matrix.transpose_mul, Matrix.transpose_mul,
      Matrix.transpose_transpose, hT, Matrix.mul_assoc]
  · rw [occDensity_eq]
    simp only [Matrix.smul_mul, Matrix.mul_smul]
    congr 2
    calc C * occProj n occ * Cᵀ * S * (C * occProj n occ * Cᵀ)
        = C * occProj n occ * (Cᵀ * S * C) * occProj n occ * Cᵀ := by simp only [Matrix.mul_assoc]
      _ = C * (occProj n occ * occProj n occ) * Cᵀ := by
          rw [hC]; simp only [Matrix.mul_assoc, Matrix.one_mul]
      _ = _ := by rw [occProj_sq]
  · rw [occDensity_eq, Matrix.smul_mul, Matrix.trace_smul, smul_eq_mul]
    congr 1
    rw [Matrix.mul_assoc, Matrix.trace_mul_comm, ← Matrix.mul_assoc, hC, Matrix.one_mul, occProj_trace]

/-! ## The library exists -/

/-- There are functions as `LibOK` asks for, for every size. -/
theorem exists_libOK (n : ℕ) : ∃ lib : HFLib n, LibOK lib := by
  classical
  have hex : ∀ A : HFMat n, ∃ r : (Fin n → ℝ) × HFMat n, r.2ᵀ * r.2 = 1 ∧
      (A.IsSymm → A * r.2 = r.2 * Matrix.diagonal r.1 ∧ Monotone r.1) := by
    intro A
    by_cases hA : A.IsSymm
    · have hH : A.IsHermitian := by
        rwa [Matrix.IsHermitian, Matrix.conjTranspose_eq_transpose_of_trivial]
      set σ := Tuple.sort hH.eigenvalues
      set U : HFMat n := (hH.eigenvectorUnitary : HFMat n) with hU
      have hUU : Uᵀ * U = 1 := by
        have := Unitary.coe_star_mul_self hH.eigenvectorUnitary
        rwa [Matrix.star_eq_conjTranspose, Matrix.conjTranspose_eq_transpose_of_trivial] at this
      have hAU : A * U = U * Matrix.diagonal hH.eigenvalues := by
        ext i j
        have := congrFun (hH.mulVec_eigenvectorBasis j) i
        simp only [Matrix.mulVec, dotProduct, Pi.smul_apply, smul_eq_mul] at this
        rw [Matrix.mul_diagonal, Matrix.mul_apply, mul_comm (U i j)]
        simpa [hU] using this
      refine ⟨(hH.eigenvalues ∘ σ, U.submatrix id σ), ?_, fun _ => ⟨?_, Tuple.monotone_sort hH.eigenvalues⟩⟩
      · ext i j
        have := congrFun (congrFun hUU (σ i)) (σ j)
        simp only [Matrix.mul_apply, Matrix.transpose_apply, Matrix.submatrix_apply, id] at this ⊢
        rw [this]
        simp [Matrix.one_apply]
      · ext i j
        have := congrFun (congrFun hAU i) (σ j)
        rw [Matrix.mul_diagonal, Matrix.mul_apply] at this ⊢
        simpa using this
    · exact ⟨(0, 1), by simp, fun h => absurd h hA⟩
  choose e he using hex
  refine ⟨⟨e, fun k B b => if B.det = 0 then .error .valueError else .ok (B⁻¹ *ᵥ b)⟩, ?_⟩
  refine ⟨fun A => (he A).1, fun A hA => ((he A).2 hA).1, fun A hA => ((he A).2 hA).2, ?_, ?_, ?_⟩
  · intro k B b x hx
    by_cases hB : B.det = 0
    · simp only [hB, if_true] at hx; cases hx
    · simp only [hB, if_false] at hx
      cases hx
      rw [Matrix.mulVec_mulVec, Matrix.mul_nonsing_inv _ (isUnit_iff_ne_zero.2 hB), Matrix.one_mulVec]
  · intro k B b hB
    exact ⟨_, if_neg hB⟩
  · intro k B b hB
    exact if_pos hB

end SQ
