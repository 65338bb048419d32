import Mathlib.LinearAlgebra.Matrix.Symmetric
import Mathlib.LinearAlgebra.Matrix.Determinant.Basic
import Mathlib.Algebra.BigOperators.Fin
import Mathlib.Algebra.Order.BigOperators.Group.Finset
import Mathlib.Tactic.Linarith
import Verif.Spec.HartreeFock

/-!
# Lemmas: the DIIS extrapolation
-/

namespace SQ

open Matrix

variable {n : ℕ}

theorem combineFocks_eq (k : ℕ) (c : Fin (k + 1) → ℝ) (focks : List (HFMat n)) (hk : focks.length = k) :
    combineFocks k c focks = ∑ i : Fin k, c i.castSucc • focks[i.val]'(by omega) := by
  have hfold : ∀ (l : List (ℝ × HFMat n)) (z : HFMat n),
      l.foldl (fun acc p => acc + p.1 • p.2) z = z + (l.map fun p => p.1 • p.2).sum := by
    intro l
    induction l with
    | nil => simp
    | cons a l ih => intro z; rw [List.foldl_cons, ih, List.map_cons, List.sum_cons, add_assoc]
  rw [combineFocks, hfold, zero_add]
  have : (((List.ofFn fun i : Fin k => c i.castSucc).zip focks).map fun p => p.1 • p.2) =
      List.ofFn fun i : Fin k => c i.castSucc • focks[i.val]'(by omega) := by
    refine List.ext_getElem (by simp [hk]) ?_
    intro i h1 h2
    simp
  rw [this, List.sum_ofFn]

/-- What the linear system says: the weights sum to one and all residual products agree. -/
theorem diis_system (errs : List (HFMat n)) (x : Fin (errs.length + 1) → ℝ)
    (hx : diisMatrix errs *ᵥ x = diisRhs errs.length) :
    ∑ i : Fin errs.length, x i.castSucc = 1 ∧
    ∀ i : Fin errs.length, ∑ j : Fin errs.length, Matrix.trace (errs[i.val] * errs[j.val]) * x j.castSucc =
      x (Fin.last _) := by
  constructor
  · have h := congrFun hx (Fin.last _)
    simp only [Matrix.mulVec, dotProduct, Fin.sum_univ_castSucc, diisMatrix, diisRhs, Fin.val_last, lt_irrefl,
      dite_false, Fin.val_castSucc, Fin.is_lt, if_true, if_false, zero_mul, add_zero, neg_mul, one_mul,
      Finset.sum_neg_distrib] at h
    linarith
  · intro i
    have h := congrFun hx i.castSucc
    simp only [Matrix.mulVec, dotProduct, Fin.sum_univ_castSucc, diisMatrix, diisRhs, Fin.val_last, lt_irrefl,
      dite_false, Fin.val_castSucc, Fin.is_lt, if_true, dite_true, neg_mul, one_mul] at h
    linarith

theorem contract_eq_trace (A B : HFMat n) : contract A B = Matrix.trace (A * Bᵀ) := by
  simp [contract, Matrix.trace, Matrix.mul_apply]

theorem contract_self_nonneg (A : HFMat n) : 0 ≤ contract A A := by
  unfold contract
  exact Finset.sum_nonneg fun i _ => Finset.sum_nonneg fun j _ => mul_self_nonneg _

theorem contract_add_left (A B C : HFMat n) : contract (A + B) C = contract A C + contract B C := by
  simp only [contract, Matrix.add_apply, add_mul, Finset.sum_add_distrib]

theorem contract_add_right (A B C : HFMat n) : contract A (B + C) = contract A B + contract A C := by
  simp only [contract, Matrix.add_apply, mul_add, Finset.sum_add_distrib]

theorem contract_comm (A B : HFMat n) : contract A B = contract B A := by
  simp only [contract, mul_comm]

theorem contract_smul_left (r : ℝ) (A B : HFMat n) : contract (r • A) B = r * contract A B := by
  simp only [contract, Matrix.smul_apply, smul_eq_mul, Finset.mul_sum, mul_assoc]

theorem contract_sum_left {ι : Type*} (s : Finset ι) (f : ι → HFMat n) (B : HFMat n) :
    contract (∑ i ∈ s, f i) B = ∑ i ∈ s, contract (f i) B := by
  classical
  induction s using Finset.induction_on with
  | empty => simp [contract]
  | insert a s ha ih => rw [Finset.sum_insert ha, contract_add_left, ih, Finset.sum_insert ha]

/-- The weights of the linear system give the smallest residual among all weights summing to one. -/
theorem diis_minimal (errs : List (HFMat n)) (hskew : ∀ e ∈ errs, eᵀ = -e)
    (x : Fin (errs.length + 1) → ℝ) (hx : diisMatrix errs *ᵥ x = diisRhs errs.length)
    (y : Fin errs.length → ℝ) (hy : ∑ i, y i = 1) :
    contract (∑ i : Fin errs.length, x i.castSucc • errs[i.val]) (∑ i : Fin errs.length, x i.castSucc • errs[i.val])
      ≤ contract (∑ i : Fin errs.length, y i • errs[i.val]) (∑ i : Fin errs.length, y i • errs[i.val]) := by
  obtain ⟨hsum, hrow⟩ := diis_system errs x hx
  set R := ∑ i : Fin errs.length, x i.castSucc • errs[i.val] with hR
  set Δ := ∑ i : Fin errs.length, (y i - x i.castSucc) • errs[i.val] with hΔ
  have hY : ∑ i : Fin errs.length, y i • errs[i.val] = R + Δ := by
    rw [hR, hΔ, ← Finset.sum_add_distrib]
    refine Finset.sum_congr rfl fun i _ => ?_
    rw [← add_smul]; congr 1; ring
  have hprod : ∀ i : Fin errs.length, contract errs[i.val] R = - x (Fin.last _) := by
    intro i
    rw [← hrow i, contract_comm, hR, contract_sum_left, ← Finset.sum_neg_distrib]
    refine Finset.sum_congr rfl fun j _ => ?_
    rw [contract_smul_left, contract_comm, contract_eq_trace, hskew _ (List.getElem_mem _), Matrix.mul_neg,
      Matrix.trace_neg]
    ring
  have hcross : contract Δ R = 0 := by
    rw [hΔ, contract_sum_left]
    simp only [contract_smul_left, hprod]
    rw [← Finset.sum_mul, Finset.sum_sub_distrib, hy, hsum]
    ring
  rw [hY, contract_add_left, contract_add_right, contract_add_right, contract_comm R Δ, hcross]
  have := contract_self_nonneg Δ
  linarith

theorem errorMatrices_skew {S : HFMat n} (hS : S.IsSymm) {st : DIISState n} (hF : ∀ F ∈ st.focks, F.IsSymm)
    (hD : ∀ D ∈ st.densities, D.IsSymm) : ∀ e ∈ errorMatrices S st, eᵀ = -e := by
  intro e he
  obtain ⟨p, hp, rfl⟩ := List.mem_map.1 he
  have h1 := hF _ (List.of_mem_zip hp).1
  have h2 := hD _ (List.of_mem_zip hp).2
  simp only [Matrix.transpose_sub, Matrix.transpose_mul, hS.eq, h1.eq, h2.eq, Matrix.mul_assoc, neg_sub]

/-- Two equal error matrices make the system singular. -/
theorem diisMatrix_singular (errs : List (HFMat n)) (i j : ℕ) (hij : i < j) (hj : j < errs.length)
    (h : errs[i] = errs[j]) : (diisMatrix errs).det = 0 := by
  refine Matrix.det_zero_of_row_eq (i := ⟨i, by omega⟩) (j := ⟨j, by omega⟩)
    (by intro h'; simp only [Fin.mk.injEq] at h'; omega) ?_
  funext k
  have hi : i < errs.length := by omega
  simp only [diisMatrix, hi, hj, dite_true, h]

end SQ
