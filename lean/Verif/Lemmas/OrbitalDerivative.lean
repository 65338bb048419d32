import Verif.Spec.OrbitalDerivative
import Verif.Lemmas.MatrixRotation
import Verif.Lemmas.DensityComm
import Verif.Props.Transforms

/-! # Lemmas: derivative of the energy with respect to orbital rotations -/

namespace SQ

open NormedSpace

variable {N : ℕ}

theorem natMat_val (h : Matrix (Fin N) (Fin N) ℝ) (p q : Fin N) : natMat h p q = h p q := by
  unfold natMat
  rw [dif_pos ⟨p.2, q.2⟩]

theorem natTen_val (g : Tensor4 (Fin N)) (p q r s : Fin N) : natTen g p q r s = g p q r s := by
  unfold natTen
  rw [dif_pos ⟨⟨p.2, q.2⟩, ⟨r.2, s.2⟩⟩]

section exp
attribute [local instance] Matrix.linftyOpNormedRing Matrix.linftyOpNormedAlgebra

/-- Entries of `exp(-t K)` have the derivative `-K` at zero. -/
theorem exp_entry_deriv (K : Matrix (Fin N) (Fin N) ℝ) (a i : Fin N) :
    HasDerivAt (fun t : ℝ => exp (-(t • K)) a i) (-K a i) 0 := by
  have h := hasDerivAt_exp_smul_const (𝕂 := ℝ) (-K) (0 : ℝ)
  rw [zero_smul, exp_zero, one_mul] at h
  have L := (LinearMap.toContinuousLinearMap (Matrix.entryLinearMap ℝ ℝ a i)).hasFDerivAt.comp_hasDerivAt (0 : ℝ) h
  have e1 : (fun t : ℝ => exp (-(t • K)) a i) = (LinearMap.toContinuousLinearMap (Matrix.entryLinearMap ℝ ℝ a i)) ∘ fun t : ℝ => exp (t • -K) := by
    funext t
    simp [smul_neg]
  rw [e1]
  exact L

end exp

theorem exp_entry_zero (K : Matrix (Fin N) (Fin N) ℝ) (a i : Fin N) :
    exp (-((0 : ℝ) • K)) a i = if a = i then (1 : ℝ) else 0 := by
  rw [zero_smul, neg_zero, exp_zero, Matrix.one_apply]

theorem one_deriv (K h : Matrix (Fin N) (Fin N) ℝ) (i j : Fin N) :
    HasDerivAt (fun t : ℝ => oneTransform (exp (-(t • K))) h i j)
      (-(∑ a, K a i * h a j) - ∑ b, K b j * h i b) 0 := by
  have key := HasDerivAt.fun_sum (u := Finset.univ) fun a (_ : a ∈ (Finset.univ : Finset (Fin N))) =>
    HasDerivAt.fun_sum (u := Finset.univ) fun b (_ : b ∈ (Finset.univ : Finset (Fin N))) =>
      ((exp_entry_deriv K a i).mul (exp_entry_deriv K b j)).mul_const (h a b)
  refine key.congr_deriv ?_
  simp only [exp_entry_zero, add_mul, Finset.sum_add_distrib, mul_ite, ite_mul, mul_one, one_mul, zero_mul, mul_zero,
    Finset.sum_ite_eq', Finset.mem_univ, if_true, Finset.sum_neg_distrib, neg_mul, Finset.sum_ite_irrel, Finset.sum_const_zero]
  ring

theorem two_deriv (K : Matrix (Fin N) (Fin N) ℝ) (g : Tensor4 (Fin N)) (i j k l : Fin N) :
    HasDerivAt (fun t : ℝ => twoTransform (exp (-(t • K))) g i j k l)
      (-(∑ a, K a i * g a j k l) - (∑ a, K a j * g i a k l) - (∑ a, K a k * g i j a l) - ∑ a, K a l * g i j k a) 0 := by
  have key := HasDerivAt.fun_sum (u := Finset.univ) fun a (_ : a ∈ (Finset.univ : Finset (Fin N))) =>
    HasDerivAt.fun_sum (u := Finset.univ) fun b (_ : b ∈ (Finset.univ : Finset (Fin N))) =>
    HasDerivAt.fun_sum (u := Finset.univ) fun c (_ : c ∈ (Finset.univ : Finset (Fin N))) =>
    HasDerivAt.fun_sum (u := Finset.univ) fun d (_ : d ∈ (Finset.univ : Finset (Fin N))) =>
      ((((exp_entry_deriv K a i).mul (exp_entry_deriv K b j)).mul (exp_entry_deriv K c k)).mul
        (exp_entry_deriv K d l)).mul_const (g a b c d)
  refine key.congr_deriv ?_
  simp only [Pi.mul_apply, exp_entry_zero, add_mul, Finset.sum_add_distrib, mul_ite, ite_mul, mul_one, one_mul, zero_mul, mul_zero,
    Finset.sum_ite_eq', Finset.mem_univ, if_true, Finset.sum_neg_distrib, neg_mul, Finset.sum_ite_irrel, Finset.sum_const_zero]
  ring

theorem electronic_mean (h : Matrix (Fin N) (Fin N) ℝ) (g : Tensor4 (Fin N)) (Ψs : List (Fock ℝ)) :
    mean Ψs (electronic (natMat h) (natTen g) N) = (∑ p : Fin N, ∑ q : Fin N, h p q * mean Ψs (E p q)) +
      1 / 2 * ∑ p : Fin N, ∑ q : Fin N, ∑ r : Fin N, ∑ s : Fin N, g p q r s * mean Ψs (e p q r s) := by
  unfold electronic oneOp twoOp
  simp only [mean_add, mean_smul, mean_sum, Finset.sum_range, natMat_val, natTen_val]

theorem sums_front (f : Fin N → Fin N → Fin N → Fin N → Fin N → ℝ) :
    ∑ p, ∑ q, ∑ r, ∑ s, ∑ a, f p q r s a = ∑ a, ∑ p, ∑ q, ∑ r, ∑ s, f p q r s a := by
  have h1 : ∀ p q r, ∑ s, ∑ a, f p q r s a = ∑ a, ∑ s, f p q r s a := fun _ _ _ => Finset.sum_comm
  have h2 : ∀ p q, ∑ r, ∑ a, ∑ s, f p q r s a = ∑ a, ∑ r, ∑ s, f p q r s a := fun _ _ => Finset.sum_comm
  have h3 : ∀ p, ∑ q, ∑ a, ∑ r, ∑ s, f p q r s a = ∑ a, ∑ q, ∑ r, ∑ s, f p q r s a := fun _ => Finset.sum_comm
  simp only [h1, h2, h3]
  exact Finset.sum_comm

theorem one_sums {K : Matrix (Fin N) (Fin N) ℝ} (hK : ∀ a b, K a b = -K b a) (h D : Fin N → Fin N → ℝ) :
    ∑ p, ∑ q, (-(∑ a, K a p * h a q) - ∑ b, K b q * h p b) * D p q =
      ∑ m, ∑ n, K m n * ((∑ p, h n p * D m p) - ∑ p, h p m * D p n) := by
  simp only [sub_mul, mul_sub, Finset.sum_sub_distrib, neg_mul, Finset.sum_mul, Finset.mul_sum]
  congr 1
  · refine Finset.sum_congr rfl fun p _ => ?_
    simp only [← Finset.sum_neg_distrib]
    rw [Finset.sum_comm]
    refine Finset.sum_congr rfl fun a _ => Finset.sum_congr rfl fun q _ => ?_
    rw [hK a p]; ring
  · have h1 : ∀ p, ∑ q, ∑ b, K b q * h p b * D p q = ∑ b, ∑ q, K b q * h p b * D p q := fun _ => Finset.sum_comm
    simp only [h1]
    rw [Finset.sum_comm]
    refine Finset.sum_congr rfl fun b _ => ?_
    rw [Finset.sum_comm]
    refine Finset.sum_congr rfl fun q _ => Finset.sum_congr rfl fun p _ => ?_
    ring

theorem two_sums {K : Matrix (Fin N) (Fin N) ℝ} (hK : ∀ a b, K a b = -K b a) (g D : Fin N → Fin N → Fin N → Fin N → ℝ) :
    ∑ p, ∑ q, ∑ r, ∑ s, (-(∑ a, K a p * g a q r s) - (∑ a, K a q * g p a r s) - (∑ a, K a r * g p q a s) -
        ∑ a, K a s * g p q r a) * D p q r s =
      ∑ m, ∑ n, K m n * ((∑ p, ∑ q, ∑ r, g n p q r * D m p q r) - (∑ p, ∑ q, ∑ r, g p m q r * D p n q r) +
        (∑ p, ∑ q, ∑ r, g p q n r * D p q m r) - ∑ p, ∑ q, ∑ r, g p q r m * D p q r n) := by
  have t1 : ∑ p, ∑ q, ∑ r, ∑ s, ∑ a, -(K a p * g a q r s * D p q r s) =
      ∑ m, ∑ n, ∑ p, ∑ q, ∑ r, K m n * (g n p q r * D m p q r) := by
    rw [sums_front, Finset.sum_comm]
    refine Finset.sum_congr rfl fun p _ => Finset.sum_congr rfl fun a _ => Finset.sum_congr rfl fun q _ =>
      Finset.sum_congr rfl fun r _ => Finset.sum_congr rfl fun s _ => ?_
    rw [hK a p]; ring
  have t2 : ∑ p, ∑ q, ∑ r, ∑ s, ∑ a, K a q * g p a r s * D p q r s =
      ∑ m, ∑ n, ∑ p, ∑ q, ∑ r, K m n * (g p m q r * D p n q r) := by
    rw [sums_front]
    refine Finset.sum_congr rfl fun a _ => ?_
    rw [Finset.sum_comm]
    refine Finset.sum_congr rfl fun q _ => Finset.sum_congr rfl fun p _ =>
      Finset.sum_congr rfl fun r _ => Finset.sum_congr rfl fun s _ => ?_
    ring
  have t3 : ∑ p, ∑ q, ∑ r, ∑ s, ∑ a, -(K a r * g p q a s * D p q r s) =
      ∑ m, ∑ n, ∑ p, ∑ q, ∑ r, K m n * (g p q n r * D p q m r) := by
    rw [sums_front, Finset.sum_comm (s := Finset.univ (α := Fin N)) (t := Finset.univ (α := Fin N)) (f := fun m n =>
      ∑ p, ∑ q, ∑ r, K m n * (g p q n r * D p q m r))]
    refine Finset.sum_congr rfl fun a _ => ?_
    have h1 : ∀ p, ∑ q, ∑ r, ∑ s, -(K a r * g p q a s * D p q r s) = ∑ r, ∑ q, ∑ s, -(K a r * g p q a s * D p q r s) :=
      fun _ => Finset.sum_comm
    simp only [h1]
    rw [Finset.sum_comm]
    refine Finset.sum_congr rfl fun r _ => Finset.sum_congr rfl fun p _ =>
      Finset.sum_congr rfl fun q _ => Finset.sum_congr rfl fun s _ => ?_
    rw [hK a r]; ring
  have t4 : ∑ p, ∑ q, ∑ r, ∑ s, ∑ a, K a s * g p q r a * D p q r s =
      ∑ m, ∑ n, ∑ p, ∑ q, ∑ r, K m n * (g p q r m * D p q r n) := by
    rw [sums_front]
    refine Finset.sum_congr rfl fun a _ => ?_
    have h0 : ∀ p q, ∑ r, ∑ s, K a s * g p q r a * D p q r s = ∑ s, ∑ r, K a s * g p q r a * D p q r s :=
      fun _ _ => Finset.sum_comm
    have h1 : ∀ p, ∑ q, ∑ s, ∑ r, K a s * g p q r a * D p q r s = ∑ s, ∑ q, ∑ r, K a s * g p q r a * D p q r s :=
      fun _ => Finset.sum_comm
    simp only [h0, h1]
    rw [Finset.sum_comm]
    refine Finset.sum_congr rfl fun s _ => Finset.sum_congr rfl fun p _ =>
      Finset.sum_congr rfl fun q _ => Finset.sum_congr rfl fun r _ => ?_
    ring
  simp only [sub_mul, mul_sub, mul_add, Finset.sum_sub_distrib, Finset.sum_add_distrib, neg_mul, Finset.sum_mul, Finset.mul_sum,
    Finset.sum_neg_distrib] at t1 t2 t3 t4 ⊢
  rw [← t1, ← t2, ← t3, ← t4]
  ring

theorem mean_comm_fin (h : Matrix (Fin N) (Fin N) ℝ) (g : Tensor4 (Fin N)) (Ψs : List (Fock ℝ)) (m n : Fin N) :
    mean Ψs (comm (E m n) (electronic (natMat h) (natTen g) N)) =
      (∑ p : Fin N, h n p * mean Ψs (E m p)) - (∑ p : Fin N, h p m * mean Ψs (E p n)) +
      1 / 2 * ((∑ p : Fin N, ∑ q : Fin N, ∑ r : Fin N, g n p q r * mean Ψs (e m p q r)) -
        (∑ p : Fin N, ∑ q : Fin N, ∑ r : Fin N, g p m q r * mean Ψs (e p n q r)) +
        (∑ p : Fin N, ∑ q : Fin N, ∑ r : Fin N, g p q n r * mean Ψs (e p q m r)) -
        ∑ p : Fin N, ∑ q : Fin N, ∑ r : Fin N, g p q r m * mean Ψs (e p q r n)) := by
  unfold electronic
  rw [comm_add_right, comm_smul_right, mean_add, mean_smul, mean_comm_one Ψs _ m.2 n.2, mean_comm_two Ψs _ m.2 n.2]
  simp only [Finset.sum_range, natMat_val, natTen_val, Finset.sum_sub_distrib, Finset.sum_add_distrib]

/-- The energy with orbitals `exp(-t K)`, `K` antisymmetric, has the derivative `Σ K_mn ⟨[E_mn, H]⟩`. -/
theorem energy_deriv {K : Matrix (Fin N) (Fin N) ℝ} (hK : K.transpose = -K) (h : Matrix (Fin N) (Fin N) ℝ)
    (g : Tensor4 (Fin N)) (Ψs : List (Fock ℝ)) :
    HasDerivAt (fun t : ℝ => orbitalEnergy h g Ψs (exp (-(t • K))))
      (∑ m : Fin N, ∑ n : Fin N, K m n * mean Ψs (comm (E m n) (electronic (natMat h) (natTen g) N))) 0 := by
  have hK' : ∀ a b, K a b = -K b a := fun a b => by
    have := congrFun (congrFun hK b) a
    simpa using this
  simp only [orbitalEnergy, electronic_mean]
  have k1 := HasDerivAt.fun_sum (u := Finset.univ) fun p (_ : p ∈ (Finset.univ : Finset (Fin N))) =>
    HasDerivAt.fun_sum (u := Finset.univ) fun q (_ : q ∈ (Finset.univ : Finset (Fin N))) =>
      (one_deriv K h p q).mul_const (mean Ψs (E p q))
  have k2 := HasDerivAt.fun_sum (u := Finset.univ) fun p (_ : p ∈ (Finset.univ : Finset (Fin N))) =>
    HasDerivAt.fun_sum (u := Finset.univ) fun q (_ : q ∈ (Finset.univ : Finset (Fin N))) =>
    HasDerivAt.fun_sum (u := Finset.univ) fun r (_ : r ∈ (Finset.univ : Finset (Fin N))) =>
    HasDerivAt.fun_sum (u := Finset.univ) fun s (_ : s ∈ (Finset.univ : Finset (Fin N))) =>
      (two_deriv K g p q r s).mul_const (mean Ψs (e p q r s))
  refine (k1.add (k2.const_mul (1 / 2))).congr_deriv ?_
  simp only [mean_comm_fin]
  rw [one_sums hK' h fun p q => mean Ψs (E p q), two_sums hK' g fun p q r s => mean Ψs (e p q r s)]
  simp only [mul_add, Finset.sum_add_distrib, mul_left_comm (_ : ℝ) (1 / 2 : ℝ), ← Finset.mul_sum]

end SQ
