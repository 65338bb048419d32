import Verif.Lemmas.CircuitGates

/-! # The double excitation circuit -/

namespace SQ

open Finset

theorem onBitC_comm {q l : ℕ} (h : q ≠ l) {M N : Lbl → Matrix Bool Bool ℂ} (hM : Blind l M) (hN : Blind q N) (Ψ : Amp) :
    onBitC q M (onBitC l N Ψ) = onBitC l N (onBitC q M Ψ) := by
  funext b
  unfold onBitC
  simp only [Finset.mul_sum]
  rw [Finset.sum_comm]
  refine Finset.sum_congr rfl fun d _ => Finset.sum_congr rfl fun c _ => ?_
  rw [hM, hN, Function.update_of_ne h, Function.update_of_ne h.symm, Function.update_comm h]
  ring

theorem h_op (q : ℕ) : (GateCall.h q).op = onBitC q (fun _ => hadamard) := rfl

theorem sqrt2_inv_sq : (((Real.sqrt 2 : ℝ) : ℂ)⁻¹) * ((Real.sqrt 2 : ℝ) : ℂ)⁻¹ = 1 / 2 := by
  rw [← mul_inv, ← Complex.ofReal_mul, Real.mul_self_sqrt (by norm_num)]; norm_num

theorem had_had : hadamard * hadamard = 1 := by
  have e := sqrt2_inv_sq
  ext b c
  rw [Matrix.mul_apply, Fintype.sum_bool]
  cases b <;> cases c <;> simp [hadamard] <;> first | linear_combination 2 * e | ring

theorem x_had : sigmaX * hadamard = hadamard * sigmaZ := by
  ext b c
  rw [Matrix.mul_apply, Matrix.mul_apply, Fintype.sum_bool, Fintype.sum_bool]
  cases b <;> cases c <;> simp [hadamard, sigmaX, sigmaZ]

theorem hh (q : ℕ) (Ψ : Amp) : (GateCall.h q).op ((GateCall.h q).op Ψ) = Ψ := by
  rw [h_op, onBitC_comp (blind_const _)]
  funext b
  unfold onBitC
  rw [had_had, Fintype.sum_bool]
  have u : Function.update b q (b q) = b := by simp
  cases hq : b q <;> rw [hq] at u <;> simp [u]

theorem cx_h {l q : ℕ} (h : l ≠ q) (Ψ : Amp) : (GateCall.cx l q).op ((GateCall.h q).op Ψ) = (GateCall.h q).op ((GateCall.cz l q).op Ψ) := by
  have e : (GateCall.cz l q).op = onBitC q (fun b => zM (b l)) := by rw [cz_comm, cz_opC]
  rw [h_op, cx_opC, e, onBitC_comp (blind_const _), onBitC_comp (blind_bit h zM)]
  congr 1
  funext b
  cases b l
  · simp [zM]
  · simp [zM, x_had]

theorem ry_h {l q : ℕ} (h : l ≠ q) (θ : ℝ) (Ψ : Amp) : (GateCall.ry θ l).op ((GateCall.h q).op Ψ) = (GateCall.h q).op ((GateCall.ry θ l).op Ψ) := by
  rw [h_op, ry_op, onBitC_comm h (blind_const _) (blind_const _)]

theorem h_h {p q : ℕ} (h : p ≠ q) (Ψ : Amp) : (GateCall.h p).op ((GateCall.h q).op Ψ) = (GateCall.h q).op ((GateCall.h p).op Ψ) := by
  rw [h_op, h_op, onBitC_comm h (blind_const _) (blind_const _)]

theorem cx_h' {l p q : ℕ} (h : l ≠ q) (hp : p ≠ q) (Ψ : Amp) :
    (GateCall.cx l p).op ((GateCall.h q).op Ψ) = (GateCall.h q).op ((GateCall.cx l p).op Ψ) := by
  rw [h_op, cx_opC, onBitC_comm hp (blind_bit h fun x => if x then sigmaX else (1 : Matrix Bool Bool ℂ)) (blind_const _)]

theorem cz_h' {l p q : ℕ} (h : l ≠ q) (hp : p ≠ q) (Ψ : Amp) :
    (GateCall.cz l p).op ((GateCall.h q).op Ψ) = (GateCall.h q).op ((GateCall.cz l p).op Ψ) := by
  rw [h_op, cz_opC, onBitC_comm h (blind_bit hp zM) (blind_const _)]

theorem Blind.mul {q : ℕ} {M N : Lbl → Matrix Bool Bool ℂ} (hM : Blind q M) (hN : Blind q N) : Blind q (fun b => M b * N b) :=
  fun b v => by beta_reduce; rw [hM, hN]

theorem zz_word (x y z : Bool) (φ : ℝ) :
    zM z * (rotM (-φ) * (zM x * (rotM φ * (zM y * (rotM (-φ) * (zM x * (rotM φ * (zM z * (rotM (-φ) * (zM x * (rotM φ *
      (zM y * (rotM (-φ) * (zM x * rotM φ)))))))))))))) = if (x && y && z) then rotM (8 * φ) else 1 := by
  have zr : ∀ (α : ℝ) (M : Matrix Bool Bool ℂ), sigmaZ * (rotM α * M) = rotM (-α) * (sigmaZ * M) := fun α M => by
    rw [← Matrix.mul_assoc, z_rot, Matrix.mul_assoc]
  have zz : ∀ M : Matrix Bool Bool ℂ, sigmaZ * (sigmaZ * M) = M := fun M => by rw [← Matrix.mul_assoc, z_z, Matrix.one_mul]
  have rr : ∀ (α β : ℝ) (M : Matrix Bool Bool ℂ), rotM α * (rotM β * M) = rotM (α + β) * M := fun α β M => by
    rw [← Matrix.mul_assoc, rot_rot]
  cases x <;> cases y <;> cases z <;>
    simp only [zM, if_true, Bool.false_eq_true, if_false, Matrix.one_mul, zr, z_rot, zz, z_z, rr, rot_rot, Matrix.mul_one,
      Bool.and_true, Bool.and_false, Bool.true_and, Bool.false_and, neg_neg] <;>
    first
    | (rw [← rot_zero]; congr 1; ring1)
    | (congr 1; ring1)

theorem double_mid {k l i j : ℕ} (hk : l ≠ k) (hi : l ≠ i) (hj : l ≠ j) (hki : k ≠ i) (hkj : k ≠ j) (hij : i ≠ j) (θ : ℝ) (Ψ : Amp) :
    runCalls (doubleMiddle k l i j (2 * θ)) Ψ = giv θ (fun b => b k && b i && b j) (fun b => -sgb (b l)) {l} Ψ := by
  have hik := hki.symm
  have hjk := hkj.symm
  have hji := hij.symm
  unfold doubleMiddle
  simp only [runCalls_cons, runCalls_nil, cx_h hk, cx_h hi, cx_h hj, ry_h hk, ry_h hi, ry_h hj, hh, h_h hij, h_h hkj,
    cx_h' hk hik, cx_h' hk hjk, cx_h' hi hki, cx_h' hi hji, cx_h' hj hkj, cx_h' hj hij,
    cz_h' hk hik, cz_h' hk hjk, cz_h' hi hki, cz_h' hi hji, cz_h' hj hkj, cz_h' hj hij]
  simp only [ry_op, cz_opC]
  have bk : Blind l (fun b : Lbl => zM (b k)) := blind_bit hk.symm zM
  have bi : Blind l (fun b : Lbl => zM (b i)) := blind_bit hi.symm zM
  have bj : Blind l (fun b : Lbl => zM (b j)) := blind_bit hj.symm zM
  simp only [onBitC_comp (blind_const _)]
  have bk' : ∀ α, Blind l (fun b : Lbl => zM (b k) * rotM α) := fun α => bk.mul (blind_const _)
  have bi' : ∀ α, Blind l (fun b : Lbl => zM (b i) * rotM α) := fun α => bi.mul (blind_const _)
  have bj' : ∀ α, Blind l (fun b : Lbl => zM (b j) * rotM α) := fun α => bj.mul (blind_const _)
  rw [onBitC_comp (bk' _), onBitC_comp (bi' _), onBitC_comp (bk' _), onBitC_comp (bj' _), onBitC_comp (bk' _), onBitC_comp (bi' _),
    onBitC_comp (bk' _), ← onBitC_giv]
  congr 1
  funext b
  have e1 : 2 * θ / 8 / 2 = θ / 8 := by ring
  have e2 : -(2 * θ) / 8 / 2 = -(θ / 8) := by ring
  have := zz_word (b k) (b i) (b j) (θ / 8)
  rw [show 8 * (θ / 8) = θ by ring] at this
  rw [← this]
  simp only [e1, e2, Matrix.mul_assoc]

end SQ
