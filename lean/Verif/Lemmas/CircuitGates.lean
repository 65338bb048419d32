import Verif.Lemmas.Givens
import Mathlib.Tactic.FieldSimp

/-! # The excitation circuits are rotations between pairs of labels -/

namespace SQ

open Finset

/-! ### One qubit under control of others -/

/-- A one-qubit operator chosen by the other bits. -/
noncomputable def onBitC (q : ℕ) (M : Lbl → Matrix Bool Bool ℂ) (Ψ : Amp) : Amp :=
  fun b => ∑ c, M b (b q) c * Ψ (Function.update b q c)

theorem onBitC_comp {q : ℕ} {M N : Lbl → Matrix Bool Bool ℂ} (hN : Blind q N) (Ψ : Amp) :
    onBitC q M (onBitC q N Ψ) = onBitC q (fun b => M b * N b) Ψ := by
  funext b
  unfold onBitC
  simp only [Finset.mul_sum, Matrix.mul_apply, Finset.sum_mul]
  rw [Finset.sum_comm]
  refine Finset.sum_congr rfl fun d _ => Finset.sum_congr rfl fun c _ => ?_
  rw [hN, Function.update_self, Function.update_idem, mul_assoc]

/-- A rotation by half the angle `2α`. -/
noncomputable def rotM (α : ℝ) : Matrix Bool Bool ℂ := ryMat (2 * α)
/-- Identity or Pauli Z. -/
def zM (x : Bool) : Matrix Bool Bool ℂ := if x then sigmaZ else 1

theorem rot_rot (α β : ℝ) : rotM α * rotM β = rotM (α + β) := by
  ext b c
  rw [Matrix.mul_apply, Fintype.sum_bool]
  have h (x : ℝ) : 2 * x / 2 = x := by ring
  simp only [rotM, ryMat, h, Real.cos_add, Real.sin_add]
  cases b <;> cases c <;> simp <;> ring

theorem rot_zero : rotM 0 = 1 := by
  ext b c
  simp only [rotM, ryMat]
  cases b <;> cases c <;> simp

theorem z_z : sigmaZ * sigmaZ = 1 := by
  ext b c
  rw [Matrix.mul_apply, Fintype.sum_bool]
  cases b <;> cases c <;> simp [sigmaZ]

theorem z_rot (α : ℝ) : sigmaZ * rotM α = rotM (-α) * sigmaZ := by
  ext b c
  rw [Matrix.mul_apply, Matrix.mul_apply, Fintype.sum_bool, Fintype.sum_bool]
  have h (x : ℝ) : 2 * x / 2 = x := by ring
  simp only [rotM, ryMat, h, Real.cos_neg, Real.sin_neg]
  cases b <;> cases c <;> simp [sigmaZ]

theorem ry_op (θ : ℝ) (q : ℕ) : (GateCall.ry θ q).op = onBitC q (fun _ => rotM (θ / 2)) := by
  funext Ψ b
  change (∑ c, ryMat θ (b q) c * Ψ (Function.update b q c)) = _
  unfold onBitC rotM
  rw [show 2 * (θ / 2) = θ by ring]

theorem cz_opC {l q : ℕ} : (GateCall.cz l q).op = onBitC l (fun b => zM (b q)) := by
  funext Ψ
  rw [cz_op]
  funext b
  unfold onBitC zM
  rw [Fintype.sum_bool]
  have u : Function.update b l (b l) = b := by simp
  cases hl : b l <;> cases hq : b q <;> rw [hl] at u <;> simp [sgb, sigmaZ, hl, hq, u]

theorem cx_opC {c t : ℕ} : (GateCall.cx c t).op = onBitC t (fun b => if b c then sigmaX else 1) := by
  funext Ψ b
  change (if b c = true then Ψ (Function.update b t (!b t)) else Ψ b) = _
  unfold onBitC
  rw [Fintype.sum_bool]
  have u : Function.update b t (b t) = b := by simp
  cases ht : b t <;> cases hc : b c <;> rw [ht] at u <;> simp [sigmaX, ht, hc, u]

theorem x_rot_x (α : ℝ) : sigmaX * (rotM (-α) * (sigmaX * rotM α)) = rotM (2 * α) := by
  rw [two_mul, ← rot_rot, ← Matrix.mul_assoc, ← Matrix.mul_assoc]
  congr 1
  ext b c
  have h (x : ℝ) : 2 * x / 2 = x := by ring
  simp only [Matrix.mul_apply, Fintype.sum_bool, rotM, ryMat, h, Real.cos_neg, Real.sin_neg]
  cases b <;> cases c <;> simp [sigmaX]

theorem blind_const {q : ℕ} {α : Type*} (x : α) : Blind q (fun _ => x) := fun _ _ => rfl
theorem blind_bit {q p : ℕ} (h : p ≠ q) {α : Type*} (g : Bool → α) : Blind q (fun b => g (b p)) := fun b v => by
  simp only [Function.update_of_ne h]

/-- A controlled rotation. -/
theorem onBitC_giv {q : ℕ} {c : Lbl → Bool} (α : ℝ) (Ψ : Amp) :
    onBitC q (fun b => if c b then rotM α else 1) Ψ = giv α c (fun b => -sgb (b q)) {q} Ψ := by
  funext b
  unfold onBitC giv
  rw [Fintype.sum_bool]
  have e : flipAll {q} b = Function.update b q (!b q) := by
    funext p
    by_cases hp : p = q
    · subst hp; simp [flipAll]
    · simp [flipAll, hp]
  rw [e]
  have h (x : ℝ) : 2 * x / 2 = x := by ring
  have u : Function.update b q (b q) = b := by simp
  cases hc : c b <;> cases hq : b q <;> rw [hq] at u <;> simp [rotM, ryMat, sgb, hc, hq, u]
  ring

/-! ### Singles -/

theorem single_mid {k i : ℕ} (h : i ≠ k) (θ : ℝ) (Ψ : Amp) :
    runCalls [.ry θ k, .cx i k, .ry (-θ) k, .cx i k] Ψ = giv θ (fun b => b i) (fun b => -sgb (b k)) {k} Ψ := by
  simp only [runCalls_cons, runCalls_nil, ry_op, cx_opC]
  have b1 : Blind k (fun b : Lbl => if b i then sigmaX else (1 : Matrix Bool Bool ℂ)) :=
    blind_bit h (fun x => if x then sigmaX else (1 : Matrix Bool Bool ℂ))
  rw [onBitC_comp (blind_const _), onBitC_comp b1, onBitC_comp (blind_const _), ← onBitC_giv]
  congr 1
  funext b
  cases b i
  · simp only [Bool.false_eq_true, if_false, one_mul, mul_one]
    rw [rot_rot, show -θ / 2 + θ / 2 = 0 by ring, rot_zero]
  · simp only [if_true, Matrix.mul_assoc]
    rw [show -θ / 2 = -(θ / 2) by ring, x_rot_x, show 2 * (θ / 2) = θ by ring]

theorem single_far {k i : ℕ} (h : i + 1 < k) (θ : ℝ) (Ψ : Amp) :
    runCalls (singleGates k i θ) Ψ =
      giv θ (fun b => b i ^^ b k) (fun b => -sgb (b k) * sgs (Finset.Ioo i k) b) {k, i} Ψ := by
  obtain ⟨m, rfl⟩ : ∃ m, k = i + m + 2 := ⟨k - i - 2, by omega⟩
  unfold singleGates
  rw [if_neg (by omega), show i + m + 2 - 2 = i + m by omega, show i + m + 2 - 1 = i + 1 + m by omega]
  have hm : ∀ Ψ, runCalls [.cz (i + 1) (i + m + 2), .ry θ (i + m + 2), .cx i (i + m + 2), .ry (-θ) (i + m + 2), .cx i (i + m + 2),
      .cz (i + 1) (i + m + 2)] Ψ = giv θ (fun b => b i) (fun b => -sgb (b (i + m + 2)) * sgs {i + 1} b) {i + m + 2} Ψ := by
    intro Ψ
    have e : ([.cz (i + 1) (i + m + 2), .ry θ (i + m + 2), .cx i (i + m + 2), .ry (-θ) (i + m + 2), .cx i (i + m + 2),
      .cz (i + 1) (i + m + 2)] : List GateCall) = [.cz (i + 1) (i + m + 2)] ++
        [.ry θ (i + m + 2), .cx i (i + m + 2), .ry (-θ) (i + m + 2), .cx i (i + m + 2)] ++ [.cz (i + 1) (i + m + 2)] := rfl
    rw [e, runCalls_append, runCalls_append, single_mid (by omega)]
    simp only [runCalls_cons, runCalls_nil]
    rw [cz_comm, conj_cz (by simp) (by simp; omega)]
    simp only [sgs, Finset.prod_singleton]
  have hl := ladder_right i m (F := {i + m + 2}) (θ := θ) (cd := fun b => b i) (s := fun b => -sgb (b (i + m + 2)))
    (fun t h1 h2 => by simp; omega)
    (fun t h1 h2 => ⟨blind_bit (by omega) fun x => x, blind_bit (by omega) fun x => -sgb x⟩) hm
  rw [List.append_assoc [_], List.append_assoc [_], runCalls_append, runCalls_append, hl]
  simp only [runCalls_cons, runCalls_nil]
  rw [conj_cx (by omega) (by simp; omega), if_pos (by simp)]
  have e1 : ∀ b, cxl (i + m + 2) i b i = (b i ^^ b (i + m + 2)) := fun b => by simp [cxl]
  have e2 : ∀ b, cxl (i + m + 2) i b (i + m + 2) = b (i + m + 2) := fun b => by
    rw [cxl, Function.update_of_ne (by omega)]
  simp only [e1, e2, sgs_cxl' (show i ∉ Finset.Ioo i (i + m + 2) by simp)]
  congr 1
  ext x; simp; tauto

end SQ
