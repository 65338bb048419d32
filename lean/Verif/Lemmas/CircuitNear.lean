import Verif.Lemmas.CircuitGates

/-! # The single excitation between neighbouring qubits -/

namespace SQ

open Finset

/-- An operator on two qubits. -/
def onTwo (i k : ℕ) (A : (Bool → Bool → ℂ) → Bool → Bool → ℂ) (Ψ : Amp) : Amp := fun b =>
  A (fun x y => Ψ (Function.update (Function.update b i x) k y)) (b i) (b k)

theorem onTwo_comp {i k : ℕ} (h : i ≠ k) (A B : (Bool → Bool → ℂ) → Bool → Bool → ℂ) (Ψ : Amp) :
    onTwo i k A (onTwo i k B Ψ) = onTwo i k (fun F => A (B F)) Ψ := by
  funext b
  unfold onTwo
  congr 1
  funext x y
  have e1 : Function.update (Function.update b i x) k y i = x := by
    rw [Function.update_of_ne h, Function.update_self]
  have e2 : ∀ x' y', Function.update (Function.update (Function.update (Function.update b i x) k y) i x') k y' =
      Function.update (Function.update b i x') k y' := by
    intro x' y'
    rw [Function.update_comm h.symm, Function.update_idem, Function.update_idem]
  rw [e1, Function.update_self]
  congr 1
  funext x' y'
  rw [e2]

def act1 (M : Matrix Bool Bool ℂ) (F : Bool → Bool → ℂ) : Bool → Bool → ℂ := fun x y => M x true * F true y + M x false * F false y
def act2 (M : Matrix Bool Bool ℂ) (F : Bool → Bool → ℂ) : Bool → Bool → ℂ := fun x y => M y true * F x true + M y false * F x false
def act12 (F : Bool → Bool → ℂ) : Bool → Bool → ℂ := fun x y => F x (y ^^ x)

theorem onBit_one {i k : ℕ} (h : i ≠ k) (M : Matrix Bool Bool ℂ) : onBit i M = onTwo i k (act1 M) := by
  funext Ψ b
  unfold onBit onTwo act1
  rw [Fintype.sum_bool]
  have e : ∀ x, Function.update (Function.update b i x) k (b k) = Function.update b i x := by
    intro x
    rw [Function.update_comm h, Function.update_eq_self]
  simp only [e]

theorem onBit_two {i k : ℕ} (M : Matrix Bool Bool ℂ) : onBit k M = onTwo i k (act2 M) := by
  funext Ψ b
  unfold onBit onTwo act2
  rw [Fintype.sum_bool]
  simp only [Function.update_eq_self]

theorem cx_two {i k : ℕ} : (GateCall.cx i k).op = onTwo i k act12 := by
  funext Ψ
  rw [cx_op]
  funext b
  unfold onTwo act12 cxl
  simp only [Function.update_eq_self]

theorem single_near (i : ℕ) (θ : ℝ) (Ψ : Amp) :
    runCalls (singleGates (i + 1) i θ) Ψ =
      giv θ (fun b => b i ^^ b (i + 1)) (fun b => -sgb (b (i + 1)) * sgs (Finset.Ioo i (i + 1)) b) {i + 1, i} Ψ := by
  have h : i ≠ i + 1 := by omega
  unfold singleGates
  rw [if_pos (by omega)]
  have r1 : ∀ θ, (GateCall.rx θ i).op = onTwo i (i + 1) (act1 (rxMat θ)) := fun θ => onBit_one h _
  have r2 : ∀ θ, (GateCall.rz θ i).op = onTwo i (i + 1) (act1 (rzMat θ)) := fun θ => onBit_one h _
  have r3 : ∀ θ, (GateCall.rx θ (i + 1)).op = onTwo i (i + 1) (act2 (rxMat θ)) := fun θ => onBit_two _
  have r4 : ∀ θ, (GateCall.rz θ (i + 1)).op = onTwo i (i + 1) (act2 (rzMat θ)) := fun θ => onBit_two _
  simp only [runCalls_cons, runCalls_nil, r1, r2, r3, r4, cx_two, onTwo_comp h]
  funext b
  have e0 : Finset.Ioo i (i + 1) = ∅ := by ext x; simp
  have e : flipAll {i + 1, i} b = Function.update (Function.update b i (!b i)) (i + 1) (!b (i + 1)) := by
    funext p
    by_cases h1 : p = i + 1
    · subst h1; simp [flipAll]
    · by_cases h2 : p = i
      · subst h2; simp [flipAll]
      · simp [flipAll, h1, h2]
  have eb : b = Function.update (Function.update b i (b i)) (i + 1) (b (i + 1)) := by simp
  unfold giv onTwo
  rw [e, e0]
  simp only [sgs, Finset.prod_empty, mul_one]
  generalize hF : (fun x y => Ψ (Function.update (Function.update b i x) (i + 1) y)) = F
  have f1 : Ψ b = F (b i) (b (i + 1)) := by rw [← hF]; simp
  have f2 : Ψ (Function.update (Function.update b i (!b i)) (i + 1) (!b (i + 1))) = F (!b i) (!b (i + 1)) := by rw [← hF]
  rw [f1, f2]
  generalize b i = x
  generalize b (i + 1) = y
  have q1 : Real.pi / 2 / 2 = Real.pi / 4 := by ring
  have q2 : -(Real.pi / 2) / 2 = -(Real.pi / 4) := by ring
  have c1 : Real.cos θ = Real.cos (θ / 2) ^ 2 - Real.sin (θ / 2) ^ 2 := by
    rw [← Real.cos_two_mul', mul_div_cancel₀ _ (by norm_num)]
  have c2 : Real.sin θ = 2 * Real.sin (θ / 2) * Real.cos (θ / 2) := by
    rw [← Real.sin_two_mul, mul_div_cancel₀ _ (by norm_num)]
  have c3 : ((Real.cos (θ / 2) : ℝ) : ℂ) ^ 2 + ((Real.sin (θ / 2) : ℝ) : ℂ) ^ 2 = 1 := by
    exact_mod_cast Real.cos_sq_add_sin_sq (θ / 2)
  have c4 : ((Real.sqrt 2 / 2 : ℝ) : ℂ) ^ 2 = 1 / 2 := by
    have : (Real.sqrt 2 / 2) ^ 2 = 1 / 2 := by rw [div_pow, Real.sq_sqrt (by norm_num)]; norm_num
    rw [← Complex.ofReal_pow, this]; norm_num
  have c5 := Complex.I_sq
  simp only [act1, act2, act12, rxMat, rzMat, q1, q2, Real.cos_neg, Real.sin_neg, Real.cos_pi_div_four, Real.sin_pi_div_four, c1, c2]
  generalize Real.cos (θ / 2) = c at *
  generalize Real.sin (θ / 2) = d at *
  generalize Real.sqrt 2 / 2 = s at *
  push_cast at *
  generalize (c : ℂ) = c at *
  generalize (d : ℂ) = d at *
  generalize (s : ℂ) = s at *
  have c6 : d ^ 2 = 1 - c ^ 2 := by linear_combination c3
  have c7 : s ^ 4 = 1 / 4 := by linear_combination (s ^ 2 + 1 / 2) * c4
  have c8 : s ^ 6 = 1 / 8 := by linear_combination (s ^ 2) * c7 + 1 / 4 * c4
  have c9 : s ^ 3 = s / 2 := by linear_combination s * c4
  have i3 : Complex.I ^ 3 = -Complex.I := by linear_combination Complex.I * c5
  have i4 : Complex.I ^ 4 = 1 := by linear_combination (Complex.I ^ 2 - 1) * c5
  have i5 : Complex.I ^ 5 = Complex.I := by linear_combination Complex.I * i4
  have i6 : Complex.I ^ 6 = -1 := by linear_combination (Complex.I ^ 2) * i4 + c5
  have i7 : Complex.I ^ 7 = -Complex.I := by linear_combination (Complex.I ^ 3) * i4 + i3
  have i8 : Complex.I ^ 8 = 1 := by linear_combination (Complex.I ^ 4 + 1) * i4
  cases x <;> cases y <;> simp [sgb]
  all_goals ring_nf
  all_goals simp only [c4, c5, c7, c8, c9, i3, i4, i5, i6, i7, i8]
  all_goals ring_nf
  all_goals simp only [c6]
  all_goals ring
end SQ
