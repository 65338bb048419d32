import Verif.Lemmas.CircuitLadder
import Verif.Lemmas.CircuitNear
import Verif.Lemmas.Reorder
import Verif.Lemmas.AnsatzExc
import Verif.Spec.Embed

/-! # From circuits on labels to states of electrons -/

namespace SQ

open Finset

/-! ### Registers -/

/-- Amplitudes of a register on labels of all natural numbers. -/
def toAmp (n : ℕ) (ψ : QState n) : Amp := fun b => ψ fun q => b q

theorem restr_update {n q : ℕ} (h : q < n) (b : Lbl) (c : Bool) :
    (fun p : Fin n => Function.update b q c p) = Function.update (fun p : Fin n => b p) ⟨q, h⟩ c := by
  funext p
  by_cases e : p = ⟨q, h⟩
  · subst e; simp
  · rw [Function.update_of_ne e, Function.update_of_ne (fun h' => e (Fin.ext h'))]

theorem toAmp_onQubit {n q : ℕ} (h : q < n) (M : Matrix Bool Bool ℂ) (ψ : QState n) :
    toAmp n (onQubit ⟨q, h⟩ M ψ) = onBit q M (toAmp n ψ) := by
  funext b
  change ∑ c, M (b q) c * ψ (Function.update (fun p : Fin n => b p) ⟨q, h⟩ c) =
    ∑ c, M (b q) c * ψ (fun p : Fin n => Function.update b q c p)
  exact Finset.sum_congr rfl fun c _ => by rw [restr_update h]

theorem place_act {n : ℕ} {g : GateCall} {G : PGate n} (h : g.place n = .ok G) (ψ : QState n) :
    toAmp n (G.act ψ) = g.op (toAmp n ψ) := by
  cases g with
  | rx θ q | ry θ q | rz θ q | x q | h q =>
    simp only [GateCall.place] at h
    by_cases hq : q < n
    · rw [dif_pos hq] at h; cases h; exact toAmp_onQubit hq _ _
    · rw [dif_neg hq] at h; cases h
  | cx c t =>
    simp only [GateCall.place] at h
    by_cases hq : c < n ∧ t < n ∧ c ≠ t
    · rw [dif_pos hq] at h
      cases h
      funext b
      change (if b c = true then ψ (Function.update _ _ (!b t)) else ψ _) =
        (if b c = true then ψ (fun p : Fin n => Function.update b t (!b t) p) else ψ _)
      rw [restr_update hq.2.1]
    · rw [dif_neg hq] at h; cases h
  | cz c t =>
    simp only [GateCall.place] at h
    by_cases hq : c < n ∧ t < n ∧ c ≠ t
    · rw [dif_pos hq] at h; cases h; rfl
    · rw [dif_neg hq] at h; cases h

theorem run_act {n : ℕ} : ∀ {calls : List GateCall} {gs : List (PGate n)}, calls.mapM (GateCall.place n) = .ok gs →
    ∀ ψ, toAmp n (runPCircuit gs ψ) = runCalls calls (toAmp n ψ) := by
  intro calls
  induction calls with
  | nil => intro gs h ψ; cases h; rfl
  | cons g t ih =>
    intro gs h ψ
    rw [List.mapM_cons] at h
    cases hg : g.place n with
    | error e => rw [hg] at h; cases h
    | ok G =>
      rw [hg] at h
      cases ht : t.mapM (GateCall.place n) with
      | error e => rw [ht] at h; cases h
      | ok Gs =>
        rw [ht] at h
        cases h
        rw [runCalls_cons, ← place_act hg]
        exact ih ht (G.act ψ)

theorem toAmp_inj {n : ℕ} {φ ψ : QState n} (h : toAmp n φ = toAmp n ψ) : φ = ψ := by
  funext b
  have := congrFun h fun q => if hq : q < n then b ⟨q, hq⟩ else false
  simpa [toAmp] using this

/-- The qubits a call uses exist and differ. -/
def GateCall.Fits (n : ℕ) : GateCall → Prop
  | .rx _ q | .ry _ q | .rz _ q | .x q | .h q => q < n
  | .cx c t | .cz c t => c < n ∧ t < n ∧ c ≠ t

theorem place_fits {n : ℕ} {g : GateCall} (h : g.Fits n) : ∃ G, g.place n = .ok G := by
  cases g with
  | rx θ q | ry θ q | rz θ q | x q | h q => exact ⟨_, dif_pos h⟩
  | cx c t | cz c t => exact ⟨_, dif_pos h⟩

theorem calls_fit {n : ℕ} : ∀ {calls : List GateCall}, (∀ g ∈ calls, g.Fits n) →
    ∃ gs, calls.mapM (GateCall.place n) = .ok gs := by
  intro calls
  induction calls with
  | nil => intro _; exact ⟨[], rfl⟩
  | cons g t ih =>
    intro h
    obtain ⟨G, hG⟩ := place_fits (h g (by simp))
    obtain ⟨gs, hgs⟩ := ih fun g hg => h g (by simp [hg])
    exact ⟨G :: gs, by rw [List.mapM_cons, hG, hgs]; rfl⟩

/-! ### Occupations -/

/-- The occupied spin orbitals of a label below `n`. -/
def occL (n : ℕ) (b : Lbl) : Finset ℕ := (range n).filter fun q => b q = true

/-- The label of a set. -/
def chi (S : Finset ℕ) : Lbl := fun q => decide (q ∈ S)

theorem mem_occ {n q : ℕ} (h : q < n) (b : Lbl) : q ∈ occL n b ↔ b q = true := by simp [occL, h]

theorem chi_occ {n q : ℕ} (h : q < n) (b : Lbl) : chi (occL n b) q = b q := by
  unfold chi; rw [Bool.eq_iff_iff]; simp [mem_occ h]

/-- Amplitudes of a state of electrons. -/
noncomputable def regAmp (n : ℕ) (X : Fock ℝ) : Amp := fun b => ((coeff X (occL n b) : ℝ) : ℂ)

theorem toAmp_register (norb : ℕ) (x : Fock ℝ) : toAmp (2 * norb) (onRegister norb x) =
    regAmp (2 * norb) (toBlocked norb x) := by
  funext b
  unfold toAmp onRegister regAmp
  have : occupied (fun q : Fin (2 * norb) => b q) = occL (2 * norb) b := by
    ext q
    simp only [occupied, occL, mem_image, mem_filter, mem_univ, true_and, mem_range]
    constructor
    · rintro ⟨p, hp, rfl⟩; exact ⟨p.2, hp⟩
    · rintro ⟨h1, h2⟩; exact ⟨⟨q, h1⟩, h2, rfl⟩
  rw [this]

theorem occ_flip {n : ℕ} {F : Finset ℕ} (hF : ∀ q ∈ F, q < n) (b : Lbl) : occL n (flipAll F b) = symmDiff (occL n b) F := by
  ext q
  simp only [mem_symmDiff, occL, mem_filter, mem_range, flipAll]
  by_cases h : q ∈ F
  · have := hF q h
    simp [h, this]
  · simp [h]

theorem chi_symm (S F : Finset ℕ) : chi (symmDiff S F) = flipAll F (chi S) := by
  funext q
  unfold chi flipAll
  by_cases h : q ∈ F <;> simp [mem_symmDiff, h]

/-! ### Rotations of states -/

section
variable {T : FOp ℝ} {c : Lbl → Bool} {F : Finset ℕ} {σ : Finset ℕ → ℝ}

theorem coeff_rot (hT : ∀ S, T (sgl S 1) = if c (chi S) = true then sgl (symmDiff S F) (σ S) else 0)
    (hc : ∀ b, c (flipAll F b) = c b) (hσ : ∀ S, c (chi S) = true → σ (symmDiff S F) = -σ S) (X : Fock ℝ) (S : Finset ℕ) :
    coeff (T X) S = if c (chi S) = true then -σ S * coeff X (symmDiff S F) else 0 := by
  have hff : ∀ S : Finset ℕ, symmDiff (symmDiff S F) F = S := fun S => by rw [symmDiff_assoc, symmDiff_self]; simp
  have hadd : ∀ x y : Fock ℝ, (coeff (T x) S = if c (chi S) = true then -σ S * coeff x (symmDiff S F) else 0) →
      (coeff (T y) S = if c (chi S) = true then -σ S * coeff y (symmDiff S F) else 0) →
      coeff (T (x + y)) S = if c (chi S) = true then -σ S * coeff (x + y) (symmDiff S F) else 0 := by
    intro x y hx hy
    rw [map_add, coeff_add, coeff_add, hx, hy]
    split <;> ring
  refine Finsupp.induction_linear X ?_ hadd ?_
  · change coeff (T 0) S = _
    rw [map_zero]
    change (0 : ℝ) = if _ then _ * (0 : ℝ) else 0
    simp
  · intro U a
    change coeff (T (sgl U a)) S = if _ then _ * coeff (sgl U a) _ else 0
    rw [op_sgl, coeff_smul, hT, coeff_sgl]
    by_cases e : U = symmDiff S F
    · rw [if_pos e]
      have h1 : c (chi U) = c (chi S) := by rw [e, chi_symm, hc]
      rw [h1]
      split
      · next h =>
        rw [coeff_sgl, e, hff, if_pos rfl, hσ _ h]; ring
      · rw [coeff_zero, mul_zero]
    · rw [if_neg e, mul_zero, ite_self]
      split
      · rw [coeff_sgl, if_neg (fun h => e (by rw [← h, hff])), mul_zero]
      · rw [coeff_zero, mul_zero]

/-- The closed form of the exponential acts as the rotation between partners. -/
theorem exp_amp {n : ℕ} {s : Lbl → ℂ} (hT : ∀ S, T (sgl S 1) = if c (chi S) = true then sgl (symmDiff S F) (σ S) else 0)
    (hc : ∀ b, c (flipAll F b) = c b) (hσ : ∀ S, c (chi S) = true → σ (symmDiff S F) = -σ S) (hσ2 : ∀ S, σ S * σ S = 1)
    (hF : ∀ q ∈ F, q < n) (hcn : ∀ b, c (chi (occL n b)) = c b) (hs : ∀ b, s b = -((σ (occL n b) : ℝ) : ℂ)) (θ : ℝ) (X : Fock ℝ) :
    regAmp n ((1 + Real.sin θ • T + (1 - Real.cos θ) • (T * T)) X) = giv θ c s F (regAmp n X) := by
  funext b
  have hff : ∀ S : Finset ℕ, symmDiff (symmDiff S F) F = S := fun S => by rw [symmDiff_assoc, symmDiff_self]; simp
  unfold regAmp giv
  beta_reduce
  rw [hs, occ_flip hF, ← hcn]
  have e : coeff ((1 + Real.sin θ • T + (1 - Real.cos θ) • (T * T)) X) (occL n b) =
      coeff X (occL n b) + Real.sin θ * coeff (T X) (occL n b) + (1 - Real.cos θ) * coeff (T (T X)) (occL n b) := rfl
  rw [e, coeff_rot hT hc hσ, coeff_rot hT hc hσ]
  generalize occL n b = S
  split
  · next h =>
    rw [coeff_rot hT hc hσ, if_pos (by rw [chi_symm, hc, h]), hff, hσ S h, ← Complex.ofReal_neg, ← Complex.ofReal_mul,
      ← Complex.ofReal_mul, ← Complex.ofReal_mul, ← Complex.ofReal_add]
    congr 1
    linear_combination -(1 - Real.cos θ) * coeff X S * hσ2 S
  · simp

end

/-! ### Signs -/

/-- Parity of the occupied spin orbitals in a set. -/
def par (S Q : Finset ℕ) : ℝ := ∏ q ∈ Q, if q ∈ S then -1 else 1

theorem phase_par (S : Finset ℕ) (p : ℕ) : (phase S p : ℝ) = par S (range p) := by
  unfold phase par
  rw [Finset.prod_ite]
  simp only [Finset.prod_const, one_pow, mul_one]
  congr 2
  ext q; simp [and_comm]

theorem par_sq (S Q : Finset ℕ) : par S Q * par S Q = 1 := by
  unfold par
  rw [← Finset.prod_mul_distrib]
  exact Finset.prod_eq_one fun q _ => by split <;> norm_num

theorem phase_mul {i j : ℕ} (h : i ≤ j) (S : Finset ℕ) : (phase S i : ℝ) * phase S j = par S (Ico i j) := by
  rw [phase_par, phase_par]
  have : range j = range i ∪ Ico i j := by ext; simp; omega
  unfold par
  rw [this, Finset.prod_union (by rw [disjoint_left]; simp; omega), ← mul_assoc]
  exact (congrArg (· * _) (par_sq S (range i))).trans (one_mul _)

theorem par_Ico {i j : ℕ} (h : i < j) (S : Finset ℕ) : par S (Ico i j) = (if i ∈ S then -1 else 1) * par S (Ioo i j) := by
  unfold par
  rw [show Ico i j = insert i (Ioo i j) by ext; simp; omega, Finset.prod_insert (by simp)]

theorem par_symm {S F Q : Finset ℕ} (h : Disjoint Q F) : par (symmDiff S F) Q = par S Q := by
  unfold par
  refine Finset.prod_congr rfl fun q hq => ?_
  have : q ∉ F := fun hf => disjoint_left.1 h hq hf
  simp [mem_symmDiff, this]

theorem sgs_par {n : ℕ} {Q : Finset ℕ} (h : ∀ q ∈ Q, q < n) (b : Lbl) : sgs Q b = ((par (occL n b) Q : ℝ) : ℂ) := by
  unfold sgs par
  push_cast
  refine Finset.prod_congr rfl fun q hq => ?_
  simp only [mem_occ (h q hq), sgb]
  split <;> simp

theorem sgb_par {n q : ℕ} (h : q < n) (b : Lbl) : sgb (b q) = (((if q ∈ occL n b then -1 else 1 : ℝ)) : ℂ) := by
  simp only [mem_occ h, sgb]
  split <;> simp

end SQ
