import Verif.Spec.Excitations
import Verif.Model.Operators
import Verif.Lemmas.OperatorsSem
import Verif.Lemmas.Conserve
import Mathlib.Tactic.Linarith

/-!
# Lemmas on the Hamiltonians with truncated index ranges
-/

namespace SQ

variable {R : Type*} [CommRing R]

/-- Inactive spin orbitals of the spatial orbitals in `V`. -/
def inactSet (nI : ℕ) (V : Finset ℕ) : Finset ℕ := (Finset.range (2 * nI)).filter fun o => spat o ∈ V

/-- Weight that counts the electrons in the spatial orbitals of `V`. -/
def vInd (V : Finset ℕ) (o : ℕ) : ℤ := if o ∈ V then 1 else 0

theorem weight_vInd {nI : ℕ} {V : Finset ℕ} (hV : ∀ k ∈ V, k < nI) (S : Finset ℕ) :
    weight (fun o => vInd V (spat o)) S = ((inactSet nI V).filter (· ∈ S)).card := by
  unfold weight vInd
  rw [← Finset.sum_filter, Finset.sum_const, nsmul_eq_mul, mul_one]
  congr 2
  ext o
  simp only [inactSet, Finset.mem_filter, Finset.mem_range]
  constructor
  · rintro ⟨h1, h2⟩
    have := hV _ h2
    unfold spat at this
    exact ⟨⟨by omega, h2⟩, h1⟩
  · rintro ⟨⟨_, h2⟩, h1⟩; exact ⟨h1, h2⟩

theorem weight_le {nI : ℕ} {V : Finset ℕ} (hV : ∀ k ∈ V, k < nI) (S : Finset ℕ) :
    weight (fun o => vInd V (spat o)) S ≤ (inactSet nI V).card := by
  rw [weight_vInd hV]
  exact_mod_cast Finset.card_filter_le _ _

theorem weight_ge {nI : ℕ} {V : Finset ℕ} (hV : ∀ k ∈ V, k < nI) {S : Finset ℕ} {k : ℕ}
    (h : ((Finset.range (2 * nI)).filter (· ∉ S)).card ≤ k) :
    (inactSet nI V).card ≤ weight (fun o => vInd V (spat o)) S + k := by
  rw [weight_vInd hV]
  have h1 := Finset.card_filter_add_card_filter_not (s := inactSet nI V) (· ∈ S)
  have h2 : ((inactSet nI V).filter (¬ · ∈ S)).card ≤ ((Finset.range (2 * nI)).filter (· ∉ S)).card := by
    apply Finset.card_le_card
    intro o ho
    simp only [inactSet, Finset.mem_filter] at ho ⊢
    exact ⟨ho.1.1, ho.2⟩
  have : (inactSet nI V).card ≤ ((inactSet nI V).filter (· ∈ S)).card + k := by omega
  exact_mod_cast this

theorem ActiveState.near {nI nA : ℕ} {x : Fock R} (h : ActiveState nI nA x) : NearState nI nA x := by
  intro S hS
  obtain ⟨h1, h2⟩ := h S hS
  constructor
  · rw [Finset.filter_eq_empty_iff.2]
    · simp
    · intro o ho; simpa using h1 o (by simpa using ho)
  · rw [Finset.filter_eq_empty_iff.2]
    · simp
    · intro o ho; have := h2 o ho; omega

theorem ActiveState.holes {nI nA : ℕ} {x : Fock R} (h : ActiveState nI nA x) {S : Finset ℕ}
    (hS : coeff x S ≠ 0) : ((Finset.range (2 * nI)).filter (· ∉ S)).card ≤ 0 := by
  rw [Finset.filter_eq_empty_iff.2]
  · simp
  · intro o ho; simpa using (h S hS).1 o (by simpa using ho)

/-- Two different electrons beyond the active orbitals exclude a near state. -/
theorem near_two {nI nA a b : ℕ} {S : Finset ℕ} (h : (S.filter (2 * (nI + nA) ≤ ·)).card ≤ 1)
    (ha : a ∈ S) (hb : b ∈ S) (hab : a ≠ b) : ¬ (nI + nA ≤ spat a ∧ nI + nA ≤ spat b) := by
  rintro ⟨h1, h2⟩
  unfold spat at h1 h2
  exact hab (Finset.card_le_one.1 h a (by simp [ha]; omega) b (by simp [hb]; omega))

/-- `⟨x|E_pq|y⟩ ≠ 0` with an active bra. -/
theorem truncE {nI nA : ℕ} {x y : Fock R} (hx : ActiveState nI nA x) {p q : ℕ}
    (h : inner x (E p q y) ≠ 0) : skip1 nI (nI + nA) p q = false := by
  obtain ⟨S, S', h1, h2, h3⟩ := mel_ne_zero h
  obtain ⟨_, p', hp, hpp⟩ := E_ket_ne h3
  have a := (hx S h1).2 p' hp
  have ap : p < nI + nA := by unfold spat at hpp; omega
  have b : q < nI → p = q := by
    intro hq
    have hV : ∀ k ∈ ({q} : Finset ℕ), k < nI := by simpa using hq
    have sh := shift_E_spat (R := R) (vInd {q}) p q S' S h3
    have g1 := weight_le hV S'
    have g2 := weight_ge hV (hx.holes h1)
    by_contra hne
    have : vInd {q} p = 0 := by simp [vInd, hne]
    have e : vInd {q} q = 1 := by simp [vInd]
    rw [this, e] at sh
    push_cast at g2
    linarith
  unfold skip1
  simp only [Bool.or_eq_false_iff, Bool.and_eq_false_iff, decide_eq_false_iff_not]
  omega

/-- `⟨x|e_pqrs|y⟩ ≠ 0` with an active bra and a near ket. -/
theorem trunc1 {nI nA : ℕ} {x y : Fock R} (hx : ActiveState nI nA x) (hy : NearState nI nA y)
    {p q r s : ℕ} (h : inner x (e p q r s y) ≠ 0) :
    numVirt (nI + nA) p q r s ≤ 1 ∧ numAct nI p q r s ≤ 1 := by
  obtain ⟨S, S', h1, h2, h3⟩ := mel_ne_zero h
  obtain ⟨⟨q', hq, s', hs, hqs, eq, es⟩, p', hp, r', hr, _, ep, er⟩ := e_ket_ne h3
  obtain ⟨y1, y2⟩ := hy S' h2
  have a := (hx S h1).2 p' hp
  have b := (hx S h1).2 r' hr
  have ap : p < nI + nA := by unfold spat at ep; omega
  have ar : r < nI + nA := by unfold spat at er; omega
  have v := near_two y2 hq hs hqs
  rw [eq, es] at v
  have key : ∀ V : Finset ℕ, (∀ k ∈ V, k < nI) →
      0 ≤ vInd V p + vInd V r - vInd V q - vInd V s ∧ vInd V p + vInd V r - vInd V q - vInd V s ≤ 1 := by
    intro V hV
    have sh := shift_e (R := R) (vInd V) p q r s S' S h3
    have g1 := weight_le hV S
    have g2 := weight_ge hV y1
    have g3 := weight_le hV S'
    have g4 := weight_ge hV (hx.holes h1)
    push_cast at g2 g4
    constructor <;> linarith
  have kq : q < nI → (p = q ∨ r = q) ∧ (q = s → p = q ∧ r = q) := by
    intro hq'
    have := (key {q} (by simpa using hq')).1
    simp only [vInd, Finset.mem_singleton] at this
    split_ifs at this <;> omega
  have ks : s < nI → (p = s ∨ r = s) := by
    intro hs'
    have := (key {s} (by simpa using hs')).1
    simp only [vInd, Finset.mem_singleton] at this
    split_ifs at this <;> omega
  have kpr : ¬ (p < nI ∧ r < nI ∧ nI ≤ q ∧ nI ≤ s) := by
    rintro ⟨h1, h2, h3, h4⟩
    have := (key {p, r} (by simp [h1, h2])).2
    have b1 : q ≠ p := by omega
    have b2 : q ≠ r := by omega
    have b3 : s ≠ p := by omega
    have b4 : s ≠ r := by omega
    simp [vInd, b1, b2, b3, b4] at this
  constructor
  · unfold numVirt
    split_ifs <;> omega
  · have : numAct nI p q r s ≤ 1 := by
      unfold numAct
      by_cases c1 : p < nI <;> by_cases c2 : q < nI <;> by_cases c3 : r < nI <;> by_cases c4 : s < nI <;>
        simp only [c1, c2, c3, c4, if_true, if_false, true_and, false_and, forall_const] at kq ks ⊢ <;>
        (try split_ifs) <;> omega
    exact this

/-- `⟨x|e_pqrs|y⟩ ≠ 0` between near states. -/
theorem trunc2 {nI nA : ℕ} {x y : Fock R} (hx : NearState nI nA x) (hy : NearState nI nA y)
    {p q r s : ℕ} (h : inner x (e p q r s y) ≠ 0) :
    numVirt (nI + nA) p q r s ≤ 2 ∧ numAct nI p q r s ≤ 2 := by
  obtain ⟨S, S', h1, h2, h3⟩ := mel_ne_zero h
  obtain ⟨⟨q', hq, s', hs, hqs, eq, es⟩, p', hp, r', hr, hpr, ep, er⟩ := e_ket_ne h3
  obtain ⟨y1, y2⟩ := hy S' h2
  obtain ⟨x1, x2⟩ := hx S h1
  have v := near_two y2 hq hs hqs
  have w := near_two x2 hp hr hpr
  rw [eq, es] at v
  rw [ep, er] at w
  have key : ∀ V : Finset ℕ, (∀ k ∈ V, k < nI) →
      -1 ≤ vInd V p + vInd V r - vInd V q - vInd V s ∧
        vInd V p + vInd V r - vInd V q - vInd V s ≤ 1 := by
    intro V hV
    have sh := shift_e (R := R) (vInd V) p q r s S' S h3
    have g1 := weight_le hV S
    have g2 := weight_ge hV y1
    have g3 := weight_le hV S'
    have g4 := weight_ge hV x1
    push_cast at g2 g4
    constructor <;> linarith
  have kpr : ¬ (p < nI ∧ r < nI ∧ q ≠ p ∧ q ≠ r ∧ s ≠ p ∧ s ≠ r) := by
    rintro ⟨h1, h2, a1, a2, a3, a4⟩
    have := (key {p, r} (by simp [h1, h2])).2
    simp [vInd, a1, a2, a3, a4] at this
  have kqs : ¬ (q < nI ∧ s < nI ∧ q ≠ p ∧ q ≠ r ∧ s ≠ p ∧ s ≠ r) := by
    rintro ⟨h1, h2, a1, a2, a3, a4⟩
    have := (key {q, s} (by simp [h1, h2])).1
    simp [vInd, a1.symm, a2.symm, a3.symm, a4.symm] at this
  constructor
  · unfold numVirt
    split_ifs <;> omega
  · unfold numAct
    by_cases c1 : p < nI <;> by_cases c2 : q < nI <;> by_cases c3 : r < nI <;> by_cases c4 : s < nI <;>
      simp only [c1, c2, c3, c4, if_true, if_false, true_and, false_and, forall_const] <;>
      (try split_ifs) <;> omega

section field
variable {K : Type*} [Field K] {tiny big : K → Bool}

/-- One-electron terms kept by the `1i_1a` operators. -/
noncomputable def one1 (h : ℕ → ℕ → K) (nI nA nV : ℕ) : FOp K :=
  ∑ p ∈ Finset.range (nI + nA + nV), ∑ q ∈ Finset.range (nI + nA + nV),
    if skip1 nI (nI + nA) p q then 0 else h p q • E p q

/-- Two-electron terms kept by the Hamiltonians with at most `k` unmatched indices. -/
noncomputable def twoK (k : ℕ) (g : ℕ → ℕ → ℕ → ℕ → K) (nI nA nV : ℕ) : FOp K :=
  ∑ p ∈ Finset.range (nI + nA + nV), ∑ q ∈ Finset.range (nI + nA + nV),
    ∑ r ∈ Finset.range (nI + nA + nV), ∑ s ∈ Finset.range (nI + nA + nV),
      if numVirt (nI + nA) p q r s > k ∨ numAct nI p q r s > k then 0
      else (1 / 2 * g p q r s) • e p q r s

theorem adds_one1 (ht : ExactTiny tiny) (hb : ExactBig big) (h : ℕ → ℕ → K) (nI nA nV : ℕ) :
    Adds (fun H => (List.range (nI + nA + nV)).foldlM (fun H p => (List.range (nI + nA + nV)).foldlM
      (fun H q => if skip1 nI (nI + nA) p q then .ok H else addEif tiny big H (h p q) p q) H) H)
      (one1 h nI nA nV) := by
  unfold one1
  simp only [← list_sum_range]
  refine Adds.foldlM _ fun p _ => Adds.foldlM _ fun q _ => Adds.ite _ (fun hc => ?_) (fun hc => ?_)
  · rw [if_neg hc]; exact adds_bigE ht hb _ _ _
  · rw [if_pos hc]

theorem adds_twoK (k : ℕ) (ht : ExactTiny tiny) (hb : ExactBig big) (g : ℕ → ℕ → ℕ → ℕ → K)
    (nI nA nV : ℕ) :
    Adds (fun H => (List.range (nI + nA + nV)).foldlM (fun H p => (List.range (nI + nA + nV)).foldlM
      (fun H q => (List.range (nI + nA + nV)).foldlM (fun H r =>
        (List.range (nI + nA + nV)).foldlM (fun H s =>
          if numVirt (nI + nA) p q r s > k then .ok H
          else if numAct nI p q r s > k then .ok H
          else addEEif tiny big H (g p q r s) p q r s) H) H) H) H) (twoK k g nI nA nV) := by
  unfold twoK
  simp only [← list_sum_range]
  refine Adds.foldlM _ fun p _ => Adds.foldlM _ fun q _ => Adds.foldlM _ fun r _ =>
    Adds.foldlM _ fun s _ => Adds.ite _ (fun hc => Adds.ite _ (fun hd => ?_) (fun hd => ?_)) (fun hc => ?_)
  · rw [if_neg (by tauto)]; exact adds_bigEE ht hb _ _ _ _ _
  · rw [if_pos (Or.inr hd)]
  · rw [if_pos (Or.inl hc)]

theorem den_oneElec1i1a (ht : ExactTiny tiny) (hb : ExactBig big) (h : ℕ → ℕ → K) (nI nA nV : ℕ) :
    Den (oneElec1i1a tiny big h nI nA nV) (one1 h nI nA nV) :=
  (adds_one1 ht hb h nI nA nV).den

theorem den_hamiltonian1i1a (ht : ExactTiny tiny) (hb : ExactBig big) (h : ℕ → ℕ → K)
    (g : ℕ → ℕ → ℕ → ℕ → K) (nI nA nV : ℕ) :
    Den (hamiltonian1i1a tiny big h g nI nA nV) (one1 h nI nA nV + twoK 1 g nI nA nV) :=
  ((adds_one1 ht hb h nI nA nV).seq (adds_twoK 1 ht hb g nI nA nV)).den

theorem den_hamiltonian2i2a (ht : ExactTiny tiny) (hb : ExactBig big) (h : ℕ → ℕ → K)
    (g : ℕ → ℕ → ℕ → ℕ → K) (nI nA nV : ℕ) :
    Den (hamiltonian2i2a tiny big h g nI nA nV) (oneOp h (nI + nA + nV) + twoK 2 g nI nA nV) := by
  have h1 : Adds (fun H => (List.range (nI + nA + nV)).foldlM (fun H p =>
      (List.range (nI + nA + nV)).foldlM (fun H q => addEif tiny big H (h p q) p q) H) H)
      (oneOp h (nI + nA + nV)) := by
    unfold oneOp
    simp only [← list_sum_range]
    exact Adds.foldlM _ fun p _ => Adds.foldlM _ fun q _ => adds_bigE ht hb _ _ _
  exact (h1.seq (adds_twoK 2 ht hb g nI nA nV)).den

theorem one1_mel {nI nA nV : ℕ} (h : ℕ → ℕ → K) {x y : Fock K}
    (hz : ∀ p q, inner x (E p q y) ≠ 0 → skip1 nI (nI + nA) p q = false) :
    inner x (one1 h nI nA nV y) = inner x (oneOp h (nI + nA + nV) y) := by
  rw [← mel_apply, ← mel_apply]
  unfold one1 oneOp
  simp only [map_sum]
  refine Finset.sum_congr rfl fun p _ => Finset.sum_congr rfl fun q _ => ?_
  split_ifs with hc
  · have : inner x (E p q y) = 0 := by
      by_contra hne
      rw [hz p q hne] at hc; simp at hc
    simp [this]
  · rfl

theorem twoK_mel {k nI nA nV : ℕ} (g : ℕ → ℕ → ℕ → ℕ → K) {x y : Fock K}
    (hz : ∀ p q r s, inner x (e p q r s y) ≠ 0 →
      numVirt (nI + nA) p q r s ≤ k ∧ numAct nI p q r s ≤ k) :
    inner x (twoK k g nI nA nV y) = inner x (((1 / 2 : K) • twoOp g (nI + nA + nV)) y) := by
  rw [← mel_apply, ← mel_apply]
  unfold twoK twoOp
  simp only [map_sum, Finset.smul_sum]
  refine Finset.sum_congr rfl fun p _ => Finset.sum_congr rfl fun q _ => Finset.sum_congr rfl fun r _ =>
    Finset.sum_congr rfl fun s _ => ?_
  split_ifs with hc
  · have : inner x (e p q r s y) = 0 := by
      by_contra hne
      have := hz p q r s hne
      omega
    simp [this]
  · rw [smul_smul]

end field

theorem skip1_swap (nI vs p q : ℕ) : skip1 nI vs p q = skip1 nI vs q p := by
  unfold skip1
  rw [Bool.and_comm (decide (p ≥ vs)), Bool.and_comm (decide (p < nI))]
  congr 2
  simp [eq_comm]

theorem numVirt_swap (vs p q r s : ℕ) : numVirt vs p q r s = numVirt vs q p s r := by
  unfold numVirt; ring

theorem numAct_swap (nI p q r s : ℕ) : numAct nI p q r s = numAct nI q p s r := by
  unfold numAct
  have e1 : (p < nI ∧ q < nI ∧ p = q) ↔ (q < nI ∧ p < nI ∧ q = p) := by omega
  have e2 : (r < nI ∧ s < nI ∧ r = s) ↔ (s < nI ∧ r < nI ∧ s = r) := by omega
  have e3 : (p < nI ∧ s < nI ∧ p = s) ↔ (s < nI ∧ p < nI ∧ s = p) := by omega
  have e4 : (q < nI ∧ r < nI ∧ q = r) ↔ (r < nI ∧ q < nI ∧ r = q) := by omega
  simp only [e1, e2, e3, e4]
  ring

theorem one_ket_eq {p q : ℕ} {S S' : Finset ℕ} (h : coeff ((cr p * an q : FOp R) (ket S')) S ≠ 0) :
    S = insert p (S'.erase q) := by
  obtain ⟨S1, h1, h2⟩ := mul_ket_ne h
  rw [(cr_ket_ne h2).2, (an_ket_ne h1).2]

theorem near_insert_erase {nI nA p q : ℕ} {S' : Finset ℕ} (h1 : ∀ o, o < 2 * nI → o ∈ S')
    (h2 : ∀ o ∈ S', o < 2 * (nI + nA)) :
    ((Finset.range (2 * nI)).filter (· ∉ insert p (S'.erase q))).card ≤ 1 ∧
      ((insert p (S'.erase q)).filter (2 * (nI + nA) ≤ ·)).card ≤ 1 := by
  constructor
  · refine (Finset.card_le_card (t := {q}) ?_).trans (by simp)
    intro o ho
    simp only [Finset.mem_filter, Finset.mem_range, Finset.mem_insert, Finset.mem_erase, not_or,
      not_and] at ho
    rw [Finset.mem_singleton]
    by_contra hne
    exact ho.2.2 hne (h1 o ho.1)
  · refine (Finset.card_le_card (t := {p}) ?_).trans (by simp)
    intro o ho
    simp only [Finset.mem_filter, Finset.mem_insert, Finset.mem_erase] at ho
    rw [Finset.mem_singleton]
    rcases ho with ⟨rfl | ⟨_, h⟩, h'⟩
    · rfl
    · have := h2 o h; omega

/-- One replacement leads from active states to near states. -/
theorem near_E {nI nA : ℕ} {x : Fock R} (hx : ActiveState nI nA x) (p q : ℕ) :
    NearState nI nA (E p q x) := by
  intro S hS
  obtain ⟨S', h1, h2⟩ : ∃ S', coeff x S' ≠ 0 ∧ coeff ((E p q : FOp R) (ket S')) S ≠ 0 := by
    by_contra hne
    push Not at hne
    exact hS (coeff_apply_eq_zero fun S' h' => hne S' h')
  obtain ⟨a, b⟩ := hx S' h1
  rcases add_ket_ne h2 with h | h <;> rw [one_ket_eq h] <;> exact near_insert_erase a b

end SQ
