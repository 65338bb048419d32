import Verif.Lemmas.ExtendedKeys
import Verif.Props.CISpaces

/-!
# Lemmas: single excitations and the extended determinant space
-/

namespace SQ

/-! ### Holes and particles as weights -/

/-- Inactive orbitals of spin `σ`. -/
def wHol (nI σ p : ℕ) : ℤ := if p < 2 * nI ∧ p % 2 = σ then 1 else 0

/-- Orbitals of spin `σ` from `m` on. -/
def wPar (m σ p : ℕ) : ℤ := if 2 * m ≤ p ∧ p % 2 = σ then 1 else 0

theorem weight_ite (S : Finset ℕ) (P : ℕ → Prop) [DecidablePred P] :
    weight (fun p => if P p then 1 else 0) S = ((S.filter P).card : ℤ) := by
  unfold weight
  rw [Finset.card_filter]; push_cast; rfl

theorem weight_hol (nI : ℕ) {σ : ℕ} (hσ : σ < 2) (S : Finset ℕ) : weight (wHol nI σ) S = nI - holes nI σ S := by
  have e : weight (wHol nI σ) S = (spatOf nI σ S).card := by
    show weight (fun p => if p < 2 * nI ∧ p % 2 = σ then 1 else 0) S = _
    rw [weight_ite]
    congr 1
    unfold spatOf
    refine (Finset.card_bij (fun p _ => 2 * p + σ) ?_ ?_ ?_).symm
    · intro p hp
      simp only [Finset.mem_filter, Finset.mem_range] at hp ⊢
      exact ⟨hp.2, by omega, by omega⟩
    · intro a _ b _ h; omega
    · intro b hb
      simp only [Finset.mem_filter] at hb
      refine ⟨b / 2, ?_, by omega⟩
      simp only [Finset.mem_filter, Finset.mem_range]
      refine ⟨by omega, ?_⟩
      rw [show 2 * (b / 2) + σ = b by omega]; exact hb.1
  rw [e]
  unfold holes
  rw [Finset.card_sdiff_of_subset (by unfold spatOf; exact Finset.filter_subset _ _), Finset.card_range]
  have : (spatOf nI σ S).card ≤ nI := by
    have := Finset.card_le_card (show spatOf nI σ S ⊆ Finset.range nI from by unfold spatOf; exact Finset.filter_subset _ _)
    rwa [Finset.card_range] at this
  omega

theorem weight_par {nI nA nV : ℕ} {σ : ℕ} (hσ : σ < 2) {S : Finset ℕ} (hS : S ⊆ Finset.range (2 * (nI + nA + nV))) :
    weight (wPar (nI + nA) σ) S = particles nI nA nV σ S := by
  show weight (fun p => if 2 * (nI + nA) ≤ p ∧ p % 2 = σ then 1 else 0) S = _
  rw [weight_ite]
  congr 1
  unfold particles spatOf
  refine (Finset.card_bij (fun p _ => 2 * p + σ) ?_ ?_ ?_).symm
  · intro p hp
    simp only [Finset.mem_filter, Finset.mem_range] at hp ⊢
    exact ⟨hp.1.2, by omega, by omega⟩
  · intro a _ b _ h; omega
  · intro b hb
    simp only [Finset.mem_filter] at hb
    have := Finset.mem_range.1 (hS hb.1)
    refine ⟨b / 2, ?_, by omega⟩
    simp only [Finset.mem_filter, Finset.mem_range]
    refine ⟨⟨by omega, ?_⟩, by omega⟩
    rw [show 2 * (b / 2) + σ = b by omega]; exact hb.1

/-! ### Strings of single excitations -/

/-- Every string moves one electron from orbital `q` to orbital `p` without changing its spin. -/
def ExcStr (p q : ℕ) (s : Str) : Prop := ∃ σ < 2, ∀ w, strWeight w s = w (2 * p + σ) - w (2 * q + σ)

theorem excStr_closed (p q : ℕ) : StrClosed (ExcStr p q) where
  perm s t h := by
    rintro ⟨σ, h1, h2⟩
    exact ⟨σ, h1, fun w => (wkeys_closed w _).perm s t h (h2 w)⟩
  contract s x t := by
    rintro ⟨σ, h1, h2⟩ h ht
    exact ⟨σ, h1, fun w => (wkeys_closed w _).contract s x t (h2 w) h ht⟩

theorem excStr_Epq {tiny : ℝ → Bool} {p q : ℕ} {d : Dict ℝ} (h : Epq tiny p q = .ok d) : ∀ kv ∈ d, ExcStr p q kv.1 := by
  have e : (Epq tiny p q : Res (Dict ℝ)) =
      (SQ.fmul tiny (aOpSpin (2 * p) true) (aOpSpin (2 * q) false) >>= fun A =>
        SQ.fmul tiny (aOpSpin (2 * p + 1) true) (aOpSpin (2 * q + 1) false) >>= fun B =>
          Except.ok (SQ.fadd tiny A B)) := rfl
  rw [e] at h
  cases hA : SQ.fmul tiny (aOpSpin (2 * p) true : Dict ℝ) (aOpSpin (2 * q) false) with
  | error e => rw [hA] at h; cases h
  | ok A =>
    cases hB : SQ.fmul tiny (aOpSpin (2 * p + 1) true : Dict ℝ) (aOpSpin (2 * q + 1) false) with
    | error e => rw [hA, hB] at h; cases h
    | ok B =>
      rw [hA, hB] at h
      obtain rfl := Except.ok.inj h
      refine foldl_addTo_keyP (P := ExcStr p q) B (fun kv hk => ?_) fun kv hk => ?_
      · exact ⟨0, by omega, fun w => wkeys_pair (w := w) _ _ A hA kv hk⟩
      · exact ⟨1, by omega, fun w => wkeys_pair (w := w) _ _ B hB kv hk⟩

theorem excStr_frmul {p q : ℕ} {A : Dict ℝ} (hA : ∀ kv ∈ A, ExcStr p q kv.1) (x : ℝ) :
    ∀ kv ∈ frmul x A, ExcStr p q kv.1 := by
  intro kv h
  obtain ⟨y, hy, rfl⟩ := List.mem_map.1 h
  exact hA y hy

theorem excStr_dagger {tiny : ℝ → Bool} {p q : ℕ} {A d : Dict ℝ} (hw : WF A) (hA : ∀ kv ∈ A, ExcStr p q kv.1)
    (h : fdagger tiny A = .ok d) : ∀ kv ∈ d, ExcStr q p kv.1 := by
  rcases fdagger_struct tiny (excStr_closed q p) hw (fun kv hk => by
    obtain ⟨σ, h1, h2⟩ := hA kv hk
    exact ⟨σ, h1, fun w => by rw [strWeight_flip, h2]; ring⟩) with ⟨e, _⟩ | ⟨e, g1, _, g3⟩
  · rw [e] at h; cases h
  · rw [g1] at h; cases h; exact fun kv hk => (g3 kv hk).2

/-! ### Membership -/

/-- Numbers of electrons and range of the determinants. -/
theorem inCAS_move {n : ℕ} {na nb : ℤ} {S S' : Finset ℕ} (hS : InCAS n na nb S)
    (ho : ∀ p, ¬ p < 2 * n → (p ∈ S' ↔ p ∈ S)) (ha : numAlpha S' = numAlpha S) (hb : numBeta S' = numBeta S) :
    InCAS n na nb S' := by
  obtain ⟨h1, h2, h3⟩ := hS
  have hsub : S' ⊆ Finset.range (2 * n) := by
    intro p hp
    by_contra hlt
    exact hlt (h1 ((ho p (by simpa using hlt)).1 hp))
  refine ⟨hsub, ?_, ?_⟩
  · rw [numAlpha_spat hsub, ha, ← numAlpha_spat h1]; exact h2
  · rw [numBeta_spat hsub, hb, ← numBeta_spat h1]; exact h3

/-- A determinant of the active space with the right numbers of electrons. -/
def CasDet (nI nA : ℕ) (na nb : ℤ) (S : Finset ℕ) : Prop :=
  ActiveDet nI nA S ∧ (numAlpha S : ℤ) = na + nI ∧ (numBeta S : ℤ) = nb + nI

section
variable {nI nA nV : ℕ} {na nb : ℤ}

theorem ActiveDet.subset {S : Finset ℕ} (h : ActiveDet nI nA S) : S ⊆ Finset.range (2 * (nI + nA + nV)) := by
  intro p hp
  have := h.2 p hp
  exact Finset.mem_range.2 (by omega)

theorem CasDet.inCAS {S : Finset ℕ} (h : CasDet nI nA na nb S) : InCAS (nI + nA + nV) (na + nI) (nb + nI) S := by
  have hsub := ActiveDet.subset (nV := nV) h.1
  exact ⟨hsub, by rw [numAlpha_spat hsub]; exact h.2.1, by rw [numBeta_spat hsub]; exact h.2.2⟩

theorem ActiveDet.weights {S : Finset ℕ} (h : ActiveDet nI nA S) {σ : ℕ} (hσ : σ < 2) :
    weight (wHol nI σ) S = nI ∧ weight (wPar (nI + nA) σ) S = 0 := by
  constructor
  · have : holes nI σ S = 0 := by
      unfold holes
      rw [Finset.card_eq_zero, Finset.sdiff_eq_empty_iff_subset]
      intro p hp
      have := Finset.mem_range.1 hp
      unfold spatOf
      exact Finset.mem_filter.2 ⟨hp, h.1 _ (by omega)⟩
    rw [weight_hol nI hσ, this]; simp
  · refine Finset.sum_eq_zero fun p hp => ?_
    have := h.2 p hp
    exact if_neg (by omega)

theorem atMost_iff {k σ : ℕ} (hσ : σ < 2) {S : Finset ℕ} (hS : S ⊆ Finset.range (2 * (nI + nA + nV))) :
    AtMost nI nA nV k σ S ↔ (nI : ℤ) - k ≤ weight (wHol nI σ) S ∧ weight (wPar (nI + nA) σ) S ≤ k := by
  rw [weight_hol nI hσ, weight_par hσ hS]
  unfold AtMost
  omega

/-- Determinants of the active space belong to the extended space. -/
theorem CasDet.inExtended (dbl : Bool) {S : Finset ℕ} (h : CasDet nI nA na nb S) : InExtended nI nA nV na nb dbl S := by
  have hsub := ActiveDet.subset (nV := nV) h.1
  refine ⟨h.inCAS, ?_⟩
  have z : ∀ k σ, σ < 2 → AtMost nI nA nV k σ S := fun k σ hσ => by
    obtain ⟨a, b⟩ := h.1.weights hσ
    rw [atMost_iff hσ hsub, a, b]
    omega
  split
  · exact Or.inl ⟨z 2 0 (by omega), z 0 1 (by omega)⟩
  · exact Or.inl ⟨z 1 0 (by omega), z 0 1 (by omega)⟩

/-- What a single excitation does to the numbers of holes and particles. -/
theorem ExcStr.weights {p q : ℕ} {s : Str} {σ : ℕ} (hs : ∀ w, strWeight w s = w (2 * p + σ) - w (2 * q + σ))
    {S S' : Finset ℕ} (h : coeff (strOp s (ket S) : Fock ℝ) S' ≠ 0) (τ : ℕ) (hσ : σ < 2) :
    weight (wHol nI τ) S' = weight (wHol nI τ) S + (if τ = σ ∧ p < nI then 1 else 0) - (if τ = σ ∧ q < nI then 1 else 0) ∧
    weight (wPar (nI + nA) τ) S' = weight (wPar (nI + nA) τ) S + (if τ = σ ∧ nI + nA ≤ p then 1 else 0)
      - (if τ = σ ∧ nI + nA ≤ q then 1 else 0) := by
  have a := shift_strOp (R := ℝ) (wHol nI τ) s S S' h
  have b := shift_strOp (R := ℝ) (wPar (nI + nA) τ) s S S' h
  rw [hs] at a b
  have e1 : ∀ x, wHol nI τ (2 * x + σ) = if τ = σ ∧ x < nI then 1 else 0 := fun x => by
    unfold wHol
    have : (2 * x + σ < 2 * nI ∧ (2 * x + σ) % 2 = τ) ↔ (τ = σ ∧ x < nI) := by omega
    simp only [this]
  have e2 : ∀ x, wPar (nI + nA) τ (2 * x + σ) = if τ = σ ∧ nI + nA ≤ x then 1 else 0 := fun x => by
    unfold wPar
    have : (2 * (nI + nA) ≤ 2 * x + σ ∧ (2 * x + σ) % 2 = τ) ↔ (τ = σ ∧ nI + nA ≤ x) := by omega
    simp only [this]
  rw [e1, e1] at a
  rw [e2, e2] at b
  rw [a, b]
  exact ⟨by ring, by ring⟩

variable {s : Str} {S S' : Finset ℕ} {dbl : Bool}

/-- Any single excitation of an active determinant belongs to the extended space. -/
theorem excite_active {p q : ℕ} (hk : KInv (· < 2 * (nI + nA + nV)) (fun _ => 0) s) (hs : ExcStr p q s)
    (hS : CasDet nI nA na nb S) (h : coeff (strOp s (ket S) : Fock ℝ) S' ≠ 0) :
    InExtended nI nA nV na nb dbl S' := by
  obtain ⟨r1, r2, r3⟩ := hk.reach h
  have hc := inCAS_move hS.inCAS r1 r2 r3
  obtain ⟨σ, hσ, hw⟩ := hs
  refine ⟨hc, ?_⟩
  have z : ∀ τ, τ < 2 → AtMost nI nA nV 1 τ S' ∧ (τ ≠ σ → AtMost nI nA nV 0 τ S') := fun τ hτ => by
    obtain ⟨a, b⟩ := hS.1.weights hτ
    obtain ⟨c, d⟩ := ExcStr.weights (nI := nI) (nA := nA) hw h τ hσ
    rw [atMost_iff hτ hc.1, atMost_iff hτ hc.1, c, d, a, b]
    constructor
    · constructor <;> split_ifs <;> omega
    · intro hne
      simp [hne]
  split
  · exact Or.inr (Or.inr ⟨(z 0 (by omega)).1, (z 1 (by omega)).1⟩)
  · by_cases h0 : σ = 0
    · exact Or.inl ⟨(z 0 (by omega)).1, (z 1 (by omega)).2 (by omega)⟩
    · exact Or.inr ⟨(z 0 (by omega)).2 (by omega), (z 1 (by omega)).1⟩

/-- Two single excitations of an active determinant belong to the space with doubles. -/
theorem excite_twice {p q p' q' : ℕ} {s' : Str} {S'' : Finset ℕ} (hk : KInv (· < 2 * (nI + nA + nV)) (fun _ => 0) s)
    (hs : ExcStr p q s) (hk' : KInv (· < 2 * (nI + nA + nV)) (fun _ => 0) s') (hs' : ExcStr p' q' s')
    (hS : CasDet nI nA na nb S) (h : coeff (strOp s (ket S) : Fock ℝ) S' ≠ 0)
    (h' : coeff (strOp s' (ket S') : Fock ℝ) S'' ≠ 0) : InExtended nI nA nV na nb true S'' := by
  obtain ⟨r1, r2, r3⟩ := hk.reach h
  have hc := inCAS_move hS.inCAS r1 r2 r3
  obtain ⟨r1, r2, r3⟩ := hk'.reach h'
  have hc' := inCAS_move hc r1 r2 r3
  obtain ⟨σ, hσ, hw⟩ := hs
  obtain ⟨σ', hσ', hw'⟩ := hs'
  refine ⟨hc', ?_⟩
  have z : ∀ τ, τ < 2 → AtMost nI nA nV 2 τ S'' ∧ (τ ≠ σ ∨ τ ≠ σ' → AtMost nI nA nV 1 τ S'') ∧
      (τ ≠ σ ∧ τ ≠ σ' → AtMost nI nA nV 0 τ S'') := fun τ hτ => by
    obtain ⟨a, b⟩ := hS.1.weights hτ
    obtain ⟨c, d⟩ := ExcStr.weights (nI := nI) (nA := nA) hw h τ hσ
    obtain ⟨e, f⟩ := ExcStr.weights (nI := nI) (nA := nA) hw' h' τ hσ'
    rw [atMost_iff hτ hc'.1, atMost_iff hτ hc'.1, atMost_iff hτ hc'.1, e, f, c, d, a, b]
    refine ⟨?_, ?_, ?_⟩
    · constructor <;> split_ifs <;> omega
    · rintro (hne | hne) <;> simp only [hne, false_and, if_false] <;> constructor <;> split_ifs <;> omega
    · rintro ⟨h1, h2⟩
      simp [h1, h2]
  rw [if_pos rfl]
  by_cases h0 : σ = σ'
  · by_cases h1 : σ = 0
    · exact Or.inl ⟨(z 0 (by omega)).1, (z 1 (by omega)).2.2 (by omega)⟩
    · exact Or.inr (Or.inl ⟨(z 0 (by omega)).2.2 (by omega), (z 1 (by omega)).1⟩)
  · exact Or.inr (Or.inr ⟨(z 0 (by omega)).2.1 (by omega), (z 1 (by omega)).2.1 (by omega)⟩)

/-- Moving an electron out of an orbital that is not inactive into one that is not virtual. -/
theorem deexcite {p q : ℕ} (hp : p < nI + nA) (hq : nI ≤ q) (hk : KInv (· < 2 * (nI + nA + nV)) (fun _ => 0) s)
    (hs : ExcStr p q s) (hS : InExtended nI nA nV na nb dbl S) (h : coeff (strOp s (ket S) : Fock ℝ) S' ≠ 0) :
    InExtended nI nA nV na nb dbl S' := by
  obtain ⟨r1, r2, r3⟩ := hk.reach h
  have hc := inCAS_move hS.1 r1 r2 r3
  obtain ⟨σ, hσ, hw⟩ := hs
  refine ⟨hc, ?_⟩
  have z : ∀ k τ, τ < 2 → AtMost nI nA nV k τ S → AtMost nI nA nV k τ S' := fun k τ hτ => by
    obtain ⟨c, d⟩ := ExcStr.weights (nI := nI) (nA := nA) hw h τ hσ
    rw [atMost_iff hτ hc.1, atMost_iff hτ hS.1.1, c, d]
    rw [if_neg (show ¬ (τ = σ ∧ q < nI) by omega), if_neg (show ¬ (τ = σ ∧ nI + nA ≤ p) by omega)]
    split_ifs <;> omega
  have h2 := hS.2
  split at h2
  · rename_i hd
    rw [if_pos hd]
    rcases h2 with ⟨a, b⟩ | ⟨a, b⟩ | ⟨a, b⟩
    · exact Or.inl ⟨z _ _ (by omega) a, z _ _ (by omega) b⟩
    · exact Or.inr (Or.inl ⟨z _ _ (by omega) a, z _ _ (by omega) b⟩)
    · exact Or.inr (Or.inr ⟨z _ _ (by omega) a, z _ _ (by omega) b⟩)
  · rename_i hd
    rw [if_neg hd]
    rcases h2 with ⟨a, b⟩ | ⟨a, b⟩
    · exact Or.inl ⟨z _ _ (by omega) a, z _ _ (by omega) b⟩
    · exact Or.inr ⟨z _ _ (by omega) a, z _ _ (by omega) b⟩

/-- The determinants of the space with singles are near the active space. -/
theorem near_of_extended (h : InExtended nI nA nV na nb false S) :
    ((Finset.range (2 * nI)).filter (· ∉ S)).card ≤ 1 ∧ (S.filter (2 * (nI + nA) ≤ ·)).card ≤ 1 := by
  obtain ⟨hc, h2⟩ := h
  rw [if_neg (by simp)] at h2
  have e1 : weight (wHol nI 0) S + weight (wHol nI 1) S = ((S.filter (· < 2 * nI)).card : ℤ) := by
    rw [← weight_wIn]
    unfold weight
    rw [← Finset.sum_add_distrib]
    refine Finset.sum_congr rfl fun p _ => ?_
    unfold wHol wIn
    have := Nat.mod_two_eq_zero_or_one p
    rcases this with h | h <;> simp [h]
  have e2 : weight (wPar (nI + nA) 0) S + weight (wPar (nI + nA) 1) S = ((S.filter (2 * (nI + nA) ≤ ·)).card : ℤ) := by
    rw [← weight_ite]
    unfold weight
    rw [← Finset.sum_add_distrib]
    refine Finset.sum_congr rfl fun p _ => ?_
    unfold wPar
    have := Nat.mod_two_eq_zero_or_one p
    rcases this with h | h <;> simp [h]
  have e3 : ((Finset.range (2 * nI)).filter (· ∉ S)).card + (S.filter (· < 2 * nI)).card = 2 * nI := by
    have := Finset.card_filter_add_card_filter_not (s := Finset.range (2 * nI)) (p := (· ∈ S))
    rw [Finset.card_range] at this
    have e : (Finset.range (2 * nI)).filter (· ∈ S) = S.filter (· < 2 * nI) := by
      ext p
      simp [and_comm]
    rw [e] at this
    omega
  rw [atMost_iff (by omega) hc.1, atMost_iff (by omega) hc.1, atMost_iff (by omega) hc.1,
    atMost_iff (by omega) hc.1] at h2
  push_cast at h2
  omega

end

end SQ
