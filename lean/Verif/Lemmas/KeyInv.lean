import Verif.Lemmas.Conserve
import Verif.Lemmas.StateOps
import Verif.Spec.CISpace

/-! # Which strings the operators of the program contain, and spaces closed under them -/

namespace SQ

variable {R : Type*} [CommRing R]

/-- All indices satisfy `P`, and the alpha and beta numbers change by `c`. -/
def KInv (P : ℕ → Prop) (c : (ℕ → ℤ) → ℤ) (s : Str) : Prop :=
  (∀ o ∈ s, P o.1) ∧ ∀ w, SpinW w → strWeight w s = c w

theorem strWeight_append (w : ℕ → ℤ) (s t : Str) :
    strWeight w (s ++ t) = strWeight w s + strWeight w t := by simp [strWeight]

theorem strWeight_flip (w : ℕ → ℤ) (s : Str) : strWeight w (flipKey s) = - strWeight w s := by
  induction s with
  | nil => simp [strWeight, flipKey]
  | cons o t ih =>
    have e : flipKey (o :: t) = flipKey t ++ flipKey [o] := by simp [flipKey]
    have e2 : o :: t = [o] ++ t := rfl
    rw [e, strWeight_append, ih, e2, strWeight_append]
    obtain ⟨p, b⟩ := o
    cases b <;> simp [flipKey, strWeight, add_comm]

theorem kinv_closed (P : ℕ → Prop) (c : (ℕ → ℤ) → ℤ) : StrClosed (KInv P c) where
  perm s t h hs := ⟨fun o ho => hs.1 o (h.mem_iff.2 ho), fun w hw => by
    rw [← hs.2 w hw]; exact ((h.map _).sum_eq).symm⟩
  contract s p t hs h _ := by
    refine ⟨fun o ho => hs.1 o (h.mem_iff.2 (by simp [ho])), fun w hw => ?_⟩
    rw [← hs.2 w hw]
    have := (h.map fun o : Lad => if o.2 then w o.1 else - w o.1).sum_eq
    unfold strWeight
    rw [this]; simp

theorem KInv.append {P : ℕ → Prop} {c c' : (ℕ → ℤ) → ℤ} {s t : Str} (hs : KInv P c s)
    (ht : KInv P c' t) : KInv P (fun w => c w + c' w) (s ++ t) := by
  refine ⟨fun o ho => ?_, fun w hw => by rw [strWeight_append, hs.2 w hw, ht.2 w hw]⟩
  rcases List.mem_append.1 ho with h | h
  · exact hs.1 o h
  · exact ht.1 o h

theorem KInv.flip {P : ℕ → Prop} {c : (ℕ → ℤ) → ℤ} {s : Str} (hs : KInv P c s) :
    KInv P (fun w => - c w) (flipKey s) := by
  refine ⟨fun o ho => ?_, fun w hw => by rw [strWeight_flip, hs.2 w hw]⟩
  unfold flipKey at ho
  obtain ⟨x, hx, rfl⟩ := List.mem_map.1 ho
  have := hs.1 x (by simpa using hx)
  split <;> exact this

/-- All keys satisfy the invariant. -/
def Keys (P : ℕ → Prop) (c : (ℕ → ℤ) → ℤ) (A : Dict R) : Prop := ∀ kv ∈ A, KInv P c kv.1

/-- The result, if any, satisfies the invariant. -/
def RKeys (P : ℕ → Prop) (c : (ℕ → ℤ) → ℤ) (r : Res (Dict R)) : Prop := ∀ d, r = .ok d → Keys P c d

section
variable {tiny : R → Bool} {P : ℕ → Prop} {c c' : (ℕ → ℤ) → ℤ}

theorem RKeys.ok {A : Dict R} (h : Keys P c A) : RKeys P c (.ok A) := by
  intro d hd; cases hd; exact h

theorem RKeys.bind' {r : Res (Dict R)} {f : Dict R → Res (Dict R)} (h : RKeys P c' r)
    (h2 : ∀ a, Keys P c' a → RKeys P c (f a)) : RKeys P c (r >>= f) := by
  intro d hd
  cases r with
  | error e => cases hd
  | ok a => exact h2 a (h a rfl) d hd

theorem Keys.fmul {A B : Dict R} (hA : Keys P c A) (hB : Keys P c' B) :
    RKeys P (fun w => c w + c' w) (SQ.fmul tiny A B) := by
  intro d hd
  rcases fmul_struct tiny (kinv_closed P fun w => c w + c' w) A B
    (fun kv1 h1 kv2 h2 => (hA kv2 h2).append (hB kv1 h1)) with ⟨h, _⟩ | ⟨e, g1, _, g3⟩
  · rw [h] at hd; cases hd
  · rw [g1] at hd; cases hd; exact fun kv h => (g3 kv h).2

theorem Keys.mul0 {A B : Dict R} (hA : Keys P (fun _ => 0) A) (hB : Keys P (fun _ => 0) B) :
    RKeys P (fun _ => 0) (SQ.fmul tiny A B) := by
  have := Keys.fmul (tiny := tiny) hA hB
  simpa using this

theorem Keys.fdagger {A : Dict R} (hw : WF A) (hA : Keys P c A) :
    RKeys P (fun w => - c w) (SQ.fdagger tiny A) := by
  intro d hd
  rcases fdagger_struct tiny (kinv_closed P fun w => - c w) hw (fun kv h => (hA kv h).flip) with
    ⟨h, _⟩ | ⟨e, g1, _, g3⟩
  · rw [h] at hd; cases hd
  · rw [g1] at hd; cases hd; exact fun kv h => (g3 kv h).2

theorem Keys.fadd {A B : Dict R} (hA : Keys P c A) (hB : Keys P c B) : Keys P c (SQ.fadd tiny A B) :=
  foldl_addTo_keyP (P := KInv P c) B hA hB

theorem Keys.frmul {A : Dict R} (hA : Keys P c A) (x : R) : Keys P c (SQ.frmul x A) := by
  intro kv h
  obtain ⟨y, hy, rfl⟩ := List.mem_map.1 h
  exact hA y hy

theorem Keys.fsub {A B : Dict R} (hA : Keys P c A) (hB : Keys P c B) : Keys P c (SQ.fsub tiny A B) := by
  unfold SQ.fsub
  induction B generalizing A with
  | nil => exact hA
  | cons kv t ih =>
    rw [List.foldl_cons]
    refine ih ?_ fun x hx => hB x (by simp [hx])
    rw [subTo_eq_addTo]
    exact mem_addTo_keyP (P := KInv P c) hA (hB kv (by simp))

theorem keys_nil : Keys P c ([] : Dict R) := by intro kv h; cases h

theorem keys_aOpSpin {i : ℕ} (b : Bool) (hi : P i) :
    Keys P (fun w => strWeight w [(i, b)]) (aOpSpin i b : Dict R) := by
  intro kv h
  simp only [aOpSpin, List.mem_singleton] at h
  subst h
  exact ⟨by simp [hi], fun _ _ => rfl⟩

theorem keys_pair {p q : ℕ} (hp : P p) (hq : P q) (hw : ∀ w, SpinW w → w p = w q) :
    RKeys P (fun _ => 0) (SQ.fmul tiny (aOpSpin p true : Dict R) (aOpSpin q false)) := by
  intro d hd
  have h := Keys.fmul (tiny := tiny) (keys_aOpSpin (R := R) true hp) (keys_aOpSpin false hq) d hd
  intro kv hk
  refine ⟨(h kv hk).1, fun w hw' => ?_⟩
  rw [(h kv hk).2 w hw']
  simp [strWeight, hw w hw']

theorem keys_Epq {p q : ℕ} (hp : P (2 * p) ∧ P (2 * p + 1)) (hq : P (2 * q) ∧ P (2 * q + 1)) :
    RKeys P (fun _ => 0) (Epq tiny p q : Res (Dict R)) := by
  have e : (Epq tiny p q : Res (Dict R)) =
      (SQ.fmul tiny (aOpSpin (2 * p) true) (aOpSpin (2 * q) false) >>= fun A =>
        SQ.fmul tiny (aOpSpin (2 * p + 1) true) (aOpSpin (2 * q + 1) false) >>= fun B =>
          Except.ok (SQ.fadd tiny A B)) := rfl
  rw [e]
  refine RKeys.bind' (c' := fun _ => 0)
    (keys_pair hp.1 hq.1 fun w hw => by rw [(hw p).1, (hw q).1]) fun A hA => ?_
  refine RKeys.bind' (c' := fun _ => 0)
    (keys_pair hp.2 hq.2 fun w hw => by rw [(hw p).2, (hw q).2]) fun B hB => ?_
  exact RKeys.ok (hA.fadd hB)

/-- Both spin orbitals of the spatial orbital satisfy `P`. -/
def Both (P : ℕ → Prop) (p : ℕ) : Prop := P (2 * p) ∧ P (2 * p + 1)

theorem keys_epqrs {p q r s : ℕ} (hp : Both P p) (hq : Both P q) (hr : Both P r) (hs : Both P s) :
    RKeys P (fun _ => 0) (epqrs tiny p q r s : Res (Dict R)) := by
  refine RKeys.bind' (keys_Epq hp hq) fun A hA => ?_
  refine RKeys.bind' (keys_Epq hr hs) fun B hB => ?_
  refine RKeys.bind' (hA.mul0 hB) fun C hC => ?_
  split
  · exact RKeys.bind' (keys_Epq hp hs) fun D hD => RKeys.ok (hC.fsub hD)
  · exact RKeys.ok hC

theorem keys_Eminuspq {p q : ℕ} (hp : Both P p) (hq : Both P q) :
    RKeys P (fun _ => 0) (Eminuspq tiny p q : Res (Dict R)) :=
  RKeys.bind' (keys_Epq hp hq) fun _ hA => RKeys.bind' (keys_Epq hq hp) fun _ hB =>
    RKeys.ok (hA.fsub hB)

theorem keys_antiH {A : Dict R} (hw : WF A) (hA : Keys P (fun _ => 0) A) (ah : Bool) :
    RKeys P (fun _ => 0) (antiH tiny ah A) := by
  unfold antiH
  split
  · refine RKeys.bind' (c' := fun _ => 0) ?_ fun B hB => RKeys.ok (hA.fsub hB)
    have := hA.fdagger (tiny := tiny) hw
    simpa using this
  · exact RKeys.ok hA

theorem keys_chain (l : List Lad) : ∀ (A : Dict R), Keys P c A → (∀ o ∈ l, P o.1) →
    RKeys P (fun w => c w + strWeight w l)
      (l.foldlM (fun op o => SQ.fmul tiny op (aOpSpin o.1 o.2)) A) := by
  induction l generalizing c with
  | nil => intro A hA _; simp only [strWeight, List.map_nil, List.sum_nil, add_zero]; exact RKeys.ok hA
  | cons o l ih =>
    intro A hA hl
    rw [List.foldlM_cons]
    refine RKeys.bind' (hA.fmul (keys_aOpSpin o.2 (hl o (by simp)))) fun B hB => ?_
    have := ih B hB fun x hx => hl x (by simp [hx])
    intro d hd kv hk
    refine ⟨(this d hd kv hk).1, fun w hw => ?_⟩
    rw [(this d hd kv hk).2 w hw]
    simp [strWeight, add_assoc]

theorem keys_gChain {l : List Lad} (hl : ∀ o ∈ l, P o.1) (hw : ∀ w, SpinW w → strWeight w l = 0) :
    RKeys P (fun _ => 0) (gChain tiny l : Res (Dict R)) := by
  cases l with
  | nil => exact RKeys.ok keys_nil
  | cons o l =>
    intro d hd kv hk
    have := keys_chain (tiny := tiny) l _ (keys_aOpSpin (R := R) o.2 (hl o (by simp)))
      (fun x hx => hl x (by simp [hx])) d hd kv hk
    refine ⟨this.1, fun w hw' => ?_⟩
    rw [this.2 w hw']; beta_reduce; rw [← strWeight_append]; exact hw w hw'

end

/-! ### Action of a string on a determinant -/

theorem strOp_outside {P : ℕ → Prop} : ∀ (s : Str), (∀ o ∈ s, P o.1) → ∀ (S S' : Finset ℕ),
    coeff (strOp s (ket S) : Fock R) S' ≠ 0 → ∀ p, ¬ P p → (p ∈ S' ↔ p ∈ S) := by
  intro s
  induction s with
  | nil =>
    intro _ S S' h p _
    rw [strOp_nil, Module.End.one_apply] at h
    have : coeff (sgl S (1 : R)) S' ≠ 0 := h
    rw [coeff_sgl] at this
    split at this
    · next e => rw [e]
    · exact absurd rfl this
  | cons o t ih =>
    intro hP S S' h p hp
    rw [strOp_cons, Module.End.mul_apply] at h
    have : ∃ S1, coeff (strOp t (ket S) : Fock R) S1 ≠ 0 ∧ coeff (ladder o (ket S1) : Fock R) S' ≠ 0 := by
      by_contra hne
      push Not at hne
      exact h (coeff_apply_eq_zero fun S1 h1 => hne S1 h1)
    obtain ⟨S1, h1, h2⟩ := this
    rw [← ih (fun x hx => hP x (by simp [hx])) S S1 h1 p hp]
    have hpo : p ≠ o.1 := fun e => hp (e ▸ hP o (by simp))
    unfold ladder at h2
    split at h2
    · have h2' : coeff (cr o.1 (sgl S1 (1 : R))) S' ≠ 0 := h2
      rw [cr_single] at h2'
      split at h2'
      · exact absurd rfl h2'
      · rw [coeff_sgl] at h2'
        split at h2'
        · next e => rw [← e]; simp [hpo]
        · exact absurd rfl h2'
    · obtain ⟨_, e⟩ := an_ket_ne h2
      rw [e]; simp [hpo]

/-- The determinants a string reaches: the same outside the orbitals of the string, and the same
numbers of alpha and beta electrons. -/
theorem KInv.reach {P : ℕ → Prop} {s : Str} (h : KInv P (fun _ => 0) s) {S S' : Finset ℕ}
    (hc : coeff (strOp s (ket S) : Fock R) S' ≠ 0) :
    (∀ p, ¬ P p → (p ∈ S' ↔ p ∈ S)) ∧ numAlpha S' = numAlpha S ∧ numBeta S' = numBeta S := by
  refine ⟨strOp_outside s h.1 S S' hc, ?_, ?_⟩
  · have := shift_strOp (R := R) wAlpha s S S' hc
    rw [h.2 _ spinW_alpha, weight_alpha, weight_alpha] at this
    beta_reduce at this
    omega
  · have := shift_strOp (R := R) wBeta s S S' hc
    rw [h.2 _ spinW_beta, weight_beta, weight_beta] at this
    beta_reduce at this
    omega

/-- The space contains with a determinant every determinant that differs from it only in the orbitals
satisfying `P` and has the same numbers of alpha and beta electrons. -/
def CIInfo.ClosedOn (ci : CIInfo) (P : ℕ → Prop) : Prop :=
  ∀ S S', ci.Mem S → (∀ p, ¬ P p → (p ∈ S' ↔ p ∈ S)) → numAlpha S' = numAlpha S →
    numBeta S' = numBeta S → ci.Mem S'

theorem numAlpha_spat {n : ℕ} {S : Finset ℕ} (h : S ⊆ Finset.range (2 * n)) :
    (spatOf n 0 S).card = numAlpha S := by
  unfold spatOf numAlpha
  refine Finset.card_bij (fun p _ => 2 * p) ?_ ?_ ?_
  · intro p hp
    simp only [Finset.mem_filter, Finset.mem_range, add_zero] at hp ⊢
    exact ⟨hp.2, by omega⟩
  · intro a _ b _ h; omega
  · intro b hb
    simp only [Finset.mem_filter] at hb
    have := Finset.mem_range.1 (h hb.1)
    refine ⟨b / 2, ?_, by omega⟩
    simp only [Finset.mem_filter, Finset.mem_range, add_zero]
    exact ⟨by omega, by rw [show 2 * (b / 2) = b by omega]; exact hb.1⟩

theorem numBeta_spat {n : ℕ} {S : Finset ℕ} (h : S ⊆ Finset.range (2 * n)) :
    (spatOf n 1 S).card = numBeta S := by
  unfold spatOf numBeta
  refine Finset.card_bij (fun p _ => 2 * p + 1) ?_ ?_ ?_
  · intro p hp
    simp only [Finset.mem_filter, Finset.mem_range] at hp ⊢
    exact ⟨hp.2, by omega⟩
  · intro a _ b _ h; omega
  · intro b hb
    simp only [Finset.mem_filter] at hb
    have := Finset.mem_range.1 (h hb.1)
    refine ⟨b / 2, ?_, by omega⟩
    simp only [Finset.mem_filter, Finset.mem_range]
    exact ⟨by omega, by rw [show 2 * (b / 2) + 1 = b by omega]; exact hb.1⟩

theorem closedOn_cas {ci : CIInfo} {n : ℕ} {na nb : ℤ} (h : ∀ S, ci.Mem S ↔ InCAS n na nb S) :
    ci.ClosedOn (· < 2 * n) := by
  intro S S' hS hP ha hb
  rw [h] at hS ⊢
  obtain ⟨h1, h2, h3⟩ := hS
  have hsub : S' ⊆ Finset.range (2 * n) := by
    intro p hp
    by_contra hlt
    exact hlt (h1 ((hP p (by simpa using hlt)).1 hp))
  refine ⟨hsub, ?_, ?_⟩
  · rw [numAlpha_spat hsub, ha, ← numAlpha_spat h1, h2]
  · rw [numBeta_spat hsub, hb, ← numBeta_spat h1, h3]

theorem closedOn_extended {ci : CIInfo} {nI nA nV : ℕ} {na nb : ℤ} {dbl : Bool}
    (h : ∀ S, ci.Mem S ↔ InExtended nI nA nV na nb dbl S) :
    ci.ClosedOn (fun p => 2 * nI ≤ p ∧ p < 2 * (nI + nA)) := by
  intro S S' hS hP ha hb
  rw [h] at hS ⊢
  obtain ⟨⟨h1, h2, h3⟩, h4⟩ := hS
  have hsub : S' ⊆ Finset.range (2 * (nI + nA + nV)) := by
    intro p hp
    by_contra hlt
    rw [Finset.mem_range] at hlt
    exact hlt (Finset.mem_range.1 (h1 ((hP p (by omega)).1 hp)))
  have hh : ∀ σ < 2, holes nI σ S' = holes nI σ S := by
    intro σ hσ
    unfold holes
    congr 2
    unfold spatOf
    apply Finset.filter_congr
    intro p hp
    have := Finset.mem_range.1 hp
    exact hP _ (by omega)
  have hp : ∀ σ < 2, particles nI nA nV σ S' = particles nI nA nV σ S := by
    intro σ hσ
    unfold particles spatOf
    congr 1
    ext p
    simp only [Finset.mem_filter, Finset.mem_range]
    constructor
    · rintro ⟨⟨g1, g2⟩, g3⟩; exact ⟨⟨g1, (hP _ (by omega)).1 g2⟩, g3⟩
    · rintro ⟨⟨g1, g2⟩, g3⟩; exact ⟨⟨g1, (hP _ (by omega)).2 g2⟩, g3⟩
  refine ⟨⟨hsub, ?_, ?_⟩, ?_⟩
  · rw [numAlpha_spat hsub, ha, ← numAlpha_spat h1, h2]
  · rw [numBeta_spat hsub, hb, ← numBeta_spat h1, h3]
  · unfold AtMost at h4 ⊢
    rw [hh 0 (by omega), hh 1 (by omega), hp 0 (by omega), hp 1 (by omega)]
    exact h4

end SQ
