import Verif.Lemmas.ExtendedSpace
import Verif.Lemmas.ResponseTransfer
import Verif.Lemmas.Uncore
import Verif.Spec.ResponseExtended

/-!
# Lemmas: operators on the extended determinant space
-/

namespace SQ

/-! ### States and vectors -/

/-- All determinants of the state belong to the space. -/
def Inside (E : CIInfo) (x : Fock ℝ) : Prop := ∀ S, coeff x S ≠ 0 → E.Mem S

theorem inside_stateOf (E : CIInfo) (v : Vec ℝ) : Inside E (stateOf E v) := fun S h => by
  by_contra hn
  exact h (coeff_stateOf_ne v hn)

theorem Inside.vec {E : CIInfo} (hv : E.Valid) {x : Fock ℝ} (h : Inside E x) : ∃ v, stateOf E v = x := by
  refine ⟨fun i => coeff x (E.D i), ?_⟩
  rw [stateOf_eq, ← proj_eq hv, proj_eq_self E h]

theorem Inside.drop {E : CIInfo} (hv : E.Valid) {x : Fock ℝ} (h : Inside E x) (y : Fock ℝ) :
    inner x (E.proj y) = inner x y := by
  obtain ⟨v, rfl⟩ := h.vec hv
  exact inner_proj hv v y

theorem inside_proj (E : CIInfo) (hv : E.Valid) (x : Fock ℝ) : Inside E (E.proj x) := by
  rw [proj_eq hv, ← stateOf_eq E (fun i => coeff x (E.D i))]
  exact inside_stateOf E _

theorem Inside.sumOp {E : CIInfo} {A : Dict ℝ} {x : Fock ℝ}
    (h : ∀ kv ∈ A, ∀ S S', coeff x S ≠ 0 → coeff (strOp kv.1 (ket S) : Fock ℝ) S' ≠ 0 → E.Mem S') :
    Inside E (SQ.sumOp A x) := fun S' h' => by
  obtain ⟨kv, hk, S, h1, h2⟩ := sumOp_reach h'
  exact h kv hk S S' h1 h2

/-! ### The active space inside -/

theorem numAlpha_withCore (nI : ℕ) (S : Finset ℕ) :
    numAlpha (withCore (2 * nI) S) = nI + numAlpha S ∧ numBeta (withCore (2 * nI) S) = nI + numBeta S := by
  have key : ∀ σ, σ < 2 → ((withCore (2 * nI) S).filter fun p => p % 2 = σ).card
      = nI + (S.filter fun p => p % 2 = σ).card := by
    intro σ hσ
    have e : (withCore (2 * nI) S).filter (fun p => p % 2 = σ)
        = ((Finset.range nI).image fun p => 2 * p + σ) ∪ ((S.filter fun p => p % 2 = σ).image (2 * nI + ·)) := by
      ext p
      simp only [withCore, Finset.mem_filter, Finset.mem_union, Finset.mem_image, Finset.mem_range]
      constructor
      · rintro ⟨h | ⟨a, h, rfl⟩, h'⟩
        · exact Or.inl ⟨p / 2, by omega, by omega⟩
        · exact Or.inr ⟨a, ⟨h, by omega⟩, rfl⟩
      · rintro (⟨a, h, rfl⟩ | ⟨a, ⟨h, h'⟩, rfl⟩)
        · exact ⟨Or.inl (by omega), by omega⟩
        · exact ⟨Or.inr ⟨a, h, rfl⟩, by omega⟩
    rw [e, Finset.card_union_of_disjoint, Finset.card_image_of_injective _ (fun a b h => by have : _ = _ := h; simp at this; omega),
      Finset.card_image_of_injective _ (fun a b h => by have : _ = _ := h; simp at this; omega), Finset.card_range]
    rw [Finset.disjoint_left]
    rintro p h1 h2
    obtain ⟨a, h, rfl⟩ := Finset.mem_image.1 h1
    obtain ⟨b, h', e⟩ := Finset.mem_image.1 h2
    have := Finset.mem_range.1 h
    omega
  exact ⟨key 0 (by omega), key 1 (by omega)⟩

theorem casDet_withCore {nI nA : ℕ} {na nb : ℤ} {S : Finset ℕ} :
    CasDet nI nA na nb (withCore (2 * nI) S) ↔ InCAS nA na nb S := by
  obtain ⟨a, b⟩ := numAlpha_withCore nI S
  have hsub : (∀ p ∈ withCore (2 * nI) S, p < 2 * (nI + nA)) ↔ S ⊆ Finset.range (2 * nA) := by
    constructor
    · intro h p hp
      have := h (2 * nI + p) (mem_withCore_add.2 hp)
      exact Finset.mem_range.2 (by omega)
    · intro h p hp
      simp only [withCore, Finset.mem_union, Finset.mem_image, Finset.mem_range] at hp
      rcases hp with h' | ⟨q, hq, rfl⟩
      · omega
      · have := Finset.mem_range.1 (h hq); omega
  unfold CasDet ActiveDet InCAS
  rw [a, b, hsub]
  constructor
  · rintro ⟨⟨-, h⟩, h1, h2⟩
    rw [numAlpha_spat h, numBeta_spat h]
    push_cast at h1 h2
    exact ⟨h, by omega, by omega⟩
  · rintro ⟨h, h1, h2⟩
    rw [numAlpha_spat h] at h1
    rw [numBeta_spat h] at h2
    push_cast
    exact ⟨⟨fun p hp => mem_withCore_lt hp, h⟩, by omega, by omega⟩

/-- All determinants are determinants of the active space. -/
def Cas (ci : CIInfo) (na nb : ℤ) (x : Fock ℝ) : Prop := ∀ S, coeff x S ≠ 0 → CasDet ci.nI ci.nA na nb S

theorem coeff_core_with (m : ℕ) (y : Fock ℝ) (S : Finset ℕ) : coeff (core m y) (withCore m S) = coeff y S := by
  rw [← inner_ket_left, ← inner_ket_left]
  have : (sgl (withCore m S) 1 : Fock ℝ) = core m (sgl S 1) := by rw [core_sgl]
  rw [this, inner_core]

section
variable {ci : CIInfo} {na nb : ℤ}

theorem cas_emb (hC : ∀ S, ci.Mem S ↔ InCAS ci.nA na nb S) (v : Vec ℝ) : Cas ci na nb (emb ci v) := by
  intro T h
  obtain ⟨S, h1, rfl⟩ := coeff_core_ne h
  exact casDet_withCore.2 ((hC S).1 (inside_stateOf ci v S h1))

theorem Cas.vec (hC : ∀ S, ci.Mem S ↔ InCAS ci.nA na nb S) (hv : ci.Valid) {x : Fock ℝ} (hx : Cas ci na nb x) :
    ∃ v, emb ci v = x := by
  have e : ∀ S, coeff (uncore (2 * ci.nI) x) S = coeff x (withCore (2 * ci.nI) S) := fun S => by
    have := uncore_adjoint (2 * ci.nI) (ket S) x
    rw [← inner_ket_left, ← this, ket, core_sgl, ← ket, inner_ket_left]
  obtain ⟨v, h⟩ := Inside.vec hv (x := uncore (2 * ci.nI) x) fun S h => by
    rw [e] at h
    exact (hC S).2 (casDet_withCore.1 (hx _ h))
  refine ⟨v, ?_⟩
  unfold emb
  rw [h]
  apply fock_ext
  intro T
  by_cases hT : Finset.range (2 * ci.nI) ⊆ T
  · obtain ⟨S, rfl⟩ : ∃ S, withCore (2 * ci.nI) S = T := ⟨_, (withCore_iff _ _ T).2 ⟨hT, rfl⟩⟩
    rw [coeff_core_with, e]
  · have h1 : coeff x T = 0 := by
      by_contra hn
      exact hT fun p hp => (hx T hn).1.1 p (Finset.mem_range.1 hp)
    have h2 : coeff (core (2 * ci.nI) (uncore (2 * ci.nI) x)) T = 0 := by
      by_contra hn
      obtain ⟨S, -, rfl⟩ := coeff_core_ne hn
      exact hT fun p hp => mem_withCore_lt (Finset.mem_range.1 hp)
    rw [h1, h2]

theorem Cas.active {x : Fock ℝ} (h : Cas ci na nb x) : ActiveState ci.nI ci.nA x := fun S hS => (h S hS).1

theorem Cas.core {A : Dict ℝ} (hA : ∀ kv ∈ A, CoreStr ci.nI ci.nA kv.1) {x : Fock ℝ} (hx : Cas ci na nb x) :
    Cas ci na nb (sumOp A x) := fun S' h' => by
  obtain ⟨kv, hk, S, h1, h2⟩ := sumOp_reach h'
  obtain ⟨a, b, c⟩ := (hA kv hk).active (hx S h1).1 h2
  exact ⟨a, by rw [b]; exact (hx S h1).2.1, by rw [c]; exact (hx S h1).2.2⟩

theorem act_core {A : Dict ℝ} (hA : ActOp ci A) : ∀ kv ∈ A, CoreStr ci.nI ci.nA kv.1 := fun kv hk => by
  have h := hA.2 kv hk
  refine ⟨⟨fun o ho => (h.1 o ho).2, h.2⟩, ?_⟩
  unfold strWeight
  refine List.sum_eq_zero fun x hx => ?_
  obtain ⟨o, ho, rfl⟩ := List.mem_map.1 hx
  have : wIn ci.nI o.1 = 0 := if_neg (by have := (h.1 o ho).1; omega)
  rw [this]; simp

end

/-! ### The space -/

/-- `E` is the extended space of `ci`. -/
structure ExtSpace (ci : CIInfo) (na nb : ℤ) (dbl : Bool) (E : CIInfo) : Prop where
  nI : E.nI = 0
  nA : E.nA = ci.nI + ci.nA + ci.nV
  nV : E.nV = 0
  valid : E.Valid
  mem : ∀ S, E.Mem S ↔ InExtended ci.nI ci.nA ci.nV na nb dbl S

theorem extSpace_get (ci : CIInfo) (h : 0 < ci.nI + ci.nA + ci.nV) (na nb : ℤ) {order : ℤ} (ho : order = 1 ∨ order = 2) :
    ∃ E, getIndexingExtended ci.nI ci.nA ci.nV na nb order = .ok E ∧ ExtSpace ci na nb (decide (order = 2)) E := by
  obtain ⟨E, h1, h2, h3, h4, -, h5, -, h6⟩ := C18_space h na nb order (by omega)
  exact ⟨E, h1, h2, h3, h4, h5, h6⟩

section
variable {ci E : CIInfo} {na nb : ℤ} {dbl : Bool} {tiny : ℝ → Bool} {U : Bool → Vec ℝ → Res (Vec ℝ)}

theorem ExtSpace.inside_cas (hE : ExtSpace ci na nb dbl E) {x : Fock ℝ} (hx : Cas ci na nb x) : Inside E x :=
  fun S h => (hE.mem S).2 ((hx S h).inExtended dbl)

theorem ExtSpace.near (hE : ExtSpace ci na nb false E) {x : Fock ℝ} (hx : Inside E x) : NearState ci.nI ci.nA x :=
  fun S h => near_of_extended ((hE.mem S).1 (hx S h))

theorem ExtSpace.closed (hE : ExtSpace ci na nb dbl E) : E.ClosedOn (ActIdx ci.nI ci.nA) := closedOn_extended hE.mem

/-- `propagate_state([A], v)` when every determinant reached is in the space. -/
theorem ext_apply (ht : ExactTiny tiny) (hz : tiny 0 = true) (hE : ExtSpace ci na nb dbl E) {A : Dict ℝ}
    (hA : GenOp ci A) (v : Vec ℝ)
    (hr : ∀ kv ∈ A, ∀ S S', coeff (stateOf E v) S ≠ 0 → coeff (strOp kv.1 (ket S) : Fock ℝ) S' ≠ 0 → E.Mem S')
    (u : Bool) :
    ∃ w, propagateState tiny .one E U true u [.op A] v = .ok w ∧ stateOf E w = sumOp A (stateOf E v) := by
  have hl : ∀ kv ∈ A, ∀ o ∈ kv.1, o.1 < 2 * E.nA := fun kv hk o ho => by rw [hE.nA]; exact (hA.2 kv hk).1 o ho
  have hg := hA.1.good hl
  obtain ⟨w, hw⟩ := (applyOp_one_ok_iff tiny hE.valid u v hg).2 (Or.inr fun kv hk i hi => by
    by_cases h0 : v i = 0
    · exact Or.inl (by rw [h0]; exact hz)
    · exact Or.inr fun S' h' => hr kv hk (E.D i) S' (by rw [coeff_stateOf hE.valid v hi]; exact h0) h')
  refine ⟨w, ?_, ?_⟩
  · have : getFolded E.nI E.nA E.nV A = A := by rw [hE.nI, hE.nV]; exact getFolded_self hA.1 hl
    simp [propagateState, propStep, this, hw]
  · rw [applyOp_one_sem ht hE.valid u v hg w hw]
    unfold CIInfo.P
    split
    · exact proj_eq_self E (Inside.sumOp hr)
    · rfl

/-- `propagate_state([A], v, do_unsafe=True)`. -/
theorem ext_unsafe (ht : ExactTiny tiny) (hE : ExtSpace ci na nb dbl E) {A : Dict ℝ} (hA : GenOp ci A) (v : Vec ℝ) :
    ∃ w, propagateState tiny .one E U true true [.op A] v = .ok w ∧ stateOf E w = E.proj (sumOp A (stateOf E v)) := by
  have hl : ∀ kv ∈ A, ∀ o ∈ kv.1, o.1 < 2 * E.nA := fun kv hk o ho => by rw [hE.nA]; exact (hA.2 kv hk).1 o ho
  have hg := hA.1.good hl
  obtain ⟨w, hw⟩ := (applyOp_one_ok_iff tiny hE.valid true v hg).2 (Or.inl rfl)
  refine ⟨w, ?_, ?_⟩
  · have : getFolded E.nI E.nA E.nV A = A := by rw [hE.nI, hE.nV]; exact getFolded_self hA.1 hl
    simp [propagateState, propStep, this, hw]
  · rw [applyOp_one_sem ht hE.valid true v hg w hw]; rfl

/-! ### The operators that stay inside -/

/-- A single excitation `p ← q` with coefficients. -/
def ExcGen (ci : CIInfo) (p q : ℕ) (A : Dict ℝ) : Prop := GenOp ci A ∧ ∀ kv ∈ A, ExcStr p q kv.1

theorem ExcGen.dagger (ht : ExactTiny tiny) {p q : ℕ} {A : Dict ℝ} (hA : ExcGen ci p q A) :
    ∃ d, fdagger tiny A = .ok d ∧ ExcGen ci q p d ∧ IsAdjoint (sumOp A) (sumOp d) := by
  obtain ⟨d, h1, h2, h3⟩ := hA.1.dagger ht
  exact ⟨d, h1, ⟨h2, excStr_dagger hA.1.1.wf hA.2 h1⟩, h3⟩

/-- `A` maps the determinants of `x` into the space. -/
def Reach (E : CIInfo) (A : Dict ℝ) (x : Fock ℝ) : Prop :=
  ∀ kv ∈ A, ∀ S S', coeff x S ≠ 0 → coeff (strOp kv.1 (ket S) : Fock ℝ) S' ≠ 0 → E.Mem S'

theorem reach_act (hE : ExtSpace ci na nb dbl E) {A : Dict ℝ} (hA : ActOp ci A) {x : Fock ℝ} (hx : Inside E x) :
    Reach E A x := fun kv hk S _ h1 h2 => hE.closed.inside (R := ℝ) (hA.2 kv hk) (hx S h1) h2

theorem reach_core (hE : ExtSpace ci na nb dbl E) {A : Dict ℝ} (hA : ∀ kv ∈ A, CoreStr ci.nI ci.nA kv.1)
    {x : Fock ℝ} (hx : Cas ci na nb x) : Reach E A x := fun kv hk S S' h1 h2 => by
  obtain ⟨a, b, c⟩ := (hA kv hk).active (hx S h1).1 h2
  refine (hE.mem S').2 (CasDet.inExtended dbl ⟨a, ?_, ?_⟩)
  · rw [b]; exact (hx S h1).2.1
  · rw [c]; exact (hx S h1).2.2

theorem reach_excite (hE : ExtSpace ci na nb dbl E) {p q : ℕ} {A : Dict ℝ} (hA : ExcGen ci p q A)
    {x : Fock ℝ} (hx : Cas ci na nb x) : Reach E A x := fun kv hk S S' h1 h2 =>
  (hE.mem S').2 (excite_active (hA.1.2 kv hk) (hA.2 kv hk) (hx S h1) h2)

theorem reach_deexcite (hE : ExtSpace ci na nb dbl E) {p q : ℕ} (hp : p < ci.nI + ci.nA) (hq : ci.nI ≤ q) {A : Dict ℝ}
    (hA : ExcGen ci p q A) {x : Fock ℝ} (hx : Inside E x) : Reach E A x := fun kv hk S S' h1 h2 =>
  (hE.mem S').2 (deexcite hp hq (hA.1.2 kv hk) (hA.2 kv hk) ((hE.mem S).1 (hx S h1)) h2)

theorem reach_twice (hE : ExtSpace ci na nb true E) {p q p' q' : ℕ} {A B : Dict ℝ} (hA : ExcGen ci p q A)
    (hB : ExcGen ci p' q' B) {x : Fock ℝ} (hx : Cas ci na nb x) : Reach E B (sumOp A x) := fun kv hk S' S'' h1 h2 => by
  obtain ⟨kw, hw, S, g1, g2⟩ := sumOp_reach h1
  exact (hE.mem S'').2 (excite_twice (hA.1.2 kw hw) (hA.2 kw hw) (hB.1.2 kv hk) (hB.2 kv hk) (hx S g1) g2 h2)

/-! ### `propagate_state` and `expectation_value` of these classes -/

variable {I : ExtInfo} {th : Threads}

theorem ExtInfo.prop_cons (u : Bool) (a : StateOp ℝ) {l : List (StateOp ℝ)} {v w : Vec ℝ}
    (h : I.prop tiny th u l v = .ok w) : I.prop tiny th u (a :: l) v = I.prop tiny th u [a] w := by
  unfold ExtInfo.prop propagateState at h ⊢
  rw [if_neg (by simp), if_neg (by simp), List.reverse_cons, List.foldlM_append]
  split at h
  · rename_i h0
    obtain rfl := List.length_eq_zero_iff.1 h0
    cases h
    rfl
  · rw [h]; rfl

theorem ExtInfo.prop_U (u : Bool) (v : Vec ℝ) : I.prop tiny th u [.name "U"] v = I.U false v := by
  unfold ExtInfo.prop propagateState
  rw [if_neg (by simp)]
  simp [propStep, List.foldlM_cons, List.foldlM_nil]

theorem ExtInfo.prop_Ud (u : Bool) (v : Vec ℝ) : I.prop tiny th u [.name "Ud"] v = I.U true v := by
  unfold ExtInfo.prop propagateState
  rw [if_neg (by simp)]
  simp [propStep, List.foldlM_cons, List.foldlM_nil]

theorem ExtInfo.ev_nil (hv : I.ci.Valid) (u : Bool) (a b : Vec ℝ) :
    I.ev tiny th u a [] b = .ok (inner (stateOf I.ci a) (stateOf I.ci b)) := by
  unfold ExtInfo.ev expectationValue propagateState
  rw [if_pos (by rfl), ← dot_eq_inner hv]
  rfl

theorem ExtInfo.ev_of (hv : I.ci.Valid) {u : Bool} (a : Vec ℝ) {b : Vec ℝ} {l : List (StateOp ℝ)} {w : Vec ℝ}
    (h : I.prop tiny th u l b = .ok w) : I.ev tiny th u a l b = .ok (inner (stateOf I.ci a) (stateOf I.ci w)) := by
  unfold ExtInfo.ev expectationValue
  unfold ExtInfo.prop at h
  rw [h, ← dot_eq_inner hv]
  rfl

/-- The state of a result. -/
def Gives (I : ExtInfo) (r : Res (Vec ℝ)) (x : Fock ℝ) : Prop := ∃ w, r = .ok w ∧ stateOf I.ci w = x

theorem Gives.op (ht : ExactTiny tiny) (hz : tiny 0 = true) (hE : ExtSpace ci na nb dbl I.ci) {u : Bool}
    {l : List (StateOp ℝ)} {v : Vec ℝ} {x : Fock ℝ} (h : Gives I (I.prop tiny .one u l v) x) {A : Dict ℝ}
    (hA : GenOp ci A) (hr : Reach I.ci A x) : Gives I (I.prop tiny .one u (.op A :: l) v) (sumOp A x) := by
  obtain ⟨w, h1, rfl⟩ := h
  obtain ⟨w', h2, h3⟩ := ext_apply (U := I.U) ht hz hE hA w hr u
  exact ⟨w', by rw [I.prop_cons _ _ h1]; exact h2, h3⟩

theorem Gives.opP (ht : ExactTiny tiny) (hE : ExtSpace ci na nb dbl I.ci)
    {l : List (StateOp ℝ)} {v : Vec ℝ} {x : Fock ℝ} (h : Gives I (I.prop tiny .one true l v) x) {A : Dict ℝ}
    (hA : GenOp ci A) : Gives I (I.prop tiny .one true (.op A :: l) v) (I.ci.proj (sumOp A x)) := by
  obtain ⟨w, h1, rfl⟩ := h
  obtain ⟨w', h2, h3⟩ := ext_unsafe (U := I.U) ht hE hA w
  exact ⟨w', by rw [I.prop_cons _ _ h1]; exact h2, h3⟩

theorem Gives.nil (u : Bool) (v : Vec ℝ) : Gives I (I.prop tiny th u [] v) (stateOf I.ci v) := ⟨v, rfl, rfl⟩

theorem Gives.inside {r : Res (Vec ℝ)} {x : Fock ℝ} (h : Gives I r x) : Inside I.ci x := by
  obtain ⟨w, -, rfl⟩ := h
  exact inside_stateOf _ _

end

/-! ### The reference determinant -/

theorem bitsToNat_snoc (l : List Bool) (b : Bool) : bitsToNat (l ++ [b]) = 2 * bitsToNat l + if b then 1 else 0 := by
  unfold bitsToNat
  rw [List.foldl_append]; rfl

theorem testBit_bitsToNat (l : List Bool) : ∀ p, p < l.length → (bitsToNat l).testBit (l.length - 1 - p) = l.getD p false := by
  induction l using List.reverseRecOn with
  | nil => intro p h; simp at h
  | append_singleton l b ih =>
    intro p h
    rw [List.length_append, List.length_singleton] at h ⊢
    rw [bitsToNat_snoc]
    by_cases hp : p = l.length
    · subst hp
      rw [show l.length + 1 - 1 - l.length = 0 by omega]
      cases b <;> simp [Nat.testBit_zero, List.getD_eq_getElem?_getD] <;> omega
    · have hlt : p < l.length := by omega
      rw [show l.length + 1 - 1 - p = (l.length - 1 - p) + 1 by omega, Nat.testBit_succ]
      have : (2 * bitsToNat l + if b then 1 else 0) / 2 = bitsToNat l := by cases b <;> simp <;> omega
      rw [this, ih p hlt, List.getD_eq_getElem?_getD, List.getD_eq_getElem?_getD, List.getElem?_append_left hlt]

theorem bitsToNat_lt (l : List Bool) : bitsToNat l < 2 ^ l.length := by
  induction l using List.reverseRecOn with
  | nil => simp [bitsToNat]
  | append_singleton l b ih =>
    rw [bitsToNat_snoc, List.length_append, List.length_singleton, pow_succ]
    split <;> omega

theorem decode_hfDet {n o : ℕ} (h : o ≤ 2 * n) : decode n (bitsToNat (hfDet (2 * n) o)) = Finset.range o := by
  have hl : (hfDet (2 * n) o).length = 2 * n := by unfold hfDet; simp; omega
  ext p
  rw [mem_decode, Finset.mem_range]
  constructor
  · rintro ⟨h1, h2⟩
    have := testBit_bitsToNat (hfDet (2 * n) o) p (by omega)
    rw [hl, h2] at this
    by_contra hn
    unfold hfDet at this
    rw [List.getD_eq_getElem?_getD, List.getElem?_append_right (by simp; omega)] at this
    rw [List.getElem?_replicate] at this
    split at this <;> simp at this
  · intro hp
    refine ⟨by omega, ?_⟩
    have := testBit_bitsToNat (hfDet (2 * n) o) p (by omega)
    rw [hl] at this
    rw [this]
    unfold hfDet
    rw [List.getD_eq_getElem?_getD, List.getElem?_append_left (by simpa using hp), List.getElem?_replicate, if_pos hp]
    rfl

theorem reference_hf {E : CIInfo} (hv : E.Valid) {o : ℕ} (h0 : 0 < E.nA) (ho : o ≤ 2 * E.nA)
    (hm : E.Mem (Finset.range o)) :
    ∃ v : Vec ℝ, reference E (hfDet (2 * E.nA) o) = .ok v ∧ stateOf E v = ket (Finset.range o) := by
  have hl : (hfDet (2 * E.nA) o).length = 2 * E.nA := by unfold hfDet; simp; omega
  cases hf : E.find (bitsToNat (hfDet (2 * E.nA) o)) with
  | none =>
    refine absurd hm ?_
    have := hv.find_none (by have := bitsToNat_lt (hfDet (2 * E.nA) o); rwa [hl] at this) hf
    rwa [decode_hfDet ho] at this
  | some i =>
    refine ⟨Function.update 0 i 1, ?_, ?_⟩
    · unfold reference
      rw [if_neg, hf]
      intro he
      rw [he] at hl
      simp at hl
      omega
    · have h := stateOf_update (ci := E) (0 : Vec ℝ) (hv.find_lt hf).1 1
      rw [Pi.zero_apply, zero_add, stateOf_zero, zero_add] at h
      rw [h, (hv.find_some_mem hf).2, decode_hfDet ho]

end SQ
