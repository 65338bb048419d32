import Verif.Lemmas.EnergySem
import Verif.Lemmas.Truncated
import Verif.Lemmas.CircuitExp
import Verif.Props.Truncated
import Verif.Spec.Response

/-!
# Lemmas for the response matrices: operators applied to coefficient vectors
-/

namespace SQ

/-- Spin orbitals of the active space. -/
def ActIdx (nI nA : ℕ) (p : ℕ) : Prop := 2 * nI ≤ p ∧ p < 2 * (nI + nA)

theorem reach_of {T : FOp ℝ} {x : Fock ℝ} {S' : Finset ℕ} (h : coeff (T x) S' ≠ 0) :
    ∃ S, coeff x S ≠ 0 ∧ coeff (T (ket S)) S' ≠ 0 := by
  by_contra hne
  push Not at hne
  exact h (coeff_apply_eq_zero fun S h1 => hne S h1)

theorem sumOp_reach {A : Dict ℝ} {x : Fock ℝ} {S' : Finset ℕ} (h : coeff (sumOp A x) S' ≠ 0) :
    ∃ kv ∈ A, ∃ S, coeff x S ≠ 0 ∧ coeff (strOp kv.1 (ket S) : Fock ℝ) S' ≠ 0 := by
  induction A with
  | nil => simp at h
  | cons kv t ih =>
    rw [sumOp_cons, LinearMap.add_apply, coeff_add] at h
    by_cases h2 : coeff (sumOp t x) S' = 0
    · rw [h2, add_zero, LinearMap.smul_apply, coeff_smul] at h
      obtain ⟨S, a, b⟩ := reach_of (right_ne_zero_of_mul h)
      exact ⟨kv, by simp, S, a, b⟩
    · obtain ⟨kv', a, b⟩ := ih h2
      exact ⟨kv', by simp [a], b⟩

/-- Operators on the orbitals `P` change nothing outside. -/
theorem sumOp_outside {P : ℕ → Prop} {A : Dict ℝ} (hA : Keys P (fun _ => 0) A) {x : Fock ℝ} {S' : Finset ℕ}
    (h : coeff (sumOp A x) S' ≠ 0) : ∃ S, coeff x S ≠ 0 ∧ ∀ p, ¬ P p → (p ∈ S' ↔ p ∈ S) := by
  obtain ⟨kv, hk, S, h1, h2⟩ := sumOp_reach h
  exact ⟨S, h1, strOp_outside kv.1 (hA kv hk).1 S S' h2⟩

theorem below_sumOp {n : ℕ} {A : Dict ℝ} (hA : Keys (· < n) (fun _ => 0) A) {x : Fock ℝ} (hx : Below n x) :
    Below n (sumOp A x) := by
  intro S' h p hp
  obtain ⟨S, h1, h2⟩ := sumOp_outside hA h
  by_contra hlt
  exact hlt (hx S h1 p ((h2 p hlt).1 hp))

theorem active_sumOp {nI nA : ℕ} {A : Dict ℝ} (hA : Keys (ActIdx nI nA) (fun _ => 0) A) {x : Fock ℝ}
    (hx : ActiveState nI nA x) : ActiveState nI nA (sumOp A x) := by
  intro S' h
  obtain ⟨S, h1, h2⟩ := sumOp_outside hA h
  obtain ⟨a, b⟩ := hx S h1
  refine ⟨fun p hp => (h2 p ?_).2 (a p hp), fun p hp => ?_⟩
  · rintro ⟨h3, -⟩; omega
  · by_contra hlt
    exact hlt (b p ((h2 p fun h3 => hlt h3.2).1 hp))

theorem near_sumOp {nI nA : ℕ} {A : Dict ℝ} (hA : Keys (ActIdx nI nA) (fun _ => 0) A) {x : Fock ℝ}
    (hx : NearState nI nA x) : NearState nI nA (sumOp A x) := by
  intro S' h
  obtain ⟨S, h1, h2⟩ := sumOp_outside hA h
  have hlo : ∀ p, p < 2 * nI → (p ∈ S' ↔ p ∈ S) := fun p hp => h2 p fun h3 => by have := h3.1; omega
  have hhi : ∀ p, 2 * (nI + nA) ≤ p → (p ∈ S' ↔ p ∈ S) := fun p hp => h2 p fun h3 => by have := h3.2; omega
  obtain ⟨a, b⟩ := hx S h1
  constructor
  · refine le_trans (Finset.card_le_card ?_) a
    intro p hp
    simp only [Finset.mem_filter, Finset.mem_range] at hp ⊢
    exact ⟨hp.1, fun h => hp.2 ((hlo p hp.1).2 h)⟩
  · refine le_trans (Finset.card_le_card ?_) b
    intro p hp
    simp only [Finset.mem_filter] at hp ⊢
    exact ⟨(hhi p hp.2).1 hp.1, hp.2⟩

theorem eq_of_inner {n : ℕ} {x y : Fock ℝ} (hx : Below n x) (hy : Below n y)
    (h : ∀ z, Below n z → inner z x = inner z y) : x = y := by
  apply fock_ext
  intro S
  by_cases hS : ∀ q ∈ S, q < n
  · have := h (sgl S 1) (below_sgl hS 1)
    rwa [inner_ket_left, inner_ket_left] at this
  · have e : ∀ z : Fock ℝ, Below n z → coeff z S = 0 := fun z hz => by
      by_contra hne
      exact hS (hz S hne)
    rw [e x hx, e y hy]

/-- The strings shifted down by `m`. -/
def shiftDown (m : ℕ) (A : Dict ℝ) : Dict ℝ := A.map fun kv => (kv.1.map fun o => (o.1 - m, o.2), kv.2)

theorem sumOp_core {m : ℕ} (hm : Even m) (A : Dict ℝ) (hA : ∀ kv ∈ A, ∀ o ∈ kv.1, m ≤ o.1) (x : Fock ℝ) :
    sumOp A (core m x) = core m (sumOp (shiftDown m A) x) := by
  induction A with
  | nil => simp [shiftDown]
  | cons kv t ih =>
    have h1 := ih fun kv' h => hA kv' (by simp [h])
    unfold shiftDown at h1 ⊢
    rw [List.map_cons, sumOp_cons, sumOp_cons, LinearMap.add_apply, LinearMap.add_apply, map_add, h1,
      LinearMap.smul_apply, LinearMap.smul_apply, map_smul, ← strOp_core hm,
      shift_back m kv.1 (hA kv (by simp))]

/-- A number-conserving operator on the whole orbital space. -/
def GenOp (ci : CIInfo) (A : Dict ℝ) : Prop :=
  NumCons A ∧ Keys (· < 2 * (ci.nI + ci.nA + ci.nV)) (fun _ => 0) A

/-- A number-conserving operator on the active orbitals. -/
def ActOp (ci : CIInfo) (A : Dict ℝ) : Prop := NumCons A ∧ Keys (ActIdx ci.nI ci.nA) (fun _ => 0) A

theorem Keys.mono {P Q : ℕ → Prop} {c : (ℕ → ℤ) → ℤ} {A : Dict ℝ} (h : Keys P c A) (hPQ : ∀ p, P p → Q p) :
    Keys Q c A := fun kv hk => ⟨fun o ho => hPQ _ ((h kv hk).1 o ho), (h kv hk).2⟩

theorem ActOp.gen {ci : CIInfo} {A : Dict ℝ} (h : ActOp ci A) : GenOp ci A :=
  ⟨h.1, h.2.mono fun p hp => by have := hp.2; omega⟩

theorem emb_active (ci : CIInfo) (v : Vec ℝ) : ActiveState ci.nI ci.nA (emb ci v) :=
  activeState_core (below_stateOf ci v)

section
variable {tiny big : ℝ → Bool} {ci : CIInfo} {th : Threads} {U : Bool → Vec ℝ → Res (Vec ℝ)}

theorem dot_emb (hs : AnsatzSpace ci ci.nA) (a b : Vec ℝ) :
    dot ci.idx2det.length a b = inner (emb ci a) (emb ci b) := by
  unfold emb
  rw [dot_eq_inner hs.valid, inner_core]

theorem applyGen (ht : ExactTiny tiny) (hs : AnsatzSpace ci ci.nA) (hth : th.Fair ci.idx2det.length)
    (U : Bool → Vec ℝ → Res (Vec ℝ)) {A : Dict ℝ} (hA : GenOp ci A) (v : Vec ℝ) :
    ∃ w, propagateState tiny th ci U true false [.op A] v = .ok w ∧
      ∀ bra, inner (emb ci bra) (emb ci w) = inner (emb ci bra) (sumOp A (emb ci v)) := by
  obtain ⟨w, h1, h2⟩ := applyFold ht hs hth U hA.1 hA.2 v
  exact ⟨w, h1, fun bra => by rw [← dot_emb hs]; exact h2 bra⟩

theorem applyAct (ht : ExactTiny tiny) (hs : AnsatzSpace ci ci.nA) (hth : th.Fair ci.idx2det.length)
    (U : Bool → Vec ℝ → Res (Vec ℝ)) {A : Dict ℝ} (hA : ActOp ci A) (v : Vec ℝ) :
    ∃ w, propagateState tiny th ci U true false [.op A] v = .ok w ∧ emb ci w = sumOp A (emb ci v) := by
  have hg := hA.gen
  obtain ⟨f1, f2⟩ := getFolded_inv hg.1 hg.2
  have h0 : ci.offset = 0 := by have := hs.fits; omega
  have hc : ci.ClosedOn (· < 2 * ci.nA) := by
    intro S S' h1 h2 h3 h4
    refine hs.closed S S' h1 (fun p hp => h2 p fun h => hp ?_) h3 h4
    dsimp only at h
    omega
  obtain ⟨w, hw, ew⟩ := applyOp_closed ht hs.valid hc (fun _ h => h) hth v f1 f2
  refine ⟨w, by simpa [propagateState, propStep] using hw, ?_⟩
  have hm : Even (2 * ci.nI) := ⟨ci.nI, by omega⟩
  unfold emb
  rw [ew, sumOp_core hm A (fun kv hk o ho => ((hA.2 kv hk).1 o ho).1)]
  congr 1
  have hsh : Keys (· < 2 * ci.nA) (fun w => (fun _ => 0) w) (shiftDown (2 * ci.nI) A) := by
    intro kv hk
    obtain ⟨kv', h1, rfl⟩ := List.mem_map.1 hk
    refine ⟨fun o ho => ?_, fun w hw' => ?_⟩
    · obtain ⟨o', h2, rfl⟩ := List.mem_map.1 ho
      have := (hA.2 kv' h1).1 o' h2
      unfold ActIdx at this
      dsimp only
      omega
    · have e : strWeight w (kv'.1.map fun o => (o.1 - 2 * ci.nI, o.2)) = strWeight w kv'.1 := by
        unfold strWeight
        rw [List.map_map]
        congr 1
        refine List.map_congr_left fun o ho => ?_
        have hlo := ((hA.2 kv' h1).1 o ho).1
        have : w (o.1 - 2 * ci.nI) = w o.1 := by
          rcases Nat.mod_two_eq_zero_or_one o.1 with h | h
          · have a := (hw' (o.1 / 2)).1
            have b := (hw' (o.1 / 2 - ci.nI)).1
            rw [show 2 * (o.1 / 2) = o.1 by omega] at a
            rw [show 2 * (o.1 / 2 - ci.nI) = o.1 - 2 * ci.nI by omega] at b
            rw [a, b]
          · have a := (hw' (o.1 / 2)).2
            have b := (hw' (o.1 / 2 - ci.nI)).2
            rw [show 2 * (o.1 / 2) + 1 = o.1 by omega] at a
            rw [show 2 * (o.1 / 2 - ci.nI) + 1 = o.1 - 2 * ci.nI by omega] at b
            rw [a, b]
        simp [this]
      dsimp only
      rw [e]; exact (hA.2 kv' h1).2 w hw'
  refine eq_of_inner (below_sumOp f2 (below_stateOf ci v)) (below_sumOp hsh (below_stateOf ci v)) fun z hz => ?_
  rw [getFolded_sem ci.nI ci.nA ci.nV A hg.1.ord hg.1.bal (fun kv h o ho => (hg.2 kv h).1 o ho) hz
    (below_stateOf ci v), sumOp_core hm A (fun kv hk o ho => ((hA.2 kv hk).1 o ho).1), inner_core]

theorem GenOp.mul (ht : ExactTiny tiny) {A B : Dict ℝ} (hA : GenOp ci A) (hB : GenOp ci B) :
    ∃ d, fmul tiny A B = .ok d ∧ GenOp ci d ∧ sumOp d = sumOp A * sumOp B := by
  obtain ⟨d, h1, h2, h3⟩ := hA.1.mul ht hB.1
  exact ⟨d, h1, ⟨h2, hA.2.mul0 hB.2 d h1⟩, h3⟩

theorem GenOp.dagger (ht : ExactTiny tiny) {A : Dict ℝ} (hA : GenOp ci A) :
    ∃ d, fdagger tiny A = .ok d ∧ GenOp ci d ∧ IsAdjoint (sumOp A) (sumOp d) := by
  obtain ⟨d, h1, h2, h3⟩ := hA.1.dagger ht
  refine ⟨d, h1, ⟨h2, ?_⟩, h3⟩
  have := hA.2.fdagger (tiny := tiny) hA.1.wf d h1
  simpa using this

theorem ActOp.dagger (ht : ExactTiny tiny) {A : Dict ℝ} (hA : ActOp ci A) :
    ∃ d, fdagger tiny A = .ok d ∧ ActOp ci d ∧ IsAdjoint (sumOp A) (sumOp d) := by
  obtain ⟨d, h1, h2, h3⟩ := hA.1.dagger ht
  refine ⟨d, h1, ⟨h2, ?_⟩, h3⟩
  have := hA.2.fdagger (tiny := tiny) hA.1.wf d h1
  simpa using this

theorem keys_ham1 (h : ℕ → ℕ → ℝ) (g : ℕ → ℕ → ℕ → ℕ → ℝ) (nI nA nV : ℕ) :
    RKeys (· < 2 * (nI + nA + nV)) (fun _ => 0) (hamiltonian1i1a tiny big h g nI nA nV) :=
  (Keeps.seq (Keeps.foldlM _ fun _ hp => Keeps.foldlM _ fun _ hq =>
      Keeps.ite _ Keeps.pure (keeps_addEif _ (both_lt (List.mem_range.1 hp)) (both_lt (List.mem_range.1 hq))))
    (Keeps.foldlM _ fun _ hp => Keeps.foldlM _ fun _ hq => Keeps.foldlM _ fun _ hr =>
      Keeps.foldlM _ fun _ hs => Keeps.ite _ Keeps.pure (Keeps.ite _ Keeps.pure
        (keeps_addEEif _ (both_lt (List.mem_range.1 hp)) (both_lt (List.mem_range.1 hq))
          (both_lt (List.mem_range.1 hr)) (both_lt (List.mem_range.1 hs)))))) [] keys_nil

theorem keys_ham2 (h : ℕ → ℕ → ℝ) (g : ℕ → ℕ → ℕ → ℕ → ℝ) (nI nA nV : ℕ) :
    RKeys (· < 2 * (nI + nA + nV)) (fun _ => 0) (hamiltonian2i2a tiny big h g nI nA nV) :=
  (Keeps.seq (Keeps.foldlM _ fun _ hp => Keeps.foldlM _ fun _ hq =>
      keeps_addEif _ (both_lt (List.mem_range.1 hp)) (both_lt (List.mem_range.1 hq)))
    (Keeps.foldlM _ fun _ hp => Keeps.foldlM _ fun _ hq => Keeps.foldlM _ fun _ hr =>
      Keeps.foldlM _ fun _ hs => Keeps.ite _ Keeps.pure (Keeps.ite _ Keeps.pure
        (keeps_addEEif _ (both_lt (List.mem_range.1 hp)) (both_lt (List.mem_range.1 hq))
          (both_lt (List.mem_range.1 hr)) (both_lt (List.mem_range.1 hs)))))) [] keys_nil

/-- `hamiltonian_0i_0a`: between active states the full Hamiltonian. -/
theorem ham0_gen (ht : ExactTiny tiny) (hb : ExactBig big) (h : ℕ → ℕ → ℝ) (g : ℕ → ℕ → ℕ → ℕ → ℝ) (ci : CIInfo) :
    ∃ H, hamiltonian0i0a tiny big h g ci.nI ci.nA = .ok H ∧ GenOp ci H ∧
      ∀ x y, ActiveState ci.nI ci.nA x → ActiveState ci.nI ci.nA y →
        inner x (sumOp H y) = inner x (hamOp h g (ci.nI + ci.nA + ci.nV) y) := by
  obtain ⟨d, hd, hn, -⟩ := den_hamiltonian0i0a ht hb h g ci.nI ci.nA
  refine ⟨d, hd, ⟨hn, keys_ham0 (tiny := tiny) (big := big) h g ci.nI ci.nA ci.nV d hd⟩, fun x y hx hy => ?_⟩
  obtain ⟨⟨d', f, e1, e2, e3⟩, -⟩ := C12_active ht hb h g ci.nI ci.nA ci.nV hx hy
  rw [hd] at e1
  obtain rfl := Except.ok.inj e1
  rw [e3]
  obtain ⟨f', k1, -, k3⟩ := (C11_form ht hb h g (ci.nI + ci.nA + ci.nV)).1
  rw [k1] at e2
  obtain rfl := Except.ok.inj e2
  rw [k3]; rfl

/-- `hamiltonian_1i_1a`: between an active and a near state the full Hamiltonian. -/
theorem ham1_gen (ht : ExactTiny tiny) (hb : ExactBig big) (h : ℕ → ℕ → ℝ) (g : ℕ → ℕ → ℕ → ℕ → ℝ) (ci : CIInfo) :
    ∃ H, hamiltonian1i1a tiny big h g ci.nI ci.nA ci.nV = .ok H ∧ GenOp ci H ∧
      ∀ x y, ActiveState ci.nI ci.nA x → NearState ci.nI ci.nA y →
        inner x (sumOp H y) = inner x (hamOp h g (ci.nI + ci.nA + ci.nV) y) ∧
        inner y (sumOp H x) = inner y (hamOp h g (ci.nI + ci.nA + ci.nV) x) := by
  obtain ⟨d, hd, hn, -⟩ := den_hamiltonian1i1a ht hb h g ci.nI ci.nA ci.nV
  refine ⟨d, hd, ⟨hn, keys_ham1 (tiny := tiny) (big := big) h g ci.nI ci.nA ci.nV d hd⟩, fun x y hx hy => ?_⟩
  obtain ⟨d', f, e1, e2, e3, e4⟩ := C93_single ht hb h g ci.nI ci.nA ci.nV hx hy
  rw [hd] at e1
  obtain rfl := Except.ok.inj e1
  rw [e3, e4]
  obtain ⟨f', k1, -, k3⟩ := (C11_form ht hb h g (ci.nI + ci.nA + ci.nV)).1
  rw [k1] at e2
  obtain rfl := Except.ok.inj e2
  rw [k3]; exact ⟨rfl, rfl⟩

theorem one0_gen (ht : ExactTiny tiny) (hb : ExactBig big) (h : ℕ → ℕ → ℝ) (ci : CIInfo) :
    ∃ H, oneElec0i0a tiny big h ci.nI ci.nA = .ok H ∧ GenOp ci H ∧
      ∀ x y, ActiveState ci.nI ci.nA x → ActiveState ci.nI ci.nA y →
        inner x (sumOp H y) = inner x (oneOp h (ci.nI + ci.nA + ci.nV) y) := by
  obtain ⟨d, hd, hn, -⟩ := den_oneElec0i0a ht hb h ci.nI ci.nA
  refine ⟨d, hd, ⟨hn, keys_one0 (tiny := tiny) (big := big) h ci.nI ci.nA ci.nV d hd⟩, fun x y hx hy => ?_⟩
  obtain ⟨-, ⟨d', f, e1, e2, e3⟩⟩ := C12_active ht hb h (fun _ _ _ _ => 0) ci.nI ci.nA ci.nV hx hy
  rw [hd] at e1
  obtain rfl := Except.ok.inj e1
  rw [e3]
  obtain ⟨f', k1, -, k3⟩ := (C11_form ht hb h (fun _ _ _ _ => 0) (ci.nI + ci.nA + ci.nV)).2
  rw [k1] at e2
  obtain rfl := Except.ok.inj e2
  rw [k3]

end

end SQ
