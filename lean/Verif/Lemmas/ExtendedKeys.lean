import Verif.Lemmas.ResponseOps

/-!
# Lemmas: operators that keep the inactive orbitals filled, string by string
-/

namespace SQ

section
variable {K : Type*} [Field K] {tiny big : K → Bool} {w : ℕ → ℤ}

/-- Every string of the operator changes the weight by `c`. -/
def WKeys (w : ℕ → ℤ) (c : ℤ) (A : Dict K) : Prop := ∀ kv ∈ A, strWeight w kv.1 = c

/-- The result, if any, changes the weight by `c`. -/
def RWKeys (w : ℕ → ℤ) (c : ℤ) (r : Res (Dict K)) : Prop := ∀ d, r = .ok d → WKeys w c d

theorem wkeys_closed (w : ℕ → ℤ) (c : ℤ) : StrClosed (fun s => strWeight w s = c) where
  perm s t h hs := by rw [← hs]; exact ((h.map _).sum_eq).symm
  contract s p t hs h _ := by
    rw [← hs]
    have := (h.map fun o : Lad => if o.2 then w o.1 else - w o.1).sum_eq
    unfold strWeight
    rw [this]; simp

theorem RWKeys.ok {c : ℤ} {A : Dict K} (h : WKeys w c A) : RWKeys w c (.ok A) := by
  intro d hd; cases hd; exact h

theorem RWKeys.bind' {c c' : ℤ} {r : Res (Dict K)} {f : Dict K → Res (Dict K)} (h : RWKeys w c' r)
    (h2 : ∀ a, WKeys w c' a → RWKeys w c (f a)) : RWKeys w c (r >>= f) := by
  intro d hd
  cases r with
  | error e => cases hd
  | ok a => exact h2 a (h a rfl) d hd

theorem WKeys.fmul {c c' : ℤ} {A B : Dict K} (hA : WKeys w c A) (hB : WKeys w c' B) :
    RWKeys w (c + c') (SQ.fmul tiny A B) := by
  intro d hd
  rcases fmul_struct tiny (wkeys_closed w (c + c')) A B
    (fun kv1 h1 kv2 h2 => by rw [strWeight_append, hA kv2 h2, hB kv1 h1]) with ⟨h, _⟩ | ⟨e, g1, _, g3⟩
  · rw [h] at hd; cases hd
  · rw [g1] at hd; cases hd; exact fun kv h => (g3 kv h).2

theorem WKeys.fadd {c : ℤ} {A B : Dict K} (hA : WKeys w c A) (hB : WKeys w c B) : WKeys w c (SQ.fadd tiny A B) :=
  foldl_addTo_keyP (P := fun s => strWeight w s = c) B hA hB

theorem WKeys.frmul {c : ℤ} {A : Dict K} (hA : WKeys w c A) (x : K) : WKeys w c (SQ.frmul x A) := by
  intro kv h
  obtain ⟨y, hy, rfl⟩ := List.mem_map.1 h
  exact hA y hy

theorem WKeys.fsub {c : ℤ} {A B : Dict K} (hA : WKeys w c A) (hB : WKeys w c B) : WKeys w c (SQ.fsub tiny A B) := by
  unfold SQ.fsub
  induction B generalizing A with
  | nil => exact hA
  | cons kv t ih =>
    rw [List.foldl_cons]
    refine ih ?_ fun x hx => hB x (by simp [hx])
    rw [subTo_eq_addTo]
    exact mem_addTo_keyP (P := fun s => strWeight w s = c) hA (hB kv (by simp))

theorem wkeys_nil (c : ℤ) : WKeys w c ([] : Dict K) := by intro kv h; cases h

theorem wkeys_pair (p q : ℕ) : RWKeys w (w p - w q) (SQ.fmul tiny (aOpSpin p true : Dict K) (aOpSpin q false)) := by
  have h1 : WKeys w (w p) (aOpSpin p true : Dict K) := by
    intro kv h
    simp only [aOpSpin, List.mem_singleton] at h
    subst h
    simp [strWeight]
  have h2 : WKeys w (-w q) (aOpSpin q false : Dict K) := by
    intro kv h
    simp only [aOpSpin, List.mem_singleton] at h
    subst h
    simp [strWeight]
  exact WKeys.fmul h1 h2

/-- The weight depends on the spatial orbital only. -/
def SpatW (w : ℕ → ℤ) : Prop := ∀ p, w (2 * p + 1) = w (2 * p)

theorem wkeys_Epq (hw : SpatW w) (p q : ℕ) :
    RWKeys w (w (2 * p) - w (2 * q)) (Epq tiny p q : Res (Dict K)) := by
  have e : (Epq tiny p q : Res (Dict K)) =
      (SQ.fmul tiny (aOpSpin (2 * p) true) (aOpSpin (2 * q) false) >>= fun A =>
        SQ.fmul tiny (aOpSpin (2 * p + 1) true) (aOpSpin (2 * q + 1) false) >>= fun B =>
          Except.ok (SQ.fadd tiny A B)) := rfl
  rw [e]
  refine RWKeys.bind' (wkeys_pair _ _) fun A hA => ?_
  refine RWKeys.bind' (wkeys_pair _ _) fun B hB => ?_
  rw [hw, hw] at hB
  exact RWKeys.ok (hA.fadd hB)

theorem wkeys_epqrs (hw : SpatW w) (p q r s : ℕ) :
    RWKeys w (w (2 * p) - w (2 * q) + (w (2 * r) - w (2 * s))) (epqrs tiny p q r s : Res (Dict K)) := by
  refine RWKeys.bind' (wkeys_Epq hw p q) fun A hA => ?_
  refine RWKeys.bind' (wkeys_Epq hw r s) fun B hB => ?_
  refine RWKeys.bind' (hA.fmul hB) fun C hC => ?_
  split
  · next h =>
    subst h
    refine RWKeys.bind' (wkeys_Epq hw p s) fun D hD => RWKeys.ok (hC.fsub ?_)
    rwa [show w (2 * p) - w (2 * q) + (w (2 * q) - w (2 * s)) = w (2 * p) - w (2 * s) by ring]
  · exact RWKeys.ok hC

/-- Keeps the weight. -/
def WKeeps (w : ℕ → ℤ) (f : Dict K → Res (Dict K)) : Prop := ∀ H, WKeys w 0 H → RWKeys w 0 (f H)

theorem WKeeps.pure : WKeeps w (fun H : Dict K => .ok H) := fun _ h => RWKeys.ok h

theorem WKeeps.seq {f g : Dict K → Res (Dict K)} (hf : WKeeps w f) (hg : WKeeps w g) :
    WKeeps w (fun H => f H >>= g) := fun H h => RWKeys.bind' (hf H h) hg

theorem WKeeps.foldlM {α : Type*} {f : Dict K → α → Res (Dict K)} (l : List α)
    (h : ∀ a ∈ l, WKeeps w (fun H => f H a)) : WKeeps w (fun H => l.foldlM f H) := by
  induction l with
  | nil => exact WKeeps.pure
  | cons a l ih =>
    have := (h a (by simp)).seq (ih fun b hb => h b (by simp [hb]))
    intro H hH
    show RWKeys w 0 (List.foldlM f H (a :: l))
    rw [List.foldlM_cons]
    exact this H hH

theorem wkeeps_addE (hw : SpatW w) {p q : ℕ} (c : K) (h : w (2 * p) = w (2 * q)) :
    WKeeps w (fun H => addE tiny H c p q) := fun _ hH =>
  RWKeys.bind' (wkeys_Epq hw p q) fun _ hA => RWKeys.ok (hH.fadd (by
    rw [h, sub_self] at hA
    exact hA.frmul c))

theorem wkeeps_addEE (hw : SpatW w) {p q r s : ℕ} (c : K) (h : w (2 * p) - w (2 * q) + (w (2 * r) - w (2 * s)) = 0) :
    WKeeps w (fun H => addEE tiny H c p q r s) := fun _ hH =>
  RWKeys.bind' (wkeys_epqrs hw p q r s) fun _ hA => RWKeys.ok (hH.fadd (by
    rw [h] at hA
    exact hA.frmul _))

theorem WKeeps.ite {f g : Dict K → Res (Dict K)} (c : Prop) [Decidable c] (hf : WKeeps w f) (hg : WKeeps w g) :
    WKeeps w (fun H => if c then f H else g H) := by
  intro H h
  dsimp only
  split
  · exact hf H h
  · exact hg H h

theorem wkeeps_addEif (hw : SpatW w) {p q : ℕ} (c : K) (h : w (2 * p) = w (2 * q)) :
    WKeeps w (fun H => addEif tiny big H c p q) := WKeeps.ite _ (wkeeps_addE hw c h) WKeeps.pure

theorem wkeeps_addEEif (hw : SpatW w) {p q r s : ℕ} (c : K)
    (h : w (2 * p) - w (2 * q) + (w (2 * r) - w (2 * s)) = 0) :
    WKeeps w (fun H => addEEif tiny big H c p q r s) := WKeeps.ite _ (wkeeps_addEE hw c h) WKeeps.pure

/-- One for the inactive spin orbitals. -/
def wIn (nI p : ℕ) : ℤ := if p < 2 * nI then 1 else 0

theorem wIn_spat (nI : ℕ) : SpatW (wIn nI) := fun p => by
  unfold wIn
  have : 2 * p + 1 < 2 * nI ↔ 2 * p < 2 * nI := by omega
  simp only [this]

theorem wIn_range {nI p : ℕ} (h : p ∈ List.range nI) : wIn nI (2 * p) = 1 :=
  if_pos (by have := List.mem_range.1 h; omega)

theorem wIn_from {nI nA p : ℕ} (h : p ∈ rangeFrom nI nA) : wIn nI (2 * p) = 0 := by
  simp only [rangeFrom, List.mem_map, List.mem_range] at h
  obtain ⟨a, ha, rfl⟩ := h
  exact if_neg (by omega)

theorem wkeys_one0 (h : ℕ → ℕ → K) (nI nA : ℕ) : RWKeys (wIn nI) 0 (oneElec0i0a tiny big h nI nA) :=
  (WKeeps.seq (WKeeps.foldlM _ fun _ _ => wkeeps_addEif (wIn_spat nI) _ rfl)
    (WKeeps.foldlM _ fun _ hp => WKeeps.foldlM _ fun _ hq =>
      wkeeps_addEif (wIn_spat nI) _ (by rw [wIn_from hp, wIn_from hq]))) [] (wkeys_nil 0)

theorem wkeys_ham0 (h : ℕ → ℕ → K) (g : ℕ → ℕ → ℕ → ℕ → K) (nI nA : ℕ) :
    RWKeys (wIn nI) 0 (hamiltonian0i0a tiny big h g nI nA) :=
  (WKeeps.seq (WKeeps.foldlM _ fun _ _ => wkeeps_addEif (wIn_spat nI) _ rfl)
    (WKeeps.seq (WKeeps.foldlM _ fun _ hp => WKeeps.foldlM _ fun _ hq =>
      wkeeps_addEif (wIn_spat nI) _ (by rw [wIn_from hp, wIn_from hq]))
    (WKeeps.seq (WKeeps.foldlM _ fun _ hi => WKeeps.foldlM _ fun _ hj =>
      WKeeps.seq (wkeeps_addEEif (wIn_spat nI) _ (by ring))
        (WKeeps.ite _ (wkeeps_addEE (wIn_spat nI) _ (by ring)) WKeeps.pure))
    (WKeeps.seq (WKeeps.foldlM _ fun _ hi => WKeeps.foldlM _ fun _ hp => WKeeps.foldlM _ fun _ hq =>
      WKeeps.seq (wkeeps_addEEif (wIn_spat nI) _ (by rw [wIn_from hp, wIn_from hq]; ring))
      (WKeeps.seq (wkeeps_addEEif (wIn_spat nI) _ (by rw [wIn_from hp, wIn_from hq]; ring))
      (WKeeps.seq (wkeeps_addEEif (wIn_spat nI) _ (by rw [wIn_from hp, wIn_from hq]; ring))
        (wkeeps_addEEif (wIn_spat nI) _ (by rw [wIn_from hp, wIn_from hq]; ring)))))
    (WKeeps.foldlM _ fun _ hp => WKeeps.foldlM _ fun _ hq => WKeeps.foldlM _ fun _ hr =>
      WKeeps.foldlM _ fun _ hs => wkeeps_addEEif (wIn_spat nI) _
        (by rw [wIn_from hp, wIn_from hq, wIn_from hr, wIn_from hs]; ring)))))) [] (wkeys_nil 0)

end

/-! ### Determinants of the active space -/

/-- A determinant of the active space: inactive orbitals filled, nothing beyond the active orbitals. -/
def ActiveDet (nI nA : ℕ) (S : Finset ℕ) : Prop := (∀ p, p < 2 * nI → p ∈ S) ∧ ∀ p ∈ S, p < 2 * (nI + nA)

theorem weight_wIn (nI : ℕ) (S : Finset ℕ) : weight (wIn nI) S = ((S.filter (· < 2 * nI)).card : ℤ) := by
  unfold weight wIn
  rw [Finset.sum_ite, Finset.sum_const_zero, add_zero, Finset.sum_const, nsmul_eq_mul, mul_one]

theorem full_iff (nI : ℕ) (S : Finset ℕ) : (∀ p, p < 2 * nI → p ∈ S) ↔ weight (wIn nI) S = 2 * nI := by
  rw [weight_wIn]
  have sub : S.filter (· < 2 * nI) ⊆ Finset.range (2 * nI) := by
    intro p hp
    simp only [Finset.mem_filter] at hp
    exact Finset.mem_range.2 hp.2
  constructor
  · intro h
    have : S.filter (· < 2 * nI) = Finset.range (2 * nI) := by
      refine Finset.Subset.antisymm sub fun p hp => ?_
      have := Finset.mem_range.1 hp
      exact Finset.mem_filter.2 ⟨h p this, this⟩
    rw [this, Finset.card_range]; push_cast; ring
  · intro h p hp
    have : S.filter (· < 2 * nI) = Finset.range (2 * nI) :=
      Finset.eq_of_subset_of_card_le sub (by rw [Finset.card_range]; omega)
    have h2 : p ∈ S.filter (· < 2 * nI) := by rw [this]; exact Finset.mem_range.2 hp
    exact (Finset.mem_filter.1 h2).1

/-- Strings within inactive and active orbitals that conserve the number of inactive electrons. -/
structure CoreStr (nI nA : ℕ) (s : Str) : Prop where
  inv : KInv (· < 2 * (nI + nA)) (fun _ => 0) s
  core : strWeight (wIn nI) s = 0

theorem CoreStr.active {nI nA : ℕ} {s : Str} (h : CoreStr nI nA s) {S S' : Finset ℕ} (hS : ActiveDet nI nA S)
    (hc : coeff (strOp s (ket S) : Fock ℝ) S' ≠ 0) :
    ActiveDet nI nA S' ∧ numAlpha S' = numAlpha S ∧ numBeta S' = numBeta S := by
  obtain ⟨a, b⟩ := h.inv.reach hc
  refine ⟨⟨?_, fun p hp => ?_⟩, b⟩
  · rw [full_iff]
    have := shift_strOp (R := ℝ) (wIn nI) s S S' hc
    rw [this, h.core, add_zero]
    exact (full_iff nI S).1 hS.1
  · by_contra hlt
    exact hlt (hS.2 p ((a p hlt).1 hp))

/-- `hamiltonian_0i_0a` and `one_elec_op_0i_0a` are made of such strings. -/
theorem ham0_core {tiny big : ℝ → Bool} (h : ℕ → ℕ → ℝ) (g : ℕ → ℕ → ℕ → ℕ → ℝ) (nI nA : ℕ) {H : Dict ℝ}
    (hH : hamiltonian0i0a tiny big h g nI nA = .ok H) : ∀ kv ∈ H, CoreStr nI nA kv.1 := fun kv hk =>
  ⟨keys_ham0 (tiny := tiny) (big := big) h g nI nA 0 H hH kv hk, wkeys_ham0 h g nI nA H hH kv hk⟩

theorem one0_core {tiny big : ℝ → Bool} (h : ℕ → ℕ → ℝ) (nI nA : ℕ) {H : Dict ℝ}
    (hH : oneElec0i0a tiny big h nI nA = .ok H) : ∀ kv ∈ H, CoreStr nI nA kv.1 := fun kv hk =>
  ⟨keys_one0 (tiny := tiny) (big := big) h nI nA 0 H hH kv hk, wkeys_one0 h nI nA H hH kv hk⟩

/-- The same for the adjoint. -/
theorem core_dagger {tiny : ℝ → Bool} {nI nA : ℕ} {A d : Dict ℝ} (hw : WF A) (hA : ∀ kv ∈ A, CoreStr nI nA kv.1)
    (h : fdagger tiny A = .ok d) : ∀ kv ∈ d, CoreStr nI nA kv.1 := by
  have k : Keys (· < 2 * (nI + nA)) (fun _ => 0) d := by
    have := (show Keys (· < 2 * (nI + nA)) (fun _ => 0) A from fun kv hk => (hA kv hk).inv).fdagger
      (tiny := tiny) hw d h
    simpa using this
  rcases fdagger_struct tiny (wkeys_closed (wIn nI) 0) hw
    (fun kv hk => by rw [strWeight_flip, (hA kv hk).core, neg_zero]) with ⟨e, _⟩ | ⟨e, g1, _, g3⟩
  · rw [e] at h; cases h
  · rw [g1] at h; cases h; exact fun kv hk => ⟨k kv hk, (g3 kv hk).2⟩

/-! ### Folding without inactive and virtual orbitals -/

theorem normalOrdered_split {s : Str} (hn : NormalOrdered s) :
    (s.filter fun o => o.2) ++ (s.filter fun o => !o.2) = s := by
  induction s with
  | nil => rfl
  | cons o t ih =>
    obtain ⟨p, b⟩ := o
    unfold NormalOrdered at hn ih
    rw [List.pairwise_cons] at hn
    have ih := ih hn.2
    cases b
    · have e : ∀ x ∈ t, x.2 = false := fun x hx => by
        rcases hn.1 x hx with h | h
        · simp at h
        · exact h.1.symm
      have e1 : t.filter (fun o => o.2) = [] := List.filter_eq_nil_iff.2 fun x hx => by simp [e x hx]
      rw [e1, List.nil_append] at ih
      simp [e1, ih]
    · simp [ih]

theorem foldKey_self {n : ℕ} {s : Str} (hn : NormalOrdered s) (hr : ∀ o ∈ s, o.1 < 2 * n) :
    foldKey 0 n 0 s = some (s, 1) := by
  have v1 : (s.filter fun o => !o.2 && decide (2 * 0 + 2 * n ≤ o.1) && decide (o.1 < 2 * 0 + 2 * n + 2 * 0)) = [] :=
    List.filter_eq_nil_iff.2 fun x hx => by have := hr x hx; simp
  have v2 : (s.filter fun o => o.2 && decide (2 * 0 + 2 * n ≤ o.1) && decide (o.1 < 2 * 0 + 2 * n + 2 * 0)) = [] :=
    List.filter_eq_nil_iff.2 fun x hx => by have := hr x hx; simp
  have i1 : (s.filter fun o => !o.2 && decide (o.1 < 2 * 0)) = [] := List.filter_eq_nil_iff.2 fun x hx => by simp
  have i2 : (s.filter fun o => o.2 && decide (o.1 < 2 * 0)) = [] := List.filter_eq_nil_iff.2 fun x hx => by simp
  have a1 : (s.filter fun o => !o.2 && decide (2 * 0 ≤ o.1) && decide (o.1 < 2 * 0 + 2 * n)) =
      s.filter fun o => !o.2 := List.filter_congr fun x hx => by have := hr x hx; simp [this]
  have a2 : (s.filter fun o => o.2 && decide (2 * 0 ≤ o.1) && decide (o.1 < 2 * 0 + 2 * n)) =
      s.filter fun o => o.2 := List.filter_congr fun x hx => by have := hr x hx; simp [this]
  have m : ∀ l : Str, (l.map fun o => (o.1 - 2 * 0, o.2)) = l := fun l => by simp
  unfold foldKey
  rw [foldSort_eq, v1, v2, i1, i2, a1, a2, m, m]
  simp [normalOrdered_split hn, ketFlip]

/-- Without inactive and virtual orbitals folding changes nothing. -/
theorem getFolded_self {n : ℕ} {A : Dict ℝ} (hA : NumCons A) (hr : ∀ kv ∈ A, ∀ o ∈ kv.1, o.1 < 2 * n) :
    getFolded 0 n 0 A = A := by
  have acc : ∀ (d : Dict ℝ) (k : Str) (v : ℝ), k ∉ d.map (·.1) → accTo d k v = d ++ [(k, v)] := by
    intro d k v
    induction d with
    | nil => intro _; rfl
    | cons kv t ih =>
      intro h
      obtain ⟨k', v'⟩ := kv
      rw [List.map_cons, List.mem_cons, not_or] at h
      rw [accTo, if_neg (fun e => h.1 e.symm), ih h.2]
      rfl
  have key : ∀ (B d : Dict ℝ), (∀ kv ∈ B, NormalOrdered kv.1 ∧ ∀ o ∈ kv.1, o.1 < 2 * n) → WF (d ++ B) →
      B.foldl (foldStep 0 n 0) d = d ++ B := by
    intro B
    induction B with
    | nil => intro d _ _; simp
    | cons kv t ih =>
      intro d h hw
      have e : foldStep 0 n 0 d kv = d ++ [kv] := by
        unfold foldStep
        rw [foldKey_self (h kv (by simp)).1 (h kv (by simp)).2]
        dsimp only
        rw [acc]
        · simp
        · unfold WF at hw
          rw [List.map_append, List.map_cons, List.nodup_append] at hw
          exact fun hm => hw.2.2 _ hm _ (by simp) rfl
      rw [List.foldl_cons, e, ih _ (fun kv hk => h kv (by simp [hk])) (by simpa using hw)]
      simp
  have := key A [] (fun kv hk => ⟨hA.ord kv hk, hr kv hk⟩) (by simpa using hA.wf)
  simpa [getFolded] using this

end SQ
