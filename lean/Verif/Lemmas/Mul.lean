import Verif.Lemmas.Dict

/-! # Products and daggers: meaning and shape -/

namespace SQ

variable {R : Type*} [CommRing R]

/-- Closed under reordering and under removing an adjacent-after-reordering pair. -/
structure StrClosed (Q : Str → Prop) : Prop where
  perm : ∀ s t, s.Perm t → Q s → Q t
  contract : ∀ s p t, Q s → s.Perm ((p, false) :: (p, true) :: t) → t ≠ [] → Q t

theorem normalOrder_struct (tiny : R → Bool) {Q : Str → Prop} (hQ : StrClosed Q) (d : Dict R)
    (hd : ∀ kv ∈ d, Q kv.1) :
    (normalOrder tiny d = .error .indexError ∧ ∃ s, Q s ∧ s.length = 1) ∨
    ∃ e, normalOrder tiny d = .ok e ∧ WF e ∧ ∀ kv ∈ e, NormalOrdered kv.1 ∧ Q kv.1 := by
  rcases orderQueue_struct tiny Q hQ.contract _ d [] (le_refl _) hd (by simp) with h | ⟨e, h1, h2⟩
  · exact Or.inl h
  · refine Or.inr ⟨e, h1, normalOrder_wf h1, fun kv hkv => ?_⟩
    obtain ⟨h3, s, h4, h5⟩ := h2 kv hkv
    exact ⟨h3, hQ.perm s _ h4.symm h5⟩

/-- Inner loop of a product. -/
def mulInner (tiny : R → Bool) (k1 : Str) (v1 : R) (acc : Dict R) (kv2 : Str × R) : Res (Dict R) := do
  let new ← normalOrder tiny [(kv2.1 ++ k1, kv2.2 * v1)]
  pure (new.foldl (fun d kv => addTo tiny d kv.1 kv.2) acc)

theorem fmul_eq (tiny : R → Bool) (A B : Dict R) :
    fmul tiny A B = B.foldlM (fun acc kv1 => A.foldlM (mulInner tiny kv1.1 kv1.2) acc) [] := rfl

theorem mulInner_sem {tiny : R → Bool} (ht : ExactTiny tiny) (k1 : Str) (v1 : R)
    (A : Dict R) : ∀ (acc : Dict R), (∀ kv2 ∈ A, Safe (kv2.1 ++ k1)) →
    ∃ d, A.foldlM (mulInner tiny k1 v1) acc = .ok d ∧
      (sumOp d : FOp R) = sumOp acc + sumOp A * (v1 • strOp k1) := by
  induction A with
  | nil => intro acc _; exact ⟨acc, rfl, by simp⟩
  | cons kv t ih =>
    intro acc hs
    obtain ⟨e, h1, h2⟩ := normalOrder_sem ht [(kv.1 ++ k1, kv.2 * v1)]
      (by intro x hx; simp at hx; subst hx; exact hs kv (by simp))
    obtain ⟨d, h3, h4⟩ := ih (e.foldl (fun d kv => addTo tiny d kv.1 kv.2) acc)
      (fun x hx => hs x (by simp [hx]))
    refine ⟨d, ?_, ?_⟩
    · rw [List.foldlM_cons]
      simp only [mulInner, h1]
      exact h3
    · rw [h4, sumOp_foldl_addTo ht, h2, sumOp_cons]
      simp only [sumOp_cons, sumOp_nil, strOp_append, add_zero, add_mul, smul_mul_assoc,
        mul_smul_comm, mul_smul, smul_add]
      rw [smul_comm kv.2 v1]
      abel

theorem fmul_sem_aux {tiny : R → Bool} (ht : ExactTiny tiny) (A B : Dict R) : ∀ (acc : Dict R),
    (∀ kv1 ∈ B, ∀ kv2 ∈ A, Safe (kv2.1 ++ kv1.1)) →
    ∃ d, B.foldlM (fun acc kv1 => A.foldlM (mulInner tiny kv1.1 kv1.2) acc) acc = .ok d ∧
      (sumOp d : FOp R) = sumOp acc + sumOp A * sumOp B := by
  induction B with
  | nil => intro acc _; exact ⟨acc, rfl, by simp⟩
  | cons kv t ih =>
    intro acc hs
    obtain ⟨e, h1, h2⟩ := mulInner_sem ht kv.1 kv.2 A acc (hs kv (by simp))
    obtain ⟨d, h3, h4⟩ := ih e (fun x hx => hs x (by simp [hx]))
    refine ⟨d, ?_, ?_⟩
    · rw [List.foldlM_cons, h1]; exact h3
    · rw [h4, h2, sumOp_cons, mul_add]; abel

theorem fmul_sem {tiny : R → Bool} (ht : ExactTiny tiny) (A B : Dict R)
    (hs : ∀ kv1 ∈ B, ∀ kv2 ∈ A, Safe (kv2.1 ++ kv1.1)) :
    ∃ d, fmul tiny A B = .ok d ∧ (sumOp d : FOp R) = sumOp A * sumOp B := by
  obtain ⟨d, h1, h2⟩ := fmul_sem_aux ht A B [] hs
  exact ⟨d, h1, by simpa using h2⟩

theorem mulInner_struct (tiny : R → Bool) {Q : Str → Prop} (hQ : StrClosed Q) (k1 : Str) (v1 : R)
    (A : Dict R) : ∀ (acc : Dict R), (∀ kv2 ∈ A, Q (kv2.1 ++ k1)) → WF acc →
    (∀ kv ∈ acc, NormalOrdered kv.1 ∧ Q kv.1) →
    (A.foldlM (mulInner tiny k1 v1) acc = .error .indexError ∧ ∃ s, Q s ∧ s.length = 1) ∨
    ∃ d, A.foldlM (mulInner tiny k1 v1) acc = .ok d ∧ WF d ∧
      ∀ kv ∈ d, NormalOrdered kv.1 ∧ Q kv.1 := by
  induction A with
  | nil => intro acc _ h2 h3; exact Or.inr ⟨acc, rfl, h2, h3⟩
  | cons kv t ih =>
    intro acc hs hw hacc
    rw [List.foldlM_cons]
    rcases normalOrder_struct tiny hQ [(kv.1 ++ k1, kv.2 * v1)]
      (by intro x hx; simp at hx; subst hx; exact hs kv (by simp)) with ⟨h, h'⟩ | ⟨e, h1, h2, h3⟩
    · left; simp only [mulInner, h]; exact ⟨rfl, h'⟩
    · simp only [mulInner, h1]
      exact ih _ (fun x hx => hs x (by simp [hx])) (wf_foldl_addTo e hw)
        (foldl_addTo_keyP (P := fun k => NormalOrdered k ∧ Q k) e hacc h3)

theorem fmul_struct (tiny : R → Bool) {Q : Str → Prop} (hQ : StrClosed Q) (A B : Dict R)
    (hs : ∀ kv1 ∈ B, ∀ kv2 ∈ A, Q (kv2.1 ++ kv1.1)) :
    (fmul tiny A B = .error .indexError ∧ ∃ s, Q s ∧ s.length = 1) ∨
    ∃ d, fmul tiny A B = .ok d ∧ WF d ∧ ∀ kv ∈ d, NormalOrdered kv.1 ∧ Q kv.1 := by
  rw [fmul_eq]
  have key : ∀ (B : Dict R) (acc : Dict R), (∀ kv1 ∈ B, ∀ kv2 ∈ A, Q (kv2.1 ++ kv1.1)) →
      WF acc → (∀ kv ∈ acc, NormalOrdered kv.1 ∧ Q kv.1) →
      (B.foldlM (fun acc kv1 => A.foldlM (mulInner tiny kv1.1 kv1.2) acc) acc = .error .indexError
        ∧ ∃ s, Q s ∧ s.length = 1) ∨
      ∃ d, B.foldlM (fun acc kv1 => A.foldlM (mulInner tiny kv1.1 kv1.2) acc) acc = .ok d ∧ WF d ∧
        ∀ kv ∈ d, NormalOrdered kv.1 ∧ Q kv.1 := by
    intro B
    induction B with
    | nil => intro acc _ h2 h3; exact Or.inr ⟨acc, rfl, h2, h3⟩
    | cons kv t ih =>
      intro acc hs hw hacc
      rw [List.foldlM_cons]
      rcases mulInner_struct tiny hQ kv.1 kv.2 A acc (hs kv (by simp)) hw hacc with
        ⟨h, h'⟩ | ⟨e, h1, h2, h3⟩
      · left; rw [h]; exact ⟨rfl, h'⟩
      · rw [h1]
        exact ih e (fun x hx => hs x (by simp [hx])) h2 h3
  exact key B [] hs (by simp [WF]) (by simp)

theorem orderQueue_safe_len {tiny : R → Bool} (n : ℕ) :
    ∀ (q : List (Str × R)) (acc d : Dict R), (∀ x ∈ q, Safe x.1) →
      (∀ kv ∈ acc, kv.1.length ≠ 1) → orderQueue tiny n q acc = .ok d →
      ∀ kv ∈ d, kv.1.length ≠ 1 := by
  induction n with
  | zero =>
    intro q acc d _ hacc h
    match q with
    | [] => simp [orderQueue] at h; subst h; exact hacc
    | x :: q => simp [orderQueue] at h
  | succ n ih =>
    intro q acc d hs hacc h
    match q with
    | [] => simp [orderQueue] at h; subst h; exact hacc
    | (s, f) :: q =>
      have hss : Safe s := hs (s, f) (by simp)
      have hi : invs s < s.length * s.length + 1 := by have := invs_le s; omega
      have hl : s.length ≠ 1 := by rcases hss with h | h <;> [simp [h]; omega]
      simp only [orderQueue] at h
      obtain ⟨r, q', e1, e2, _⟩ := orderOne_sem (s.length * s.length + 1) s f q hi hss
        (fun x hx => hs x (by simp [hx]))
      obtain ⟨r2, new, g1, _, _, g4⟩ := orderOne_struct (s.length * s.length + 1) s f q hi hl
      have hr : r = r2 := by rw [e1] at g1; simp at g1; exact g1.1
      rw [e1] at h
      match r, hr with
      | none, _ => exact ih _ _ _ e2 hacc h
      | some (k, v), hr =>
        refine ih _ _ _ e2 ?_ h
        refine mem_addTo_keyP (P := fun k => k.length ≠ 1) hacc ?_
        have := (g4 (k, v) hr.symm).1.length_eq
        simp only at this ⊢; omega

/-! ### dagger -/

theorem flipKey_eq (s : Str) : flipKey s = (s.map fun o => (o.1, !o.2)).reverse := by
  unfold flipKey
  rw [List.map_reverse]
  congr 2
  funext o
  obtain ⟨p, x⟩ := o
  cases x <;> simp

theorem flipKey_flipKey (s : Str) : flipKey (flipKey s) = s := by
  simp [flipKey_eq, List.map_reverse, Function.comp_def]

theorem flipKey_inj {s t : Str} (h : flipKey s = flipKey t) : s = t := by
  rw [← flipKey_flipKey s, h, flipKey_flipKey]

omit [CommRing R] in
theorem set_of_not_mem {d : Dict R} {k : Str} (h : k ∉ d.map (·.1)) (v : R) :
    Dict.set d k v = d ++ [(k, v)] := by
  induction d with
  | nil => rfl
  | cons kv t ih =>
    obtain ⟨k', v'⟩ := kv
    simp only [List.map_cons, List.mem_cons, not_or] at h
    simp only [Dict.set, if_neg (Ne.symm h.1), ih h.2, List.cons_append]

omit [CommRing R] in
/-- The dictionary built by the first loop of `dagger`. -/
theorem dagger_dict {A : Dict R} (hA : WF A) :
    A.foldl (fun d kv => Dict.set d (flipKey kv.1) kv.2) [] = A.map fun kv => (flipKey kv.1, kv.2) := by
  have key : ∀ (A acc : Dict R), (∀ kv ∈ A, flipKey kv.1 ∉ acc.map (·.1)) → WF A →
      A.foldl (fun d kv => Dict.set d (flipKey kv.1) kv.2) acc
        = acc ++ A.map fun kv => (flipKey kv.1, kv.2) := by
    intro A
    induction A with
    | nil => simp
    | cons kv t ih =>
      intro acc h hw
      simp only [WF, List.map_cons, List.nodup_cons] at hw
      rw [List.foldl_cons, set_of_not_mem (h kv (by simp)), ih _ _ hw.2]
      · simp
      · intro x hx
        simp only [List.map_append, List.map_cons, List.map_nil, List.mem_append, List.mem_singleton,
          not_or]
        refine ⟨h x (by simp [hx]), fun e => hw.1 ?_⟩
        rw [← flipKey_inj e]; exact List.mem_map_of_mem hx
  simpa using key A [] (by simp) hA

theorem adjoint_sumOp (A : Dict R) :
    IsAdjoint (sumOp A : FOp R) (sumOp (A.map fun kv => (flipKey kv.1, kv.2))) := by
  induction A with
  | nil => simpa using isAdjoint_zero
  | cons kv t ih =>
    simp only [List.map_cons, sumOp_cons]
    refine IsAdjoint.add (IsAdjoint.smul _ ?_) ih
    rw [flipKey_eq]; exact adjoint_strOp kv.1

theorem earlyAn_zero {s : Str} (h : s.Pairwise fun a b => a.2 = false → b.2 = false) :
    earlyAn s = 0 := by
  induction s with
  | nil => rfl
  | cons o t ih =>
    rw [List.pairwise_cons] at h
    simp only [earlyAn, ih h.2, Nat.add_zero]
    rw [if_neg]
    rintro ⟨h1, h2⟩
    obtain ⟨b, hb, hb2⟩ := List.any_eq_true.1 h2
    have := h.1 b hb h1
    simp [this] at hb2

theorem NormalOrdered.cr_first {s : Str} (h : NormalOrdered s) :
    s.Pairwise fun a b => a.2 = false → b.2 = false := by
  refine List.Pairwise.imp ?_ h
  rintro ⟨p, x⟩ ⟨q, y⟩ h
  cases x <;> cases y <;> simp_all

theorem NormalOrdered.flip_cr_first {s : Str} (h : NormalOrdered s) :
    (flipKey s).Pairwise fun a b => a.2 = false → b.2 = false := by
  rw [flipKey_eq, List.pairwise_reverse, List.pairwise_map]
  refine List.Pairwise.imp ?_ h
  rintro ⟨p, x⟩ ⟨q, y⟩ h
  cases x <;> cases y <;> simp_all

theorem safe_of_cr_first {s : Str} (h : s.Pairwise fun a b => a.2 = false → b.2 = false)
    (hl : s.length ≠ 1) : Safe s := by
  by_cases h0 : s = []
  · exact Or.inl h0
  · right
    have : 0 < s.length := List.length_pos_iff.2 h0
    rw [earlyAn_zero h]; omega

theorem fdagger_sem {tiny : R → Bool} (ht : ExactTiny tiny) {A : Dict R} (hA : WF A)
    (hn : ∀ kv ∈ A, NormalOrdered kv.1 ∧ kv.1.length ≠ 1) :
    ∃ d, fdagger tiny A = .ok d ∧ IsAdjoint (sumOp A : FOp R) (sumOp d) := by
  obtain ⟨e, h1, h2⟩ := normalOrder_sem ht (A.map fun kv => (flipKey kv.1, kv.2)) (by
    intro x hx
    obtain ⟨kv, hkv, rfl⟩ := List.mem_map.1 hx
    refine safe_of_cr_first (hn kv hkv).1.flip_cr_first ?_
    simp [flipKey]; exact (hn kv hkv).2)
  refine ⟨e, by rw [fdagger, dagger_dict hA, h1], ?_⟩
  rw [h2]; exact adjoint_sumOp A

theorem fdagger_struct (tiny : R → Bool) {Q : Str → Prop} (hQ : StrClosed Q) {A : Dict R}
    (hA : WF A) (hs : ∀ kv ∈ A, Q (flipKey kv.1)) :
    (fdagger tiny A = .error .indexError ∧ ∃ s, Q s ∧ s.length = 1) ∨
    ∃ d, fdagger tiny A = .ok d ∧ WF d ∧ ∀ kv ∈ d, NormalOrdered kv.1 ∧ Q kv.1 := by
  rw [fdagger, dagger_dict hA]
  refine normalOrder_struct tiny hQ _ ?_
  intro x hx
  obtain ⟨kv, hkv, rfl⟩ := List.mem_map.1 hx
  exact hs kv hkv

/-! ### Number-conserving operators -/

theorem balanced_closed : StrClosed Balanced where
  perm s t h hs := by unfold Balanced at *; rw [← h.countP_eq, ← h.countP_eq]; exact hs
  contract s p t hs h _ := by
    unfold Balanced at *
    rw [h.countP_eq, h.countP_eq] at hs
    simpa [List.countP_cons] using hs

theorem countP_add_not (s : Str) : s.countP (·.2) + s.countP (fun o => !o.2) = s.length := by
  rw [List.length_eq_countP_add_countP (fun o : Lad => o.2)]
  simp

theorem Balanced.length {s : Str} (h : Balanced s) : s.length = 2 * s.countP (·.2) := by
  have := countP_add_not s
  unfold Balanced at h; omega

theorem lateCr_append_le {s t : Str} (hs : s.Pairwise fun a b => a.2 = false → b.2 = false) :
    lateCr (s ++ t) ≤ t.countP (·.2) := by
  induction s with
  | nil => simpa using lateCr_le_count t
  | cons o s ih =>
    rw [List.pairwise_cons] at hs
    simp only [List.cons_append, lateCr]
    split
    · exact ih hs.2
    · next h =>
      rw [List.countP_append]
      have : s.countP (·.2) = 0 := by
        rw [List.countP_eq_zero]
        intro b hb; have := hs.1 b hb (by simpa using h); simp [this]
      omega

theorem earlyAn_le_count (s : Str) : earlyAn s ≤ s.countP (fun o => !o.2) := by
  induction s with
  | nil => simp [earlyAn]
  | cons o s ih =>
    simp only [earlyAn, List.countP_cons]
    split <;> split <;> simp_all <;> omega

theorem earlyAn_append_le {s t : Str} (ht : t.Pairwise fun a b => a.2 = false → b.2 = false) :
    earlyAn (s ++ t) ≤ s.countP (fun o => !o.2) := by
  induction s with
  | nil => simp [earlyAn_zero ht]
  | cons o s ih =>
    simp only [List.cons_append, earlyAn, List.countP_cons]
    split <;> split <;> simp_all <;> omega

/-- The concatenation of two balanced normal-ordered strings never contracts completely. -/
theorem safe_balanced {s t : Str} (hs : NormalOrdered s) (ht : NormalOrdered t)
    (bs : Balanced s) (bt : Balanced t) : Safe (s ++ t) := by
  have h1 := lateCr_append_le (t := t) hs.cr_first
  have h2 := earlyAn_append_le (s := s) ht.cr_first
  have h3 := bs.length
  have h4 := bt.length
  unfold Balanced at bs bt
  by_cases h0 : s ++ t = []
  · exact Or.inl h0
  · have h5 : 0 < (s ++ t).length := List.length_pos_iff.2 h0
    right
    simp only [List.length_append] at h5 ⊢
    omega

theorem balanced_append {s t : Str} (h : Balanced s) (k : Balanced t) : Balanced (s ++ t) := by
  unfold Balanced at *; simp [List.countP_append]; omega

theorem balanced_flip {s : Str} (h : Balanced s) : Balanced (flipKey s) := by
  unfold Balanced at *
  simp only [flipKey_eq, List.countP_reverse, List.countP_map, Function.comp_def, Bool.not_not]
  exact h.symm

theorem balanced_len {s : Str} (h : Balanced s) : s.length ≠ 1 := by
  have := h.length; omega

theorem NumCons.mul {tiny : R → Bool} (ht : ExactTiny tiny) {A B : Dict R} (hA : NumCons A)
    (hB : NumCons B) :
    ∃ d, fmul tiny A B = .ok d ∧ NumCons d ∧ (sumOp d : FOp R) = sumOp A * sumOp B := by
  obtain ⟨d, h1, h2⟩ := fmul_sem ht A B (fun kv1 h1 kv2 h2 =>
    safe_balanced (hA.ord _ h2) (hB.ord _ h1) (hA.bal _ h2) (hB.bal _ h1))
  refine ⟨d, h1, ?_, h2⟩
  rcases fmul_struct tiny balanced_closed A B
    (fun kv1 h1 kv2 h2 => balanced_append (hA.bal _ h2) (hB.bal _ h1)) with ⟨h, _⟩ | ⟨e, g1, g2, g3⟩
  · rw [h1] at h; simp at h
  · rw [h1] at g1; simp at g1; subst g1
    exact ⟨g2, fun kv h => (g3 kv h).1, fun kv h => (g3 kv h).2⟩

theorem NumCons.dagger {tiny : R → Bool} (ht : ExactTiny tiny) {A : Dict R} (hA : NumCons A) :
    ∃ d, fdagger tiny A = .ok d ∧ NumCons d ∧ IsAdjoint (sumOp A : FOp R) (sumOp d) := by
  obtain ⟨d, h1, h2⟩ := fdagger_sem ht hA.wf
    (fun kv h => ⟨hA.ord kv h, balanced_len (hA.bal kv h)⟩)
  refine ⟨d, h1, ?_, h2⟩
  rcases fdagger_struct tiny balanced_closed hA.wf (fun kv h => balanced_flip (hA.bal kv h)) with
    ⟨h, _⟩ | ⟨e, g1, g2, g3⟩
  · rw [h1] at h; simp at h
  · rw [h1] at g1; simp at g1; subst g1
    exact ⟨g2, fun kv h => (g3 kv h).1, fun kv h => (g3 kv h).2⟩

theorem fsub_eq (tiny : R → Bool) (A B : Dict R) :
    fsub tiny A B = (fneg B).foldl (fun d kv => addTo tiny d kv.1 kv.2) A := by
  unfold fsub fneg
  rw [List.foldl_map]
  simp only [subTo_eq_addTo]

theorem sumOp_fneg (A : Dict R) : (sumOp (fneg A) : FOp R) = - sumOp A := by
  induction A with
  | nil => simp [fneg]
  | cons kv t ih =>
    simp only [fneg, List.map_cons, sumOp_cons] at ih ⊢
    rw [ih]; simp; abel

theorem sumOp_fscale (A : Dict R) (c : R) : (sumOp (fscale A c) : FOp R) = c • sumOp A := by
  induction A with
  | nil => simp [fscale]
  | cons kv t ih =>
    simp only [fscale, List.map_cons, sumOp_cons] at ih ⊢
    rw [ih, smul_add, smul_smul, mul_comm]

theorem sumOp_fadd {tiny : R → Bool} (ht : ExactTiny tiny) (A B : Dict R) :
    (sumOp (fadd tiny A B) : FOp R) = sumOp A + sumOp B := sumOp_foldl_addTo ht B A

theorem sumOp_fsub {tiny : R → Bool} (ht : ExactTiny tiny) (A B : Dict R) :
    (sumOp (fsub tiny A B) : FOp R) = sumOp A - sumOp B := by
  rw [fsub_eq, sumOp_foldl_addTo ht, sumOp_fneg, sub_eq_add_neg]

theorem fneg_keyP {P : Str → Prop} {A : Dict R} (h : ∀ kv ∈ A, P kv.1) : ∀ kv ∈ fneg A, P kv.1 := by
  intro kv hkv
  obtain ⟨y, hy, rfl⟩ := List.mem_map.1 hkv
  exact h y hy

theorem fscale_keyP {P : Str → Prop} {A : Dict R} {c : R} (h : ∀ kv ∈ A, P kv.1) :
    ∀ kv ∈ fscale A c, P kv.1 := by
  intro kv hkv
  obtain ⟨y, hy, rfl⟩ := List.mem_map.1 hkv
  exact h y hy

theorem NumCons.add {tiny : R → Bool} {A B : Dict R} (hA : NumCons A) (hB : NumCons B) :
    NumCons (fadd tiny A B) where
  wf := wf_foldl_addTo B hA.wf
  ord := foldl_addTo_keyP B hA.ord hB.ord
  bal := foldl_addTo_keyP B hA.bal hB.bal

theorem NumCons.sub {tiny : R → Bool} {A B : Dict R} (hA : NumCons A) (hB : NumCons B) :
    NumCons (fsub tiny A B) := by
  rw [fsub_eq]
  exact { wf := wf_foldl_addTo _ hA.wf
          ord := foldl_addTo_keyP _ hA.ord (fneg_keyP hB.ord)
          bal := foldl_addTo_keyP _ hA.bal (fneg_keyP hB.bal) }

theorem NumCons.scale {A : Dict R} (hA : NumCons A) (c : R) : NumCons (fscale A c) where
  wf := by have := hA.wf; unfold WF at *; simpa [fscale, Function.comp_def] using this
  ord := fscale_keyP hA.ord
  bal := fscale_keyP hA.bal

theorem NumCons.neg {A : Dict R} (hA : NumCons A) : NumCons (fneg A) where
  wf := by have := hA.wf; unfold WF at *; simpa [fneg, Function.comp_def] using this
  ord := fneg_keyP hA.ord
  bal := fneg_keyP hA.bal

end SQ
