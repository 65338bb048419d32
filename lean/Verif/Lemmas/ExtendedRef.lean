import Verif.Lemmas.ResponseOrtho
import Verif.Lemmas.ResponseTransfer
import Verif.Lemmas.ExtendedRun

/-!
# Lemmas for linear response in the extended space: the operators on the reference
-/

namespace SQ

/-! ### Operators that begin with an excitation -/

/-- Sums of operators `a†_a a_i S` with `a` in `U` and `i` in `O`. -/
inductive PairLed (O U : ℕ → Prop) : FOp ℝ → Prop
  | lead (a i : ℕ) (S : FOp ℝ) : U a → O i → PairLed O U (cr a * an i * S)
  | add {S T : FOp ℝ} : PairLed O U S → PairLed O U T → PairLed O U (S + T)
  | smul (c : ℝ) {T : FOp ℝ} : PairLed O U T → PairLed O U (c • T)

theorem PairLed.E {O U : ℕ → Prop} {a i : ℕ} (ha : Both U a) (hi : Both O i) (S : FOp ℝ) :
    PairLed O U (SQ.E a i * S) := by
  have e : SQ.E a i * S = cr (2 * a) * an (2 * i) * S + cr (2 * a + 1) * an (2 * i + 1) * S := by
    unfold SQ.E; rw [add_mul]
  rw [e]
  exact (PairLed.lead _ _ _ ha.1 hi.1).add (PairLed.lead _ _ _ ha.2 hi.2)

theorem PairLed.mono {O U O' U' : ℕ → Prop} (h : ∀ p, O p → O' p) (h' : ∀ p, U p → U' p) {T : FOp ℝ}
    (hT : PairLed O U T) : PairLed O' U' T := by
  induction hT with
  | lead a i S ha hi => exact .lead a i S (h' _ ha) (h _ hi)
  | add _ _ h1 h2 => exact h1.add h2
  | smul c _ h1 => exact h1.smul c

theorem PairSpan.mono {O U O' U' : ℕ → Prop} (h : ∀ p, O p → O' p) (h' : ∀ p, U p → U' p) {T : FOp ℝ}
    (hT : PairSpan O U T) : PairSpan O' U' T := by
  induction hT with
  | one => exact .one
  | pair a i ha hi => exact .pair a i (h' _ ha) (h _ hi)
  | add _ _ h1 h2 => exact h1.add h2
  | smul c _ h1 => exact h1.smul c
  | mul _ _ h1 h2 => exact h1.mul h2

/-- No state is excited into one where the orbitals of `U` are empty or those of `O` are full. -/
theorem PairLed.orth {O U : ℕ → Prop} (hd : ∀ p, O p → ¬ U p) {T : FOp ℝ} (hT : PairLed O U T) {x : Fock ℝ}
    (hx : (∀ a, U a → an a x = 0) ∨ ∀ i, O i → cr i x = 0) (y : Fock ℝ) : inner (T y) x = 0 := by
  induction hT with
  | lead a i S ha hi =>
    rw [Module.End.mul_apply]
    rcases hx with hx | hx
    · rw [Module.End.mul_apply, adjoint_cr, hx a ha, inner_zero_right]
    · have e : (cr a * an i : FOp ℝ) = -(an i * cr a) := by
        rw [an_cr_ne (by rintro rfl; exact hd _ hi ha), neg_neg]
      rw [e, LinearMap.neg_apply, Module.End.mul_apply, inner_neg_left, adjoint_an, hx i hi, inner_zero_right, neg_zero]
  | add _ _ h1 h2 => rw [LinearMap.add_apply, inner_add_left, h1, h2, add_zero]
  | smul c _ h1 => rw [LinearMap.smul_apply, inner_smul_left, h1, mul_zero]

theorem eq_zero_of_inner {x : Fock ℝ} (h : ∀ y, inner y x = 0) : x = 0 := by
  apply fock_ext
  intro S
  rw [← inner_ket_left, h]
  simp

theorem PairLed.kills {O U : ℕ → Prop} (hd : ∀ p, O p → ¬ U p) {T Td : FOp ℝ} (hT : PairLed O U T)
    (ha : IsAdjoint T Td) {x : Fock ℝ} (hx : (∀ a, U a → an a x = 0) ∨ ∀ i, O i → cr i x = 0) : Td x = 0 :=
  eq_zero_of_inner fun y => by rw [← ha, hT.orth hd hx]

theorem PairLed.string {O U : ℕ → Prop} (hd : ∀ p, O p → ¬ U p) {C A : List ℕ} (hl : C.length = A.length)
    (h0 : C ≠ []) (hC : ∀ p ∈ C, U p) (hA : ∀ p ∈ A, O p) : PairLed O U (excite C A.reverse) := by
  cases C with
  | nil => exact absurd rfl h0
  | cons c C =>
    cases A with
    | nil => simp at hl
    | cons i A =>
      have h1 := PairSpan.excite hd C A (by simpa using hl) (fun p hp => hC p (by simp [hp]))
        (fun p hp => hA p (by simp [hp]))
      have h2 := h1.an_comm (hd i (hA i (by simp)))
      have e : (SQ.excite (c :: C) (i :: A).reverse : FOp ℝ) = cr c * an i * SQ.excite C A.reverse := by
        calc (SQ.excite (c :: C) (i :: A).reverse : FOp ℝ) = cr c * (SQ.excite C A.reverse * an i) := by
              simp [SQ.excite, mul_assoc]
          _ = cr c * an i * SQ.excite C A.reverse := by rw [← h2.eq, mul_assoc]
      rw [e]
      exact .lead _ _ _ (hC c (by simp)) (hA i (by simp))

/-- The excitations of the active space. -/
theorem lrOps_led {W : RespWf} (hW : W.Proper) (letters : List Char) :
    ∀ T ∈ lrOps W letters, PairLed (· ∈ W.occS) (· ∈ W.unoccS) T := by
  obtain ⟨ho, hu, -⟩ := List.nodup_append.1 hW.nodup
  obtain ⟨hos, hus, -⟩ := List.nodup_append.1 hW.nodupS
  obtain ⟨-, -, c3, c4, c5, c6⟩ := C35_spin hos hus
  have str : ∀ (k : ℕ) (l : List (List ℕ)), 0 < k → Lists l (SpinExcitation W.occS W.unoccS k) →
      ∀ x ∈ l, PairLed (· ∈ W.occS) (· ∈ W.unoccS) (stringOp x) := by
    intro k l hk hl x hx
    obtain ⟨C, I, h1, h2, h3, h4, -, rfl⟩ := (hl.2 x).1 hx
    have e : stringOp (interleave C I) = excite C I.reverse := by
      unfold stringOp
      rw [creators_interleave C I (by omega), annihilators_interleave C I (by omega)]
    rw [e]
    exact PairLed.string hW.disjS (by omega) (by rintro rfl; simp at h3; omega) (fun p hp => h1.subset hp)
      (fun p hp => h2.subset hp)
  have b1 : ∀ T ∈ (if 's' ∈ letters then (iterateT1sa W.occ W.unocc).map fun x => qOp x.1 x.2.1 else []),
      PairLed (· ∈ W.occS) (· ∈ W.unoccS) T := by
    intro T h
    split at h
    · obtain ⟨x, hx, rfl⟩ := List.mem_map.1 h
      obtain ⟨h1, h2, -⟩ := ((C35_sa_singles_pairs ho hu).1.2 x).1 hx
      have := PairLed.E (hW.bothU h1) (hW.bothO h2) 1
      rw [mul_one] at this
      exact this.smul _
    · simp at h
  have b2 : ∀ T ∈ (if 'd' ∈ letters then (iterateT2sa W.occ W.unocc).map saDoubleOp else []),
      PairLed (· ∈ W.occS) (· ∈ W.unoccS) T := by
    intro T h
    split at h
    · obtain ⟨x, hx, rfl⟩ := List.mem_map.1 h
      obtain ⟨h1, h2, -⟩ := ((C35_sa_doubles ho hu).2 x).1 hx
      obtain ⟨i1, j1⟩ := pairFrom_mem h1
      obtain ⟨a1, b1⟩ := pairFrom_mem h2
      have p1 := PairLed.E (hW.bothU a1) (hW.bothO i1) (E x.b x.j)
      have p2 := PairLed.E (hW.bothU a1) (hW.bothO j1) (E x.b x.i)
      unfold saDoubleOp
      split
      · have e : ∀ A B : FOp ℝ, A - B = A + (-1 : ℝ) • B := fun A B => by
          rw [neg_one_smul, sub_eq_add_neg]
        rw [e]
        exact (p1.add (p2.smul _)).smul _
      · exact (p1.add p2).smul _
    · simp at h
  have bs : ∀ (k : ℕ) (l : List (List ℕ)) (c : Prop) [Decidable c], 0 < k →
      Lists l (SpinExcitation W.occS W.unoccS k) → ∀ T ∈ (if c then l.map stringOp else []),
      PairLed (· ∈ W.occS) (· ∈ W.unoccS) T := by
    intro k l c _ hk hl T h
    split at h
    · obtain ⟨x, hx, rfl⟩ := List.mem_map.1 h
      exact str k l hk hl x hx
    · simp at h
  have b3 := bs 3 _ ('t' ∈ letters) (by omega) c3
  have b4 := bs 4 _ ('q' ∈ letters) (by omega) c4
  have b5 := bs 5 _ ('5' ∈ letters) (by omega) c5
  have b6 := bs 6 _ ('6' ∈ letters) (by omega) c6
  intro T hT
  rcases List.mem_append.1 hT with h | h
  · rcases List.mem_append.1 h with h | h
    · rcases List.mem_append.1 h with h | h
      · rcases List.mem_append.1 h with h | h
        · rcases List.mem_append.1 h with h | h
          · exact b1 T h
          · exact b2 T h
        · exact b3 T h
      · exact b4 T h
    · exact b5 T h
  · exact b6 T h

/-! ### The reference determinant -/

section
variable {W : ExtWf}

/-- The orbitals filled in the reference. -/
def ExtWf.Filled (W : ExtWf) (p : ℕ) : Prop := p < 2 * W.ci.nI ∨ p ∈ W.occS

/-- The orbitals empty in the reference. -/
def ExtWf.Empty (W : ExtWf) (p : ℕ) : Prop := p ∈ W.unoccS ∨ 2 * (W.ci.nI + W.ci.nA) ≤ p

theorem ExtWf.Proper.disj (hW : W.Proper) (p : ℕ) (h : W.Filled p) : ¬ W.Empty p := by
  rintro (h' | h')
  · rcases h with h | h
    · have := (hW.base.actS p (by simp [h'])).1; omega
    · exact hW.base.disjS p h h'
  · rcases h with h | h
    · omega
    · have := (hW.base.actS p (by simp [h])).2; omega

theorem ExtWf.Proper.ref_filled (_hW : W.Proper) {p : ℕ} (h : W.Filled p) : cr p (ket W.refDet : Fock ℝ) = 0 := by
  rw [ket, cr_single, if_pos]
  unfold RespWf.refDet
  rcases h with h | h <;> simp [h]

theorem ExtWf.Proper.ref_empty (hW : W.Proper) {p : ℕ} (h : W.Empty p) : an p (ket W.refDet : Fock ℝ) = 0 := by
  rw [ket, an_single, if_neg]
  intro hp
  refine hW.disj p ?_ h
  unfold RespWf.refDet at hp
  simpa [ExtWf.Filled] using hp

theorem ExtWf.Proper.pair_filled (hW : W.Proper) {k : ℕ × ℕ} (hk : k ∈ W.hfLike) : Both W.Filled k.1 ∧ Both W.Empty k.2 := by
  obtain ⟨h1, h2, -⟩ := hW.pairs k hk
  constructor
  · rcases h1 with h1 | h1
    · exact ⟨.inl (by omega), .inl (by omega)⟩
    · exact ⟨.inr (hW.base.bothO h1).1, .inr (hW.base.bothO h1).2⟩
  · rcases h2 with h2 | h2
    · exact ⟨.inl (hW.base.bothU h2).1, .inl (hW.base.bothU h2).2⟩
    · exact ⟨.inr (by omega), .inr (by omega)⟩

/-- All operators on the reference: they begin with an excitation out of it and commute. -/
theorem ExtWf.Proper.refOps_led (hW : W.Proper) (letters : List Char) {T : FOp ℝ} (h : T ∈ W.refOps letters) :
    PairLed W.Filled W.Empty T := by
  rcases List.mem_append.1 h with h | h
  · obtain ⟨k, hk, rfl⟩ := List.mem_map.1 h
    obtain ⟨h1, h2⟩ := hW.pair_filled hk
    have := PairLed.E h2 h1 1
    rw [mul_one] at this
    exact this.smul _
  · exact (lrOps_led hW.base letters T h).mono (fun p hp => .inr hp) (fun p hp => .inl hp)

theorem ExtWf.Proper.ref_kills (hW : W.Proper) (letters : List Char) {T Td : FOp ℝ} (h : T ∈ W.refOps letters)
    (ha : IsAdjoint T Td) : Td (ket W.refDet) = 0 :=
  (hW.refOps_led letters h).kills hW.disj ha (.inl fun _ => hW.ref_empty)

/-- `[a_p, E_mn] = 0` unless `p` belongs to `m`. -/
theorem an_E {p m n : ℕ} (h : p / 2 ≠ m) (x : Fock ℝ) : an p (E m n x) = E m n (an p x) := by
  have := PairSpan.an_comm (i := p) (U := fun q => q / 2 = m) (O := fun _ => True) h
    (PairSpan.E (a := m) (i := n) ⟨by show 2 * m / 2 = m; omega, by show (2 * m + 1) / 2 = m; omega⟩ ⟨trivial, trivial⟩)
  exact congrArg (fun T : FOp ℝ => T x) this.eq

theorem cr_E {p m n : ℕ} (h : p / 2 ≠ n) (x : Fock ℝ) : cr p (E m n x) = E m n (cr p x) := by
  have key : ∀ y, inner y (cr p (E m n x)) = inner y (E m n (cr p x)) := fun y => by
    rw [← adjoint_an, ← adjoint_E n m, ← adjoint_E n m, ← adjoint_an, an_E h]
  have := eq_zero_of_inner (x := cr p (E m n x) - E m n (cr p x)) fun y => by
    rw [inner_sub_right, key, sub_self]
  exact sub_eq_zero.1 this

/-- De-exciting in the active space after an excitation out of or into another orbital. -/
theorem ExtWf.Proper.act_kills_q (hW : W.Proper) (letters : List Char) {T Td : FOp ℝ} (h : T ∈ lrOps W.toRespWf letters)
    (ha : IsAdjoint T Td) {k : ℕ × ℕ} (hk : k ∈ W.hfLike) : Td (qOp k.2 k.1 (ket W.refDet)) = 0 := by
  refine (lrOps_led hW.base letters T h).kills hW.base.disjS ha ?_
  obtain ⟨h1, h2, h3⟩ := hW.pairs k hk
  unfold qOp
  rcases h3 with h3 | h3
  · right
    intro i hi
    have := (hW.base.actS i (by simp [hi])).1
    rw [LinearMap.smul_apply, map_smul, cr_E (by omega), hW.ref_filled (.inr hi), map_zero, smul_zero]
  · left
    intro a ha
    have := (hW.base.actS a (by simp [ha])).2
    rw [LinearMap.smul_apply, map_smul, an_E (by omega), hW.ref_empty (.inl ha), map_zero, smul_zero]

end

/-! ### Commutators with operators whose adjoints annihilate the state -/

section
variable {Ψ : Fock ℝ} {H X Xd Y Yd : FOp ℝ}

theorem killed_comm (hH : IsAdjoint H H) (hX : IsAdjoint X Xd) (kX : Xd Ψ = 0) :
    expv Ψ (comm H X) = inner (X Ψ) (H Ψ) := by
  rw [expv_comm, ← hX.symm, kX, inner_zero_left, sub_zero, ← hH, inner_comm]

theorem killed_metric (hX : IsAdjoint X Xd) (hY : IsAdjoint Y Yd) (kX : Xd Ψ = 0) (kY : Yd Ψ = 0) :
    expv Ψ (comm Xd Y) = inner (X Ψ) (Y Ψ) ∧ expv Ψ (comm Xd Yd) = 0 := by
  rw [expv_comm, expv_comm, kX, kY, map_zero, map_zero, map_zero, inner_zero_right, ← hX, sub_zero, sub_zero]
  exact ⟨rfl, rfl⟩

theorem killed_dcomm (hH : IsAdjoint H H) (hX : IsAdjoint X Xd) (hY : IsAdjoint Y Yd) (kX : Xd Ψ = 0) (kY : Yd Ψ = 0) :
    expv Ψ (dcomm Xd H Y) = inner (X Ψ) (H (Y Ψ)) - 1 / 2 * inner (Yd (X Ψ)) (H Ψ) - 1 / 2 * inner (Xd (Y Ψ)) (H Ψ) ∧
    expv Ψ (dcomm Xd H Yd) = - 1 / 2 * inner (Y (X Ψ)) (H Ψ) - 1 / 2 * inner (X (Y Ψ)) (H Ψ) := by
  have e1 : ∀ x, inner Ψ (Xd x) = inner (X Ψ) x := fun x => (hX _ _).symm
  have e2 : ∀ x, inner Ψ (Yd x) = inner (Y Ψ) x := fun x => (hY _ _).symm
  have e3 : ∀ x, inner Ψ (Y x) = 0 := fun x => by rw [← hY.symm, kY, inner_zero_left]
  have e4 : ∀ x, inner Ψ (H x) = inner x (H Ψ) := fun x => by rw [← hH, inner_comm]
  rw [expv_dcomm, expv_dcomm]
  simp only [e1, e2, e3, e4, kX, kY, map_zero, inner_zero_right, inner_zero_left, mul_zero]
  rw [← hY.symm, ← hY, ← hX]
  constructor <;> ring

end

/-! ### The orbital operators -/

section
variable {tiny : ℝ → Bool} {ci : CIInfo}

theorem G1sa_exc (ht : ExactTiny tiny) (c : ℝ) {i a : ℕ} (hi : i < ci.nI + ci.nA + ci.nV)
    (ha : a < ci.nI + ci.nA + ci.nV) :
    ∃ d, Epq tiny a i = .ok d ∧ G1sa tiny c i a false = .ok (frmul c d) ∧ ExcGen ci a i (frmul c d) ∧
      sumOp (frmul c d) = c • E a i := by
  obtain ⟨d, h1, h2, h3⟩ := den_Epq (R := ℝ) ht a i
  refine ⟨d, h1, by unfold G1sa; rw [h1]; rfl, ⟨⟨h2.rmul c, ?_⟩, excStr_frmul (excStr_Epq h1) c⟩,
    by rw [sumOp_frmul, h3]⟩
  exact (keys_Epq (P := (· < 2 * (ci.nI + ci.nA + ci.nV))) (both_lt ha) (both_lt hi) d h1).frmul c

/-- The orbital operators of a loop over pairs. -/
theorem exc_list (ht : ExactTiny tiny) {f : ℕ × ℕ → Res (Dict ℝ)}
    (hf : ∀ k d, Epq tiny k.2 k.1 = .ok d → f k = .ok (frmul (Real.sqrt 2)⁻¹ d)) (l : List (ℕ × ℕ))
    (h : ∀ k ∈ l, k.1 < ci.nI + ci.nA + ci.nV ∧ k.2 < ci.nI + ci.nA + ci.nV) :
    ∃ Q, l.foldlM (fun Q k => do let op ← f k; pure (Q ++ [op])) [] = .ok Q ∧
      List.Forall₂ (fun k q => ExcGen ci k.2 k.1 q ∧ sumOp q = qOp k.2 k.1) l Q := by
  have key : ∀ (l : List (ℕ × ℕ)) (Q0 : List (Dict ℝ)),
      (∀ k ∈ l, k.1 < ci.nI + ci.nA + ci.nV ∧ k.2 < ci.nI + ci.nA + ci.nV) →
      ∃ Q, l.foldlM (fun Q k => do let op ← f k; pure (Q ++ [op])) Q0 = .ok (Q0 ++ Q) ∧
        List.Forall₂ (fun k q => ExcGen ci k.2 k.1 q ∧ sumOp q = qOp k.2 k.1) l Q := by
    intro l
    induction l with
    | nil => intro Q0 _; exact ⟨[], by rw [List.append_nil]; rfl, .nil⟩
    | cons k l ih =>
      intro Q0 h
      obtain ⟨h1, h2⟩ := h k (by simp)
      obtain ⟨d, g1, -, g3, g4⟩ := G1sa_exc (ci := ci) ht (Real.sqrt 2)⁻¹ h1 h2
      obtain ⟨Q, q1, q2⟩ := ih (Q0 ++ [frmul (Real.sqrt 2)⁻¹ d]) fun k' hk' => h k' (by simp [hk'])
      refine ⟨_ :: Q, ?_, .cons ⟨g3, g4⟩ q2⟩
      rw [List.foldlM_cons, hf k d g1]
      exact q1.trans (by rw [List.append_assoc]; rfl)
  obtain ⟨Q, h1, h2⟩ := key l [] h
  exact ⟨Q, h1, h2⟩

theorem lrQ_exc (ht : ExactTiny tiny) {W : RespWf} (hW : W.Proper) :
    ∃ Q, lrQ tiny W = .ok Q ∧
      List.Forall₂ (fun k q => ExcGen W.ci k.2 k.1 q ∧ sumOp q = qOp k.2 k.1) W.kappa Q := by
  unfold lrQ
  refine exc_list ht (f := fun pq => G1sa tiny (Real.sqrt 2)⁻¹ pq.1 pq.2 false) (fun k d hd => ?_) W.kappa fun k hk => ?_
  · unfold G1sa; rw [hd]; rfl
  · obtain ⟨h1, h2⟩ := hW.kappa k hk
    unfold RespWf.numOrbs at h2
    unfold NonRedundant at h1
    exact ⟨by omega, h2⟩

theorem hfQ_exc (ht : ExactTiny tiny) {W : ExtWf} (hW : W.Proper) :
    ∃ Q, hfQ tiny W = .ok Q ∧
      List.Forall₂ (fun k q => ExcGen W.ci k.2 k.1 q ∧ sumOp q = qOp k.2 k.1) W.hfLike Q := by
  have e : hfQ tiny W = W.hfLike.foldlM (fun Q k => do
      let op ← (do let op ← Epq tiny k.2 k.1; pure (frmul (Real.sqrt 2)⁻¹ op) : Res (Dict ℝ)); pure (Q ++ [op])) [] := by
    unfold hfQ
    congr 1
  rw [e]
  refine exc_list ht (fun k d hd => by rw [hd]; rfl) W.hfLike fun k hk => ?_
  obtain ⟨h1, h2, h3⟩ := hW.pairs k hk
  have e1 : k.1 < W.ci.nI + W.ci.nA + W.ci.nV := by unfold NonRedundant at h3; omega
  refine ⟨e1, ?_⟩
  rcases h2 with h2 | h2
  · have := hW.base.act k.2 (by simp [h2]); omega
  · have := h2.2
    unfold RespWf.numOrbs at this
    omega

end

end SQ
