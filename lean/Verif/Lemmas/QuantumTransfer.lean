import Verif.Spec.QuantumTransfer
import Verif.Lemmas.QuantumDipole
import Verif.Lemmas.ExtendedRun
import Verif.Lemmas.ExtendedRef
import Verif.Lemmas.Uncore
import Verif.Lemmas.Postselect
import Verif.Lemmas.StateKernel

/-!
# Lemmas: state-transfer and self-consistent linear response with a quantum computer
-/

namespace SQ

/-! ### The expansion of an operator on the Hartree-Fock determinant -/

theorem hfString_isDet (n na nb : ℕ) : IsDet n (hfString n na nb) := by
  refine ⟨by simp [hfString], fun c hc => ?_⟩
  obtain ⟨i, -, rfl⟩ := List.mem_map.1 hc
  split_ifs <;> simp

theorem detSet_hfString (n na nb : ℕ) : detSet (hfString n na nb) = hfOcc n na nb := by
  unfold detSet hfOcc
  rw [(hfString_isDet n na nb).1]
  refine Finset.filter_congr fun p hp => ?_
  unfold hfString
  rw [List.getElem?_map, List.getElem?_range (Finset.mem_range.1 hp), Option.map_some]
  by_cases h1 : p % 2 = 0 ∧ p / 2 < na
  · simp [h1]
  · by_cases h2 : p % 2 = 1 ∧ p / 2 < nb
    · simp [h1, h2]
    · simp [h1, h2]

theorem decode_bits {n : ℕ} {d : List Char} (h : IsDet n d) :
    decode n (bitsToNat (d.map fun c => decide (c = '1'))) = detSet d := by
  ext p
  rw [mem_decode]
  unfold detSet
  rw [Finset.mem_filter, Finset.mem_range, h.1]
  refine and_congr_right fun hp => ?_
  have := testBit_bitsToNat (d.map fun c => decide (c = '1')) p (by rw [List.length_map, h.1]; exact hp)
  rw [List.length_map, h.1] at this
  rw [this, List.getD_eq_getElem?_getD, List.getElem?_map, List.getElem?_eq_getElem (by rw [h.1]; exact hp)]
  simp

theorem bitsToNat_det_lt {n : ℕ} {d : List Char} (h : IsDet n d) :
    bitsToNat (d.map fun c => decide (c = '1')) < 2 ^ (2 * n) := by
  have := bitsToNat_lt (d.map fun c => decide (c = '1'))
  rwa [List.length_map, h.1] at this

/-- `format(det, "0{2n}b")` of a determinant. -/
theorem format_det {n : ℕ} (hn : 0 < n) {d : ℕ} (hd : d < 2 ^ (2 * n)) :
    IsDet n ((binFormat (2 * n) d).map fun b => if b then '1' else '0') ∧
      detSet ((binFormat (2 * n) d).map fun b => if b then '1' else '0') = decode n d := by
  have hl := binFormat_eq (n := 2 * n) (by omega) hd
  have hlen : ((binFormat (2 * n) d).map fun b => if b then '1' else '0').length = 2 * n := by
    simp [hl]
  refine ⟨⟨hlen, fun c hc => ?_⟩, ?_⟩
  · obtain ⟨b, -, rfl⟩ := List.mem_map.1 hc
    split_ifs <;> simp
  · ext p
    rw [mem_decode]
    unfold detSet
    rw [Finset.mem_filter, Finset.mem_range, hlen]
    refine and_congr_right fun hp => ?_
    rw [hl, List.getElem?_map, List.getElem?_map, List.getElem?_reverse (by simpa using hp), List.length_range,
      List.getElem?_range (by omega)]
    simp

theorem bit_eq (d k : ℕ) : (d >>> k) &&& 1 = if d.testBit k then 1 else 0 := by
  rw [Nat.and_one_is_mod, Nat.shiftRight_eq_div_pow, Nat.testBit_eq_decide_div_mod_eq]
  have := Nat.mod_two_eq_zero_or_one (d / 2 ^ k)
  rcases this with h | h <;> simp [h]

/-- The loop over one string. -/
theorem expandString_ok {n : ℕ} (L : Str) : ∀ (det ph : ℕ), (∀ o ∈ L, o.1 < 2 * n) → det < 2 ^ (2 * n) →
    (∃ d ph', expandString n L det ph = .ok (some (d, ph')) ∧ d < 2 ^ (2 * n) ∧ ∀ c : ℝ,
      strOp L.reverse (sgl (decode n det) (c * (-1) ^ ph)) = sgl (decode n d) (c * (-1) ^ ph')) ∨
    (expandString n L det ph = .ok none ∧ ∀ c : ℝ, strOp L.reverse (sgl (decode n det) c) = 0) := by
  induction L with
  | nil => intro det ph _ hd; exact .inl ⟨det, ph, rfl, hd, fun c => by simp [strOp]⟩
  | cons o t ih =>
    intro det ph hl hd
    obtain ⟨p, b⟩ := o
    have hp : p < 2 * n := hl (p, b) (by simp)
    have ht := fun x hx => hl x (List.mem_cons_of_mem _ hx)
    have hsh : (2 : ℕ) ^ (2 * n - 1 - p) = 1 <<< (2 * n - 1 - p) := by rw [Nat.shiftLeft_eq, one_mul]
    have hb := bitcount_parity (n := n) (det := det ^^^ (1 <<< (2 * n - 1 - p))) (o := p) (by omega)
    have hlt := xor_lt hd hp
    rw [expandString, if_neg (by omega), hsh]
    simp only [bit_eq]
    generalize bitcount ((det ^^^ (1 <<< (2 * n - 1 - p))) &&& (parityCheck n).getD p 0) = k at hb ⊢
    by_cases hm : det.testBit (2 * n - 1 - p) = true
    · have hmem : p ∈ decode n det := mem_decode.2 ⟨hp, hm⟩
      cases b
      · simp only [hm, if_true]
        rw [if_neg (by simp), if_neg (by simp), if_neg (by simp), if_pos (by simp)]
        have hx := decode_xor_mem hmem
        have key : ∀ c : ℝ, ladder (p, false) (sgl (decode n det) (c * (-1) ^ ph)) = sgl (decode n (det ^^^ (1 <<< (2 * n - 1 - p))))
            (c * (-1) ^ (ph + k)) := by
          intro c
          simp only [ladder, Bool.false_eq_true, if_false, an_single, if_pos hmem]
          rw [hx]
          congr 1
          rw [pow_add, hb, hx, filter_lt_erase_self _ _ _ (lt_irrefl p)]
          unfold phase; ring
        rcases ih _ (ph + k) ht hlt with
          ⟨d, ph', e1, e2, e3⟩ | ⟨e1, e2⟩
        · exact .inl ⟨d, ph', e1, e2, fun c => by rw [strOp_snoc, key, e3]⟩
        · refine .inr ⟨e1, fun c => ?_⟩
          have := key (c * (-1) ^ ph)
          rw [mul_assoc, ← pow_add, ← two_mul, pow_mul] at this
          simp only [even_two, Even.neg_pow, one_pow, mul_one] at this
          rw [strOp_snoc, this, e2]
      · simp only [hm, if_true]
        rw [if_neg (by simp), if_pos (by simp)]
        refine .inr ⟨rfl, fun c => ?_⟩
        rw [strOp_snoc]
        simp only [ladder, if_true, cr_single, if_pos hmem, map_zero]
    · have hmem : p ∉ decode n det := fun h => hm (mem_decode.1 h).2
      cases b
      · simp only [hm]
        rw [if_neg (by simp), if_neg (by simp), if_pos (by simp)]
        refine .inr ⟨rfl, fun c => ?_⟩
        rw [strOp_snoc]
        simp only [ladder, Bool.false_eq_true, if_false, an_single, if_neg hmem, map_zero]
      · simp only [hm]
        rw [if_pos (by simp)]
        have hx := decode_xor_notMem hp hmem
        have hf : (insert p (decode n det)).filter (· < p) = (decode n det).filter (· < p) := by
          rw [Finset.filter_insert, if_neg (lt_irrefl p)]
        have key : ∀ c : ℝ, ladder (p, true) (sgl (decode n det) (c * (-1) ^ ph)) = sgl (decode n (det ^^^ (1 <<< (2 * n - 1 - p))))
            (c * (-1) ^ (ph + k)) := by
          intro c
          simp only [ladder, if_true, cr_single, if_neg hmem]
          rw [hx]
          congr 1
          rw [pow_add, hb, hx, hf]
          unfold phase; ring
        rcases ih _ (ph + k) ht hlt with
          ⟨d, ph', e1, e2, e3⟩ | ⟨e1, e2⟩
        · exact .inl ⟨d, ph', e1, e2, fun c => by rw [strOp_snoc, key, e3]⟩
        · refine .inr ⟨e1, fun c => ?_⟩
          have := key (c * (-1) ^ ph)
          rw [mul_assoc, ← pow_add, ← two_mul, pow_mul] at this
          simp only [even_two, Even.neg_pow, one_pow, mul_one] at this
          rw [strOp_snoc, this, e2]

theorem csfFock_append (s : Csf) (h : s.1.length = s.2.length) (c : ℝ) (d : List Char) :
    csfFock (s.1 ++ [c], s.2 ++ [d]) = csfFock s + sgl (detSet d) c := by
  unfold csfFock
  rw [List.zip_append h]
  simp

theorem one_mem {d : List Char} (h : (detSet d).Nonempty) : '1' ∈ d := by
  obtain ⟨p, hp⟩ := h
  unfold detSet at hp
  exact List.mem_of_getElem? (Finset.mem_filter.1 hp).2

/-- The expansion of `A |HF⟩`. -/
theorem expandHF_ok {n : ℕ} (hn : 0 < n) (na nb : ℕ) {A : Dict ℝ} (hA : ∀ kv ∈ A, ∀ o ∈ kv.1, o.1 < 2 * n) :
    ∃ s, expandHF n na nb A = .ok s ∧ Csf.Good n s ∧ csfFock s = sumOp A (ket (hfOcc n na nb)) ∧
      ((∀ kv ∈ A, strWeight (fun _ => 1) kv.1 = 0) → (hfOcc n na nb).Nonempty → s.Electrons) := by
  have hi := hfString_isDet n na nb
  set hf := bitsToNat ((hfString n na nb).map fun c => decide (c = '1')) with hhf
  have hd : decode n hf = hfOcc n na nb := by rw [hhf, decode_bits hi, detSet_hfString]
  have hlt : hf < 2 ^ (2 * n) := bitsToNat_det_lt hi
  have hp : parseBits (hfString n na nb) = .ok hf := by
    unfold parseBits
    rw [if_neg]
    intro h
    have := hi.1
    rw [h] at this
    simp at this
    omega
  unfold expandHF
  rw [hp]
  simp only [ok_bind]
  have key : ∀ (A : Dict ℝ) (s : Csf), (∀ kv ∈ A, ∀ o ∈ kv.1, o.1 < 2 * n) → Csf.Good n s →
      ∃ s', A.foldlM (m := Res) (fun (st : Csf) kv => do
        match ← expandString n kv.1.reverse hf 0 with
        | none => pure st
        | some r =>
          pure (st.1 ++ [kv.2 * (-1) ^ r.2], st.2 ++ [(binFormat (2 * n) r.1).map fun b => if b then '1' else '0'])) s
        = .ok s' ∧ Csf.Good n s' ∧ csfFock s' = csfFock s + sumOp A (ket (hfOcc n na nb)) ∧
        ((∀ kv ∈ A, strWeight (fun _ => 1) kv.1 = 0) → (hfOcc n na nb).Nonempty → s.Electrons → s'.Electrons) := by
    intro A
    induction A with
    | nil => intro s _ hs; exact ⟨s, rfl, hs, by simp [sumOp], fun _ _ h => h⟩
    | cons kv A ih =>
      intro s hA hs
      rw [List.foldlM_cons]
      have e0 : sumOp (kv :: A) (ket (hfOcc n na nb)) = kv.2 • strOp kv.1 (ket (hfOcc n na nb))
          + sumOp A (ket (hfOcc n na nb)) := by
        simp [sumOp]
      rcases expandString_ok kv.1.reverse hf 0 (fun o ho => hA kv (by simp) o (by simpa using ho)) hlt with
        ⟨d, ph, e1, e2, e3⟩ | ⟨e1, e2⟩
      · obtain ⟨f1, f2⟩ := format_det hn e2
        rw [e1]
        simp only [ok_bind]
        obtain ⟨s', g1, g2, g3, g4⟩ := ih (s.1 ++ [kv.2 * (-1) ^ ph],
          s.2 ++ [(binFormat (2 * n) d).map fun b => if b then '1' else '0']) (fun kv h => hA kv (by simp [h]))
          ⟨by simp [hs.1], fun x hx => by
            rcases List.mem_append.1 hx with hx | hx
            · exact hs.2 x hx
            · rw [List.mem_singleton.1 hx]; exact f1⟩
        refine ⟨s', g1, g2, ?_, fun hw hne hs => g4 (fun kv h => hw kv (by simp [h])) hne fun x hx => ?_⟩
        swap
        · rcases List.mem_append.1 hx with hx | hx
          · exact hs x hx
          · rw [List.mem_singleton.1 hx]
            refine one_mem (f2 ▸ ?_)
            have := e3 1
            rw [List.reverse_reverse, pow_zero, mul_one, hd] at this
            have hc : coeff (strOp kv.1 (sgl (hfOcc n na nb) (1 : ℝ))) (decode n d) ≠ 0 := by
              rw [this, coeff_sgl, if_pos rfl]
              simp
            have hw0 := hw kv (by simp)
            have hw := shift_strOp (fun _ => 1) kv.1 _ _ hc
            rw [hw0] at hw
            unfold weight at hw
            simp only [Finset.sum_const, nsmul_eq_mul, mul_one, add_zero] at hw
            rw [← Finset.card_pos]
            have := Finset.card_pos.2 hne
            omega
        rw [g3, csfFock_append s hs.1, f2, e0, add_assoc]
        congr 2
        have := e3 kv.2
        rw [List.reverse_reverse, pow_zero, mul_one, hd] at this
        rw [← this, ket, ← map_smul]
        congr 1
        rw [smul_sgl, mul_one]
      · rw [e1]
        simp only [ok_bind]
        obtain ⟨s', g1, g2, g3, g4⟩ := ih s (fun kv h => hA kv (by simp [h])) hs
        refine ⟨s', g1, g2, ?_, fun hw => g4 fun kv h => hw kv (by simp [h])⟩
        have := e2 1
        rw [List.reverse_reverse, hd] at this
        rw [g3, e0, ket, this, smul_zero, zero_add]
  obtain ⟨s', g1, g2, g3, g4⟩ := key A ([], []) hA ⟨rfl, by simp⟩
  refine ⟨s', g1, g2, ?_, fun hw hne => g4 hw hne (by simp [Csf.Electrons])⟩
  rw [g3]
  simp [csfFock]

/-! ### Matrix elements of the interface -/

section
variable {tiny big : ℝ → Bool} {W : RespWf} {U Ud : FOp ℝ} {qcsf : Csf → Dict ℝ → Csf → Res ℝ}

/-- The folded operator acts on the active part as the operator acts on the whole state. -/
theorem fold_act {ci : CIInfo} (ht : ExactTiny tiny) (hs : AnsatzSpace ci ci.nA) {A : Dict ℝ} (hA : ActOp ci A)
    (v : Vec ℝ) : ∃ w, stateOf ci w = sumOp (getFolded ci.nI ci.nA ci.nV A) (stateOf ci v) ∧
      emb ci w = sumOp A (emb ci v) := by
  have hg := hA.gen
  obtain ⟨f1, f2⟩ := getFolded_inv hg.1 hg.2
  have hc : ci.ClosedOn (· < 2 * ci.nA) := by
    intro S S' h1 h2 h3 h4
    refine hs.closed S S' h1 (fun p hp => h2 p fun h => hp ?_) h3 h4
    dsimp only at h
    have := hs.fits
    omega
  obtain ⟨w, hw, ew⟩ := applyOp_closed (th := .one) ht hs.valid hc (fun _ h => h) trivial v f1 f2
  obtain ⟨w', h1, h2⟩ := applyAct (th := .one) ht hs trivial (fun _ v => .ok v) hA v
  have : propagateState tiny .one ci (fun _ v => .ok v) true false [.op A] v = .ok w := by
    simpa [propagateState, propStep] using hw
  rw [this] at h1
  obtain rfl := Except.ok.inj h1
  exact ⟨w, ew, h2⟩

/-- A folded operator between two linear combinations. -/
theorem ExactCsfs.elem (hq : ExactCsfs W qcsf) (hR : W.Rotates U Ud) {A : Dict ℝ} (hA : GenOp W.ci A)
    (hsym : ∀ x y, ActiveState W.ci.nI W.ci.nA x → ActiveState W.ci.nI W.ci.nA y →
      inner x (sumOp A y) = inner y (sumOp A x)) {bra ket : Csf} (h1 : Csf.Good W.ci.nA bra)
    (h2 : Csf.Good W.ci.nA ket) (h3 : bra.Electrons) (h4 : ket.Electrons) {b k : Vec ℝ} (hb : csfFock bra = stateOf W.ci b) (hk : csfFock ket = stateOf W.ci k) :
    qcsf bra (getFolded W.ci.nI W.ci.nA W.ci.nV A) ket
      = .ok (inner (U (emb W.ci b)) (sumOp A (U (emb W.ci k)))) := by
  obtain ⟨f1, f2⟩ := getFolded_inv hA.1 hA.2
  have sem := fun {x y : Fock ℝ} (hx : Below (2 * W.ci.nA) x) (hy : Below (2 * W.ci.nA) y) =>
    getFolded_sem _ _ _ A hA.1.ord hA.1.bal (fun kv hk o ho => (hA.2 kv hk).1 o ho) hx hy
  obtain ⟨b', b1, b2⟩ := hR.run b
  obtain ⟨k', k1, k2⟩ := hR.run k
  rw [hq _ f1 (fun kv hk o ho => (f2 kv hk).1 o ho) (fun x y hx hy => by
    rw [sem hx hy, sem hy hx, hsym _ _ (activeState_core hx) (activeState_core hy)]) _ _ h1 h2 h3 h4 b k b' k' hb hk b1 k1,
    sem (below_stateOf _ _) (below_stateOf _ _), ← b2, ← k2]
  rfl

/-! ### The dictionary of states -/

theorem forall₂_mem_right {α β : Type} {R : α → β → Prop} {l : List α} {l' : List β} (h : List.Forall₂ R l l') {b : β}
    (hb : b ∈ l') : ∃ a ∈ l, R a b := by
  induction h with
  | nil => simp at hb
  | cons h _ ih =>
    rcases List.mem_cons.1 hb with rfl | hb
    · exact ⟨_, by simp, h⟩
    · obtain ⟨a, h1, h2⟩ := ih hb
      exact ⟨a, by simp [h1], h2⟩

theorem forall₂_mem_left {α β : Type} {R : α → β → Prop} {l : List α} {l' : List β} (h : List.Forall₂ R l l') {a : α}
    (ha : a ∈ l) : ∃ b ∈ l', R a b := by
  induction h with
  | nil => simp at ha
  | cons h _ ih =>
    rcases List.mem_cons.1 ha with rfl | ha
    · exact ⟨_, by simp, h⟩
    · obtain ⟨b, h1, h2⟩ := ih ha
      exact ⟨b, by simp [h1], h2⟩

/-- The state of a key, without the ansatz. -/
noncomputable def keyState (ref : Fock ℝ) (T Td : ℕ → FOp ℝ) : StateKey → Fock ℝ
  | .hf => ref
  | .g i => T i ref
  | .gg j i => T j (T i ref)
  | .gdg j i => Td j (T i ref)

/-- The entry is a linear combination of determinants with that state. -/
def HoldsState (W : RespWf) (T Td : ℕ → FOp ℝ) (e : StateKey × Csf) : Prop :=
  (Csf.Good W.ci.nA e.2 ∧ e.2.Electrons) ∧ ∃ b, csfFock e.2 = stateOf W.ci b ∧ emb W.ci b = keyState (emb W.ci W.csf) T Td e.1

theorem stateAt_ok {T Td : ℕ → FOp ℝ} {S : States} (hS : ∀ e ∈ S, HoldsState W T Td e) {k : StateKey}
    (hk : k ∈ S.map (·.1)) : ∃ s, stateAt S k = .ok s ∧ HoldsState W T Td (k, s) := by
  induction S with
  | nil => simp at hk
  | cons e S ih =>
    obtain ⟨k', s⟩ := e
    unfold stateAt
    by_cases h : k = k'
    · subst h
      refine ⟨s, ?_, hS _ (by simp)⟩
      simp
    · have hk' : k ∈ S.map (·.1) := by
        rw [List.map_cons, List.mem_cons] at hk
        exact hk.resolve_left h
      obtain ⟨s', h1, h2⟩ := ih (fun e he => hS e (by simp [he])) hk'
      refine ⟨s', ?_, h2⟩
      unfold stateAt at h1
      rw [List.lookup_cons, beq_false_of_ne h]
      exact h1

variable {na nb : ℕ} {G : List (Dict ℝ)} {T Td : ℕ → FOp ℝ}

theorem qstStates_ok (ht : ExactTiny tiny) (hs : AnsatzSpace W.ci W.ci.nA) (hn : 0 < W.ci.nA)
    (he : (hfOcc W.ci.nA na nb).Nonempty) (hS : stateOf W.ci W.csf = ket (hfOcc W.ci.nA na nb)) (hG : ∀ d ∈ G, ActOp W.ci d)
    (hT : ∀ (i : ℕ) g, G[i]? = some g → T i = sumOp g) :
    ∃ S, qstStates W.ci na nb G = .ok S ∧ (∀ e ∈ S, HoldsState W T Td e) ∧ StateKey.hf ∈ S.map (·.1) ∧
      ∀ i < G.length, StateKey.g i ∈ S.map (·.1) := by
  obtain ⟨L, l1, l2⟩ := mapM_ok_exists (f := fun x : Dict ℝ × ℕ => do
      let e ← expandHF W.ci.nA na nb (getFolded W.ci.nI W.ci.nA W.ci.nV x.1)
      pure (StateKey.g x.2, e)) (fun x e => e.1 = .g x.2 ∧ HoldsState W T Td e) G.zipIdx (by
    intro x hx
    have hx' := List.mem_zipIdx_iff_getElem?.1 hx
    have ha := hG x.1 (List.mem_of_getElem? hx')
    obtain ⟨f1, f2⟩ := getFolded_inv ha.gen.1 ha.gen.2
    obtain ⟨s, s1, s2, s3, s4⟩ := expandHF_ok hn na nb (fun kv hk o ho => (f2 kv hk).1 o ho)
    refine ⟨(.g x.2, s), by simp only [s1, ok_bind]; rfl, rfl,
      ⟨s2, s4 (fun kv hk => (f2 kv hk).2 _ fun p => ⟨rfl, rfl⟩) he⟩, ?_⟩
    obtain ⟨w, w1, w2⟩ := fold_act ht hs ha W.csf
    refine ⟨w, by rw [s3, w1, hS], ?_⟩
    rw [w2]
    show _ = T x.2 _
    rw [hT x.2 x.1 hx'])
  refine ⟨(.hf, ([1], [hfString W.ci.nA na nb])) :: L, by unfold qstStates; rw [l1]; rfl, ?_, by simp, ?_⟩
  · intro e hm
    rcases List.mem_cons.1 hm with rfl | hm
    · refine ⟨⟨⟨rfl, by simpa using hfString_isDet _ _ _⟩, fun d hd => ?_⟩, W.csf, ?_, rfl⟩
      · rw [List.mem_singleton.1 hd]
        exact one_mem (detSet_hfString _ _ _ ▸ he)
      rw [hS]
      simp [csfFock, detSet_hfString, ket]
    · obtain ⟨x, -, -, h⟩ := forall₂_mem_right l2 hm
      exact h
  · intro i hi
    obtain ⟨e, he, hx⟩ := forall₂_mem_left l2 (a := (G[i], i)) (List.mem_zipIdx_iff_getElem?.2 (by simp))
    rw [List.map_cons, List.mem_cons]
    exact .inr (List.mem_map.2 ⟨e, he, hx.1⟩)

/-- The products of one pair. -/
theorem qscPair_ok (ht : ExactTiny tiny) (hs : AnsatzSpace W.ci W.ci.nA) (hn : 0 < W.ci.nA)
    (he : (hfOcc W.ci.nA na nb).Nonempty) (hS : stateOf W.ci W.csf = ket (hfOcc W.ci.nA na nb)) {x y : Dict ℝ × ℕ} (hx : ActOp W.ci x.1) (hy : ActOp W.ci y.1)
    (tx : T x.2 = sumOp x.1) (ty : T y.2 = sumOp y.1) (ha : IsAdjoint (T x.2) (Td x.2)) :
    ∃ e e', qscPair tiny W.ci na nb x y = .ok [(.gg x.2 y.2, e), (.gdg x.2 y.2, e')] ∧
      HoldsState W T Td (.gg x.2 y.2, e) ∧ HoldsState W T Td (.gdg x.2 y.2, e') := by
  obtain ⟨d, d1, d2, d3⟩ := hx.dagger ht
  have hTd : Td x.2 = sumOp d := by
    rw [tx] at ha
    exact ha.unique d3
  have key : ∀ {z : Dict ℝ}, ActOp W.ci z → ∃ p e, fmul tiny (getFolded W.ci.nI W.ci.nA W.ci.nV z)
      (getFolded W.ci.nI W.ci.nA W.ci.nV y.1) = .ok p ∧ expandHF W.ci.nA na nb p = .ok e ∧ (Csf.Good W.ci.nA e ∧ e.Electrons) ∧
      ∃ b, csfFock e = stateOf W.ci b ∧ emb W.ci b = sumOp z (sumOp y.1 (emb W.ci W.csf)) := by
    intro z hz
    obtain ⟨f1, f2⟩ := getFolded_inv hz.gen.1 hz.gen.2
    obtain ⟨g1, g2⟩ := getFolded_inv hy.gen.1 hy.gen.2
    obtain ⟨p, p1, p2, p3⟩ := f1.mul ht g1
    have pk := f2.mul0 g2 p p1
    obtain ⟨s, s1, s2, s3, s4⟩ := expandHF_ok hn na nb (fun kv hk o ho => (pk kv hk).1 o ho)
    obtain ⟨w, w1, w2⟩ := fold_act ht hs hy W.csf
    obtain ⟨w', v1, v2⟩ := fold_act ht hs hz w
    exact ⟨p, s, p1, s1, ⟨s2, s4 (fun kv hk => (pk kv hk).2 _ fun p => ⟨rfl, rfl⟩) he⟩, w', by rw [s3, p3, Module.End.mul_apply, ← hS, ← w1, v1], by rw [v2, w2]⟩
  obtain ⟨p, e, a1, a2, a3, b, a4, a5⟩ := key hx
  obtain ⟨p', e', b1, b2, b3, b', b4, b5⟩ := key d2
  refine ⟨e, e', ?_, ⟨a3, b, a4, ?_⟩, b3, b', b4, ?_⟩
  · unfold qscPair
    simp only [a1, a2, d1, b1, b2, ok_bind]
    rfl
  · rw [a5]
    show _ = T x.2 (T y.2 _)
    rw [tx, ty]
  · rw [b5]
    show _ = Td x.2 (T y.2 _)
    rw [hTd, ty]

theorem qscStates_ok (ht : ExactTiny tiny) (hs : AnsatzSpace W.ci W.ci.nA) (hn : 0 < W.ci.nA)
    (he : (hfOcc W.ci.nA na nb).Nonempty) (hS : stateOf W.ci W.csf = ket (hfOcc W.ci.nA na nb)) (hG : ∀ d ∈ G, ActOp W.ci d)
    (hT : ∀ (i : ℕ) g, G[i]? = some g → T i = sumOp g) (hTd : ∀ i, IsAdjoint (T i) (Td i)) :
    ∃ S, qscStates tiny W.ci na nb G = .ok S ∧ (∀ e ∈ S, HoldsState W T Td e) ∧ StateKey.hf ∈ S.map (·.1) ∧
      (∀ i < G.length, StateKey.g i ∈ S.map (·.1)) ∧
      ∀ j i, j ≤ i → i < G.length → StateKey.gg j i ∈ S.map (·.1) ∧ StateKey.gdg j i ∈ S.map (·.1) := by
  obtain ⟨S, s1, s2, s3, s4⟩ := qstStates_ok (Td := Td) ht hs hn he hS hG hT
  have inner : ∀ (x : Dict ℝ × ℕ) (l : List (Dict ℝ × ℕ)), ActOp W.ci x.1 → T x.2 = sumOp x.1 →
      (∀ y ∈ l, ActOp W.ci y.1 ∧ T y.2 = sumOp y.1) → ∀ S : States, (∀ e ∈ S, HoldsState W T Td e) →
      ∃ S', l.foldlM (m := Res) (fun S y => do
          let l ← qscPair tiny W.ci na nb x y
          pure (S ++ l)) S = .ok S' ∧ (∀ e ∈ S', HoldsState W T Td e) ∧ (∀ k ∈ S.map (·.1), k ∈ S'.map (·.1)) ∧
        ∀ y ∈ l, StateKey.gg x.2 y.2 ∈ S'.map (·.1) ∧ StateKey.gdg x.2 y.2 ∈ S'.map (·.1) := by
    intro x l hx tx
    induction l with
    | nil => intro _ S hS; exact ⟨S, rfl, hS, fun _ h => h, by simp⟩
    | cons y l ih =>
      intro hl S hS'
      obtain ⟨e, e', p1, p2, p3⟩ := qscPair_ok ht hs hn he hS hx (hl y (by simp)).1 tx (hl y (by simp)).2 (hTd x.2)
      obtain ⟨S', q1, q2, q3, q4⟩ := ih (fun z hz => hl z (by simp [hz]))
        (S ++ [(.gg x.2 y.2, e), (.gdg x.2 y.2, e')]) (by
          intro z hz
          simp only [List.mem_append, List.mem_cons, List.not_mem_nil, or_false] at hz
          rcases hz with hz | rfl | rfl
          · exact hS' z hz
          · exact p2
          · exact p3)
      refine ⟨S', by rw [List.foldlM_cons, p1]; exact q1, q2, fun k hk => q3 k ?_, fun z hz => ?_⟩
      · rw [List.map_append, List.mem_append]; exact .inl hk
      · rcases List.mem_cons.1 hz with rfl | hz
        · exact ⟨q3 _ (by simp), q3 _ (by simp)⟩
        · exact q4 z hz
  have atIdx : ∀ {l : List (Dict ℝ)} {k : ℕ} {y : Dict ℝ × ℕ}, y ∈ l.zipIdx k → l[y.2 - k]? = some y.1 ∧ k ≤ y.2 := by
    intro l k y hy
    have := (List.mk_mem_zipIdx_iff_le_and_getElem?_sub (x := y.1) (i := y.2)).1 hy
    exact ⟨this.2, this.1⟩
  have outer : ∀ (l : List (Dict ℝ × ℕ)), (∀ x ∈ l, G[x.2]? = some x.1) → ∀ S : States,
      (∀ e ∈ S, HoldsState W T Td e) →
      ∃ S', l.foldlM (m := Res) (fun S x => do
          ((G.drop x.2).zipIdx x.2).foldlM (fun S y => do
            let l ← qscPair tiny W.ci na nb x y
            pure (S ++ l)) S) S = .ok S' ∧ (∀ e ∈ S', HoldsState W T Td e) ∧
        (∀ k ∈ S.map (·.1), k ∈ S'.map (·.1)) ∧
        ∀ x ∈ l, ∀ i, x.2 ≤ i → i < G.length → StateKey.gg x.2 i ∈ S'.map (·.1) ∧ StateKey.gdg x.2 i ∈ S'.map (·.1) := by
    intro l
    induction l with
    | nil => intro _ S hS'; exact ⟨S, rfl, hS', fun _ h => h, by simp⟩
    | cons x l ih =>
      intro hl S hS'
      have hx := hl x (by simp)
      obtain ⟨S1, i1, i2, i3, i4⟩ := inner x ((G.drop x.2).zipIdx x.2) (hG _ (List.mem_of_getElem? hx)) (hT _ _ hx) (by
        intro y hy
        obtain ⟨h1, h2⟩ := atIdx hy
        rw [List.getElem?_drop, show x.2 + (y.2 - x.2) = y.2 by omega] at h1
        exact ⟨hG _ (List.mem_of_getElem? h1), hT _ _ h1⟩) S hS'
      obtain ⟨S2, o1, o2, o3, o4⟩ := ih (fun z hz => hl z (by simp [hz])) S1 i2
      refine ⟨S2, by rw [List.foldlM_cons, i1]; exact o1, o2, fun k hk => o3 k (i3 k hk), fun z hz i h1 h2 => ?_⟩
      rcases List.mem_cons.1 hz with rfl | hz
      · have := i4 (G[i], i) (List.mk_mem_zipIdx_iff_le_and_getElem?_sub.2 ⟨h1, by
          rw [List.getElem?_drop, show z.2 + (i - z.2) = i by omega]; simp⟩)
        exact ⟨o3 _ this.1, o3 _ this.2⟩
      · exact o4 z hz i h1 h2
  obtain ⟨S', a1, a2, a3, a4⟩ := outer G.zipIdx (fun x hx => List.mem_zipIdx_iff_getElem?.1 hx) S s2
  refine ⟨S', by unfold qscStates; rw [s1]; exact a1, a2, a3 _ s3, fun i hi => a3 _ (s4 i hi), fun j i h1 h2 => ?_⟩
  exact a4 (G[j], j) (List.mem_zipIdx_iff_getElem?.2 (by simp)) i h1 h2

/-! ### The entries -/

variable {H : Dict ℝ} {S : States}

/-- The context of the loops: an operator `H` with symmetric matrix elements and a correct dictionary. -/
structure TransferCtx (W : RespWf) (U Ud : FOp ℝ) (qcsf : Csf → Dict ℝ → Csf → Res ℝ) (T Td : ℕ → FOp ℝ) (S : States)
    (H : Dict ℝ) (K : FOp ℝ) : Prop where
  exact : ExactCsfs W qcsf
  rot : W.Rotates U Ud
  gen : GenOp W.ci H
  op : ∀ x y, ActiveState W.ci.nI W.ci.nA x → ActiveState W.ci.nI W.ci.nA y → inner x (sumOp H y) = inner x (K y)
  sym : IsAdjoint K K
  entries : ∀ e ∈ S, HoldsState W T Td e

variable {K : FOp ℝ}

theorem TransferCtx.elem (c : TransferCtx W U Ud qcsf T Td S H K) {k l : StateKey} (hk : k ∈ S.map (·.1))
    (hl : l ∈ S.map (·.1)) : ∃ s t, stateAt S k = .ok s ∧ stateAt S l = .ok t ∧
      (s = ([], []) → keyState (emb W.ci W.csf) T Td k = 0) ∧
      qcsf s (getFolded W.ci.nI W.ci.nA W.ci.nV H) t = .ok (inner (U (keyState (emb W.ci W.csf) T Td k))
        (K (U (keyState (emb W.ci W.csf) T Td l)))) := by
  obtain ⟨s, s1, s2, b, s3, s4⟩ := stateAt_ok c.entries hk
  obtain ⟨t, t1, t2, b', t3, t4⟩ := stateAt_ok c.entries hl
  have act : ∀ v, ActiveState W.ci.nI W.ci.nA (U (emb W.ci v)) := fun v => by
    obtain ⟨w, -, h⟩ := c.rot.run v
    rw [← h]
    exact emb_active _ _
  refine ⟨s, t, s1, t1, fun h => ?_, ?_⟩
  · rw [← s4]
    unfold emb
    rw [← s3]
    dsimp only
    rw [h]
    simp [csfFock]
  · rw [c.exact.elem c.rot c.gen (fun x y hx hy => by
      rw [c.op x y hx hy, c.op y x hy hx, ← c.sym, inner_comm]) s2.1 t2.1 s2.2 t2.2 s3 t3, c.op _ _ (act _) (act _), s4, t4]

/-- The loop over the pairs `j ≤ i`. -/
theorem qtLoop_ok {ν : Type} {entry : Dict ℝ → Dict ℝ × ℕ → Dict ℝ × ℕ → Res ν} {put : LRMats → ℕ → ℕ → ν → LRMats}
    {v : ℕ → ℕ → ν} (h : ∀ j i, j ≤ i → i < G.length → ∀ x y g, x.2 = j → y.2 = i → entry g x y = .ok (v i j))
    (hS : ∀ M i j v, (put M i j v).Sigma = if i = j then set2 M.Sigma i j 1 else M.Sigma) :
    ∃ M, lrLoop G.zipIdx (fun j => (G.drop j).zipIdx j) (fun g => pure g) entry put LRMats.zero = .ok M ∧
      (∀ i j, i < G.length → j < G.length → M.Sigma i j = if i = j then 1 else 0) ∧
      (∀ π : LRMats → Mat ℝ, (∀ M i j v, π (put M i j v) = π M) → π M = π LRMats.zero) ∧
      ∀ (π : LRMats → Mat ℝ) (val : ν → ℝ), (∀ M i j v, π (put M i j v) = setSym (π M) i j (val v)) →
        ∀ r c, r < G.length → c < G.length → π M r c = val (v (max r c) (min r c)) := by
  obtain ⟨L, a1, a2, a3⟩ := lrLoop_ok (js := G.zipIdx) (is := fun j => (G.drop j).zipIdx j)
    (pre := fun g => pure g) (entry := entry) put (fun i j w => j ≤ i ∧ w = v i j) (fun x hx => by
      refine ⟨x.1, rfl, fun y hy => ?_⟩
      have e1 := (List.mk_mem_zipIdx_iff_le_and_getElem?_sub (x := y.1) (i := y.2)).1 hy
      have e2 := (List.getElem?_eq_some_iff.1 (List.mem_zipIdx_iff_getElem?.1 hx)).1
      have e3 := (List.getElem?_eq_some_iff.1 e1.2).1
      rw [List.length_drop] at e3
      exact ⟨_, h x.2 y.2 e1.1 (by omega) _ _ _ rfl rfl, e1.1, rfl⟩)
  have pairs := fun i j => (a2 i j).trans (act_pairs G i j)
  refine ⟨_, a3 _, fun i j hi hj => ?_, fun π hπ => foldl_same π _ (by intro _ _; exact hπ _ _ _ _) _ _,
    fun π val hπ r c hr hc => ?_⟩
  · have pS := foldl_proj LRMats.Sigma (fun (M : LRMats) (t : ℕ × ℕ × ν) => put M t.1 t.2.1 t.2.2)
      (fun X t => if t.1 = t.2.1 then set2 X t.1 t.2.1 1 else X) (fun _ _ => hS _ _ _ _) L LRMats.zero
    have S1 := foldl_diag 0 L LRMats.zero.Sigma i j
    simp only [Nat.add_zero] at S1
    rw [pS]
    split
    · rename_i e
      subst e
      obtain ⟨t, ht, e1, e2⟩ := (pairs i i).2 (by omega)
      exact S1.1 ⟨t, ht, by omega, e1, e2⟩
    · rename_i e
      rw [S1.2 (by rintro ⟨t, -, e1, e2, e3⟩; omega)]
      rfl
  · have A1 := loop_field π put val 0 0 (by intro M i j v; exact hπ M i j v)
      (fun r c => val (v (max r c) (min r c))) (fun r c => by rw [max_comm, min_comm]) L (fun t ht => by
        obtain ⟨h1, h2⟩ := a1 t ht
        rw [h2, Nat.add_zero, Nat.add_zero, max_eq_left h1, min_eq_right h1]) LRMats.zero r c
    rw [act_visited (nQ := 0) pairs r c] at A1
    exact A1.1 (by omega)

/-- The gradients can be evaluated. -/
theorem TransferCtx.grad (c : TransferCtx W U Ud qcsf T Td S H K) (hf : StateKey.hf ∈ S.map (·.1))
    (hg : ∀ i < G.length, StateKey.g i ∈ S.map (·.1)) :
    ∃ l, (List.range G.length).mapM (qtGrad qcsf S (getFolded W.ci.nI W.ci.nA W.ci.nV H)) = .ok l := by
  obtain ⟨l, l1, -⟩ := mapM_ok_exists (f := qtGrad qcsf S (getFolded W.ci.nI W.ci.nA W.ci.nV H)) (fun _ _ => True)
    (List.range G.length) (fun i hi => by
      obtain ⟨s, t, s1, t1, -, e⟩ := c.elem hf (hg i (List.mem_range.1 hi))
      obtain ⟨t', s', t1', s1', -, e'⟩ := c.elem (hg i (List.mem_range.1 hi)) hf
      rw [s1] at s1'
      rw [t1] at t1'
      obtain rfl := Except.ok.inj s1'
      obtain rfl := Except.ok.inj t1'
      exact ⟨_, by unfold qtGrad; simp only [s1, t1, e, e', ok_bind]; rfl, trivial⟩)
  exact ⟨l, l1⟩

/-- An entry of state transfer. -/
theorem TransferCtx.st (c : TransferCtx W U Ud qcsf T Td S H K) {i j : ℕ} (hi : StateKey.g i ∈ S.map (·.1))
    (hj : StateKey.g j ∈ S.map (·.1)) :
    qstAct qcsf W S (getFolded W.ci.nI W.ci.nA W.ci.nV H) j i =
      .ok (inner (U (T i (emb W.ci W.csf))) (K (U (T j (emb W.ci W.csf)))) - if i = j then W.energy else 0) := by
  obtain ⟨s, t, s1, t1, -, e⟩ := c.elem hi hj
  unfold qstAct
  simp only [s1, t1, e, ok_bind]
  split
  · rfl
  · rw [sub_zero]; rfl

/-- An entry of the self-consistent class. -/
theorem TransferCtx.sc (c : TransferCtx W U Ud qcsf T Td S H K) {i j : ℕ} (hf : StateKey.hf ∈ S.map (·.1))
    (hi : StateKey.g i ∈ S.map (·.1)) (hj : StateKey.g j ∈ S.map (·.1)) (hgg : StateKey.gg j i ∈ S.map (·.1))
    (hgd : StateKey.gdg j i ∈ S.map (·.1)) :
    qscAct qcsf S (getFolded W.ci.nI W.ci.nA W.ci.nV H) j i =
      .ok (inner (U (T i (emb W.ci W.csf))) (K (U (T j (emb W.ci W.csf))))
          - inner (U (Td j (T i (emb W.ci W.csf)))) (K (U (emb W.ci W.csf))),
        - inner (U (T j (T i (emb W.ci W.csf)))) (K (U (emb W.ci W.csf)))) := by
  obtain ⟨s, t, s1, t1, -, e⟩ := c.elem hi hj
  obtain ⟨d, hf', d1, f1, d0, e2⟩ := c.elem hgd hf
  obtain ⟨p, hf'', p1, f1', p0, e3⟩ := c.elem hgg hf
  rw [f1] at f1'
  obtain rfl := Except.ok.inj f1'
  unfold qscAct
  simp only [s1, t1, d1, p1, f1, e, e2, e3, ok_bind]
  by_cases z1 : d = ([], []) <;> by_cases z2 : p = ([], []) <;>
    simp only [ne_eq, z1, z2, not_true_eq_false, not_false_eq_true, if_true, if_false, pure_bind] <;>
    refine congrArg Except.ok (Prod.ext ?_ ?_)
  all_goals dsimp only [keyState]
  · rw [show Td j (T i (emb W.ci W.csf)) = 0 from d0 z1]
    simp
  · rw [show T j (T i (emb W.ci W.csf)) = 0 from p0 z2]
    simp
  · rw [show Td j (T i (emb W.ci W.csf)) = 0 from d0 z1]
    simp
  · rw [zero_sub]
  · rw [show T j (T i (emb W.ci W.csf)) = 0 from p0 z2]
    simp
  · rw [zero_sub]

/-- The determinant is destroyed by the adjoints of the excitations. -/
theorem adj_ref {W : RespWf} (hW : W.Proper) (letters : List Char) {X Xd : FOp ℝ} (h : X ∈ lrOps W letters)
    (ha : IsAdjoint X Xd) : Xd (ket W.refDet) = 0 := by
  refine (lrOps_led hW letters X h).kills hW.disjS ha (.inl fun p hp => ?_)
  rw [ket, an_single, if_neg]
  intro k
  simp only [RespWf.refDet, Finset.mem_union, Finset.mem_range, List.mem_toFinset] at k
  rcases k with k | k
  · have := (hW.actS p (by simp [hp])).1
    omega
  · exact hW.disjS p k hp

end

end SQ
