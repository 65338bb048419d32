import Verif.Lemmas.ResponseOps
import Verif.Props.Iterators

/-!
# Lemmas for the response matrices: the lists of excitation operators
-/

namespace SQ

/-! ### Excitations from occupied to unoccupied spin orbitals commute -/

/-- Sums of products of `a†_a a_i` with `a` in `U` and `i` in `O`. -/
inductive PairSpan (O U : ℕ → Prop) : FOp ℝ → Prop
  | one : PairSpan O U 1
  | pair (a i : ℕ) : U a → O i → PairSpan O U (cr a * an i)
  | add {S T : FOp ℝ} : PairSpan O U S → PairSpan O U T → PairSpan O U (S + T)
  | smul (c : ℝ) {T : FOp ℝ} : PairSpan O U T → PairSpan O U (c • T)
  | mul {S T : FOp ℝ} : PairSpan O U S → PairSpan O U T → PairSpan O U (S * T)

theorem PairSpan.sub {O U : ℕ → Prop} {S T : FOp ℝ} (hS : PairSpan O U S) (hT : PairSpan O U T) :
    PairSpan O U (S - T) := by
  have e : S - T = S + (-1 : ℝ) • T := by rw [neg_one_smul, sub_eq_add_neg]
  rw [e]; exact hS.add (hT.smul _)

theorem PairSpan.commute_of {O U : ℕ → Prop} {X T : FOp ℝ} (h : ∀ a i, U a → O i → Commute X (cr a * an i))
    (hT : PairSpan O U T) : Commute X T := by
  induction hT with
  | one => exact Commute.one_right X
  | pair a i ha hi => exact h a i ha hi
  | add _ _ h1 h2 => exact h1.add_right h2
  | smul c _ h1 => exact h1.smul_right c
  | mul _ _ h1 h2 => exact h1.mul_right h2

theorem PairSpan.comm {O U : ℕ → Prop} (hd : ∀ p, O p → ¬ U p) {S T : FOp ℝ} (hS : PairSpan O U S)
    (hT : PairSpan O U T) : Commute S T := by
  refine PairSpan.commute_of (fun a i ha hi => ?_) hT
  refine (PairSpan.commute_of (fun b j hb hj => ?_) hS).symm
  exact pair_comm (by rintro rfl; exact hd _ hi hb) (by rintro rfl; exact hd _ hj ha)

theorem PairSpan.an_comm {O U : ℕ → Prop} {i : ℕ} (hi : ¬ U i) {T : FOp ℝ} (hT : PairSpan O U T) :
    Commute (an i) T := by
  refine PairSpan.commute_of (fun a j ha _ => ?_) hT
  have e : (an i * cr a : FOp ℝ) = -(cr a * an i) := an_cr_ne (by rintro rfl; exact hi ha)
  calc (an i * (cr a * an j) : FOp ℝ) = (an i * cr a) * an j := by noncomm_ring
    _ = -(cr a * (an i * an j)) := by rw [e]; noncomm_ring
    _ = cr a * an j * an i := by rw [an_an i j]; noncomm_ring

theorem PairSpan.E {O U : ℕ → Prop} {a i : ℕ} (ha : Both U a) (hi : Both O i) : PairSpan O U (E a i) :=
  (PairSpan.pair _ _ ha.1 hi.1).add (PairSpan.pair _ _ ha.2 hi.2)

theorem PairSpan.excite {O U : ℕ → Prop} (hd : ∀ p, O p → ¬ U p) : ∀ (C A : List ℕ), C.length = A.length →
    (∀ p ∈ C, U p) → (∀ p ∈ A, O p) → PairSpan O U (excite C A.reverse) := by
  intro C
  induction C with
  | nil =>
    intro A hl _ _
    obtain rfl : A = [] := List.length_eq_zero_iff.1 hl.symm
    simpa [SQ.excite] using PairSpan.one
  | cons c C ih =>
    intro A hl hC hA
    cases A with
    | nil => simp at hl
    | cons i A =>
      have h1 := ih A (by simpa using hl) (fun p hp => hC p (by simp [hp])) (fun p hp => hA p (by simp [hp]))
      have h2 := h1.an_comm (hd i (hA i (by simp)))
      have e : (SQ.excite (c :: C) (i :: A).reverse : FOp ℝ) = cr c * an i * SQ.excite C A.reverse := by
        calc (SQ.excite (c :: C) (i :: A).reverse : FOp ℝ) = cr c * (SQ.excite C A.reverse * an i) := by
              simp [SQ.excite, mul_assoc]
          _ = cr c * an i * SQ.excite C A.reverse := by rw [← h2.eq, mul_assoc]
      rw [e]
      exact (PairSpan.pair c i (hC c (by simp)) (hA i (by simp))).mul h1

/-! ### The generators without the anti-Hermitian part -/

section
variable {tiny : ℝ → Bool} {P : ℕ → Prop}

theorem dk_plain (ht : ExactTiny tiny) (C A : List ℕ) (hl : C.length = A.length) (h0 : C ≠ [])
    (hP : ∀ p ∈ C ++ A, P p) (hs : C.countP (· % 2 = 1) = A.countP (· % 2 = 1)) :
    DK P (do antiH tiny false (← gChain tiny ((C.map fun p => (p, true)) ++ A.map fun p => (p, false))))
      (excite C A) := by
  have h : DK P (gChain tiny ((C.map fun p => (p, true)) ++ A.map fun p => (p, false))) (excite C A) := by
    refine DK.of ?_ (keys_gChain ?_ ?_)
    · have := den_gChain (R := ℝ) ht C A hl h0
      rwa [← excite_eq] at this
    · intro o ho
      rcases List.mem_append.1 ho with h | h <;> obtain ⟨p, hp, rfl⟩ := List.mem_map.1 h <;>
        exact hP p (by simp [hp])
    · intro w hw
      rw [strWeight_exc, spinW_sum hw C A hl hs, sub_self]
  obtain ⟨d, h1, h2⟩ := h
  exact ⟨d, by rw [h1]; rfl, h2⟩

theorem dk_G1sa_plain (ht : ExactTiny tiny) (c : ℝ) {i a : ℕ} (hi : Both P i) (ha : Both P a) :
    DK P (G1sa tiny c i a false) (c • E a i) := by
  obtain ⟨d, h1, h2, h3⟩ := den_Epq (R := ℝ) ht a i
  refine ⟨frmul c d, by unfold G1sa; rw [h1]; rfl, h2.rmul c, by rw [sumOp_frmul, h3], ?_⟩
  exact (keys_Epq ha hi d h1).frmul c

theorem dk_G2sa_plain (ht : ExactTiny tiny) {i j a b : ℕ} (case : ℕ) (fac : ℝ)
    (hc : 1 ≤ case ∧ case ≤ 5) (hi : Both P i) (hj : Both P j) (ha : Both P a) (hb : Both P b) :
    DK P (G2sa tiny (1 / 2) (1 / (2 * Real.sqrt 3)) (fun k => (Real.sqrt k)⁻¹) i j a b case false)
      (saDoubleOp ⟨a, i, b, j, fac, case⟩) := by
  obtain ⟨d1, h1, h2, h3⟩ := den_Epq (R := ℝ) ht a i
  obtain ⟨d2, g1, g2, g3⟩ := den_Epq (R := ℝ) ht b j
  obtain ⟨d3, k1, k2, k3⟩ := den_mul ht h2 g2
  obtain ⟨d4, l1, l2, l3⟩ := den_Epq (R := ℝ) ht a j
  obtain ⟨d5, m1, m2, m3⟩ := den_Epq (R := ℝ) ht b i
  obtain ⟨d6, n1, n2, n3⟩ := den_mul ht l2 m2
  have K1 := keys_EE ha hi hb hj h1 g1 k1
  have K2 := keys_EE ha hj hb hi l1 m1 n1
  rw [h3, g3] at k3
  rw [l3, m3] at n3
  unfold saDoubleOp
  by_cases h5 : case = 5
  · subst h5
    have hno : ¬ (5 = 1 ∨ 5 = 2 ∨ 5 = 3 ∨ 5 = 4) := by omega
    refine ⟨frmul (1 / (2 * Real.sqrt 3)) (fsub tiny d3 d6), ?_, (k2.sub n2).rmul _, ?_, (K1.fsub K2).frmul _⟩
    · simp only [G2sa, hno, if_false, if_true, h1, g1, k1, l1, m1, n1, ok_bind, res_pure]
      rfl
    · rw [if_pos rfl, sumOp_frmul, sumOp_fsub ht, k3, n3]
  · have hcase : case = 1 ∨ case = 2 ∨ case = 3 ∨ case = 4 := by omega
    refine ⟨frmul (1 / 2 * (Real.sqrt (((if a = b then 2 else 1) * (if i = j then 2 else 1) : ℕ) : ℝ))⁻¹)
      (fadd tiny d3 d6), ?_, (k2.add n2).rmul _, ?_, (K1.fadd K2).frmul _⟩
    · simp only [G2sa, hcase, if_true, h1, g1, k1, l1, m1, n1, ok_bind, res_pure]
      rfl
    · rw [if_neg h5, sumOp_frmul, sumOp_fadd ht, k3, n3]
      congr 4
      split_ifs <;> norm_num

end

/-! ### The lists -/

section
variable {tiny : ℝ → Bool}

theorem lrPart_ok {α : Type} (exc : List Char) (letter : Char) (l : List α) (f : α → Res (Dict ℝ))
    (Q : Dict ℝ → Prop) (op : α → FOp ℝ) (h : ∀ x ∈ l, ∃ d, f x = .ok d ∧ Q d ∧ sumOp d = op x)
    (G : List (Dict ℝ)) :
    ∃ L, lrPart exc letter l f G = .ok (G ++ L) ∧ L.map sumOp = (if letter ∈ exc then l.map op else []) ∧
      ∀ d ∈ L, Q d := by
  unfold lrPart
  by_cases hc : letter ∈ exc
  · simp only [hc, if_true]
    clear hc
    induction l generalizing G with
    | nil => exact ⟨[], by simp [List.foldlM_nil]; rfl, rfl, by simp⟩
    | cons x l ih =>
      obtain ⟨d, h1, h2, h3⟩ := h x (by simp)
      obtain ⟨L, g1, g2, g3⟩ := ih (fun y hy => h y (by simp [hy])) (G ++ [d])
      refine ⟨d :: L, ?_, by simp [h3, g2], ?_⟩
      · rw [List.foldlM_cons, h1]
        exact g1.trans (by rw [List.append_assoc]; rfl)
      · intro d' hd'
        rcases List.mem_cons.1 hd' with rfl | hd'
        · exact h2
        · exact g3 d' hd'
  · simp only [hc, if_false]
    exact ⟨[], by rw [List.append_nil]; rfl, rfl, by simp⟩

theorem creators_interleave : ∀ (A I : List ℕ), A.length = I.length → creators (interleave A I) = A := by
  intro A
  induction A with
  | nil => intro I _; rfl
  | cons a A ih =>
    intro I h
    cases I with
    | nil => simp at h
    | cons i I => rw [interleave, creators, ih I (by simpa using h)]

theorem annihilators_interleave : ∀ (A I : List ℕ), A.length = I.length →
    annihilators (interleave A I) = I := by
  intro A
  induction A with
  | nil => intro I h; rw [List.length_eq_zero_iff.1 h.symm]; rfl
  | cons a A ih =>
    intro I h
    cases I with
    | nil => simp at h
    | cons i I => rw [interleave, annihilators, ih I (by simpa using h)]

/-- An active excitation operator that commutes with the others. -/
def ExcOp (W : RespWf) (d : Dict ℝ) : Prop :=
  ActOp W.ci d ∧ PairSpan (· ∈ W.occS) (· ∈ W.unoccS) (sumOp d)

variable {W : RespWf}

theorem excOp_of {r : Res (Dict ℝ)} {T : FOp ℝ} (h : DK (ActIdx W.ci.nI W.ci.nA) r T)
    (hT : PairSpan (· ∈ W.occS) (· ∈ W.unoccS) T) : ∃ d, r = .ok d ∧ ExcOp W d ∧ sumOp d = T := by
  obtain ⟨d, h1, h2, h3, h4⟩ := h
  exact ⟨d, h1, ⟨⟨h2, h4⟩, by rw [h3]; exact hT⟩, h3⟩

theorem RespWf.Proper.disjS (hW : W.Proper) (p : ℕ) (h : p ∈ W.occS) : ¬ p ∈ W.unoccS :=
  fun h' => (List.nodup_append.1 hW.nodupS).2.2 p h p h' rfl

theorem RespWf.Proper.bothAct (hW : W.Proper) {p : ℕ} (h : p ∈ W.occ ∨ p ∈ W.unocc) :
    Both (ActIdx W.ci.nI W.ci.nA) p := by
  have := hW.act p (by simpa using h)
  exact ⟨⟨by omega, by omega⟩, ⟨by omega, by omega⟩⟩

theorem RespWf.Proper.bothO (hW : W.Proper) {p : ℕ} (h : p ∈ W.occ) : Both (· ∈ W.occS) p :=
  ⟨(hW.spin _).1.1 (by rwa [show 2 * p / 2 = p by omega]), (hW.spin _).1.1 (by rwa [show (2 * p + 1) / 2 = p by omega])⟩

theorem RespWf.Proper.bothU (hW : W.Proper) {p : ℕ} (h : p ∈ W.unocc) : Both (· ∈ W.unoccS) p :=
  ⟨(hW.spin _).2.1 (by rwa [show 2 * p / 2 = p by omega]), (hW.spin _).2.1 (by rwa [show (2 * p + 1) / 2 = p by omega])⟩

theorem pairFrom_mem {L : List ℕ} {x y : ℕ} (h : PairFrom L x y) : x ∈ L ∧ y ∈ L := by
  rcases h with ⟨rfl, h⟩ | h
  · exact ⟨h, h⟩
  · exact ⟨h.subset (by simp), h.subset (by simp)⟩

theorem string_ok (ht : ExactTiny tiny) (hW : W.Proper) {n : ℕ} (hn : 0 < n) {x : List ℕ}
    (hx : SpinExcitation W.occS W.unoccS n x) :
    ∃ C I, C.length = n ∧ I.length = n ∧ x = interleave C I ∧ ∃ d,
      (do antiH tiny false (← gChain tiny ((C.map fun p => (p, true)) ++ I.reverse.map fun p => (p, false))))
        = .ok d ∧ ExcOp W d ∧ sumOp d = stringOp x := by
  obtain ⟨C, I, h1, h2, h3, h4, h5, rfl⟩ := hx
  refine ⟨C, I, h3, h4, rfl, ?_⟩
  have e : stringOp (interleave C I) = excite C I.reverse := by
    unfold stringOp
    rw [creators_interleave C I (by omega), annihilators_interleave C I (by omega)]
  rw [e]
  refine excOp_of (dk_plain ht C I.reverse (by simp; omega) (by rintro rfl; simp at h3; omega) ?_ ?_) ?_
  · intro p hp
    refine hW.actS p ?_
    rcases List.mem_append.1 hp with hp | hp
    · exact List.mem_append_right _ (h1.subset hp)
    · exact List.mem_append_left _ (h2.subset (List.mem_reverse.1 hp))
  · rw [List.countP_reverse]; exact h5.2
  · exact PairSpan.excite hW.disjS C I (by omega) (fun p hp => h1.subset hp) (fun p hp => h2.subset hp)

/-- The operators of the constructor. -/
theorem lrG_ok (ht : ExactTiny tiny) (hW : W.Proper) (excitations : String) :
    ∃ G, lrG tiny W excitations = .ok G ∧ G.map sumOp = lrOps W (excitations.toList.map Char.toLower) ∧
      ∀ d ∈ G, ExcOp W d := by
  have ndO : W.occ.Nodup := (List.nodup_append.1 hW.nodup).1
  have ndU : W.unocc.Nodup := (List.nodup_append.1 hW.nodup).2.1
  have ndOS : W.occS.Nodup := (List.nodup_append.1 hW.nodupS).1
  have ndUS : W.unoccS.Nodup := (List.nodup_append.1 hW.nodupS).2.1
  obtain ⟨-, -, k3, k4, k5, k6⟩ := C35_spin ndOS ndUS
  unfold lrG lrOps
  generalize excitations.toList.map Char.toLower = exc
  obtain ⟨L1, a1, a2, a3⟩ := lrPart_ok exc 's' (iterateT1sa W.occ W.unocc)
    (fun x => G1sa tiny (Real.sqrt 2)⁻¹ x.2.1 x.1 false) (ExcOp W) (fun x => qOp x.1 x.2.1) (by
      intro x hx
      obtain ⟨h1, h2, -⟩ := ((C35_sa_singles_pairs ndO ndU).1.2 x).1 hx
      exact excOp_of (dk_G1sa_plain ht _ (hW.bothAct (.inl h2)) (hW.bothAct (.inr h1)))
        ((PairSpan.E (hW.bothU h1) (hW.bothO h2)).smul _)) []
  obtain ⟨L2, b1, b2, b3⟩ := lrPart_ok exc 'd' (iterateT2sa W.occ W.unocc)
    (fun x => G2sa tiny (1 / 2) (1 / (2 * Real.sqrt 3)) (fun k => (Real.sqrt k)⁻¹) x.i x.j x.a x.b x.case false)
    (ExcOp W) saDoubleOp (by
      intro x hx
      obtain ⟨h1, h2, h3, -⟩ := ((C35_sa_doubles ndO ndU).2 x).1 hx
      obtain ⟨i1, j1⟩ := pairFrom_mem h1
      obtain ⟨a1, b1⟩ := pairFrom_mem h2
      refine excOp_of (dk_G2sa_plain ht x.case x.fac ?_ (hW.bothAct (.inl i1)) (hW.bothAct (.inl j1))
        (hW.bothAct (.inr a1)) (hW.bothAct (.inr b1))) ?_
      · unfold SaCase at h3; omega
      · have p1 := PairSpan.E (hW.bothU a1) (hW.bothO i1)
        have p2 := PairSpan.E (hW.bothU b1) (hW.bothO j1)
        have p3 := PairSpan.E (hW.bothU a1) (hW.bothO j1)
        have p4 := PairSpan.E (hW.bothU b1) (hW.bothO i1)
        unfold saDoubleOp
        split
        · exact ((p1.mul p2).sub (p3.mul p4)).smul _
        · exact ((p1.mul p2).add (p3.mul p4)).smul _) ([] ++ L1)
  obtain ⟨L3, c1, c2, c3⟩ := lrPart_ok exc 't' (iterateT3 W.occS W.unoccS) (lrG3 tiny) (ExcOp W) stringOp (by
      intro x hx
      obtain ⟨C, I, h1, h2, rfl, h3⟩ := string_ok ht hW (by omega) ((k3.2 x).1 hx)
      obtain ⟨a, b, c, rfl⟩ := List.length_eq_three.1 h1
      obtain ⟨i, j, k, rfl⟩ := List.length_eq_three.1 h2
      exact h3) ([] ++ L1 ++ L2)
  obtain ⟨L4, d1, d2, d3⟩ := lrPart_ok exc 'q' (iterateT4 W.occS W.unoccS) (lrG4 tiny) (ExcOp W) stringOp (by
      intro x hx
      obtain ⟨C, I, h1, h2, rfl, h3⟩ := string_ok ht hW (by omega) ((k4.2 x).1 hx)
      match C, I, h1, h2, h3 with
      | [a, b, c, d], [i, j, k, l], _, _, h3 => exact h3) ([] ++ L1 ++ L2 ++ L3)
  obtain ⟨L5, e1, e2, e3⟩ := lrPart_ok exc '5' (iterateT5 W.occS W.unoccS) (lrG5 tiny) (ExcOp W) stringOp (by
      intro x hx
      obtain ⟨C, I, h1, h2, rfl, h3⟩ := string_ok ht hW (by omega) ((k5.2 x).1 hx)
      match C, I, h1, h2, h3 with
      | [a, b, c, d, e], [i, j, k, l, m], _, _, h3 => exact h3) ([] ++ L1 ++ L2 ++ L3 ++ L4)
  obtain ⟨L6, f1, f2, f3⟩ := lrPart_ok exc '6' (iterateT6 W.occS W.unoccS) (lrG6 tiny) (ExcOp W) stringOp (by
      intro x hx
      obtain ⟨C, I, h1, h2, rfl, h3⟩ := string_ok ht hW (by omega) ((k6.2 x).1 hx)
      match C, I, h1, h2, h3 with
      | [a, b, c, d, e, f], [i, j, k, l, m, n], _, _, h3 => exact h3) ([] ++ L1 ++ L2 ++ L3 ++ L4 ++ L5)
  refine ⟨[] ++ L1 ++ L2 ++ L3 ++ L4 ++ L5 ++ L6, ?_, ?_, ?_⟩
  · simp only [a1, b1, c1, d1, e1, f1, ok_bind]
  · simp only [List.nil_append, List.map_append, a2, b2, c2, d2, e2, f2]
  · intro d hd
    simp only [List.nil_append, List.mem_append] at hd
    rcases hd with ((((h | h) | h) | h) | h) | h
    · exact a3 d h
    · exact b3 d h
    · exact c3 d h
    · exact d3 d h
    · exact e3 d h
    · exact f3 d h

/-- The orbital operators of the constructor. -/
theorem lrQ_ok (ht : ExactTiny tiny) (hW : W.Proper) :
    ∃ Q, lrQ tiny W = .ok Q ∧ List.Forall₂ (fun k q => GenOp W.ci q ∧ sumOp q = qOp k.2 k.1) W.kappa Q := by
  have key : ∀ (l : List (ℕ × ℕ)) (Q0 : List (Dict ℝ)),
      (∀ k ∈ l, NonRedundant W.ci.nI W.ci.nA k ∧ k.2 < W.numOrbs) →
      ∃ Q, l.foldlM (fun Q pq => do let op ← G1sa tiny (Real.sqrt 2)⁻¹ pq.1 pq.2 false; pure (Q ++ [op])) Q0
          = .ok (Q0 ++ Q) ∧ List.Forall₂ (fun k q => GenOp W.ci q ∧ sumOp q = qOp k.2 k.1) l Q := by
    intro l
    induction l with
    | nil => intro Q0 _; exact ⟨[], by rw [List.append_nil]; rfl, .nil⟩
    | cons k l ih =>
      intro Q0 h
      obtain ⟨h1, h2⟩ := h k (by simp)
      unfold RespWf.numOrbs at h2
      have h3 : k.1 < W.ci.nI + W.ci.nA + W.ci.nV := by unfold NonRedundant at h1; omega
      obtain ⟨d, g1, g2, g3, g4⟩ := dk_G1sa_plain (P := (· < 2 * (W.ci.nI + W.ci.nA + W.ci.nV))) (tiny := tiny) ht
        (Real.sqrt 2)⁻¹ (both_lt h3) (both_lt h2)
      obtain ⟨Q, q1, q2⟩ := ih (Q0 ++ [d]) fun k' hk' => h k' (by simp [hk'])
      refine ⟨d :: Q, ?_, .cons ⟨⟨g2, g4⟩, g3⟩ q2⟩
      rw [List.foldlM_cons, g1]
      exact q1.trans (by rw [List.append_assoc]; rfl)
  obtain ⟨Q, h1, h2⟩ := key W.kappa [] hW.kappa
  exact ⟨Q, by unfold lrQ; rw [h1, List.nil_append], h2⟩

end

end SQ
