import Verif.Lemmas.ExtendedStates
import Verif.Props.ResponseTransfer

/-!
# C100-C102: linear response in an extended determinant space
-/

namespace SQ

variable {tiny big : ℝ → Bool} {W : ExtWf} {U Ud : FOp ℝ}

/-- C100: the constructor of self-consistent linear response raises exactly when an element of the gradient is larger
than `10⁻³`.  Otherwise it leaves the matrices of the orbital rotations and the operators `U G U†`: nested
commutators for two orbital rotations, symmetric double commutators for all other pairs. -/
theorem C100_selfconsistent (ht : ExactTiny tiny) (hz : tiny 0 = true) (hb : ExactBig big) (hW : W.Proper)
    (hR : W.Rotates U Ud) (excitations : String) :
    let X := W.scOps U Ud (lettersOf excitations)
    let n := W.kappa.length
    ((∃ T ∈ X, 1 / 1000 < |expv W.state (comm W.ham T)|) →
      scInit tiny big .one W excitations = .error .valueError) ∧
    ((∀ T ∈ X, |expv W.state (comm W.ham T)| ≤ 1 / 1000) →
      ∃ M, scInit tiny big .one W excitations = .ok M ∧
        ∀ i j Xi Xid Xj Xjd, X[i]? = some Xi → X[j]? = some Xj → IsAdjoint Xi Xid → IsAdjoint Xj Xjd →
          M.Sigma i j = expv W.state (comm Xid Xj) ∧
          M.Delta i j = expv W.state (comm Xid Xjd) ∧
          (i < n → j < n →
            M.A i j = expv W.state (comm Xid (comm W.ham Xj)) ∧
            M.B i j = expv W.state (comm Xid (comm W.ham Xjd))) ∧
          (n ≤ i ∨ n ≤ j →
            M.A i j = expv W.state (dcomm Xid W.ham Xj) ∧
            M.B i j = expv W.state (dcomm Xid W.ham Xjd))) := by
  intro X n
  obtain ⟨G, hG, opsG, excG⟩ := lrG_ok ht hW.base excitations
  obtain ⟨Q, hQ, fQ⟩ := lrQ_exc ht hW.base
  obtain ⟨H1, h1, h1g, h1s⟩ := ham1_gen ht hb W.h W.g W.ci
  obtain ⟨H0, h0, h0g, h0s⟩ := ham0_gen ht hb W.h W.g W.ci
  have h0k := ham0_core W.h W.g W.ci.nI W.ci.nA h0
  obtain ⟨I, hI, hC⟩ := extStart_ok (tiny := tiny) hW hR (order := 1) (.inl rfl)
  change ExtCtx W U Ud false I at hC
  obtain ⟨H00, p1, p2, p3⟩ := hC.udh ht hz h0g h0k h0s
  have hHa := ham_adjoint hW.base
  have aW : ActiveState W.ci.nI W.ci.nA W.state := hC.st.active
  obtain ⟨o1, -⟩ := lrOps_ortho hW.base (lettersOf excitations)
  have lenQ : Q.length = n := fQ.length_eq.symm
  have hX : X = (W.kappa.map fun k => qOp k.2 k.1) ++ G.map fun d => U * sumOp d * Ud := by
    show W.scOps U Ud _ = _
    unfold ExtWf.scOps lettersOf
    rw [← opsG, List.map_map]
    rfl
  have lenX : X.length = n + G.length := by rw [hX]; simp [n]
  have atG : ∀ {i : ℕ} {g : Dict ℝ}, G[i]? = some g →
      (lrOps W.toRespWf (lettersOf excitations))[i]? = some (sumOp g) := by
    intro i g h
    unfold lettersOf
    rw [← opsG, List.getElem?_map, h]; rfl
  have memG : ∀ {g}, g ∈ G → sumOp g ∈ W.refOps (lettersOf excitations) := by
    intro g hg
    obtain ⟨i, hi⟩ := List.getElem?_of_mem hg
    exact List.mem_append_right _ (List.mem_of_getElem? (atG hi))
  have adjG : ∀ {g}, g ∈ G → ∃ Td, IsAdjoint (sumOp g) Td := fun hg => by
    obtain ⟨gd, -, -, h⟩ := (excG _ hg).1.dagger ht
    exact ⟨_, h⟩
  have killG : ∀ {g Td}, g ∈ G → IsAdjoint (sumOp g) Td → (U * Td * Ud) W.state = 0 := fun hg ha => by
    rw [hC.dress_state, hW.ref_kills _ (memG hg) ha, map_zero]
  have casG : ∀ {g}, g ∈ G → Cas W.ci W.na W.nb (sumOp g (ket W.refDet)) := fun hg => hC.ref.core (act_core (excG _ hg).1)
  have gradG : ∀ {g}, g ∈ G → expv W.state (comm W.ham (U * sumOp g * Ud)) =
      inner (U (sumOp g (ket W.refDet))) (W.ham W.state) := by
    intro g hg
    obtain ⟨Td, ha⟩ := adjG hg
    rw [killed_comm hHa (hC.dress ha) (killG hg ha), hC.dress_state]
  obtain ⟨gr, g1, g2⟩ := mapM_ok_exists (f := xGrad tiny .one I H00)
    (fun d v => |v.1| = |expv W.state (comm W.ham (U * sumOp d * Ud))| ∧
      |v.2| = |expv W.state (comm W.ham (U * sumOp d * Ud))|) G (fun d hd => by
      obtain ⟨v, v1, v2, v3⟩ := hC.grad ht hz p3 (excG d hd).1
      exact ⟨v, v1, by rw [v2, gradG hd, abs_neg], by rw [v3, gradG hd]⟩)
  obtain ⟨gc1, gc2⟩ := gradCheck_forall g2
  obtain ⟨oc1, oc2⟩ := lrOrbCheck_eq hW.base lenQ
  have hsplit : (∃ T ∈ X, 1 / 1000 < |expv W.state (comm W.ham T)|) ↔
      (∃ T ∈ W.kappa.map fun k => qOp k.2 k.1, 1 / 1000 < |expv W.state (comm W.ham T)|) ∨
      ∃ d ∈ G, 1 / 1000 < |expv W.state (comm W.ham (U * sumOp d * Ud))| := by
    rw [hX]
    simp only [List.mem_append, or_and_right, exists_or, List.mem_map, exists_exists_and_eq_and]
  refine ⟨fun hbig => ?_, fun hsmall => ?_⟩
  · unfold scInit
    simp only [hG, hQ, h1, h0, hI, ok_bind]
    by_cases ho : ∃ T ∈ W.kappa.map fun k => qOp k.2 k.1, 1 / 1000 < |expv W.state (comm W.ham T)|
    · rw [oc1 ho]; rfl
    · rw [oc2 ho]
      simp only [ok_bind, p1, g1]
      rw [gc1 ((hsplit.1 hbig).resolve_left ho)]
      rfl
  have hno : ¬ ∃ T ∈ X, 1 / 1000 < |expv W.state (comm W.ham T)| := by
    rintro ⟨T, hT, h⟩
    exact absurd (hsmall T hT) (not_le.2 h)
  rw [hsplit, not_or] at hno
  have getq : ∀ {j : ℕ} {k : ℕ × ℕ}, W.kappa[j]? = some k → X[j]? = some (qOp k.2 k.1) := by
    intro j k h
    rw [hX, List.getElem?_append_left (by
      have := (List.getElem?_eq_some_iff.1 h).1
      simpa using this), List.getElem?_map, h]
    rfl
  have getG : ∀ {i : ℕ} {g : Dict ℝ}, G[i]? = some g → X[i + n]? = some (U * sumOp g * Ud) := by
    intro i g h
    rw [hX, List.getElem?_append_right (by simp [n])]
    simp [n, h]
  have hadj : ∀ T ∈ X, ∃ T', IsAdjoint T T' := by
    intro T hT
    rw [hX] at hT
    rcases List.mem_append.1 hT with h | h
    · obtain ⟨k, -, rfl⟩ := List.mem_map.1 h
      exact ⟨_, qOp_adjoint _ _⟩
    · obtain ⟨g, hg, rfl⟩ := List.mem_map.1 h
      obtain ⟨Td, ha⟩ := adjG hg
      exact ⟨_, hC.dress ha⟩
  have sA := FA_symm (X := X) hW.base hadj
  have sB := FB_symm (W := W.toRespWf) (X := X)
  have sS := FS_symm (W := W.toRespWf) (X := X) hadj
  have kill : ∀ {k}, k ∈ W.kappa → ∀ x, ActiveState W.ci.nI W.ci.nA x → qOp k.1 k.2 x = 0 :=
    fun hk x hx => qOp_kills hx (hW.base.kappa _ hk).1
  -- the entries of the kinds of pairs
  have vmix : ∀ {i j : ℕ} {g : Dict ℝ} {k : ℕ × ℕ} {gd : FOp ℝ}, G[i]? = some g → W.kappa[j]? = some k →
      IsAdjoint (sumOp g) gd →
      FA W.toRespWf X (i + n) j = inner (U (sumOp g (ket W.refDet))) (W.ham (qOp k.2 k.1 W.state))
        - 1 / 2 * inner (U (gd (Ud (qOp k.2 k.1 W.state)))) (W.ham W.state) ∧
      FB W.toRespWf X (i + n) j = -1 / 2 * inner (qOp k.2 k.1 (U (sumOp g (ket W.refDet)))) (W.ham W.state)
        - 1 / 2 * inner (U (sumOp g (Ud (qOp k.2 k.1 W.state)))) (W.ham W.state) ∧
      FS W.toRespWf X (i + n) j = 0 ∧ expv W.state (comm (adj (opAt X (i + n))) (adj (opAt X j))) = 0 := by
    intro i j g k gd hg hk ha
    have mk := List.mem_of_getElem? hk
    have mg := List.mem_of_getElem? hg
    unfold FA FB FS
    rw [opAt_of (getG hg), opAt_of (getq hk), adj_eq (hC.dress ha), adj_eq (qOp_adjoint _ _)]
    have uG := (hC.cas _ (casG mg)).1.active
    obtain ⟨t1, t2⟩ := killed_dcomm hHa (hC.dress ha) (qOp_adjoint k.2 k.1) (killG mg ha) (kill mk _ aW)
    obtain ⟨t3, t4⟩ := killed_metric (hC.dress ha) (qOp_adjoint k.2 k.1) (killG mg ha) (kill mk _ aW)
    refine ⟨?_, ?_, ?_, t4⟩
    · rw [t1, hC.dress_state, kill mk _ uG, inner_zero_left, mul_zero, sub_zero]
      rfl
    · rw [t2, hC.dress_state]
      rfl
    · rw [t3, hC.dress_state, inner_comm, qOp_adjoint, kill mk _ uG, inner_zero_right]
  have vact : ∀ {i j : ℕ} {g f : Dict ℝ} {gd fd : FOp ℝ}, G[i]? = some g → G[j]? = some f →
      IsAdjoint (sumOp g) gd → IsAdjoint (sumOp f) fd →
      FA W.toRespWf X (i + n) (j + n) = inner (U (sumOp g (ket W.refDet))) (W.ham (U (sumOp f (ket W.refDet))))
          - 1 / 2 * inner (U (fd (sumOp g (ket W.refDet)))) (W.ham W.state)
          - 1 / 2 * inner (U (gd (sumOp f (ket W.refDet)))) (W.ham W.state) ∧
      FB W.toRespWf X (i + n) (j + n) = - inner (U (sumOp f (sumOp g (ket W.refDet)))) (W.ham W.state) ∧
      FS W.toRespWf X (i + n) (j + n) = (if i = j then 1 else 0) ∧
      expv W.state (comm (adj (opAt X (i + n))) (adj (opAt X (j + n)))) = 0 := by
    intro i j g f gd fd hg hf ag af
    have mg := List.mem_of_getElem? hg
    have mf := List.mem_of_getElem? hf
    unfold FA FB FS
    rw [opAt_of (getG hg), opAt_of (getG hf), adj_eq (hC.dress ag), adj_eq (hC.dress af)]
    obtain ⟨t1, t2⟩ := killed_dcomm hHa (hC.dress ag) (hC.dress af) (killG mg ag) (killG mf af)
    obtain ⟨t3, t4⟩ := killed_metric (hC.dress ag) (hC.dress af) (killG mg ag) (killG mf af)
    have ig := hC.inside (casG mg)
    have jf := hC.inside (casG mf)
    refine ⟨?_, ?_, ?_, t4⟩
    · rw [t1, hC.dress_state, hC.dress_state, hC.dress_inside _ ig, hC.dress_inside _ jf]
    · have : sumOp g (sumOp f (ket W.refDet)) = sumOp f (sumOp g (ket W.refDet)) :=
        congrArg (fun A : FOp ℝ => A (ket W.refDet)) (PairSpan.comm hW.base.disjS (excG _ mg).2 (excG _ mf).2).eq
      rw [t2, hC.dress_state, hC.dress_state, hC.dress_inside _ ig, hC.dress_inside _ jf, this]
      ring
    · rw [t3, hC.dress_state, hC.dress_state, hC.inner_U jf, o1 i j _ _ (atG hg) (atG hf)]
  obtain ⟨M1, m1, mS, mD, m2⟩ := mixed_loop (Q := Q) (G := G) (pre := scMixedPre tiny .one I H1)
    (entry := fun k x y => scMixed tiny .one I H1 k x.1 y.1) sA sB (by
      intro x hx
      have hx' := zipIdx_get hx
      obtain ⟨k, hk⟩ : ∃ k, W.kappa[x.2]? = some k := by
        have := (List.getElem?_eq_some_iff.1 hx').1
        rw [lenQ] at this
        exact ⟨_, List.getElem?_eq_getElem this⟩
      have hRq := (List.forall₂_iff_get.1 fQ).2 x.2 (List.getElem?_eq_some_iff.1 hk).1
        (List.getElem?_eq_some_iff.1 hx').1
      rw [List.get_eq_getElem, List.get_eq_getElem, (List.getElem?_eq_some_iff.1 hk).2,
        (List.getElem?_eq_some_iff.1 hx').2] at hRq
      obtain ⟨κ, c1, c2⟩ := hC.sc_mixed ht hz hHa h1g h1s hRq.1 (qd := qOp k.1 k.2) (by
        rw [hRq.2]; exact qOp_adjoint _ _)
      refine ⟨κ, c1, fun y hy => ?_⟩
      have hy' := zipIdx_get hy
      obtain ⟨gd, ag⟩ := adjG (List.mem_of_getElem? hy')
      obtain ⟨v, v1, v2, v3⟩ := c2 y.1 gd (excG _ (List.mem_of_getElem? hy')).1 ag
      obtain ⟨w1, w2, -⟩ := vmix hy' hk ag
      rw [lenQ]
      rw [hRq.2] at v2 v3
      exact ⟨v, v1, by rw [v2, w1], by rw [v3, w2]⟩) (lrOrbBlocks W.toRespWf Q.length LRMats.zero)
  obtain ⟨M2, a1, aD, a2⟩ := sc_act_loop (G := G) Q.length (pre := scActPre tiny .one I H0 H00)
    (entry := fun k _ y => scAct tiny .one I H00 k y.1) sA sB (by
      intro x hx
      have hx' := zipIdx_get hx
      obtain ⟨fd, af⟩ := adjG (List.mem_of_getElem? hx')
      obtain ⟨κ, c1, c2⟩ := hC.act_entry ht hz h0g h0k h0s p2 p3 (excG _ (List.mem_of_getElem? hx')).1 af
      refine ⟨κ, c1, fun y hy => ?_⟩
      have hy' := zipIdx_drop_get hy
      obtain ⟨gd, ag⟩ := adjG (List.mem_of_getElem? hy')
      obtain ⟨v, v1, v2, v3⟩ := c2 y.1 gd (excG _ (List.mem_of_getElem? hy')).1 ag
      obtain ⟨w1, w2, -⟩ := vact hy' hx' ag af
      rw [lenQ]
      exact ⟨v, v1, by rw [v2, w1], by rw [v3, w2]⟩) M1
  refine ⟨M2, by
    unfold scInit scActLoop
    simp only [hG, hQ, h1, h0, hI, ok_bind, oc2 hno.1, p1, g1, gc2 hno.2]
    rw [m1]
    simp only [ok_bind]
    rw [a1], ?_⟩
  intro i j Xi Xid Xj Xjd hi hj hid hjd
  have li : i < n + G.length := by rw [← lenX]; exact (List.getElem?_eq_some_iff.1 hi).1
  have lj : j < n + G.length := by rw [← lenX]; exact (List.getElem?_eq_some_iff.1 hj).1
  have oi : opAt X i = Xi := opAt_of hi
  have oj : opAt X j = Xj := opAt_of hj
  have oid : adj (opAt X i) = Xid := by rw [oi]; exact adj_eq hid
  have ojd : adj (opAt X j) = Xjd := by rw [oj]; exact adj_eq hjd
  have va : FA W.toRespWf X i j = expv W.state (dcomm Xid W.ham Xj) := by unfold FA; rw [oid, oj]
  have vb : FB W.toRespWf X i j = expv W.state (dcomm Xid W.ham Xjd) := by unfold FB; rw [oid, ojd]
  have vs : FS W.toRespWf X i j = expv W.state (comm Xid Xj) := by unfold FS; rw [oid, oj]
  rw [lenQ] at m2 a2 mS mD
  have zD : M2.Delta i j = 0 := by rw [aD, mD, lrOrbBlocks_delta]; rfl
  rw [zD, ← vs, ← va, ← vb]
  have zS : ¬ (i < n ∧ j < n) → M1.Sigma i j = 0 := fun h => by
    rw [mS, lrOrbBlocks_sigma hW.base (by show n ≤ i ∨ n ≤ j; omega)]; rfl
  have qat : ∀ {i : ℕ}, i < n → ∃ k, W.kappa[i]? = some k := fun h => ⟨_, List.getElem?_eq_getElem h⟩
  have gat : ∀ {i : ℕ}, n ≤ i → i < n + G.length → ∃ g gd, G[i - n]? = some g ∧ IsAdjoint (sumOp g) gd := by
    intro i h h'
    have e := List.getElem?_eq_getElem (l := G) (i := i - n) (by omega)
    obtain ⟨gd, ag⟩ := adjG (List.mem_of_getElem? e)
    exact ⟨_, gd, e, ag⟩
  by_cases ci : i < n <;> by_cases cj : j < n
  · obtain ⟨k, hk⟩ := qat ci
    obtain ⟨l, hl⟩ := qat cj
    have hi' := getq hk
    have hj' := getq hl
    rw [hi] at hi'
    rw [hj] at hj'
    obtain rfl := Option.some.inj hi'
    obtain rfl := Option.some.inj hj'
    obtain rfl := hid.unique (qOp_adjoint _ _)
    obtain rfl := hjd.unique (qOp_adjoint _ _)
    have nk := kill (List.mem_of_getElem? hk) _ aW
    have nl := kill (List.mem_of_getElem? hl) _ aW
    obtain ⟨o1, o2, o3⟩ := lrOrbBlocks_eq hW.base lenQ LRMats.zero hk hl
    obtain ⟨b1, b2, b3⟩ := (a2 i j).2 (by omega)
    obtain ⟨b4, b5⟩ := (m2 i j).2 (by omega)
    refine ⟨?_, ?_, fun _ _ => ⟨?_, ?_⟩, fun h => by omega⟩
    · rw [b3, mS, ← lenQ, o3, vs]
    · rw [expv_comm, nk, nl, map_zero, map_zero, inner_zero_right, sub_zero]
    · rw [b1, b4, ← lenQ, o1]
    · rw [b2, b5, ← lenQ, o2]
  · obtain ⟨k, hk⟩ := qat ci
    obtain ⟨g, gd, hg, ag⟩ := gat (not_lt.1 cj) lj
    obtain ⟨w1, w2, w3, w4⟩ := vmix hg hk ag
    rw [show j - n + n = j by omega] at w1 w2 w3 w4
    obtain ⟨b1, b2, b3⟩ := (a2 i j).2 (by omega)
    obtain ⟨b4, b5⟩ := (m2 i j).1 (by omega)
    refine ⟨?_, ?_, fun _ h => by omega, fun _ => ⟨by rw [b1, b4], by rw [b2, b5]⟩⟩
    · rw [b3, zS (by omega), sS, w3]
    · rw [oid, ojd] at w4
      rw [expv_comm] at w4 ⊢
      linarith
  · obtain ⟨k, hk⟩ := qat cj
    obtain ⟨g, gd, hg, ag⟩ := gat (not_lt.1 ci) li
    obtain ⟨w1, w2, w3, w4⟩ := vmix hg hk ag
    rw [show i - n + n = i by omega] at w1 w2 w3 w4
    obtain ⟨b1, b2, b3⟩ := (a2 i j).2 (by omega)
    obtain ⟨b4, b5⟩ := (m2 i j).1 (by omega)
    refine ⟨?_, ?_, fun h => absurd h ci, fun _ => ⟨by rw [b1, b4], by rw [b2, b5]⟩⟩
    · rw [b3, zS (by omega), w3]
    · rw [oid, ojd] at w4
      rw [w4]
  · obtain ⟨f, fd, hf, af⟩ := gat (not_lt.1 cj) lj
    obtain ⟨g, gd, hg, ag⟩ := gat (not_lt.1 ci) li
    obtain ⟨w1, w2, w3, w4⟩ := vact hg hf ag af
    rw [show i - n + n = i by omega, show j - n + n = j by omega] at w1 w2 w3 w4
    obtain ⟨b1, b2, b3⟩ := (a2 i j).1 (by omega)
    refine ⟨?_, ?_, fun h => absurd h ci, fun _ => ⟨by rw [b1], by rw [b2]⟩⟩
    · rw [b3, zS (by omega), w3]
      have : i = j ↔ i - n = j - n := by omega
      simp only [this]
    · rw [oid, ojd] at w4
      rw [w4]

/-! ### The operators out of the reference -/

section
variable (ht : ExactTiny tiny) (hW : W.Proper) (excitations : String)
include ht hW

/-- The lists `q_ops` and `G_ops` of allstatetransfer.py and allselfconsistent.py. -/
theorem ref_lists : ∃ G Q, lrG tiny W.toRespWf excitations = .ok G ∧ hfQ tiny W = .ok Q ∧
    Q.length = W.hfLike.length ∧ (Q ++ G).map sumOp = W.refOps (lettersOf excitations) ∧
    (∀ d ∈ G, ActOp W.ci d ∧ sumOp d ∈ lrOps W.toRespWf (lettersOf excitations)) ∧
    (∀ (i : ℕ) d, Q[i]? = some d → ∃ k ∈ W.hfLike, ExcGen W.ci k.2 k.1 d ∧ sumOp d = qOp k.2 k.1 ∧
      NonRedundant W.ci.nI W.ci.nA k) ∧
    (∀ T ∈ lrOps W.toRespWf (lettersOf excitations), (∃ Td, IsAdjoint T Td) ∧
      PairSpan (· ∈ W.occS) (· ∈ W.unoccS) T) := by
  obtain ⟨G, hG, opsG, excG⟩ := lrG_ok ht hW.base excitations
  obtain ⟨Q, hQ, fQ⟩ := hfQ_exc ht hW
  refine ⟨G, Q, hG, hQ, fQ.length_eq.symm, ?_, fun d hd => ⟨(excG d hd).1, ?_⟩, fun i d hd => ?_, fun T hT => ?_⟩
  · rw [List.map_append, opsG]
    unfold ExtWf.refOps lettersOf
    congr 1
    clear hQ
    generalize W.hfLike = l at fQ
    induction fQ with
    | nil => rfl
    | cons h _ ih => rw [List.map_cons, List.map_cons, h.2, ih]
  · unfold lettersOf
    rw [← opsG]
    exact List.mem_map_of_mem hd
  · have hi := (List.getElem?_eq_some_iff.1 hd).1
    have hk := List.getElem?_eq_getElem (l := W.hfLike) (i := i) (by rw [fQ.length_eq]; exact hi)
    have hRq := (List.forall₂_iff_get.1 fQ).2 i (List.getElem?_eq_some_iff.1 hk).1 hi
    rw [List.get_eq_getElem, List.get_eq_getElem, (List.getElem?_eq_some_iff.1 hd).2] at hRq
    exact ⟨_, List.mem_of_getElem? hk, hRq.1, hRq.2, (hW.pairs _ (List.mem_of_getElem? hk)).2.2⟩
  · unfold lettersOf at hT
    rw [← opsG] at hT
    obtain ⟨g, hg, rfl⟩ := List.mem_map.1 hT
    obtain ⟨gd, -, -, h⟩ := (excG _ hg).1.dagger ht
    exact ⟨⟨_, h⟩, (excG _ hg).2⟩

end

/-- C101, C102, states: the states `U q|ref⟩` and `U G|ref⟩` are orthonormal and orthogonal to the wave function. -/
theorem C101_states (hW : W.Proper) (hR : W.Rotates U Ud) (excitations : String) :
    let R := W.refOps (lettersOf excitations)
    (∀ (i j : ℕ) (S T : FOp ℝ), R[i]? = some S → R[j]? = some T →
      inner (W.moved U S) (W.moved U T) = if i = j then 1 else 0) ∧
    ∀ T ∈ R, inner W.state (W.moved U T) = 0 := by
  intro R
  have ht : ExactTiny (fun x : ℝ => decide (x = 0)) := fun x h => by simpa using h
  have hz : (fun x : ℝ => decide (x = 0)) 0 = true := by simp
  obtain ⟨G, Q, -, -, -, ops, hG, hQ, hA⟩ := ref_lists ht hW excitations
  obtain ⟨I, -, hC⟩ := extStart_ok (tiny := fun x : ℝ => decide (x = 0)) hW hR (order := 1) (.inl rfl)
  obtain ⟨o1, o2⟩ := hW.ref_ortho (lettersOf excitations) fun T hT => (hA T hT).1
  have ins : ∀ T ∈ R, Inside I.ci (T (ket W.refDet)) := by
    intro T hT
    rw [show R = (Q ++ G).map sumOp from ops.symm] at hT
    obtain ⟨d, hd, rfl⟩ := List.mem_map.1 hT
    rcases List.mem_append.1 hd with h | h
    · obtain ⟨i, hi⟩ := List.getElem?_of_mem h
      obtain ⟨k, -, he, -⟩ := hQ i d hi
      exact Inside.sumOp (reach_excite hC.sp he hC.ref)
    · exact hC.inside (hC.ref.core (act_core (hG d h).1))
  have mv : ∀ T : FOp ℝ, W.moved U T = U (T (ket W.refDet)) := fun T => by unfold RespWf.moved; rw [hW.csf]
  refine ⟨fun i j S T hS hT => ?_, fun T hT => ?_⟩
  · rw [mv, mv, hC.inner_U (ins _ (List.mem_of_getElem? hT)), o1 i j S T hS hT]
  · rw [mv, hC.state, hC.inner_U (ins _ hT), o2 T hT]

/-- C101: the constructor of all-state-transfer linear response raises exactly when an element of the gradient of the
active operators is larger than `10⁻³`; the gradient of the other operators is not looked at.  Otherwise it leaves the
matrices of the operators `U q|ref⟩⟨0|` and `U G|ref⟩⟨0|`. -/
theorem C101_all_transfer (ht : ExactTiny tiny) (hz : tiny 0 = true) (hb : ExactBig big) (hW : W.Proper)
    (hE : W.energy = expv W.state W.ham) (hR : W.Rotates U Ud) (excitations : String) :
    let X := W.allTransferOps U (lettersOf excitations)
    let n := W.hfLike.length
    ((∃ T ∈ X.drop n, 1 / 1000 < |expv W.state (comm W.ham T)|) →
      astInit tiny big .one W excitations = .error .valueError) ∧
    ((∀ T ∈ X.drop n, |expv W.state (comm W.ham T)| ≤ 1 / 1000) →
      ∃ M, astInit tiny big .one W excitations = .ok M ∧
        ∀ i j Xi Xid Xj Xjd, X[i]? = some Xi → X[j]? = some Xj → IsAdjoint Xi Xid → IsAdjoint Xj Xjd →
          M.Sigma i j = expv W.state (comm Xid Xj) ∧
          M.Delta i j = expv W.state (comm Xid Xjd) ∧
          M.A i j = expv W.state (dcomm Xid W.ham Xj) ∧
          M.B i j = expv W.state (dcomm Xid W.ham Xjd)) := by
  intro X n
  obtain ⟨G, Q, hG, hQ, lenQ, ops, actG, excQ, adjs⟩ := ref_lists ht hW excitations
  obtain ⟨Q', hQ', -⟩ := lrQ_exc ht hW.base
  obtain ⟨H1, h1, -⟩ := ham1_gen ht hb W.h W.g W.ci
  obtain ⟨H0, h0, h0g, h0s⟩ := ham0_gen ht hb W.h W.g W.ci
  obtain ⟨H2, h2, h2g, h2s⟩ := ham2_gen ht hb W.h W.g W.ci
  have h0k := ham0_core W.h W.g W.ci.nI W.ci.nA h0
  obtain ⟨I, hI, hC⟩ := extStart_ok (tiny := tiny) hW hR (order := 1) (.inl rfl)
  obtain ⟨H00, p1, p2, p3⟩ := hC.udh ht hz h0g h0k h0s
  obtain ⟨st1, st2⟩ := C101_states hW hR excitations
  have hHa := ham_adjoint hW.base
  have mv : ∀ T : FOp ℝ, W.moved U T = U (T (ket W.refDet)) := fun T => by unfold RespWf.moved; rw [hW.csf]
  have hX : X = (Q ++ G).map fun d => ketbra (U (sumOp d (ket W.refDet))) W.state := by
    show W.allTransferOps U _ = _
    unfold ExtWf.allTransferOps
    rw [← ops, List.map_map]
    exact List.map_congr_left fun d _ => by rw [Function.comp_apply, mv]
  have lenX : X.length = n + G.length := by rw [hX]; simp [n, lenQ]
  have atR : ∀ {i : ℕ} {g : Dict ℝ}, (Q ++ G)[i]? = some g → (W.refOps (lettersOf excitations))[i]? = some (sumOp g) := by
    intro i g h
    rw [← ops, List.getElem?_map, h]; rfl
  have orth : ∀ {i : ℕ} {g : Dict ℝ}, (Q ++ G)[i]? = some g → inner W.state (U (sumOp g (ket W.refDet))) = 0 := by
    intro i g h
    rw [← mv]
    exact st2 _ (List.mem_of_getElem? (atR h))
  have getX : ∀ {i : ℕ} {g : Dict ℝ}, (Q ++ G)[i]? = some g → X[i]? = some (ketbra (U (sumOp g (ket W.refDet))) W.state) := by
    intro i g h
    rw [hX, List.getElem?_map, h]; rfl
  have dropX : X.drop n = G.map fun d => ketbra (U (sumOp d (ket W.refDet))) W.state := by
    rw [hX, ← List.map_drop, List.drop_append, List.drop_of_length_le (by omega), lenQ]
    simp [n]
  have atG : ∀ {g}, g ∈ G → ∃ i, (Q ++ G)[i]? = some g := fun hg => List.getElem?_of_mem (List.mem_append_right _ hg)
  obtain ⟨gr, g1, g2⟩ := mapM_ok_exists (f := xGrad tiny .one I H00)
    (fun d v => |v.1| = |expv W.state (comm W.ham (ketbra (U (sumOp d (ket W.refDet))) W.state))| ∧
      |v.2| = |expv W.state (comm W.ham (ketbra (U (sumOp d (ket W.refDet))) W.state))|) G (fun d hd => by
      obtain ⟨v, v1, v2, v3⟩ := hC.grad ht hz p3 (actG d hd).1
      obtain ⟨i, hi⟩ := atG hd
      have e := (transfer_S (H := W.ham) hW.base.norm (orth hi) (orth hi)).2.2
      rw [← hHa, inner_comm] at e
      exact ⟨v, v1, by rw [v2, e, abs_neg], by rw [v3, e]⟩)
  obtain ⟨gc1, gc2⟩ := gradCheck_forall g2
  have hsplit : (∃ T ∈ X.drop n, 1 / 1000 < |expv W.state (comm W.ham T)|) ↔
      ∃ d ∈ G, 1 / 1000 < |expv W.state (comm W.ham (ketbra (U (sumOp d (ket W.refDet))) W.state))| := by
    rw [dropX]
    simp only [List.mem_map, exists_exists_and_eq_and]
  have zc : lrGradCheck (List.replicate (2 * Q.length) 0) = .ok () := by
    refine (lrGradCheck_eq _).2 ?_
    rintro ⟨x, hx, h⟩
    rw [List.eq_of_mem_replicate hx] at h
    norm_num at h
  refine ⟨fun hbig => ?_, fun hsmall => ?_⟩
  · unfold astInit
    simp only [hG, hQ, hQ', h1, h0, h2, hI, ok_bind, zc, p1, g1]
    rw [gc1 (hsplit.1 hbig)]
    rfl
  have hno : ¬ ∃ T ∈ X.drop n, 1 / 1000 < |expv W.state (comm W.ham T)| := by
    rintro ⟨T, hT, h⟩
    exact absurd (hsmall T hT) (not_le.2 h)
  rw [hsplit] at hno
  have hadj : ∀ T ∈ X, ∃ T', IsAdjoint T T' := by
    intro T hT
    rw [hX] at hT
    obtain ⟨g, -, rfl⟩ := List.mem_map.1 hT
    exact ⟨_, ketbra_adjoint _ _⟩
  have sA := FA_symm (X := X) hW.base hadj
  have vals : ∀ {i j : ℕ} {g f : Dict ℝ}, (Q ++ G)[i]? = some g → (Q ++ G)[j]? = some f →
      FA W.toRespWf X i j = inner (U (sumOp g (ket W.refDet))) (W.ham (U (sumOp f (ket W.refDet))))
        - (if i = j then W.energy else 0) ∧
      FB W.toRespWf X i j = 0 ∧ FS W.toRespWf X i j = (if i = j then 1 else 0) ∧
      expv W.state (comm (adj (opAt X i)) (adj (opAt X j))) = 0 := by
    intro i j g f hg hf
    unfold FA FB FS
    rw [opAt_of (getX hg), opAt_of (getX hf), adj_eq (ketbra_adjoint _ _), adj_eq (ketbra_adjoint _ _)]
    have dl := st1 i j _ _ (atR hg) (atR hf)
    rw [mv, mv] at dl
    obtain ⟨t1, t2, -⟩ := transfer_S (H := W.ham) hW.base.norm (orth hg) (orth hf)
    refine ⟨?_, transfer_B (orth hg) (orth hf), by rw [t1, dl], t2⟩
    rw [transfer_A hW.base.norm (orth hg) (orth hf), dl, hE]
    split <;> simp
  have inQ : ∀ {i : ℕ} {d : Dict ℝ}, (Q ++ G)[i]? = some d → i < Q.length → Q[i]? = some d := fun h h' => by
    rwa [List.getElem?_append_left h'] at h
  have inG : ∀ {i : ℕ} {d : Dict ℝ}, (Q ++ G)[i]? = some d → ¬ i < Q.length → d ∈ G := fun h h' => by
    rw [List.getElem?_append_right (not_lt.1 h')] at h
    exact List.mem_of_getElem? h
  obtain ⟨M1, m1, mB, mD, m2⟩ := ast_loop (Q := Q) G 0
    (pre := fun qJ => I.prop tiny .one true [.name "Ud", .op H2, .name "U", .op qJ] I.csf)
    (entry := fun k x y => if y.2 < Q.length then astOrb tiny .one W I k (y.2 == x.2) y.1 else astMixed tiny .one I k y.1)
    sA (by
      intro x hx
      have hx' := zipIdx_get hx
      have hx'' : (Q ++ G)[x.2]? = some x.1 := by
        rw [List.getElem?_append_left (List.getElem?_eq_some_iff.1 hx').1, hx']
      obtain ⟨k, -, e1, -, -⟩ := excQ _ _ hx'
      obtain ⟨κ, c1, c2⟩ := hC.ast_pre ht hz h2g h2s e1
      refine ⟨κ, c1, fun y hy => ?_⟩
      have hy' := zipIdx_drop_get hy
      have vA := (vals hy' hx'').1
      have lx := (List.getElem?_eq_some_iff.1 hx').1
      split
      · rename_i ly
        obtain ⟨l, -, f1, -, f3⟩ := excQ _ _ (inQ hy' ly)
        rw [hC.ast_orb ht hz _ f3 f1, c2 _ (Inside.sumOp (reach_excite hC.sp f1 hC.ref)) (single_excite f1 hC.ref)]
        rw [show y.2 + 0 = y.2 from rfl, show x.2 + 0 = x.2 from rfl, vA]
        by_cases h : y.2 = x.2 <;> simp [h]
      · rename_i ly
        have hg := (actG _ (inG hy' ly)).1
        have cg := hC.ref.core (act_core hg)
        rw [(hC.ast_act ht hz false hg).2, c2 _ (hC.inside cg) cg.single]
        rw [show y.2 + 0 = y.2 from rfl, show x.2 + 0 = x.2 from rfl, vA, if_neg (by omega), sub_zero]) LRMats.zero
  have L2 := ast_loop (Q := G) [] Q.length
    (pre := fun GJ => I.prop tiny .one false [.name "Ud", .op H0, .name "U", .op GJ] I.csf)
    (entry := fun k x y => astOrb tiny .one W I k (y.2 == x.2) y.1) sA (by
      intro x hx
      rw [List.append_nil]
      have hx' := zipIdx_get hx
      have gx := (actG _ (List.mem_of_getElem? hx')).1
      obtain ⟨κ, c1, c2⟩ := hC.ast_act_pre ht hz h0g h0k h0s gx
      refine ⟨κ, c1, fun y hy => ?_⟩
      have hy' := zipIdx_drop_get hy
      have gy := (actG _ (List.mem_of_getElem? hy')).1
      have ex : (Q ++ G)[x.2 + Q.length]? = some x.1 := by
        rw [List.getElem?_append_right (by omega), Nat.add_sub_cancel, hx']
      have ey : (Q ++ G)[y.2 + Q.length]? = some y.1 := by
        rw [List.getElem?_append_right (by omega), Nat.add_sub_cancel, hy']
      rw [(hC.ast_act ht hz _ gy).1, c2 _ (hC.ref.core (act_core gy)), (vals ey ex).1]
      by_cases h : y.2 = x.2 <;> simp [h]) M1
  simp only [List.append_nil] at L2
  obtain ⟨M2, a1, aB, aD, a2⟩ := L2
  refine ⟨M2, by
    unfold astInit astActLoop
    simp only [hG, hQ, hQ', h1, h0, h2, hI, ok_bind, zc, p1, g1, gc2 hno]
    rw [astOrbStep_loop, m1]
    simp only [ok_bind]
    rw [a1], ?_⟩
  intro i j Xi Xid Xj Xjd hi hj hid hjd
  have li : i < n + G.length := by rw [← lenX]; exact (List.getElem?_eq_some_iff.1 hi).1
  have lj : j < n + G.length := by rw [← lenX]; exact (List.getElem?_eq_some_iff.1 hj).1
  have oi : opAt X i = Xi := opAt_of hi
  have oj : opAt X j = Xj := opAt_of hj
  have oid : adj (opAt X i) = Xid := by rw [oi]; exact adj_eq hid
  have ojd : adj (opAt X j) = Xjd := by rw [oj]; exact adj_eq hjd
  have va : FA W.toRespWf X i j = expv W.state (dcomm Xid W.ham Xj) := by unfold FA; rw [oid, oj]
  have vb : FB W.toRespWf X i j = expv W.state (dcomm Xid W.ham Xjd) := by unfold FB; rw [oid, ojd]
  have vs : FS W.toRespWf X i j = expv W.state (comm Xid Xj) := by unfold FS; rw [oid, oj]
  obtain ⟨g, hg⟩ : ∃ g, (Q ++ G)[i]? = some g := ⟨_, List.getElem?_eq_getElem (by rw [List.length_append]; omega)⟩
  obtain ⟨f, hf⟩ : ∃ f, (Q ++ G)[j]? = some f := ⟨_, List.getElem?_eq_getElem (by rw [List.length_append]; omega)⟩
  obtain ⟨-, w2, w3, w4⟩ := vals hg hf
  rw [oid, ojd] at w4
  rw [← vs, ← va, ← vb, w2, w3, w4, aB, mB, aD, mD]
  have lG : ([] : List (Dict ℝ)).length = 0 := rfl
  rw [lG] at a2
  by_cases c : i < Q.length ∨ j < Q.length
  · obtain ⟨b1, b2⟩ := (m2 i j).1 (by omega)
    obtain ⟨b3, b4⟩ := (a2 i j).2 (by omega)
    exact ⟨by rw [b4, b2]; rfl, rfl, by rw [b3, b1], rfl⟩
  · obtain ⟨b1, b2⟩ := (m2 i j).2 (by omega)
    obtain ⟨b3, b4⟩ := (a2 i j).1 (by omega)
    exact ⟨by rw [b4, b2]; rfl, rfl, b3, rfl⟩

/-- C102: the constructor of all-self-consistent linear response raises exactly when an element of the gradient of the
active operators is larger than `10⁻³`; the gradient of the other operators is not looked at.  Otherwise it leaves the
matrices of the operators `U q U†` and `U G U†`. -/
theorem C102_all_selfconsistent (ht : ExactTiny tiny) (hz : tiny 0 = true) (hb : ExactBig big) (hW : W.Proper)
    (hR : W.Rotates U Ud) (excitations : String) :
    let X := W.allScOps U Ud (lettersOf excitations)
    let n := W.hfLike.length
    ((∃ T ∈ X.drop n, 1 / 1000 < |expv W.state (comm W.ham T)|) →
      ascInit tiny big .one W excitations = .error .valueError) ∧
    ((∀ T ∈ X.drop n, |expv W.state (comm W.ham T)| ≤ 1 / 1000) →
      ∃ M, ascInit tiny big .one W excitations = .ok M ∧
        ∀ i j Xi Xid Xj Xjd, X[i]? = some Xi → X[j]? = some Xj → IsAdjoint Xi Xid → IsAdjoint Xj Xjd →
          M.Sigma i j = expv W.state (comm Xid Xj) ∧
          M.Delta i j = expv W.state (comm Xid Xjd) ∧
          M.A i j = expv W.state (dcomm Xid W.ham Xj) ∧
          M.B i j = expv W.state (dcomm Xid W.ham Xjd)) := by
  intro X n
  obtain ⟨G, Q, hG, hQ, lenQ, ops, actG, excQ, adjs⟩ := ref_lists ht hW excitations
  obtain ⟨Q', hQ', -⟩ := lrQ_exc ht hW.base
  obtain ⟨H1, h1, h1g, h1s⟩ := ham1_gen ht hb W.h W.g W.ci
  obtain ⟨H0, h0, h0g, h0s⟩ := ham0_gen ht hb W.h W.g W.ci
  obtain ⟨H2, h2, h2g, h2s⟩ := ham2_gen ht hb W.h W.g W.ci
  have h0k := ham0_core W.h W.g W.ci.nI W.ci.nA h0
  obtain ⟨I, hI, hC⟩ := extStart_ok (tiny := tiny) hW hR (order := 2) (.inr rfl)
  change ExtCtx W U Ud true I at hC
  obtain ⟨H00, p1, p2, p3⟩ := hC.udh ht hz h0g h0k h0s
  obtain ⟨Hk, UdH, u1, u2, u3⟩ := hC.udh2 (tiny := tiny) ht h2g (fun x => ham2_any ht hb W.h W.g W.ci h2 hC.st.active x)
  obtain ⟨st1, -⟩ := C101_states hW hR excitations
  have hHa := ham_adjoint hW.base
  have mv : ∀ T : FOp ℝ, W.moved U T = U (T (ket W.refDet)) := fun T => by unfold RespWf.moved; rw [hW.csf]
  have hX : X = (Q ++ G).map fun d => U * sumOp d * Ud := by
    show W.allScOps U Ud _ = _
    unfold ExtWf.allScOps
    rw [← ops, List.map_map]
    rfl
  have lenX : X.length = n + G.length := by rw [hX]; simp [n, lenQ]
  have atR : ∀ {i : ℕ} {g : Dict ℝ}, (Q ++ G)[i]? = some g → (W.refOps (lettersOf excitations))[i]? = some (sumOp g) := by
    intro i g h
    rw [← ops, List.getElem?_map, h]; rfl
  have memR : ∀ {g}, g ∈ Q ++ G → sumOp g ∈ W.refOps (lettersOf excitations) := fun hg => by
    rw [← ops]; exact List.mem_map_of_mem hg
  have getX : ∀ {i : ℕ} {g : Dict ℝ}, (Q ++ G)[i]? = some g → X[i]? = some (U * sumOp g * Ud) := by
    intro i g h
    rw [hX, List.getElem?_map, h]; rfl
  have dropX : X.drop n = G.map fun d => U * sumOp d * Ud := by
    rw [hX, ← List.map_drop, List.drop_append, List.drop_of_length_le (by omega), lenQ]
    simp [n]
  have adjR : ∀ {g}, g ∈ Q ++ G → ∃ Td, IsAdjoint (sumOp g) Td := by
    intro g hg
    rcases List.mem_append.1 hg with h | h
    · obtain ⟨i, hi⟩ := List.getElem?_of_mem h
      obtain ⟨k, -, -, e, -⟩ := excQ i g hi
      exact ⟨_, by rw [e]; exact qOp_adjoint _ _⟩
    · exact (adjs _ (actG g h).2).1
  have killR : ∀ {g Td}, g ∈ Q ++ G → IsAdjoint (sumOp g) Td → (U * Td * Ud) W.state = 0 := fun hg ha => by
    rw [hC.dress_state, hW.ref_kills _ (memR hg) ha, map_zero]
  have insR : ∀ {g}, g ∈ Q ++ G → Inside I.ci (sumOp g (ket W.refDet)) := by
    intro g hg
    rcases List.mem_append.1 hg with h | h
    · obtain ⟨i, hi⟩ := List.getElem?_of_mem h
      obtain ⟨k, -, he, -⟩ := excQ i g hi
      exact Inside.sumOp (reach_excite hC.sp he hC.ref)
    · exact hC.inside (hC.ref.core (act_core (actG g h).1))
  have gradR : ∀ {g}, g ∈ Q ++ G → expv W.state (comm W.ham (U * sumOp g * Ud)) =
      inner (U (sumOp g (ket W.refDet))) (W.ham W.state) := by
    intro g hg
    obtain ⟨Td, ha⟩ := adjR hg
    rw [killed_comm hHa (hC.dress ha) (killR hg ha), hC.dress_state]
  obtain ⟨gr, g1, g2⟩ := mapM_ok_exists (f := xGrad tiny .one I H00)
    (fun d v => |v.1| = |expv W.state (comm W.ham (U * sumOp d * Ud))| ∧
      |v.2| = |expv W.state (comm W.ham (U * sumOp d * Ud))|) G (fun d hd => by
      obtain ⟨v, v1, v2, v3⟩ := hC.grad ht hz p3 (actG d hd).1
      have e := gradR (List.mem_append_right Q hd)
      exact ⟨v, v1, by rw [v2, e, abs_neg], by rw [v3, e]⟩)
  obtain ⟨gc1, gc2⟩ := gradCheck_forall g2
  have hsplit : (∃ T ∈ X.drop n, 1 / 1000 < |expv W.state (comm W.ham T)|) ↔
      ∃ d ∈ G, 1 / 1000 < |expv W.state (comm W.ham (U * sumOp d * Ud))| := by
    rw [dropX]
    simp only [List.mem_map, exists_exists_and_eq_and]
  have zc : lrGradCheck (List.replicate (2 * Q.length) 0) = .ok () := by
    refine (lrGradCheck_eq _).2 ?_
    rintro ⟨x, hx, h⟩
    rw [List.eq_of_mem_replicate hx] at h
    norm_num at h
  refine ⟨fun hbig => ?_, fun hsmall => ?_⟩
  · unfold ascInit
    simp only [hG, hQ, hQ', h1, h0, h2, hI, ok_bind, zc, p1, g1]
    rw [gc1 (hsplit.1 hbig)]
    rfl
  have hno : ¬ ∃ T ∈ X.drop n, 1 / 1000 < |expv W.state (comm W.ham T)| := by
    rintro ⟨T, hT, h⟩
    exact absurd (hsmall T hT) (not_le.2 h)
  rw [hsplit] at hno
  have hadj : ∀ T ∈ X, ∃ T', IsAdjoint T T' := by
    intro T hT
    rw [hX] at hT
    obtain ⟨g, hg, rfl⟩ := List.mem_map.1 hT
    obtain ⟨Td, ha⟩ := adjR hg
    exact ⟨_, hC.dress ha⟩
  have sA := FA_symm (X := X) hW.base hadj
  have sB := FB_symm (W := W.toRespWf) (X := X)
  have vals : ∀ {i j : ℕ} {g f : Dict ℝ} {gd fd : FOp ℝ}, (Q ++ G)[i]? = some g → (Q ++ G)[j]? = some f →
      IsAdjoint (sumOp g) gd → IsAdjoint (sumOp f) fd →
      FA W.toRespWf X i j = inner (U (sumOp g (ket W.refDet))) (W.ham (U (sumOp f (ket W.refDet))))
          - 1 / 2 * inner (U (fd (sumOp g (ket W.refDet)))) (W.ham W.state)
          - 1 / 2 * inner (U (gd (sumOp f (ket W.refDet)))) (W.ham W.state) ∧
      FB W.toRespWf X i j = - inner (U (sumOp f (sumOp g (ket W.refDet)))) (W.ham W.state) ∧
      FS W.toRespWf X i j = (if i = j then 1 else 0) ∧
      expv W.state (comm (adj (opAt X i)) (adj (opAt X j))) = 0 := by
    intro i j g f gd fd hg hf ag af
    have mg := List.mem_of_getElem? hg
    have mf := List.mem_of_getElem? hf
    unfold FA FB FS
    rw [opAt_of (getX hg), opAt_of (getX hf), adj_eq (hC.dress ag), adj_eq (hC.dress af)]
    obtain ⟨t1, t2⟩ := killed_dcomm hHa (hC.dress ag) (hC.dress af) (killR mg ag) (killR mf af)
    obtain ⟨t3, t4⟩ := killed_metric (hC.dress ag) (hC.dress af) (killR mg ag) (killR mf af)
    refine ⟨?_, ?_, ?_, t4⟩
    · rw [t1, hC.dress_state, hC.dress_state, hC.dress_inside _ (insR mg), hC.dress_inside _ (insR mf)]
    · rw [t2, hC.dress_state, hC.dress_state, hC.dress_inside _ (insR mg), hC.dress_inside _ (insR mf),
        hW.ref_comm (lettersOf excitations) (fun T hT => (adjs T hT).2) (memR mg) (memR mf)]
      ring
    · have dl := st1 i j _ _ (atR hg) (atR hf)
      rw [mv, mv] at dl
      rw [t3, hC.dress_state, hC.dress_state, dl]
  have inQ : ∀ {i : ℕ} {d : Dict ℝ}, Q[i]? = some d → (Q ++ G)[i]? = some d := fun h => by
    rw [List.getElem?_append_left (List.getElem?_eq_some_iff.1 h).1, h]
  have inG : ∀ {i : ℕ} {d : Dict ℝ}, G[i]? = some d → (Q ++ G)[i + Q.length]? = some d := fun h => by
    rw [List.getElem?_append_right (by omega), Nat.add_sub_cancel, h]
  have eput : (fun (M : LRMats) (i j : ℕ) (v : ℝ × ℝ) => { M with
        A := setSym M.A i j v.1
        B := setSym M.B i j v.2
        Sigma := if i = j then setSym M.Sigma i j 1 else M.Sigma })
      = fun M i j v => { M with
        A := setSym M.A (i + 0) (j + 0) v.1
        B := setSym M.B (i + 0) (j + 0) v.2
        Sigma := if i = j then set2 M.Sigma (i + 0) (j + 0) 1 else M.Sigma } := by
    funext M i j v
    congr 1
    split
    · rename_i e
      rw [e, setSym_diag]
      rfl
    · rfl
  obtain ⟨M0, l1, lD, l2⟩ := sc_act_loop (G := Q) 0 (pre := ascOrbPre tiny .one I H2 UdH)
    (entry := fun k _ y => ascOrb tiny .one I UdH k y.1) sA sB (by
      intro x hx
      have hx' := zipIdx_get hx
      obtain ⟨k, -, e1, e2, e3⟩ := excQ _ _ hx'
      have af : IsAdjoint (sumOp x.1) (qOp k.1 k.2) := by rw [e2]; exact qOp_adjoint _ _
      obtain ⟨κ, c1, c2⟩ := hC.asc_orb ht hz h2g h2s u3 e3 e1 af
      refine ⟨κ, c1, fun y hy => ?_⟩
      have hy' := zipIdx_drop_get hy
      obtain ⟨l, -, f1, f2, f3⟩ := excQ _ _ hy'
      have ag : IsAdjoint (sumOp y.1) (qOp l.1 l.2) := by rw [f2]; exact qOp_adjoint _ _
      obtain ⟨v, v1, v2, v3⟩ := c2 l y.1 _ f3 f1 ag
      obtain ⟨w1, w2, -⟩ := vals (inQ hy') (inQ hx') ag af
      exact ⟨v, v1, by rw [v2]; exact w1.symm, by rw [v3]; exact w2.symm⟩) LRMats.zero
  obtain ⟨M1, m1, mS, mD, m2⟩ := mixed_loop (Q := Q) (G := G) (pre := ascMixedPre tiny .one I H1)
    (entry := fun k x y => ascMixed tiny .one I UdH k x.1 y.1) sA sB (by
      intro x hx
      have hx' := zipIdx_get hx
      obtain ⟨k, hk, e1, e2, e3⟩ := excQ _ _ hx'
      have af : IsAdjoint (sumOp x.1) (qOp k.1 k.2) := by rw [e2]; exact qOp_adjoint _ _
      obtain ⟨κ, c1, c2⟩ := hC.asc_mixed ht hz h1g h1s u3 e3 e1
      refine ⟨κ, c1, fun y hy => ?_⟩
      have hy' := zipIdx_get hy
      have gy := actG _ (List.mem_of_getElem? hy')
      obtain ⟨gd, ag⟩ := (adjs _ gy.2).1
      obtain ⟨v, v1, v2, v3⟩ := c2 y.1 gy.1
      obtain ⟨w1, w2, -⟩ := vals (inG hy') (inQ hx') ag af
      have z1 : qOp k.1 k.2 (sumOp y.1 (ket W.refDet)) = 0 :=
        qOp_kills (hC.ref.core (act_core gy.1)).active e3
      have z2 : gd (sumOp x.1 (ket W.refDet)) = 0 := by
        rw [e2]; exact hW.act_kills_q _ gy.2 ag hk
      have z3 := hW.ref_comm (lettersOf excitations) (fun T hT => (adjs T hT).2)
        (memR (List.mem_append_right Q (List.mem_of_getElem? hy')))
        (memR (List.mem_append_left G (List.mem_of_getElem? hx'))) (ket W.refDet)
      refine ⟨v, v1, ?_, ?_⟩
      · rw [v2, w1, z1, z2, map_zero, inner_zero_left]; ring
      · rw [v3, w2, z3]; ring) M0
  obtain ⟨M2, a1, aD, a2⟩ := sc_act_loop (G := G) Q.length (pre := scActPre tiny .one I H0 H00)
    (entry := fun k _ y => scAct tiny .one I H00 k y.1) sA sB (by
      intro x hx
      have hx' := zipIdx_get hx
      have gx := actG _ (List.mem_of_getElem? hx')
      obtain ⟨fd, af⟩ := (adjs _ gx.2).1
      obtain ⟨κ, c1, c2⟩ := hC.act_entry ht hz h0g h0k h0s p2 p3 gx.1 af
      refine ⟨κ, c1, fun y hy => ?_⟩
      have hy' := zipIdx_drop_get hy
      have gy := actG _ (List.mem_of_getElem? hy')
      obtain ⟨gd, ag⟩ := (adjs _ gy.2).1
      obtain ⟨v, v1, v2, v3⟩ := c2 y.1 gd gy.1 ag
      obtain ⟨w1, w2, -⟩ := vals (inG hy') (inG hx') ag af
      exact ⟨v, v1, by rw [v2, w1], by rw [v3, w2]⟩) M1
  refine ⟨M2, by
    unfold ascInit scActLoop
    simp only [hG, hQ, hQ', h1, h0, h2, hI, ok_bind, zc, p1, g1, gc2 hno, u1, u2]
    rw [eput, l1]
    simp only [ok_bind]
    rw [m1]
    simp only [ok_bind]
    rw [a1], ?_⟩
  intro i j Xi Xid Xj Xjd hi hj hid hjd
  have li : i < n + G.length := by rw [← lenX]; exact (List.getElem?_eq_some_iff.1 hi).1
  have lj : j < n + G.length := by rw [← lenX]; exact (List.getElem?_eq_some_iff.1 hj).1
  have oi : opAt X i = Xi := opAt_of hi
  have oj : opAt X j = Xj := opAt_of hj
  have oid : adj (opAt X i) = Xid := by rw [oi]; exact adj_eq hid
  have ojd : adj (opAt X j) = Xjd := by rw [oj]; exact adj_eq hjd
  have va : FA W.toRespWf X i j = expv W.state (dcomm Xid W.ham Xj) := by unfold FA; rw [oid, oj]
  have vb : FB W.toRespWf X i j = expv W.state (dcomm Xid W.ham Xjd) := by unfold FB; rw [oid, ojd]
  have vs : FS W.toRespWf X i j = expv W.state (comm Xid Xj) := by unfold FS; rw [oid, oj]
  obtain ⟨g, hg⟩ : ∃ g, (Q ++ G)[i]? = some g := ⟨_, List.getElem?_eq_getElem (by rw [List.length_append]; omega)⟩
  obtain ⟨f, hf⟩ : ∃ f, (Q ++ G)[j]? = some f := ⟨_, List.getElem?_eq_getElem (by rw [List.length_append]; omega)⟩
  obtain ⟨gd, ag⟩ := adjR (List.mem_of_getElem? hg)
  obtain ⟨fd, af⟩ := adjR (List.mem_of_getElem? hf)
  obtain ⟨-, -, w3, w4⟩ := vals hg hf ag af
  rw [oid, ojd] at w4
  rw [← vs, ← va, ← vb, w3, w4, aD, mD, lD]
  by_cases c : i < Q.length ∧ j < Q.length
  · obtain ⟨b1, b2, b3⟩ := (a2 i j).2 (by omega)
    obtain ⟨b4, b5⟩ := (m2 i j).2 (by omega)
    obtain ⟨b6, b7, b8⟩ := (l2 i j).1 (by omega)
    exact ⟨by rw [b3, mS, b8]; rfl, rfl, by rw [b1, b4, b6], by rw [b2, b5, b7]⟩
  · obtain ⟨b6, b7, b8⟩ := (l2 i j).2 (by omega)
    by_cases c' : i < Q.length ∨ j < Q.length
    · obtain ⟨b1, b2, b3⟩ := (a2 i j).2 (by omega)
      obtain ⟨b4, b5⟩ := (m2 i j).1 (by omega)
      exact ⟨by rw [b3, mS, b8, if_neg (by omega)]; rfl, rfl, by rw [b1, b4], by rw [b2, b5]⟩
    · obtain ⟨b1, b2, b3⟩ := (a2 i j).1 (by omega)
      exact ⟨by rw [b3, mS, b8]; rfl, rfl, b1, b2⟩

end SQ
