import Verif.Props.ResponseDipole

/-!
# C99: all-projected linear response
-/

namespace SQ

variable {tiny big : ℝ → Bool} {th : Threads} {W : RespWf}

/-- A projected orbital rotation is `q|0⟩⟨0|`. -/
theorem projOp_q (hW : W.Proper) {k : ℕ × ℕ} (hk : k ∈ W.kappa) :
    projOp W.state (qOp k.2 k.1) = ketbra (qOp k.2 k.1 W.state) W.state := by
  have z : expv W.state (qOp k.2 k.1) = 0 := by
    unfold expv
    rw [← (qOp_adjoint _ _).symm, qOp_kills (show ActiveState _ _ W.state from emb_active W.ci _) (hW.kappa k hk).1,
      inner_zero_left]
  unfold projOp
  rw [z, zero_smul, sub_zero]

theorem aprojMixed_ok (ht : ExactTiny tiny) (hW : W.Proper) (hth : th.Fair W.ci.idx2det.length)
    {H1 : Dict ℝ} (hH1 : GenOp W.ci H1)
    (hH : ∀ x y, ActiveState W.ci.nI W.ci.nA x → NearState W.ci.nI W.ci.nA y →
      inner x (sumOp H1 y) = inner x (W.ham y) ∧ inner y (sumOp H1 x) = inner y (W.ham x))
    {k : ℕ × ℕ} {q : Dict ℝ} (hq : GenOp W.ci q) (eq : sumOp q = qOp k.2 k.1) :
    ∃ κ, aprojMixedPre tiny th W H1 q = .ok κ ∧ ∀ GI, ActOp W.ci GI →
      aprojMixed tiny th W κ GI = .ok (inner (sumOp GI W.state) (W.ham (qOp k.2 k.1 W.state))) := by
  have hs := hW.space
  have hact := emb_active W.ci
  obtain ⟨Hq, a1, a2, a3⟩ := hH1.mul ht hq
  obtain ⟨Hqk, b1, b2⟩ := W.prop_gen (th := th) ht hs hth a2 W.c
  rw [a3, eq] at b2
  refine ⟨Hqk, by unfold aprojMixedPre; simp only [a1, b1, ok_bind], fun GI hI => ?_⟩
  obtain ⟨Id, i1, i2, i3⟩ := hI.dagger ht
  obtain ⟨g, -, g2⟩ := W.prop_act (th := th) ht hs hth hI W.c
  unfold aprojMixed
  simp only [i1, ok_bind, W.ev_op ht hs hth i2.gen]
  rw [← i3, ← g2, b2, Module.End.mul_apply, (hH _ _ (hact _) (near_qOp (hact _) _ _)).1, g2]
  rfl

/-- C99: the constructor of all-projected linear response raises exactly when an element of the gradient is larger than
`10⁻³`.  Otherwise it leaves the matrices of the operators `T|0⟩⟨0| - ⟨0|T|0⟩`: commutators and symmetric double
commutators.  In the mixed blocks it leaves out terms with the orbital gradient, `1/2 ⟨G⟩⟨[H, q]⟩`. -/
theorem C99_all_projected (ht : ExactTiny tiny) (hb : ExactBig big) (hW : W.Proper)
    (hE : W.energy = expv W.state W.ham) (hth : th.Fair W.ci.idx2det.length) (excitations : String) :
    let X := W.allProjOps (lettersOf excitations)
    let n := W.kappa.length
    ((∃ T ∈ X, 1 / 1000 < |expv W.state (comm W.ham T)|) →
      aprojInit tiny big th W excitations = .error .valueError) ∧
    ((∀ T ∈ X, |expv W.state (comm W.ham T)| ≤ 1 / 1000) →
      ∃ M, aprojInit tiny big th W excitations = .ok M ∧
        ∀ i j Xi Xid Xj Xjd, X[i]? = some Xi → X[j]? = some Xj → IsAdjoint Xi Xid → IsAdjoint Xj Xjd →
          M.Sigma i j = expv W.state (comm Xid Xj) ∧
          M.Delta i j = expv W.state (comm Xid Xjd) ∧
          ((i < n ↔ j < n) →
            M.A i j = expv W.state (dcomm Xid W.ham Xj) ∧
            M.B i j = expv W.state (dcomm Xid W.ham Xjd)) ∧
          (i < n → n ≤ j → ∀ G, (lrOps W (lettersOf excitations))[j - n]? = some G →
            M.A i j = expv W.state (dcomm Xid W.ham Xj) + 1 / 2 * expv W.state G * expv W.state (comm W.ham Xi) ∧
            M.B i j = expv W.state (dcomm Xid W.ham Xjd) - 1 / 2 * expv W.state G * expv W.state (comm W.ham Xi) ∧
            M.A j i = M.A i j ∧ M.B j i = M.B i j)) := by
  intro X n
  obtain ⟨G, hG, opsG, excG⟩ := lrG_ok ht hW excitations
  obtain ⟨Q, hQ, fQ⟩ := lrQ_ok ht hW
  obtain ⟨H1, h1, h1g, h1s⟩ := ham1_gen ht hb W.h W.g W.ci
  obtain ⟨H0, h0, h0g, h0s⟩ := ham0_gen ht hb W.h W.g W.ci
  obtain ⟨H2, h2, h2g, h2s⟩ := ham2_gen ht hb W.h W.g W.ci
  have hact := emb_active W.ci
  have hs := hW.space
  have hHa := ham_adjoint hW
  have aW : ActiveState W.ci.nI W.ci.nA W.state := hact _
  obtain ⟨H00, p1, p2⟩ := W.prop_gen (th := th) ht hs hth h0g W.c
  have hH00 : IsH00 W H00 := fun bra => by
    rw [p2, h0s _ _ (hact _) (hact _)]; rfl
  have lenQ : Q.length = n := fQ.length_eq.symm
  have hX : X = (W.kappa.map fun k => ketbra (qOp k.2 k.1 W.state) W.state) ++
      G.map fun d => projOp W.state (sumOp d) := by
    show W.allProjOps _ = _
    unfold RespWf.allProjOps RespWf.ops lettersOf
    rw [← opsG, List.map_append, List.map_map, List.map_map]
    congr 1
    exact List.map_congr_left fun k hk => projOp_q hW hk
  have lenX : X.length = n + G.length := by rw [hX]; simp [n]
  have kill : ∀ {k}, k ∈ W.kappa → ∀ x, ActiveState W.ci.nI W.ci.nA x → qOp k.1 k.2 x = 0 :=
    fun hk x hx => qOp_kills hx (hW.kappa _ hk).1
  have orthq : ∀ {k}, k ∈ W.kappa → ∀ x, ActiveState W.ci.nI W.ci.nA x → inner x (qOp k.2 k.1 W.state) = 0 :=
    fun hk x hx => by rw [← (qOp_adjoint _ _).symm, kill hk x hx, inner_zero_left]
  have gradq : ∀ {k}, k ∈ W.kappa → expv W.state (comm W.ham (ketbra (qOp k.2 k.1 W.state) W.state))
      = expv W.state (comm W.ham (qOp k.2 k.1)) := by
    intro k hk
    have o := orthq hk _ aW
    rw [(transfer_S (H := W.ham) hW.norm o o).2.2, expv_comm, ← (qOp_adjoint _ _).symm _ (W.ham W.state),
      kill hk _ aW, inner_zero_left, sub_zero]
  obtain ⟨gr, g1, g2⟩ := mapM_ok_exists (f := projGrad tiny th W H00)
    (fun d v => |v.1| = |expv W.state (comm W.ham (projOp W.state (sumOp d)))| ∧
      |v.2| = |expv W.state (comm W.ham (projOp W.state (sumOp d)))|) G (fun d hd => by
      obtain ⟨v, v1, v2, v3⟩ := projGrad_ok ht hW hE hth hH00 (excG d hd).1
      exact ⟨v, v1, by rw [v2], by rw [v3]⟩)
  obtain ⟨gc1, gc2⟩ := gradCheck_forall g2
  obtain ⟨oc1, oc2⟩ := lrOrbCheck_eq hW lenQ
  have hsplit : (∃ T ∈ X, 1 / 1000 < |expv W.state (comm W.ham T)|) ↔
      (∃ T ∈ W.kappa.map fun k => qOp k.2 k.1, 1 / 1000 < |expv W.state (comm W.ham T)|) ∨
      ∃ d ∈ G, 1 / 1000 < |expv W.state (comm W.ham (projOp W.state (sumOp d)))| := by
    rw [hX]
    simp only [List.mem_append, or_and_right, exists_or, List.mem_map, exists_exists_and_eq_and]
    refine or_congr (exists_congr fun k => and_congr_right fun hk => ?_) Iff.rfl
    rw [gradq hk]
  refine ⟨fun hbig => ?_, fun hsmall => ?_⟩
  · unfold aprojInit
    simp only [hG, hQ, h1, h0, h2, ok_bind]
    by_cases ho : ∃ T ∈ W.kappa.map fun k => qOp k.2 k.1, 1 / 1000 < |expv W.state (comm W.ham T)|
    · rw [oc1 ho]; rfl
    · rw [oc2 ho]
      simp only [ok_bind, p1, g1]
      rw [gc1 ((hsplit.1 hbig).resolve_left ho)]
      rfl
  have hno : ¬ ∃ T ∈ X, 1 / 1000 < |expv W.state (comm W.ham T)| := by
    rintro ⟨T, hT, h⟩
    exact absurd (hsmall T hT) (not_le.2 h)
  rw [hsplit, not_or] at hno
  have getq : ∀ {j : ℕ} {k : ℕ × ℕ}, W.kappa[j]? = some k → X[j]? = some (ketbra (qOp k.2 k.1 W.state) W.state) := by
    intro j k h
    rw [hX, List.getElem?_append_left (by
      have := (List.getElem?_eq_some_iff.1 h).1
      simpa using this), List.getElem?_map, h]
    rfl
  have getG : ∀ {i : ℕ} {g : Dict ℝ}, G[i]? = some g → X[i + n]? = some (projOp W.state (sumOp g)) := by
    intro i g h
    rw [hX, List.getElem?_append_right (by simp [n])]
    simp [n, h]
  have hadj : ∀ T ∈ X, ∃ T', IsAdjoint T T' := by
    intro T hT
    rw [hX] at hT
    rcases List.mem_append.1 hT with h | h
    · obtain ⟨k, -, rfl⟩ := List.mem_map.1 h
      exact ⟨_, ketbra_adjoint _ _⟩
    · obtain ⟨g, -, rfl⟩ := List.mem_map.1 h
      exact ⟨_, projOp_adjoint _ _⟩
  -- the mixed entries as functions of the positions
  let N := respOps W G
  let mA : ℕ → ℕ → ℝ := fun q g => inner (opAt N g W.state) (W.ham (opAt N q W.state))
  let fA : ℕ → ℕ → ℝ := fun r c => if r < n ∧ n ≤ c then mA r c else if c < n ∧ n ≤ r then mA c r else 0
  have sA : ∀ r c, fA r c = fA c r := by
    intro r c
    simp only [fA]
    by_cases h1 : r < n <;> by_cases h2 : c < n
    · rw [if_neg (by omega), if_neg (by omega), if_neg (by omega), if_neg (by omega)]
    · rw [if_pos (by omega), if_neg (by omega), if_pos (by omega)]
    · rw [if_neg (by omega), if_pos (by omega), if_pos (by omega)]
    · rw [if_neg (by omega), if_neg (by omega), if_neg (by omega), if_neg (by omega)]
  have qrel : ∀ {i : ℕ} {q : Dict ℝ}, Q[i]? = some q → ∃ k, W.kappa[i]? = some k ∧ GenOp W.ci q ∧
      sumOp q = qOp k.2 k.1 := by
    intro i q hq
    obtain ⟨k, hk⟩ : ∃ k, W.kappa[i]? = some k := ⟨_, List.getElem?_eq_getElem (by
      have := (List.getElem?_eq_some_iff.1 hq).1
      omega)⟩
    have hRq := (List.forall₂_iff_get.1 fQ).2 i (List.getElem?_eq_some_iff.1 hk).1 (List.getElem?_eq_some_iff.1 hq).1
    rw [List.get_eq_getElem, List.get_eq_getElem, (List.getElem?_eq_some_iff.1 hk).2,
      (List.getElem?_eq_some_iff.1 hq).2] at hRq
    exact ⟨k, hk, hRq⟩
  have vals : ∀ {i j : ℕ} {I J : Fock ℝ}, X[i]? = some (ketbra I W.state) → X[j]? = some (ketbra J W.state) →
      inner W.state I = 0 → inner W.state J = 0 →
      FA W X i j = inner I (W.ham J) - expv W.state W.ham * inner I J ∧ FB W X i j = 0 ∧
      FS W X i j = inner I J ∧ expv W.state (comm (adj (opAt X i)) (adj (opAt X j))) = 0 := by
    intro i j I J hI hJ oI oJ
    unfold FA FB FS
    rw [opAt_of hI, opAt_of hJ, adj_eq (ketbra_adjoint _ _), adj_eq (ketbra_adjoint _ _)]
    obtain ⟨t1, t2, -⟩ := transfer_S (H := W.ham) hW.norm oI oJ
    exact ⟨transfer_A hW.norm oI oJ, transfer_B oI oJ, t1, t2⟩
  obtain ⟨M0, o1, oB, oD, o2⟩ := pst_orb_loop (Q := Q) (entry := fun _ x y => pstOrb tiny th W H2 x.1 y.1)
    (FA_symm (X := X) hW hadj) (FS_symm (W := W) (X := X) hadj) (by
      intro x hx y hy
      obtain ⟨k, hk, gk, ek⟩ := qrel (zipIdx_get hx)
      obtain ⟨l, hl, gl, el⟩ := qrel (zipIdx_drop_get hy)
      obtain ⟨v, v1, v2, v3⟩ := pstOrb_ok (th := th) ht hW hE hth h2g h2s gk ek gl el
      obtain ⟨t1, -, t3, -⟩ := vals (getq hl) (getq hk) (orthq (List.mem_of_getElem? hl) _ aW)
        (orthq (List.mem_of_getElem? hk) _ aW)
      exact ⟨v, v1, by rw [v2, t1], by rw [v3, t3]⟩) LRMats.zero
  obtain ⟨M1, m1, mB, mS, mD, m2⟩ := pst_mixed_loop (Q := Q) (G := G) (pre := aprojMixedPre tiny th W H1)
    (entry := fun k _ y => aprojMixed tiny th W k y.1) sA (by
      intro x hx
      obtain ⟨k, hk, gk, ek⟩ := qrel (zipIdx_get hx)
      obtain ⟨κ, c1, c2⟩ := aprojMixed_ok (th := th) ht hW hth h1g h1s gk ek
      refine ⟨κ, c1, fun y hy => ⟨_, c2 y.1 (excG _ (List.mem_of_getElem? (zipIdx_get hy))).1, ?_⟩⟩
      have e1 : opAt N (y.2 + n) = sumOp y.1 := opAt_G (zipIdx_get hy)
      have e2 : opAt N x.2 = qOp k.2 k.1 := opAt_q hk
      have hlt : x.2 < n := (List.getElem?_eq_some_iff.1 hk).1
      simp only [fA, mA]
      rw [lenQ, if_neg (by omega), if_pos (by omega), e1, e2]) M0
  obtain ⟨M2, a1, aD, a2⟩ := act_loop (G := G) Q.length (pre := projActPre tiny th W H0)
    (entry := fun k x y => projAct tiny th W H0 H1 k x.1 y.1) (FA_symm hW hadj) FB_symm (FS_symm hadj) (by
      intro x hx
      have hx' := zipIdx_get hx
      obtain ⟨κ, c1, c2⟩ := projAct_ok (th := th) ht hW hE hth h0g h0s h1g
        (fun x y hx hy => (h1s x y hx hy.near).1) (excG _ (List.mem_of_getElem? hx')).1
      refine ⟨κ, c1, fun y hy => ?_⟩
      have hy' := zipIdx_drop_get hy
      obtain ⟨v, v1, v2⟩ := c2 y.1 (excG _ (List.mem_of_getElem? hy')).1
      have e1 := opAt_of (getG hy')
      have e2 := opAt_of (getG hx')
      obtain ⟨v3, v4, v5⟩ := v2 (adj (opAt X (x.2 + n))) (by rw [← e2]; exact opAt_adj hadj _)
        (adj (opAt X (y.2 + n))) (by rw [← e1]; exact opAt_adj hadj _)
      rw [lenQ]
      refine ⟨v, v1, ?_, ?_, ?_⟩
      · unfold FA; rw [v3, e2]
      · unfold FB; rw [v4]
      · unfold FS; rw [v5, e2]) M1
  refine ⟨M2, by
    unfold aprojInit
    simp only [hG, hQ, h1, h0, h2, ok_bind, oc2 hno.1, p1, g1, gc2 hno.2]
    rw [o1]
    simp only [ok_bind]
    rw [m1]
    simp only [ok_bind]
    rw [a1], ?_⟩
  intro i j Xi Xid Xj Xjd hi hj hid hjd
  have li : i < n + G.length := by rw [← lenX]; exact (List.getElem?_eq_some_iff.1 hi).1
  have lj : j < n + G.length := by rw [← lenX]; exact (List.getElem?_eq_some_iff.1 hj).1
  have oi : opAt X i = Xi := opAt_of hi
  have oj : opAt X j = Xj := opAt_of hj
  have oid : adj (opAt X i) = Xid := by rw [oi]; exact adj_eq hid
  have ojd : adj (opAt X j) = Xjd := by rw [oj]; exact adj_eq hjd
  have va : FA W X i j = expv W.state (dcomm Xid W.ham Xj) := by unfold FA; rw [oid, oj]
  have vb : FB W X i j = expv W.state (dcomm Xid W.ham Xjd) := by unfold FB; rw [oid, ojd]
  have vs : FS W X i j = expv W.state (comm Xid Xj) := by unfold FS; rw [oid, oj]
  rw [lenQ] at m2 a2 o2
  have zD : M2.Delta i j = 0 := by rw [aD, mD, oD]; rfl
  rw [zD]
  have qform : ∀ {i : ℕ} {T Td : FOp ℝ}, X[i]? = some T → IsAdjoint T Td → i < n → ∃ k, W.kappa[i]? = some k ∧
      T = ketbra (qOp k.2 k.1 W.state) W.state ∧ Td = ketbra W.state (qOp k.2 k.1 W.state) ∧
      ∀ x, ActiveState W.ci.nI W.ci.nA x → inner x (qOp k.2 k.1 W.state) = 0 := by
    intro i T Td hT hTd h
    obtain ⟨k, hk⟩ : ∃ k, W.kappa[i]? = some k := ⟨_, List.getElem?_eq_getElem h⟩
    have := getq hk
    rw [hT] at this
    obtain rfl := Option.some.inj this
    exact ⟨k, hk, rfl, hTd.unique (ketbra_adjoint _ _), orthq (List.mem_of_getElem? hk)⟩
  have gform : ∀ {i : ℕ} {T Td : FOp ℝ}, X[i]? = some T → IsAdjoint T Td → n ≤ i → i < n + G.length →
      ∃ g, G[i - n]? = some g ∧ T = projOp W.state (sumOp g) ∧
        Td = ketbra W.state (sumOp g W.state) - expv W.state (sumOp g) • 1 ∧
        ActiveState W.ci.nI W.ci.nA (sumOp g W.state) := by
    intro i T Td hT hTd h h'
    obtain ⟨g, hg⟩ : ∃ g, G[i - n]? = some g := ⟨_, List.getElem?_eq_getElem (by omega)⟩
    have := getG hg
    rw [show i - n + n = i by omega, hT] at this
    obtain rfl := Option.some.inj this
    exact ⟨g, hg, rfl, hTd.unique (projOp_adjoint _ _), active_sumOp (excG g (List.mem_of_getElem? hg)).1.2 aW⟩
  by_cases ci : i < n <;> by_cases cj : j < n
  · -- two orbital rotations
    obtain ⟨k, hk, rfl, rfl, nk⟩ := qform hi hid ci
    obtain ⟨l, hl, rfl, rfl, nl⟩ := qform hj hjd cj
    obtain ⟨-, t2, -, t4⟩ := vals (getq hk) (getq hl) (nk _ aW) (nl _ aW)
    rw [oid, ojd] at t4
    obtain ⟨b1, b2, b3⟩ := (a2 i j).2 (by omega)
    refine ⟨?_, t4.symm, fun _ => ⟨?_, ?_⟩, fun _ h => by omega⟩
    · rw [b3, mS, ((o2 i j).1 ⟨ci, cj⟩).2, vs]
    · rw [b1, (m2 i j).2 (by omega), ((o2 i j).1 ⟨ci, cj⟩).1, va]
    · rw [b2, mB, oB, ← vb, t2]; rfl
  · -- orbital rotation and active operator
    obtain ⟨k, hk, rfl, rfl, nk⟩ := qform hi hid ci
    obtain ⟨g, hg, rfl, rfl, ag⟩ := gform hj hjd (by omega) lj
    obtain ⟨b1, b2, b3⟩ := (a2 i j).2 (by omega)
    obtain ⟨b1', b2', -⟩ := (a2 j i).2 (by omega)
    have sig : M2.Sigma i j = 0 := by rw [b3, mS, ((o2 i j).2 (by omega)).2]; rfl
    have z1 : inner W.state (qOp k.2 k.1 W.state) = 0 := nk _ aW
    have z1' : inner (qOp k.2 k.1 W.state) W.state = 0 := by rw [inner_comm, z1]
    have z2 : inner (qOp k.2 k.1 W.state) (sumOp g W.state) = 0 := by rw [inner_comm, nk _ ag]
    have zq : inner (qOp k.2 k.1 W.state) (W.ham W.state) = inner W.state (W.ham (qOp k.2 k.1 W.state)) := by
      rw [← hHa, inner_comm]
    have zq' : inner (qOp k.2 k.1 W.state) (W.ham (sumOp g W.state))
        = inner (sumOp g W.state) (W.ham (qOp k.2 k.1 W.state)) := by
      rw [← hHa, inner_comm]
    have zg : inner (sumOp g W.state) W.state = expv W.state (sumOp g) := inner_comm _ _
    have w1 : opAt N i = qOp k.2 k.1 := opAt_q hk
    have w2 : opAt N j = sumOp g := by
      have := opAt_G (W := W) hg
      rwa [show j - n + W.kappa.length = j from by show j - n + n = j; omega] at this
    have vA : fA i j = inner (sumOp g W.state) (W.ham (qOp k.2 k.1 W.state)) := by
      simp only [fA, mA]; rw [if_pos (by omega), w1, w2]
    refine ⟨?_, ?_, fun h => by omega, fun _ _ T hT => ?_⟩
    · rw [sig]
      unfold projOp
      rw [comm_scalar_right, expv_comm]
      simp only [ketbra_apply, map_smul, inner_smul_right, hW.norm, one_smul, z1', z2, zero_smul, map_zero,
        inner_zero_right, zero_mul, mul_zero, sub_zero]
    · rw [comm_scalar_right, expv_comm]
      simp only [ketbra_apply, map_smul, inner_smul_right, hW.norm, one_smul, z1', z2, zero_smul, map_zero,
        inner_zero_right, zero_mul, mul_zero, sub_zero]
    · have eT : T = sumOp g := by
        have : (lrOps W (lettersOf excitations))[j - n]? = some (sumOp g) := by
          unfold lettersOf
          rw [← opsG, List.getElem?_map, hg]; rfl
        rw [hT] at this
        exact Option.some.inj this
      subst eT
      rw [b1, (m2 i j).1 (by omega), vA, b2, mB, oB, b1', (m2 j i).1 (by omega), sA, vA, b2', mB, oB]
      refine ⟨?_, ?_, rfl, rfl⟩
      · unfold projOp
        rw [dcomm_scalar_right]
        simp only [expv_dcomm, expv_comm, ketbra_apply, map_smul, inner_smul_right, hW.norm, one_smul, z1, z1', z2,
          zq, zq', zero_smul, map_zero, inner_zero_right, zero_mul, mul_zero, sub_zero]
        unfold expv
        ring
      · rw [dcomm_scalar_right]
        simp only [expv_dcomm, expv_comm, ketbra_apply, map_smul, inner_smul_right, hW.norm, one_smul, z1, z1', z2,
          zq, zg, zero_smul, map_zero, inner_zero_right, zero_mul, mul_zero, sub_zero]
        show (0 : ℝ) = _
        ring
  · -- active operator and orbital rotation
    obtain ⟨k, hk, rfl, rfl, nk⟩ := qform hj hjd cj
    obtain ⟨g, hg, rfl, rfl, ag⟩ := gform hi hid (by omega) li
    obtain ⟨b1, b2, b3⟩ := (a2 i j).2 (by omega)
    have sig : M2.Sigma i j = 0 := by rw [b3, mS, ((o2 i j).2 (by omega)).2]; rfl
    have z1 : inner W.state (qOp k.2 k.1 W.state) = 0 := nk _ aW
    have z1' : inner (qOp k.2 k.1 W.state) W.state = 0 := by rw [inner_comm, z1]
    have z2 : inner (sumOp g W.state) (qOp k.2 k.1 W.state) = 0 := nk _ ag
    refine ⟨?_, ?_, fun h => by omega, fun h => by omega⟩
    · rw [sig, comm_scalar_left, expv_comm]
      simp only [ketbra_apply, map_smul, inner_smul_right, hW.norm, one_smul, z1, z1', z2, zero_smul, map_zero,
        inner_zero_right, zero_mul, mul_zero, sub_zero]
    · rw [comm_scalar_left, expv_comm]
      simp only [ketbra_apply, map_smul, inner_smul_right, hW.norm, one_smul, z1, z1', z2, zero_smul, map_zero,
        inner_zero_right, zero_mul, mul_zero, sub_zero]
  · -- two active operators
    obtain ⟨g, hg, rfl, rfl, ag⟩ := gform hi hid (by omega) li
    obtain ⟨g', hg', rfl, rfl, ag'⟩ := gform hj hjd (by omega) lj
    obtain ⟨b1, b2, b3⟩ := (a2 i j).1 (by omega)
    refine ⟨by rw [b3, vs], ?_, fun _ => ⟨by rw [b1, va], by rw [b2, vb]⟩, fun h => by omega⟩
    rw [comm_scalar_left, comm_scalar_right, expv_comm]
    simp only [ketbra_apply, map_smul, inner_smul_right, hW.norm]
    ring

/-- C99: the transition dipole moments of all-projected linear response are `⟨[O, μ]⟩` with normalised excitation
operators `O`. -/
theorem C99_dipoles (ht : ExactTiny tiny) (hb : ExactBig big) (hW : W.Proper) (hE : W.energy = expv W.state W.ham)
    (hth : th.Fair W.ci.idx2det.length)
    (lib : LRLib) (heig : ∀ m A S, (lib.eig m A S).length = m) {mu : Fin 3 → Mat ℝ}
    (hmu : ∀ c p q, mu c p q = mu c q p) (excitations : String) {Q G : List (Dict ℝ)} {M : LRMats}
    {out : LROut ((Q.length + G.length) + (Q.length + G.length))} (hQ : lrQ tiny W = .ok Q)
    (hG : lrG tiny W excitations = .ok G) (hM : aprojInit tiny big th W excitations = .ok M)
    (ho : M.solve lib Q.length G.length = .ok out) :
    let X := W.allProjOps (lettersOf excitations)
    ∃ D, aprojDipoles tiny big th W G mu out = .ok D ∧ D.length = out.energies.length ∧
      out.energies.length = X.length ∧
      ∀ (k : ℕ) u v d, out.vectors[k]? = some u → out.normed[k]? = some v → D[k]? = some d →
        TransitionDipole W X mu u v d := by
  intro X
  obtain ⟨G', hG', opsG, excG⟩ := lrG_ok ht hW excitations
  rw [hG] at hG'
  obtain rfl := Except.ok.inj hG'
  obtain ⟨Q', hQ', fQ⟩ := lrQ_ok ht hW
  rw [hQ] at hQ'
  obtain rfl := Except.ok.inj hQ'
  have lenQ : Q.length = W.kappa.length := fQ.length_eq.symm
  have hX : X = (W.kappa.map fun k => ketbra (qOp k.2 k.1 W.state) W.state) ++
      G.map fun d => projOp W.state (sumOp d) := by
    show W.allProjOps _ = _
    unfold RespWf.allProjOps RespWf.ops lettersOf
    rw [← opsG, List.map_append, List.map_map, List.map_map]
    congr 1
    exact List.map_congr_left fun k hk => projOp_q hW hk
  have hl : X.length = Q.length + G.length := by rw [hX]; simp [lenQ]
  obtain ⟨c1, c2⟩ := C99_all_projected (th := th) ht hb hW hE hth excitations
  by_cases hsm : ∃ T ∈ X, 1 / 1000 < |expv W.state (comm W.ham T)|
  · rw [c1 hsm] at hM; cases hM
  obtain ⟨M', m1, m2⟩ := c2 fun T hT => not_lt.1 fun h => hsm ⟨T, hT, h⟩
  rw [hM] at m1
  obtain rfl := Except.ok.inj m1
  obtain ⟨D, d1, d2, d3, d4⟩ := dip_finish heig ho hl (aprojInit_block hQ hM)
    (fun i j Xi Xid Xj Xjd a b c d => ⟨(m2 i j Xi Xid Xj Xjd a b c d).1, (m2 i j Xi Xid Xj Xjd a b c d).2.1⟩)
    (by rw [hX]; intro T hT; rcases List.mem_append.1 hT with h | h
        · obtain ⟨k, -, rfl⟩ := List.mem_map.1 h
          exact ⟨_, ketbra_adjoint _ _⟩
        · obtain ⟨g, -, rfl⟩ := List.mem_map.1 h
          exact ⟨_, projOp_adjoint _ _⟩) hmu (pre := naiveDipPre tiny big th W)
    (entry := fun v m k => aprojDip tiny th W G out.energies.length v m k) (fun s1 x hx => by
      obtain ⟨k, k1, k2⟩ := aprojDip_ok (q := Q.length) (nexc := out.energies.length) ht hb hW hth hx
        (fun d hd => (excG d hd).1)
      refine ⟨k, k1, fun v Xd hXd => ?_⟩
      have qp := dipQ_ok hW hx lenQ (m := (Q.length + G.length) + (Q.length + G.length))
        (nexc := out.energies.length) (by omega) v
      have ea : ∀ i : Fin G.length, X[Q.length + (i : ℕ)]?.getD 0 = projOp W.state (sumOp G[i]) := fun i => by
        rw [hX]; exact act_part (by simp [lenQ]) rfl i
      rw [k2 v _ qp (fun i => Xd[Q.length + (i : ℕ)]?.getD 0) (fun i => by
        rw [← ea i]; exact forall2_at hXd _), ← dip_total hl v]
      refine congrArg Except.ok ?_
      congr 1
      · refine Finset.sum_congr rfl fun i hi => ?_
        have hlt := Finset.mem_range.1 hi
        have ha := forall2_at hXd i
        have hk := hW.kappa W.kappa[i] (List.getElem_mem _)
        have e1 : X[i]?.getD 0 = ketbra (qOp W.kappa[i].2 W.kappa[i].1 W.state) W.state := by
          rw [hX, List.getElem?_append_left (by simp; omega), List.getElem?_map, List.getElem?_eq_getElem (by omega)]
          rfl
        rw [e1] at ha ⊢
        rw [expv_comm_adj ha (oneOp_adjoint hx _), s1]
        unfold qAdj
        rw [List.getElem?_map, List.getElem?_map, List.getElem?_eq_getElem (by omega : i < W.kappa.length)]
        simp only [Option.map_some, Option.getD_some]
        rw [expv_comm_adj (qOp_adjoint W.kappa[i].2 W.kappa[i].1) (oneOp_adjoint hx _),
          pst_orb_dip hW.norm (qOp_adjoint _ _) (qOp_kills (show ActiveState _ _ W.state from emb_active W.ci _) hk.1)]
      · exact Finset.sum_congr rfl fun i _ => by rw [ea])
  exact ⟨D, d1.1, d2, d3, d4⟩

/-- The hypotheses of C99 are met whenever the wave function is stationary for the operators of the method. -/
example (ht : ExactTiny tiny) (hb : ExactBig big) (hW : W.Proper) (hE : W.energy = expv W.state W.ham)
    (hth : th.Fair W.ci.idx2det.length) (excitations : String)
    (h : ∀ T ∈ W.allProjOps (lettersOf excitations), |expv W.state (comm W.ham T)| ≤ 1 / 1000) :
    ∃ (lib : LRLib) (Q G : List (Dict ℝ)) (M : LRMats)
      (out : LROut ((Q.length + G.length) + (Q.length + G.length))), (∀ m A S, (lib.eig m A S).length = m) ∧
      lrQ tiny W = .ok Q ∧ lrG tiny W excitations = .ok G ∧ aprojInit tiny big th W excitations = .ok M ∧
      M.solve lib Q.length G.length = .ok out := by
  obtain ⟨Q, G, h1, h2, -⟩ := C94_operators ht hW excitations
  obtain ⟨M, h3, -⟩ := (C99_all_projected (th := th) ht hb hW hE hth excitations).2 h
  refine ⟨⟨fun _ _ => [1], fun m _ _ => List.replicate m (0, 0)⟩, Q, G, M, ?_⟩
  have : ∃ out, M.solve ⟨fun _ _ => [1], fun m _ _ => List.replicate m (0, 0)⟩ Q.length G.length = .ok out := by
    unfold LRMats.solve calcExcitations hessianCheck minEig
    simp only [ok_bind, List.foldl_nil, if_true]
    rw [if_neg (by norm_num), if_neg (by norm_num)]
    exact ⟨_, rfl⟩
  obtain ⟨out, ho⟩ := this
  exact ⟨out, fun m _ _ => by simp, h1, h2, h3, ho⟩

end SQ
