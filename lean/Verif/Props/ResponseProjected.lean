import Verif.Lemmas.ResponseProjected

/-!
# C95: projected linear response
-/

namespace SQ

variable {tiny big : ℝ → Bool} {th : Threads} {W : RespWf}

/-- C95: the constructor of projected linear response raises exactly when an element of the gradient is larger
than `10⁻³`.  Otherwise it leaves the matrices of the orbital rotations and the operators `G|0⟩⟨0| - ⟨0|G|0⟩`:
nested commutators for two orbital rotations, symmetric double commutators for two active operators.  In the mixed
blocks it leaves out terms with the orbital gradient: `1/2 ⟨G⟩⟨[H, q]⟩` and `⟨G⟩⟨[H, q]⟩`. -/
theorem C95_projected (ht : ExactTiny tiny) (hb : ExactBig big) (hW : W.Proper)
    (hE : W.energy = expv W.state W.ham) (hth : th.Fair W.ci.idx2det.length) (excitations : String) :
    let X := W.projOps (lettersOf excitations)
    let n := W.kappa.length
    ((∃ T ∈ X, 1 / 1000 < |expv W.state (comm W.ham T)|) →
      projInit tiny big th W excitations = .error .valueError) ∧
    ((∀ T ∈ X, |expv W.state (comm W.ham T)| ≤ 1 / 1000) →
      ∃ M, projInit tiny big th W excitations = .ok M ∧
        ∀ i j Xi Xid Xj Xjd, X[i]? = some Xi → X[j]? = some Xj → IsAdjoint Xi Xid → IsAdjoint Xj Xjd →
          M.Sigma i j = expv W.state (comm Xid Xj) ∧
          M.Delta i j = expv W.state (comm Xid Xjd) ∧
          (i < n → j < n →
            M.A i j = expv W.state (comm Xid (comm W.ham Xj)) ∧
            M.B i j = expv W.state (comm Xid (comm W.ham Xjd))) ∧
          (n ≤ i → n ≤ j →
            M.A i j = expv W.state (dcomm Xid W.ham Xj) ∧
            M.B i j = expv W.state (dcomm Xid W.ham Xjd)) ∧
          (i < n → n ≤ j → ∀ G, (lrOps W (lettersOf excitations))[j - n]? = some G →
            M.A i j = expv W.state (dcomm Xid W.ham Xj) + 1 / 2 * expv W.state G * expv W.state (comm W.ham Xi) ∧
            M.B i j = expv W.state (dcomm Xid W.ham Xjd) - expv W.state G * expv W.state (comm W.ham Xi) ∧
            M.A j i = M.A i j ∧ M.B j i = M.B i j)) := by
  intro X n
  obtain ⟨G, hG, opsG, excG⟩ := lrG_ok ht hW excitations
  obtain ⟨Q, hQ, fQ⟩ := lrQ_ok ht hW
  obtain ⟨H1, h1, h1g, h1s⟩ := ham1_gen ht hb W.h W.g W.ci
  obtain ⟨H0, h0, h0g, h0s⟩ := ham0_gen ht hb W.h W.g W.ci
  have hact := emb_active W.ci
  have hs := hW.space
  have hHa := ham_adjoint hW
  have aW : ActiveState W.ci.nI W.ci.nA W.state := hact _
  obtain ⟨H00, p1, p2⟩ := W.prop_gen (th := th) ht hs hth h0g W.c
  have hH00 : IsH00 W H00 := fun bra => by
    rw [p2, h0s _ _ (hact _) (hact _)]; rfl
  have lenQ : Q.length = n := fQ.length_eq.symm
  have hX : X = (W.kappa.map fun k => qOp k.2 k.1) ++ G.map fun d => projOp W.state (sumOp d) := by
    show W.projOps _ = _
    unfold RespWf.projOps lettersOf
    rw [← opsG, List.map_map]
    rfl
  have lenX : X.length = n + G.length := by rw [hX]; simp [n]
  obtain ⟨gr, g1, g2⟩ := mapM_ok_exists (f := projGrad tiny th W H00)
    (fun d v => |v.1| = |expv W.state (comm W.ham (projOp W.state (sumOp d)))| ∧
      |v.2| = |expv W.state (comm W.ham (projOp W.state (sumOp d)))|) G (fun d hd => by
      obtain ⟨v, v1, v2, v3⟩ := projGrad_ok ht hW hE hth hH00 (excG d hd).1
      exact ⟨v, v1, by rw [v2], by rw [v3]⟩)
  obtain ⟨gc1, gc2⟩ := gradCheck_forall g2
  obtain ⟨oc1, oc2⟩ := lrOrbCheck_eq hW lenQ
  have hsplit : (∃ T ∈ X, 1 / 1000 < |expv W.state (comm W.ham T)|) ↔
      (∃ T ∈ W.kappa.map fun k => qOp k.2 k.1, 1 / 1000 < |expv W.state (comm W.ham T)|) ∨
      ∃ d ∈ G, 1 / 1000 < |expv W.state (comm W.ham (projOp W.state (sumOp d)))| := by
    rw [hX]
    simp only [List.mem_append, or_and_right, exists_or, List.mem_map, exists_exists_and_eq_and]
  refine ⟨fun hbig => ?_, fun hsmall => ?_⟩
  · unfold projInit
    simp only [hG, hQ, h1, h0, ok_bind]
    by_cases ho : ∃ T ∈ W.kappa.map fun k => qOp k.2 k.1, 1 / 1000 < |expv W.state (comm W.ham T)|
    · rw [oc1 ho]; rfl
    · rw [oc2 ho]
      simp only [ok_bind, p1, g1]
      rw [gc1 ((hsplit.1 hbig).resolve_left ho)]
      rfl
  have hno : ¬ ∃ T ∈ X, 1 / 1000 < |expv W.state (comm W.ham T)| := by
    rintro ⟨T, hT, h⟩
    exact absurd (hsmall T hT) (not_le.2 h)
  rw [hsplit, not_or] at hno
  have getq : ∀ {j : ℕ} {k : ℕ × ℕ}, W.kappa[j]? = some k → X[j]? = some (qOp k.2 k.1) := by
    intro j k h
    rw [hX, List.getElem?_append_left (by
      have := (List.getElem?_eq_some_iff.1 h).1
      simpa using this), List.getElem?_map, h]
    rfl
  have getG : ∀ {i : ℕ} {g : Dict ℝ}, G[i]? = some g → X[i + n]? = some (projOp W.state (sumOp g)) := by
    intro i g h
    rw [hX, List.getElem?_append_right (by simp [n])]
    simp [n, h]
  have hadj : ∀ T ∈ X, ∃ T', IsAdjoint T T' := by
    intro T hT
    rw [hX] at hT
    rcases List.mem_append.1 hT with h | h
    · obtain ⟨k, -, rfl⟩ := List.mem_map.1 h
      exact ⟨_, qOp_adjoint _ _⟩
    · obtain ⟨g, -, rfl⟩ := List.mem_map.1 h
      exact ⟨_, projOp_adjoint _ _⟩
  -- the mixed entries as functions of the positions
  let N := respOps W G
  let mA : ℕ → ℕ → ℝ := fun q g => inner (opAt N g W.state) (W.ham (opAt N q W.state))
  let mB : ℕ → ℕ → ℝ := fun q g => -1 / 2 * inner (opAt N g W.state) (adj (opAt N q) (W.ham W.state))
  let fA : ℕ → ℕ → ℝ := fun r c => if r < n ∧ n ≤ c then mA r c else if c < n ∧ n ≤ r then mA c r else 0
  let fB : ℕ → ℕ → ℝ := fun r c => if r < n ∧ n ≤ c then mB r c else if c < n ∧ n ≤ r then mB c r else 0
  have sA : ∀ r c, fA r c = fA c r := by
    intro r c
    simp only [fA]
    by_cases h1 : r < n <;> by_cases h2 : c < n
    · rw [if_neg (by omega), if_neg (by omega), if_neg (by omega), if_neg (by omega)]
    · rw [if_pos (by omega), if_neg (by omega), if_pos (by omega)]
    · rw [if_neg (by omega), if_pos (by omega), if_pos (by omega)]
    · rw [if_neg (by omega), if_neg (by omega), if_neg (by omega), if_neg (by omega)]
  have sB : ∀ r c, fB r c = fB c r := by
    intro r c
    simp only [fB]
    by_cases h1 : r < n <;> by_cases h2 : c < n
    · rw [if_neg (by omega), if_neg (by omega), if_neg (by omega), if_neg (by omega)]
    · rw [if_pos (by omega), if_neg (by omega), if_pos (by omega)]
    · rw [if_neg (by omega), if_pos (by omega), if_pos (by omega)]
    · rw [if_neg (by omega), if_neg (by omega), if_neg (by omega), if_neg (by omega)]
  have nQ : ∀ {j : ℕ} {k : ℕ × ℕ}, W.kappa[j]? = some k → j < n := fun h => (List.getElem?_eq_some_iff.1 h).1
  obtain ⟨M1, m1, mS, mD, m2⟩ := mixed_loop (Q := Q) (G := G) (pre := naiveMixedPre tiny th W H1)
    (entry := fun k _ y => projMixed tiny th W k y.1) sA sB (by
      intro x hx
      have hx' := zipIdx_get hx
      obtain ⟨k, hk⟩ : ∃ k, W.kappa[x.2]? = some k := by
        have := (List.getElem?_eq_some_iff.1 hx').1
        rw [lenQ] at this
        exact ⟨_, List.getElem?_eq_getElem this⟩
      have hR := (List.forall₂_iff_get.1 fQ).2 x.2 (List.getElem?_eq_some_iff.1 hk).1
        (List.getElem?_eq_some_iff.1 hx').1
      rw [List.get_eq_getElem, List.get_eq_getElem, (List.getElem?_eq_some_iff.1 hk).2,
        (List.getElem?_eq_some_iff.1 hx').2] at hR
      obtain ⟨κ, c1, -, -, c2⟩ := projMixed_ok (th := th) ht hW hth h1g h1s hR.1 hR.2
      refine ⟨κ, c1, fun y hy => ?_⟩
      have hy' := zipIdx_get hy
      obtain ⟨v, v1, v2, v3⟩ := c2 y.1 (excG _ (List.mem_of_getElem? hy')).1
      have e1 : opAt N (y.2 + n) = sumOp y.1 := opAt_G hy'
      have e2 : opAt N x.2 = qOp k.2 k.1 := opAt_q hk
      have e3 : adj (opAt N x.2) = qOp k.1 k.2 := by rw [e2]; exact adj_eq (qOp_adjoint _ _)
      have hlt := nQ hk
      refine ⟨v, v1, ?_, ?_⟩
      · simp only [fA, mA]
        rw [lenQ, if_neg (by omega), if_pos (by omega), e1, e2, v2]
      · simp only [fB, mB]
        rw [lenQ, if_neg (by omega), if_pos (by omega), e1, e3, v3]) (lrOrbBlocks W Q.length LRMats.zero)
  obtain ⟨M2, a1, aD, a2⟩ := act_loop (G := G) Q.length (pre := projActPre tiny th W H0)
    (entry := fun k x y => projAct tiny th W H0 H0 k x.1 y.1) (FA_symm hW hadj) FB_symm (FS_symm hadj) (by
      intro x hx
      have hx' := zipIdx_get hx
      obtain ⟨κ, c1, c2⟩ := projAct_ok (th := th) ht hW hE hth h0g h0s h0g h0s (excG _ (List.mem_of_getElem? hx')).1
      refine ⟨κ, c1, fun y hy => ?_⟩
      have hy' := zipIdx_drop_get hy
      obtain ⟨v, v1, v2⟩ := c2 y.1 (excG _ (List.mem_of_getElem? hy')).1
      have e1 := opAt_of (getG hy')
      have e2 := opAt_of (getG hx')
      obtain ⟨v3, v4, v5⟩ := v2 (adj (opAt X (x.2 + n))) (by rw [← e2]; exact opAt_adj hadj _)
        (adj (opAt X (y.2 + n))) (by rw [← e1]; exact opAt_adj hadj _)
      rw [lenQ]
      refine ⟨v, v1, ?_, ?_, ?_⟩
      · unfold FA; rw [v3, e2]
      · unfold FB; rw [v4]
      · unfold FS; rw [v5, e2]) M1
  refine ⟨M2, by
    unfold projInit
    simp only [hG, hQ, h1, h0, ok_bind, oc2 hno.1, p1, g1, gc2 hno.2]
    have : (fun (M : LRMats) (i j : ℕ) (v : ℝ × ℝ) => { M with
        A := setSym M.A j (i + Q.length) v.1, B := setSym M.B j (i + Q.length) v.2 })
      = fun M i j v => { M with A := setSym M.A (i + Q.length) j v.1, B := setSym M.B (i + Q.length) j v.2 } := by
      funext M i j v
      rw [setSym_comm M.A, setSym_comm M.B]
    rw [this, m1]
    simp only [ok_bind]
    rw [a1], ?_⟩
  intro i j Xi Xid Xj Xjd hi hj hid hjd
  have li : i < n + G.length := by rw [← lenX]; exact (List.getElem?_eq_some_iff.1 hi).1
  have lj : j < n + G.length := by rw [← lenX]; exact (List.getElem?_eq_some_iff.1 hj).1
  have oi : opAt X i = Xi := opAt_of hi
  have oj : opAt X j = Xj := opAt_of hj
  have oid : adj (opAt X i) = Xid := by rw [oi]; exact adj_eq hid
  have ojd : adj (opAt X j) = Xjd := by rw [oj]; exact adj_eq hjd
  have va : FA W X i j = expv W.state (dcomm Xid W.ham Xj) := by unfold FA; rw [oid, oj]
  have vb : FB W X i j = expv W.state (dcomm Xid W.ham Xjd) := by unfold FB; rw [oid, ojd]
  have vs : FS W X i j = expv W.state (comm Xid Xj) := by unfold FS; rw [oid, oj]
  rw [lenQ] at m2 a2 mS mD
  have zD : M2.Delta i j = 0 := by rw [aD, mD, lrOrbBlocks_delta]; rfl
  rw [zD]
  have qform : ∀ {i : ℕ} {T Td : FOp ℝ}, X[i]? = some T → IsAdjoint T Td → i < n → ∃ k, W.kappa[i]? = some k ∧
      T = qOp k.2 k.1 ∧ Td = qOp k.1 k.2 ∧ ∀ x, ActiveState W.ci.nI W.ci.nA x → qOp k.1 k.2 x = 0 := by
    intro i T Td hT hTd h
    obtain ⟨k, hk⟩ : ∃ k, W.kappa[i]? = some k := ⟨_, List.getElem?_eq_getElem h⟩
    have := getq hk
    rw [hT] at this
    obtain rfl := Option.some.inj this
    exact ⟨k, hk, rfl, hTd.unique (qOp_adjoint _ _), fun x hx => qOp_kills hx (hW.kappa k (List.mem_of_getElem? hk)).1⟩
  have gform : ∀ {i : ℕ} {T Td : FOp ℝ}, X[i]? = some T → IsAdjoint T Td → n ≤ i → i < n + G.length →
      ∃ g, G[i - n]? = some g ∧ T = projOp W.state (sumOp g) ∧
        Td = ketbra W.state (sumOp g W.state) - expv W.state (sumOp g) • 1 ∧
        ActiveState W.ci.nI W.ci.nA (sumOp g W.state) := by
    intro i T Td hT hTd h h'
    obtain ⟨g, hg⟩ : ∃ g, G[i - n]? = some g := ⟨_, List.getElem?_eq_getElem (by omega)⟩
    have := getG hg
    rw [show i - n + n = i by omega, hT] at this
    obtain rfl := Option.some.inj this
    exact ⟨g, hg, rfl, hTd.unique (projOp_adjoint _ _), active_sumOp (excG g (List.mem_of_getElem? hg)).1.2 aW⟩
  by_cases ci : i < n <;> by_cases cj : j < n
  · -- two orbital rotations
    obtain ⟨k, hk, rfl, rfl, nk⟩ := qform hi hid ci
    obtain ⟨l, hl, rfl, rfl, nl⟩ := qform hj hjd cj
    obtain ⟨o1, o2, o3⟩ := lrOrbBlocks_eq hW lenQ LRMats.zero hk hl
    obtain ⟨b1, b2, b3⟩ := (a2 i j).2 (by omega)
    obtain ⟨b4, b5⟩ := (m2 i j).2 (by omega)
    refine ⟨?_, ?_, fun _ _ => ⟨?_, ?_⟩, fun h => by omega, fun _ h => by omega⟩
    · rw [b3, mS, ← lenQ, o3]
    · rw [expv_comm, nk _ aW, nl _ aW, map_zero, map_zero, inner_zero_right, sub_zero]
    · rw [b1, b4, ← lenQ, o1]
    · rw [b2, b5, ← lenQ, o2]
  · -- orbital rotation and active operator
    obtain ⟨k, hk, rfl, rfl, nk⟩ := qform hi hid ci
    obtain ⟨g, hg, rfl, rfl, ag⟩ := gform hj hjd (by omega) lj
    obtain ⟨b1, b2, b3⟩ := (a2 i j).2 (by omega)
    obtain ⟨b1', b2', -⟩ := (a2 j i).2 (by omega)
    obtain ⟨b4, b5⟩ := (m2 i j).1 (by omega)
    obtain ⟨b4', b5'⟩ := (m2 j i).1 (by omega)
    have sig : M2.Sigma i j = 0 := by rw [b3, mS, lrOrbBlocks_sigma hW (by right; omega)]; rfl
    have hq := qOp_adjoint k.2 k.1
    have z1 : ∀ x, inner W.state (qOp k.2 k.1 x) = 0 := fun x => by rw [← hq.symm, nk _ aW, inner_zero_left]
    have z2 : inner (sumOp g W.state) (qOp k.2 k.1 W.state) = 0 := by rw [← hq.symm, nk _ ag, inner_zero_left]
    have z3 : inner W.state (qOp k.1 k.2 (sumOp g W.state)) = 0 := by rw [nk _ ag, inner_zero_right]
    have zg : inner (sumOp g W.state) W.state = expv W.state (sumOp g) := inner_comm _ _
    have zq : inner W.state (W.ham (qOp k.2 k.1 W.state)) = inner W.state (qOp k.1 k.2 (W.ham W.state)) := by
      rw [← hHa, ← hq, inner_comm]
    have zq' : inner W.state (qOp k.1 k.2 (W.ham (sumOp g W.state)))
        = inner (sumOp g W.state) (W.ham (qOp k.2 k.1 W.state)) := by
      rw [← hHa, ← hq, ← hHa, inner_comm, hHa]
    have w1 : opAt N i = qOp k.2 k.1 := opAt_q hk
    have w2 : opAt N j = sumOp g := by
      have := opAt_G (W := W) hg
      rwa [show j - n + W.kappa.length = j from by show j - n + n = j; omega] at this
    have w3 : adj (opAt N i) = qOp k.1 k.2 := by rw [w1]; exact adj_eq hq
    have vA : fA i j = inner (sumOp g W.state) (W.ham (qOp k.2 k.1 W.state)) := by
      simp only [fA, mA]; rw [if_pos (by omega), w1, w2]
    have vB : fB i j = -1 / 2 * inner (sumOp g W.state) (qOp k.1 k.2 (W.ham W.state)) := by
      simp only [fB, mB]; rw [if_pos (by omega), w3, w2]
    refine ⟨?_, ?_, fun _ h => by omega, fun h => by omega, fun _ _ T hT => ?_⟩
    · rw [sig]
      unfold projOp
      rw [comm_scalar_right, expv_comm, ketbra_apply, ketbra_apply, hW.norm, one_smul, nk _ ag, nk _ aW]
      simp
    · rw [comm_scalar_right, expv_comm, ketbra_apply, ketbra_apply, nk _ aW]
      simp [nk _ aW]
    · have eT : T = sumOp g := by
        have : (lrOps W (lettersOf excitations))[j - n]? = some (sumOp g) := by
          unfold lettersOf
          rw [← opsG, List.getElem?_map, hg]; rfl
        rw [hT] at this
        exact Option.some.inj this
      subst eT
      rw [b1, b4, vA, b2, b5, vB, b1', b4', sA, vA, b2', b5', sB, vB]
      refine ⟨?_, ?_, rfl, rfl⟩
      · unfold projOp
        rw [dcomm_scalar_right]
        simp only [expv_dcomm, expv_comm, ketbra_apply, map_smul, inner_smul_right, hW.norm, one_smul, nk _ aW, nk _ ag,
          map_zero, inner_zero_right, z1, z3, zq, zq', mul_zero]
        unfold expv
        ring
      · rw [dcomm_scalar_right]
        simp only [expv_dcomm, expv_comm, ketbra_apply, map_smul, inner_smul_right, hW.norm, one_smul, nk _ aW, nk _ ag,
          map_zero, inner_zero_right, z1, z3, zq, zg, mul_zero]
        ring
  · -- active operator and orbital rotation
    obtain ⟨k, hk, rfl, rfl, nk⟩ := qform hj hjd cj
    obtain ⟨g, hg, rfl, rfl, ag⟩ := gform hi hid (by omega) li
    obtain ⟨b1, b2, b3⟩ := (a2 i j).2 (by omega)
    have sig : M2.Sigma i j = 0 := by rw [b3, mS, lrOrbBlocks_sigma hW (by left; omega)]; rfl
    have hq := qOp_adjoint k.2 k.1
    have z1 : ∀ x, inner W.state (qOp k.2 k.1 x) = 0 := fun x => by rw [← hq.symm, nk _ aW, inner_zero_left]
    have z2 : inner (sumOp g W.state) (qOp k.2 k.1 W.state) = 0 := by rw [← hq.symm, nk _ ag, inner_zero_left]
    refine ⟨?_, ?_, fun h => by omega, fun _ h => by omega, fun h => by omega⟩
    · rw [sig, comm_scalar_left, expv_comm, ketbra_apply, z1, z2]
      simp
    · rw [comm_scalar_left, expv_comm, ketbra_apply, nk _ aW, ketbra_apply]
      simp [nk _ aW]
  · -- two active operators
    obtain ⟨g, hg, rfl, rfl, ag⟩ := gform hi hid (by omega) li
    obtain ⟨g', hg', rfl, rfl, ag'⟩ := gform hj hjd (by omega) lj
    obtain ⟨b1, b2, b3⟩ := (a2 i j).1 (by omega)
    refine ⟨by rw [b3, vs], ?_, fun h => by omega, fun _ _ => ⟨by rw [b1, va], by rw [b2, vb]⟩,
      fun h => by omega⟩
    rw [comm_scalar_left, comm_scalar_right, expv_comm]
    simp only [ketbra_apply, map_smul, inner_smul_right, hW.norm]
    ring

/-- The hypothesis of C95 on the energy: the energy of the wave function class is the expectation value of the
Hamiltonian in the state of the object. -/
theorem C95_energy (ht : ExactTiny tiny) (hb : ExactBig big) {ci : CIInfo} (hs : AnsatzSpace ci ci.nA)
    (hth : th.Fair ci.idx2det.length) (h : ℕ → ℕ → ℝ) (g : ℕ → ℕ → ℕ → ℕ → ℝ) {st : AnsatzStruct}
    {csf c : Vec ℝ} {thetas : List ℝ} (hc : upsVec tiny th ci st thetas false csf = .ok c) :
    upsEnergy tiny big th ci h g st csf thetas =
      .ok (expv (emb ci c) (electronic h g (ci.nI + ci.nA + ci.nV))) := by
  obtain ⟨w, hw, ew⟩ := applyHam_sem (tiny := tiny) ht hb hs hth h g c
  unfold upsEnergy
  rw [hc]
  show (applyHam tiny big th ci h g c >>= fun w => pure (dot ci.idx2det.length c w)) = _
  rw [hw]
  exact congrArg Except.ok (ew c)

/-- Any proper object with its energy: the hypotheses of C95 hold. -/
example (hW : W.Proper) : ∃ W' : RespWf, W'.Proper ∧ W'.energy = expv W'.state W'.ham ∧ W'.c = W.c :=
  ⟨{ W with energy := expv W.state W.ham }, ⟨hW.1, hW.2, hW.3, hW.4, hW.5, hW.6, hW.7, hW.8, hW.9, hW.10, hW.11⟩,
    rfl, rfl⟩

end SQ
