import Verif.Lemmas.QuantumResponse
import Verif.Props.ResponseAllProjected

/-!
# C104, C105, C106: linear response with a quantum computer
-/

namespace SQ

variable {tiny big : ℝ → Bool} {W : RespWf} {qev : Dict ℝ → Res ℝ}

/-- C104: on an interface that measures exactly, naive linear response never raises, with and without density matrices
and gradients.  It leaves the metric `Σ_ij = ⟨[X_i†, X_j]⟩`, `Δ_ij = ⟨[X_i†, X_j†]⟩` and the symmetric double
commutators when an excitation of the active space is involved.  For two orbital rotations it leaves `A_ij =
⟨[X_i†, [H, X_j]]⟩`, `B_ij = ⟨[X_i†, [H, X_j†]]⟩`: all of them with density matrices, the lower triangles and their
mirror images without. -/
theorem C104_naive (ht : ExactTiny tiny) (hb : ExactBig big) (hW : W.Proper) (hq : ExactQuantum W.ci W.c qev)
    (excitations : String) :
    let X := W.ops (lettersOf excitations)
    let n := W.kappa.length
    ∃ L, qlrInit tiny big W excitations = .ok L ∧ ∀ doRdm doGradients,
      ∃ M, qnRun tiny big qev W doRdm doGradients L = .ok M ∧
        ∀ i j Xi Xid Xj Xjd, X[i]? = some Xi → X[j]? = some Xj → IsAdjoint Xi Xid → IsAdjoint Xj Xjd →
          M.Sigma i j = expv W.state (comm Xid Xj) ∧
          M.Delta i j = expv W.state (comm Xid Xjd) ∧
          (i < n → j < n →
            (doRdm = true ∨ j ≤ i →
              M.A i j = expv W.state (comm Xid (comm W.ham Xj)) ∧
              M.B i j = expv W.state (comm Xid (comm W.ham Xjd))) ∧
            (doRdm = false → M.A j i = M.A i j ∧ M.B j i = M.B i j)) ∧
          (n ≤ i ∨ n ≤ j →
            M.A i j = expv W.state (dcomm Xid W.ham Xj) ∧
            M.B i j = expv W.state (dcomm Xid W.ham Xjd)) := by
  intro X n
  obtain ⟨G, hG, opsG, excG⟩ := lrG_ok ht hW excitations
  obtain ⟨Q, hQ, fQ⟩ := lrQ_ok ht hW
  obtain ⟨H1, h1, h1g, h1s⟩ := ham1_gen ht hb W.h W.g W.ci
  obtain ⟨H0, h0, h0g, h0s⟩ := ham0_gen ht hb W.h W.g W.ci
  refine ⟨⟨H0, H1, G, Q, LRMats.zero⟩, by unfold qlrInit; simp only [h0, h1, hG, hQ, ok_bind]; rfl,
    fun doRdm doGradients => ?_⟩
  have hact := emb_active W.ci
  have aW : ActiveState W.ci.nI W.ci.nA W.state := hact _
  have lenQ : Q.length = n := fQ.length_eq.symm
  have hX : X = respOps W G := by
    show W.ops _ = _
    unfold RespWf.ops respOps lettersOf
    rw [opsG]
  have lenX : X.length = n + G.length := by rw [hX]; simp [respOps, n]
  have hadj := respOps_adj ht excG
  rw [← hX] at hadj
  have getq : ∀ {j : ℕ} {k : ℕ × ℕ}, W.kappa[j]? = some k → opAt X j = qOp k.2 k.1 ∧ adj (opAt X j) = qOp k.1 k.2 := by
    intro j k h
    have e := opAt_q (G := G) h
    rw [← hX] at e
    exact ⟨e, by rw [e]; exact adj_eq (qOp_adjoint _ _)⟩
  have getG : ∀ {i : ℕ} {g : Dict ℝ}, G[i]? = some g → opAt X (i + Q.length) = sumOp g ∧
      IsAdjoint (sumOp g) (adj (opAt X (i + Q.length))) := by
    intro i g h
    have e := opAt_G (W := W) h
    rw [← hX, show W.kappa.length = Q.length from lenQ.symm] at e
    exact ⟨e, by rw [← e]; exact opAt_adj hadj _⟩
  have qrel : ∀ {i : ℕ} {q : Dict ℝ}, Q[i]? = some q → ∃ k, W.kappa[i]? = some k ∧ GenOp W.ci q ∧
      sumOp q = qOp k.2 k.1 := by
    intro i q hq
    obtain ⟨k, hk⟩ : ∃ k, W.kappa[i]? = some k := ⟨_, List.getElem?_eq_getElem (by
      have := (List.getElem?_eq_some_iff.1 hq).1
      omega)⟩
    have hRq := (List.forall₂_iff_get.1 fQ).2 i (List.getElem?_eq_some_iff.1 hk).1 (List.getElem?_eq_some_iff.1 hq).1
    rw [List.get_eq_getElem, List.get_eq_getElem, (List.getElem?_eq_some_iff.1 hk).2,
      (List.getElem?_eq_some_iff.1 hq).2] at hRq
    exact ⟨k, hk, hRq⟩
  obtain ⟨gq, g1, -⟩ := mapM_ok_exists (f := qGradQ tiny qev W H1) (fun _ _ => True) Q (fun q hq' => by
    obtain ⟨i, hi⟩ := List.getElem?_of_mem hq'
    obtain ⟨k, -, k2, -⟩ := qrel hi
    obtain ⟨v, hv⟩ := qGradQ_ok ht hq h1g k2
    exact ⟨v, hv, trivial⟩)
  obtain ⟨gg, g2, -⟩ := mapM_ok_exists (f := qGradG tiny qev W H0) (fun _ _ => True) G (fun d hd => by
    obtain ⟨v, hv⟩ := qGradG_ok ht hq h0g (excG d hd).1.gen
    exact ⟨v, hv, trivial⟩)
  obtain ⟨M0, o1, oD, oS, o2⟩ := qOrbBlocks_ok ht hb hW hq fQ doRdm
  obtain ⟨M1, m1, mS, mD, m2⟩ := mixed_loop (Q := Q) (G := G) (pre := fun q => pure q)
    (entry := fun _ x y => qnMixed tiny qev W H1 x.1 y.1) (FA_symm hW hadj) (FB_symm (W := W) (X := X)) (by
      intro x hx
      refine ⟨x.1, rfl, fun y hy => ?_⟩
      have hy' := zipIdx_get hy
      obtain ⟨k, hk, gk, ek⟩ := qrel (zipIdx_get hx)
      obtain ⟨v, v1, v2⟩ := qnMixed_ok ht hW hq h1g h1s (hW.kappa k (List.mem_of_getElem? hk)).1 gk ek
        (excG _ (List.mem_of_getElem? hy')).1
      obtain ⟨e1, e2⟩ := getG hy'
      obtain ⟨e3, e4⟩ := getq hk
      obtain ⟨v3, v4⟩ := v2 _ e2
      refine ⟨v, v1, ?_, ?_⟩
      · unfold FA; rw [e3]; exact v3
      · unfold FB; rw [e4]; exact v4) M0
  obtain ⟨M2, a1, aD, a2⟩ := act_loop (G := G) Q.length (pre := fun g => pure g)
    (entry := fun _ x y => qnAct tiny qev W H0 x.1 y.1) (FA_symm hW hadj) (FB_symm (W := W) (X := X))
    (FS_symm (W := W) hadj) (by
      intro x hx
      refine ⟨x.1, rfl, fun y hy => ?_⟩
      have hx' := zipIdx_get hx
      have hy' := zipIdx_drop_get hy
      have ex := excG _ (List.mem_of_getElem? hx')
      have ey := excG _ (List.mem_of_getElem? hy')
      obtain ⟨v, v1, v2⟩ := qnAct_ok ht hW hq h0g h0s ex.1 ey.1 (by
        intro GJd hJd GId hId
        have hc := (ex.2.comm hW.disjS ey.2).eq
        exact (hId.mul hJd).unique (by rw [← hc]; exact hJd.mul hId))
      obtain ⟨e1, e2⟩ := getG hy'
      obtain ⟨e3, e4⟩ := getG hx'
      obtain ⟨v3, v4, v5⟩ := v2 _ e4 _ e2
      refine ⟨v, v1, ?_, ?_, ?_⟩
      · unfold FA; rw [e3]; exact v3
      · unfold FB; exact v4
      · unfold FS; rw [e3]; exact v5) M1
  refine ⟨M2, by
    unfold qnRun
    by_cases c1 : Q.length ≠ 0 ∧ doRdm = false ∧ doGradients = true <;> by_cases c2 : doGradients = true
    · simp only [if_pos c1, if_pos c2, g1, g2, o1, ok_bind]
      rw [m1]
      exact a1
    · exact absurd c1.2.2 c2
    · simp only [if_neg c1, if_pos c2, g2, o1, ok_bind]
      rw [m1]
      exact a1
    · simp only [if_neg c1, if_neg c2, o1, ok_bind]
      rw [m1]
      exact a1, ?_⟩
  intro i j Xi Xid Xj Xjd hi hj hid hjd
  have li : i < n + G.length := by rw [← lenX]; exact (List.getElem?_eq_some_iff.1 hi).1
  have lj : j < n + G.length := by rw [← lenX]; exact (List.getElem?_eq_some_iff.1 hj).1
  have oi : opAt X i = Xi := opAt_of hi
  have oj : opAt X j = Xj := opAt_of hj
  have oid : adj (opAt X i) = Xid := by rw [oi]; exact adj_eq hid
  have ojd : adj (opAt X j) = Xjd := by rw [oj]; exact adj_eq hjd
  have va : FA W X i j = expv W.state (dcomm Xid W.ham Xj) := by unfold FA; rw [oid, oj]
  have vb : FB W X i j = expv W.state (dcomm Xid W.ham Xjd) := by unfold FB; rw [oid, ojd]
  have vs : FS W X i j = expv W.state (comm Xid Xj) := by unfold FS; rw [oid, oj]
  rw [lenQ] at m2 a2
  have zD : M2.Delta i j = 0 := by rw [aD, mD, oD]
  rw [zD]
  by_cases ci : i < n <;> by_cases cj : j < n
  · -- two orbital rotations
    obtain ⟨k, hk⟩ : ∃ k, W.kappa[i]? = some k := ⟨_, List.getElem?_eq_getElem ci⟩
    obtain ⟨l, hl⟩ : ∃ l, W.kappa[j]? = some l := ⟨_, List.getElem?_eq_getElem cj⟩
    obtain ⟨p1, p2, p3⟩ := o2 i j k l hk hl
    obtain ⟨k1, k2⟩ := getq hk
    obtain ⟨l1, l2⟩ := getq hl
    rw [oid] at k2
    rw [oj] at l1
    rw [ojd] at l2
    have nk := qOp_kills aW (hW.kappa k (List.mem_of_getElem? hk)).1
    have nl := qOp_kills aW (hW.kappa l (List.mem_of_getElem? hl)).1
    obtain ⟨b1, b2, b3⟩ := (a2 i j).2 (by omega)
    obtain ⟨c1, c2, -⟩ := (a2 j i).2 (by omega)
    obtain ⟨d1, d2⟩ := (m2 i j).2 (by omega)
    obtain ⟨e1, e2⟩ := (m2 j i).2 (by omega)
    refine ⟨?_, ?_, fun _ _ => ⟨fun h => ⟨?_, ?_⟩, fun h => ?_⟩, fun h => by omega⟩
    · rw [b3, mS, p1, k2, l1]
    · rw [k2, l2, expv_comm, nk, nl, map_zero, map_zero, inner_zero_right, sub_zero]
    · rw [b1, d1, (p2 h).1, k2, l1]
    · rw [b2, d2, (p2 h).2, k2, l2]
    · rw [b1, d1, b2, d2, c1, e1, c2, e2]
      exact p3 h
  · -- orbital rotation and active excitation
    obtain ⟨k, hk⟩ : ∃ k, W.kappa[i]? = some k := ⟨_, List.getElem?_eq_getElem ci⟩
    obtain ⟨g, hg⟩ : ∃ g, G[j - Q.length]? = some g := ⟨_, List.getElem?_eq_getElem (by omega)⟩
    obtain ⟨k1, k2⟩ := getq hk
    obtain ⟨l1, l2⟩ := getG hg
    rw [show j - Q.length + Q.length = j by omega] at l1 l2
    rw [oid] at k2
    rw [oj] at l1
    have nk := fun x hx => qOp_kills (x := x) hx (hW.kappa k (List.mem_of_getElem? hk)).1
    have ag := excG g (List.mem_of_getElem? hg)
    obtain ⟨d, -, d2, d3⟩ := ag.1.dagger ht
    have ed : Xjd = sumOp d := hjd.unique (by rw [l1]; exact d3)
    obtain ⟨b1, b2, b3⟩ := (a2 i j).2 (by omega)
    obtain ⟨e1, e2⟩ := (m2 i j).1 (by omega)
    refine ⟨?_, ?_, fun _ h => by omega, fun _ => ⟨by rw [b1, e1, va], by rw [b2, e2, vb]⟩⟩
    · rw [b3, mS, oS _ _ (by right; exact not_lt.1 cj), k2, l1, expv_comm, nk _ aW, nk _ (active_sumOp ag.1.2 aW), map_zero,
        inner_zero_right, sub_zero]
    · rw [k2, ed, expv_comm, nk _ aW, nk _ (active_sumOp d2.2 aW), map_zero, inner_zero_right, sub_zero]
  · -- active excitation and orbital rotation
    obtain ⟨k, hk⟩ : ∃ k, W.kappa[j]? = some k := ⟨_, List.getElem?_eq_getElem cj⟩
    obtain ⟨g, hg⟩ : ∃ g, G[i - Q.length]? = some g := ⟨_, List.getElem?_eq_getElem (by omega)⟩
    obtain ⟨k1, k2⟩ := getq hk
    obtain ⟨l1, l2⟩ := getG hg
    rw [show i - Q.length + Q.length = i by omega] at l1 l2
    rw [oj] at k1
    rw [ojd] at k2
    rw [oi] at l1
    have nk := fun x hx => qOp_kills (x := x) hx (hW.kappa k (List.mem_of_getElem? hk)).1
    have ag := excG g (List.mem_of_getElem? hg)
    obtain ⟨d, -, d2, d3⟩ := ag.1.dagger ht
    have ed : Xid = sumOp d := hid.unique (by rw [l1]; exact d3)
    obtain ⟨b1, b2, b3⟩ := (a2 i j).2 (by omega)
    obtain ⟨f1, f2⟩ := (m2 i j).1 (by omega)
    refine ⟨?_, ?_, fun h => by omega, fun _ => ⟨by rw [b1, f1, va], by rw [b2, f2, vb]⟩⟩
    · have e1 : inner W.state (Xid (qOp k.2 k.1 W.state)) = 0 := by
        rw [← hid, ← (qOp_adjoint k.1 k.2), l1, nk _ (active_sumOp ag.1.2 aW), inner_zero_left]
      have e2 : inner W.state (qOp k.2 k.1 (Xid W.state)) = 0 := by
        rw [← (qOp_adjoint k.1 k.2), nk _ aW, inner_zero_left]
      rw [b3, mS, oS _ _ (by left; exact not_lt.1 ci), k1, expv_comm, e1, e2, sub_zero]
    · rw [k2, ed, expv_comm, nk _ aW, nk _ (active_sumOp d2.2 aW), map_zero, inner_zero_right, sub_zero]
  · -- two active excitations
    obtain ⟨g, hg⟩ : ∃ g, G[i - Q.length]? = some g := ⟨_, List.getElem?_eq_getElem (by omega)⟩
    obtain ⟨g', hg'⟩ : ∃ g, G[j - Q.length]? = some g := ⟨_, List.getElem?_eq_getElem (by omega)⟩
    have l1 := (getG hg).1
    have l2 := (getG hg').1
    rw [show i - Q.length + Q.length = i by omega, oi] at l1
    rw [show j - Q.length + Q.length = j by omega, oj] at l2
    have hc := ((excG g (List.mem_of_getElem? hg)).2.comm hW.disjS (excG g' (List.mem_of_getElem? hg')).2).eq
    rw [← l1, ← l2] at hc
    have hcd : Xid * Xjd = Xjd * Xid := (hjd.mul hid).unique (by rw [← hc]; exact hid.mul hjd)
    obtain ⟨b1, b2, b3⟩ := (a2 i j).1 (by omega)
    refine ⟨by rw [b3, vs], ?_, fun h => by omega, fun _ => ⟨by rw [b1, va], by rw [b2, vb]⟩⟩
    unfold expv comm
    rw [hcd, sub_self, LinearMap.zero_apply, inner_zero_right]

/-- C104: the mirror images differ from the nested commutators of their own position by elements of the orbital gradient:
`⟨[X_j†, [H, X_i]]⟩ = ⟨[X_i†, [H, X_j]]⟩ - ⟨[H, [X_i†, X_j]]⟩`, and the same for `B`. -/
theorem C104_mirror (hW : W.Proper) {Xi Xid Xj Xjd : FOp ℝ} (hi : IsAdjoint Xi Xid) (hj : IsAdjoint Xj Xjd) :
    expv W.state (comm Xjd (comm W.ham Xi))
      = expv W.state (comm Xid (comm W.ham Xj)) - expv W.state (comm W.ham (comm Xid Xj)) ∧
    expv W.state (comm Xjd (comm W.ham Xid))
      = expv W.state (comm Xid (comm W.ham Xjd)) - expv W.state (comm W.ham (comm Xid Xjd)) := by
  have hH := ham_adjoint hW
  have jac : ∀ a b : FOp ℝ, expv W.state (comm b (comm W.ham a))
      = expv W.state (comm a (comm W.ham b)) - expv W.state (comm W.ham (comm a b)) := by
    intro a b
    have e : comm b (comm W.ham a) = comm a (comm W.ham b) - comm W.ham (comm a b) := by
      unfold comm; noncomm_ring
    unfold expv
    rw [e, LinearMap.sub_apply, inner_sub_right]
  refine ⟨?_, jac _ _⟩
  rw [← jac]
  have h1 : IsAdjoint (comm W.ham Xi) (comm Xid W.ham) := by
    unfold comm
    exact (hH.mul hi).sub (hi.mul hH)
  have h2 : IsAdjoint (comm Xjd (comm W.ham Xi)) (comm (comm Xid W.ham) Xj) := by
    unfold comm at h1 ⊢
    exact (hj.symm.mul h1).sub (h1.mul hj.symm)
  have e : comm (comm Xid W.ham) Xj = comm Xj (comm W.ham Xid) := by
    unfold comm; noncomm_ring
  unfold expv
  rw [← h2.symm, inner_comm, e]

/-- C105: on an interface that measures exactly, projected linear response never raises.  It leaves the matrices of the
orbital rotations and the operators `G|0⟩⟨0| - ⟨0|G|0⟩` as the classical class does (C95); for two orbital rotations
without density matrices the lower triangles and their mirror images.  The terms with the orbital gradient left out of
the mixed blocks are the same, and nothing checks that it is small.  The list `_G_exp` holds the `⟨0|G|0⟩`. -/
theorem C105_projected (ht : ExactTiny tiny) (hb : ExactBig big) (hW : W.Proper)
    (hE : W.energy = expv W.state W.ham) (hq : ExactQuantum W.ci W.c qev) (excitations : String) :
    let X := W.projOps (lettersOf excitations)
    let n := W.kappa.length
    ∃ L, qlrInit tiny big W excitations = .ok L ∧ ∀ doRdm doGradients,
      ∃ M E, qpRun tiny big qev W doRdm doGradients L = .ok (M, E) ∧
        E = (lrOps W (lettersOf excitations)).map (fun G => (expv W.state G, expv W.state (W.ham * G))) ∧
        ∀ i j Xi Xid Xj Xjd, X[i]? = some Xi → X[j]? = some Xj → IsAdjoint Xi Xid → IsAdjoint Xj Xjd →
          M.Sigma i j = expv W.state (comm Xid Xj) ∧
          M.Delta i j = expv W.state (comm Xid Xjd) ∧
          (i < n → j < n →
            (doRdm = true ∨ j ≤ i →
              M.A i j = expv W.state (comm Xid (comm W.ham Xj)) ∧
              M.B i j = expv W.state (comm Xid (comm W.ham Xjd))) ∧
            (doRdm = false → M.A j i = M.A i j ∧ M.B j i = M.B i j)) ∧
          (n ≤ i → n ≤ j →
            M.A i j = expv W.state (dcomm Xid W.ham Xj) ∧
            M.B i j = expv W.state (dcomm Xid W.ham Xjd)) ∧
          (i < n → n ≤ j → ∀ G, (lrOps W (lettersOf excitations))[j - n]? = some G →
            M.A i j = expv W.state (dcomm Xid W.ham Xj) + 1 / 2 * expv W.state G * expv W.state (comm W.ham Xi) ∧
            M.B i j = expv W.state (dcomm Xid W.ham Xjd) - expv W.state G * expv W.state (comm W.ham Xi) ∧
            M.A j i = M.A i j ∧ M.B j i = M.B i j) := by
  intro X n
  obtain ⟨G, hG, opsG, excG⟩ := lrG_ok ht hW excitations
  obtain ⟨Q, hQ, fQ⟩ := lrQ_ok ht hW
  obtain ⟨H1, h1, h1g, h1s⟩ := ham1_gen ht hb W.h W.g W.ci
  obtain ⟨H0, h0, h0g, h0s⟩ := ham0_gen ht hb W.h W.g W.ci
  refine ⟨⟨H0, H1, G, Q, LRMats.zero⟩, by unfold qlrInit; simp only [h0, h1, hG, hQ, ok_bind]; rfl,
    fun doRdm doGradients => ?_⟩
  have hact := emb_active W.ci
  have hHa := ham_adjoint hW
  have aW : ActiveState W.ci.nI W.ci.nA W.state := hact _
  have lenQ : Q.length = n := fQ.length_eq.symm
  have hX : X = (W.kappa.map fun k => qOp k.2 k.1) ++ G.map fun d => projOp W.state (sumOp d) := by
    show W.projOps _ = _
    unfold RespWf.projOps lettersOf
    rw [← opsG, List.map_map]
    rfl
  have lenX : X.length = n + G.length := by rw [hX]; simp [n]
  have getq : ∀ {j : ℕ} {k : ℕ × ℕ}, W.kappa[j]? = some k → X[j]? = some (qOp k.2 k.1) := by
    intro j k h
    rw [hX, List.getElem?_append_left (by
      have := (List.getElem?_eq_some_iff.1 h).1
      simpa using this), List.getElem?_map, h]
    rfl
  have getG : ∀ {i : ℕ} {g : Dict ℝ}, G[i]? = some g → X[i + n]? = some (projOp W.state (sumOp g)) := by
    intro i g h
    rw [hX, List.getElem?_append_right (by simp [n])]
    simp [n, h]
  have hadj : ∀ T ∈ X, ∃ T', IsAdjoint T T' := by
    intro T hT
    rw [hX] at hT
    rcases List.mem_append.1 hT with h | h
    · obtain ⟨k, -, rfl⟩ := List.mem_map.1 h
      exact ⟨_, qOp_adjoint _ _⟩
    · obtain ⟨g, -, rfl⟩ := List.mem_map.1 h
      exact ⟨_, projOp_adjoint _ _⟩
  -- the mixed entries as functions of the positions
  let N := respOps W G
  let mA : ℕ → ℕ → ℝ := fun q g => inner (opAt N g W.state) (W.ham (opAt N q W.state))
  let mB : ℕ → ℕ → ℝ := fun q g => -1 / 2 * inner (opAt N g W.state) (adj (opAt N q) (W.ham W.state))
  let fA : ℕ → ℕ → ℝ := fun r c => if r < n ∧ n ≤ c then mA r c else if c < n ∧ n ≤ r then mA c r else 0
  let fB : ℕ → ℕ → ℝ := fun r c => if r < n ∧ n ≤ c then mB r c else if c < n ∧ n ≤ r then mB c r else 0
  have sA : ∀ r c, fA r c = fA c r := by
    intro r c
    simp only [fA]
    by_cases h1 : r < n <;> by_cases h2 : c < n
    · rw [if_neg (by omega), if_neg (by omega), if_neg (by omega), if_neg (by omega)]
    · rw [if_pos (by omega), if_neg (by omega), if_pos (by omega)]
    · rw [if_neg (by omega), if_pos (by omega), if_pos (by omega)]
    · rw [if_neg (by omega), if_neg (by omega), if_neg (by omega), if_neg (by omega)]
  have sB : ∀ r c, fB r c = fB c r := by
    intro r c
    simp only [fB]
    by_cases h1 : r < n <;> by_cases h2 : c < n
    · rw [if_neg (by omega), if_neg (by omega), if_neg (by omega), if_neg (by omega)]
    · rw [if_pos (by omega), if_neg (by omega), if_pos (by omega)]
    · rw [if_neg (by omega), if_pos (by omega), if_pos (by omega)]
    · rw [if_neg (by omega), if_neg (by omega), if_neg (by omega), if_neg (by omega)]
  have qrel : ∀ {i : ℕ} {q : Dict ℝ}, Q[i]? = some q → ∃ k, W.kappa[i]? = some k ∧ GenOp W.ci q ∧
      sumOp q = qOp k.2 k.1 := by
    intro i q hq
    obtain ⟨k, hk⟩ : ∃ k, W.kappa[i]? = some k := ⟨_, List.getElem?_eq_getElem (by
      have := (List.getElem?_eq_some_iff.1 hq).1
      omega)⟩
    have hRq := (List.forall₂_iff_get.1 fQ).2 i (List.getElem?_eq_some_iff.1 hk).1 (List.getElem?_eq_some_iff.1 hq).1
    rw [List.get_eq_getElem, List.get_eq_getElem, (List.getElem?_eq_some_iff.1 hk).2,
      (List.getElem?_eq_some_iff.1 hq).2] at hRq
    exact ⟨k, hk, hRq⟩
  obtain ⟨gq, g1, -⟩ := mapM_ok_exists (f := qGradQ tiny qev W H1) (fun _ _ => True) Q (fun q hq' => by
    obtain ⟨i, hi⟩ := List.getElem?_of_mem hq'
    obtain ⟨k, -, k2, -⟩ := qrel hi
    obtain ⟨v, hv⟩ := qGradQ_ok ht hq h1g k2
    exact ⟨v, hv, trivial⟩)
  obtain ⟨E, E1, E2⟩ := mapM_ok_exists (f := qpExp tiny qev W H0)
    (fun d v => v = (inner W.state (sumOp d W.state), inner W.state (W.ham (sumOp d W.state)))) G
    (fun d hd => ⟨_, qpExp_ok ht hq h0g h0s (excG d hd).1, rfl⟩)
  have getE : ∀ {i : ℕ} {g : Dict ℝ}, G[i]? = some g →
      E[i]? = some (inner W.state (sumOp g W.state), inner W.state (W.ham (sumOp g W.state))) := by
    intro i g hg
    have hlt := (List.getElem?_eq_some_iff.1 hg).1
    have hlt' : i < E.length := by rw [← E2.length_eq]; exact hlt
    have := (List.forall₂_iff_get.1 E2).2 i hlt hlt'
    rw [List.get_eq_getElem, List.get_eq_getElem, (List.getElem?_eq_some_iff.1 hg).2] at this
    rw [List.getElem?_eq_getElem hlt', this]
  obtain ⟨M0, o1, oD, oS, o2⟩ := qOrbBlocks_ok ht hb hW hq fQ doRdm
  obtain ⟨M1, m1, mS, mD, m2⟩ := mixed_loop (Q := Q) (G := G) (pre := fun q => pure q)
    (entry := fun _ x y => qpMixed tiny qev W H1 x.1 y.1) sA sB (by
      intro x hx
      refine ⟨x.1, rfl, fun y hy => ?_⟩
      obtain ⟨k, hk, gk, ek⟩ := qrel (zipIdx_get hx)
      have hy' := zipIdx_get hy
      have e1 : opAt N (y.2 + n) = sumOp y.1 := opAt_G hy'
      have e2 : opAt N x.2 = qOp k.2 k.1 := opAt_q hk
      have e3 : adj (opAt N x.2) = qOp k.1 k.2 := by rw [e2]; exact adj_eq (qOp_adjoint _ _)
      have hlt : x.2 < n := (List.getElem?_eq_some_iff.1 hk).1
      refine ⟨_, (qpMixed_ok ht hq h1g h1s gk ek (excG _ (List.mem_of_getElem? hy')).1).1, ?_, ?_⟩
      · simp only [fA, mA]
        rw [lenQ, if_neg (by omega), if_pos (by omega), e1, e2]
      · simp only [fB, mB]
        rw [lenQ, if_neg (by omega), if_pos (by omega), e1, e3]) M0
  obtain ⟨M2, a1, aD, a2⟩ := act_loop (G := G) Q.length (pre := fun g => pure g)
    (entry := fun _ x y => qpAct tiny qev W H0 E x y) (FA_symm hW hadj) (FB_symm (W := W) (X := X))
    (FS_symm (W := W) hadj) (by
      intro x hx
      refine ⟨x.1, rfl, fun y hy => ?_⟩
      have hx' := zipIdx_get hx
      have hy' := zipIdx_drop_get hy
      obtain ⟨v, v1, v2⟩ := qpAct_ok ht hW hE hq h0g h0s (excG _ (List.mem_of_getElem? hx')).1
        (excG _ (List.mem_of_getElem? hy')).1 (getE hx') (getE hy')
      have e1 := opAt_of (getG hy')
      have e2 := opAt_of (getG hx')
      obtain ⟨v3, v4, v5⟩ := v2 (adj (opAt X (x.2 + n))) (by rw [← e2]; exact opAt_adj hadj _)
        (adj (opAt X (y.2 + n))) (by rw [← e1]; exact opAt_adj hadj _)
      rw [lenQ]
      refine ⟨v, v1, ?_, ?_, ?_⟩
      · unfold FA; rw [v3, e2]
      · unfold FB; rw [v4]
      · unfold FS; rw [v5, e2]) M1
  refine ⟨M2, E, by
    unfold qpRun qpActLoop
    have : (fun (M : LRMats) (i j : ℕ) (v : ℝ × ℝ) => { M with
        A := setSym M.A j (i + Q.length) v.1, B := setSym M.B j (i + Q.length) v.2 })
      = fun M i j v => { M with A := setSym M.A (i + Q.length) j v.1, B := setSym M.B (i + Q.length) j v.2 } := by
      funext M i j v
      rw [setSym_comm M.A, setSym_comm M.B]
    by_cases c1 : Q.length ≠ 0 ∧ doRdm = false ∧ doGradients = true
    · simp only [if_pos c1, g1, E1, o1, ok_bind]
      rw [this, m1]
      simp only [ok_bind]
      rw [a1]
      rfl
    · simp only [if_neg c1, E1, o1, ok_bind]
      rw [this, m1]
      simp only [ok_bind]
      rw [a1]
      rfl, ?_, ?_⟩
  · unfold lettersOf
    rw [← opsG, List.map_map]
    clear * - E2
    induction E2 with
    | nil => rfl
    | cons h _ ih => rw [List.map_cons, ← ih, h]; rfl
  intro i j Xi Xid Xj Xjd hi hj hid hjd
  have li : i < n + G.length := by rw [← lenX]; exact (List.getElem?_eq_some_iff.1 hi).1
  have lj : j < n + G.length := by rw [← lenX]; exact (List.getElem?_eq_some_iff.1 hj).1
  have oi : opAt X i = Xi := opAt_of hi
  have oj : opAt X j = Xj := opAt_of hj
  have oid : adj (opAt X i) = Xid := by rw [oi]; exact adj_eq hid
  have ojd : adj (opAt X j) = Xjd := by rw [oj]; exact adj_eq hjd
  have va : FA W X i j = expv W.state (dcomm Xid W.ham Xj) := by unfold FA; rw [oid, oj]
  have vb : FB W X i j = expv W.state (dcomm Xid W.ham Xjd) := by unfold FB; rw [oid, ojd]
  have vs : FS W X i j = expv W.state (comm Xid Xj) := by unfold FS; rw [oid, oj]
  rw [lenQ] at m2 a2
  have zD : M2.Delta i j = 0 := by rw [aD, mD, oD]
  rw [zD]
  have qform : ∀ {i : ℕ} {T Td : FOp ℝ}, X[i]? = some T → IsAdjoint T Td → i < n → ∃ k, W.kappa[i]? = some k ∧
      T = qOp k.2 k.1 ∧ Td = qOp k.1 k.2 ∧ ∀ x, ActiveState W.ci.nI W.ci.nA x → qOp k.1 k.2 x = 0 := by
    intro i T Td hT hTd h
    obtain ⟨k, hk⟩ : ∃ k, W.kappa[i]? = some k := ⟨_, List.getElem?_eq_getElem h⟩
    have := getq hk
    rw [hT] at this
    obtain rfl := Option.some.inj this
    exact ⟨k, hk, rfl, hTd.unique (qOp_adjoint _ _), fun x hx => qOp_kills hx (hW.kappa k (List.mem_of_getElem? hk)).1⟩
  have gform : ∀ {i : ℕ} {T Td : FOp ℝ}, X[i]? = some T → IsAdjoint T Td → n ≤ i → i < n + G.length →
      ∃ g, G[i - n]? = some g ∧ T = projOp W.state (sumOp g) ∧
        Td = ketbra W.state (sumOp g W.state) - expv W.state (sumOp g) • 1 ∧
        ActiveState W.ci.nI W.ci.nA (sumOp g W.state) := by
    intro i T Td hT hTd h h'
    obtain ⟨g, hg⟩ : ∃ g, G[i - n]? = some g := ⟨_, List.getElem?_eq_getElem (by omega)⟩
    have := getG hg
    rw [show i - n + n = i by omega, hT] at this
    obtain rfl := Option.some.inj this
    exact ⟨g, hg, rfl, hTd.unique (projOp_adjoint _ _), active_sumOp (excG g (List.mem_of_getElem? hg)).1.2 aW⟩
  by_cases ci : i < n <;> by_cases cj : j < n
  · -- two orbital rotations
    obtain ⟨k, hk, rfl, rfl, nk⟩ := qform hi hid ci
    obtain ⟨l, hl, rfl, rfl, nl⟩ := qform hj hjd cj
    obtain ⟨u1, u2, u3⟩ := o2 i j k l hk hl
    obtain ⟨c1, c2, -⟩ := (a2 j i).2 (by omega)
    obtain ⟨e1, e2⟩ := (m2 j i).2 (by omega)
    obtain ⟨b1, b2, b3⟩ := (a2 i j).2 (by omega)
    obtain ⟨b4, b5⟩ := (m2 i j).2 (by omega)
    refine ⟨?_, ?_, fun _ _ => ⟨fun h => ⟨?_, ?_⟩, fun h => ?_⟩, fun h => by omega, fun _ h => by omega⟩
    · rw [b3, mS, u1]
    · rw [expv_comm, nk _ aW, nl _ aW, map_zero, map_zero, inner_zero_right, sub_zero]
    · rw [b1, b4, (u2 h).1]
    · rw [b2, b5, (u2 h).2]
    · rw [b1, b4, b2, b5, c1, e1, c2, e2]
      exact u3 h
  · -- orbital rotation and active operator
    obtain ⟨k, hk, rfl, rfl, nk⟩ := qform hi hid ci
    obtain ⟨g, hg, rfl, rfl, ag⟩ := gform hj hjd (by omega) lj
    obtain ⟨b1, b2, b3⟩ := (a2 i j).2 (by omega)
    obtain ⟨b1', b2', -⟩ := (a2 j i).2 (by omega)
    obtain ⟨b4, b5⟩ := (m2 i j).1 (by omega)
    obtain ⟨b4', b5'⟩ := (m2 j i).1 (by omega)
    have sig : M2.Sigma i j = 0 := by rw [b3, mS, oS _ _ (by right; exact not_lt.1 cj)]
    have hq := qOp_adjoint k.2 k.1
    have z1 : ∀ x, inner W.state (qOp k.2 k.1 x) = 0 := fun x => by rw [← hq.symm, nk _ aW, inner_zero_left]
    have z2 : inner (sumOp g W.state) (qOp k.2 k.1 W.state) = 0 := by rw [← hq.symm, nk _ ag, inner_zero_left]
    have z3 : inner W.state (qOp k.1 k.2 (sumOp g W.state)) = 0 := by rw [nk _ ag, inner_zero_right]
    have zg : inner (sumOp g W.state) W.state = expv W.state (sumOp g) := inner_comm _ _
    have zq : inner W.state (W.ham (qOp k.2 k.1 W.state)) = inner W.state (qOp k.1 k.2 (W.ham W.state)) := by
      rw [← hHa, ← hq, inner_comm]
    have zq' : inner W.state (qOp k.1 k.2 (W.ham (sumOp g W.state)))
        = inner (sumOp g W.state) (W.ham (qOp k.2 k.1 W.state)) := by
      rw [← hHa, ← hq, ← hHa, inner_comm, hHa]
    have w1 : opAt N i = qOp k.2 k.1 := opAt_q hk
    have w2 : opAt N j = sumOp g := by
      have := opAt_G (W := W) hg
      rwa [show j - n + W.kappa.length = j from by show j - n + n = j; omega] at this
    have w3 : adj (opAt N i) = qOp k.1 k.2 := by rw [w1]; exact adj_eq hq
    have vA : fA i j = inner (sumOp g W.state) (W.ham (qOp k.2 k.1 W.state)) := by
      simp only [fA, mA]; rw [if_pos (by omega), w1, w2]
    have vB : fB i j = -1 / 2 * inner (sumOp g W.state) (qOp k.1 k.2 (W.ham W.state)) := by
      simp only [fB, mB]; rw [if_pos (by omega), w3, w2]
    refine ⟨?_, ?_, fun _ h => by omega, fun h => by omega, fun _ _ T hT => ?_⟩
    · rw [sig]
      unfold projOp
      rw [comm_scalar_right, expv_comm, ketbra_apply, ketbra_apply, hW.norm, one_smul, nk _ ag, nk _ aW]
      simp
    · rw [comm_scalar_right, expv_comm, ketbra_apply, ketbra_apply, nk _ aW]
      simp [nk _ aW]
    · have eT : T = sumOp g := by
        have : (lrOps W (lettersOf excitations))[j - n]? = some (sumOp g) := by
          unfold lettersOf
          rw [← opsG, List.getElem?_map, hg]; rfl
        rw [hT] at this
        exact Option.some.inj this
      subst eT
      rw [b1, b4, vA, b2, b5, vB, b1', b4', sA, vA, b2', b5', sB, vB]
      refine ⟨?_, ?_, rfl, rfl⟩
      · unfold projOp
        rw [dcomm_scalar_right]
        simp only [expv_dcomm, expv_comm, ketbra_apply, map_smul, inner_smul_right, hW.norm, one_smul, nk _ aW, nk _ ag,
          map_zero, inner_zero_right, z1, z3, zq, zq', mul_zero]
        unfold expv
        ring
      · rw [dcomm_scalar_right]
        simp only [expv_dcomm, expv_comm, ketbra_apply, map_smul, inner_smul_right, hW.norm, one_smul, nk _ aW, nk _ ag,
          map_zero, inner_zero_right, z1, z3, zq, zg, mul_zero]
        ring
  · -- active operator and orbital rotation
    obtain ⟨k, hk, rfl, rfl, nk⟩ := qform hj hjd cj
    obtain ⟨g, hg, rfl, rfl, ag⟩ := gform hi hid (by omega) li
    obtain ⟨b1, b2, b3⟩ := (a2 i j).2 (by omega)
    have sig : M2.Sigma i j = 0 := by rw [b3, mS, oS _ _ (by left; exact not_lt.1 ci)]
    have hq := qOp_adjoint k.2 k.1
    have z1 : ∀ x, inner W.state (qOp k.2 k.1 x) = 0 := fun x => by rw [← hq.symm, nk _ aW, inner_zero_left]
    have z2 : inner (sumOp g W.state) (qOp k.2 k.1 W.state) = 0 := by rw [← hq.symm, nk _ ag, inner_zero_left]
    refine ⟨?_, ?_, fun h => by omega, fun _ h => by omega, fun h => by omega⟩
    · rw [sig, comm_scalar_left, expv_comm, ketbra_apply, z1, z2]
      simp
    · rw [comm_scalar_left, expv_comm, ketbra_apply, nk _ aW, ketbra_apply]
      simp [nk _ aW]
  · -- two active operators
    obtain ⟨g, hg, rfl, rfl, ag⟩ := gform hi hid (by omega) li
    obtain ⟨g', hg', rfl, rfl, ag'⟩ := gform hj hjd (by omega) lj
    obtain ⟨b1, b2, b3⟩ := (a2 i j).1 (by omega)
    refine ⟨by rw [b3, vs], ?_, fun h => by omega, fun _ _ => ⟨by rw [b1, va], by rw [b2, vb]⟩,
      fun h => by omega⟩
    rw [comm_scalar_left, comm_scalar_right, expv_comm]
    simp only [ketbra_apply, map_smul, inner_smul_right, hW.norm]
    ring

/-- C106: on an interface that measures exactly, all-projected linear response never raises and leaves the matrices of
the operators `T|0⟩⟨0| - ⟨0|T|0⟩` as the classical class does (C99), whatever the size of the gradient. -/
theorem C106_all_projected (ht : ExactTiny tiny) (hb : ExactBig big) (hW : W.Proper)
    (hE : W.energy = expv W.state W.ham) (hq : ExactQuantum W.ci W.c qev) (excitations : String) :
    let X := W.allProjOps (lettersOf excitations)
    let n := W.kappa.length
    ∃ L, qlrInit tiny big W excitations = .ok L ∧ ∀ doGradients,
      ∃ M E, qaRun tiny big qev W doGradients L = .ok (M, E) ∧
        E = (lrOps W (lettersOf excitations)).map (fun G => (expv W.state G, expv W.state (W.ham * G))) ∧
        ∀ i j Xi Xid Xj Xjd, X[i]? = some Xi → X[j]? = some Xj → IsAdjoint Xi Xid → IsAdjoint Xj Xjd →
          M.Sigma i j = expv W.state (comm Xid Xj) ∧
          M.Delta i j = expv W.state (comm Xid Xjd) ∧
          ((i < n ↔ j < n) →
            M.A i j = expv W.state (dcomm Xid W.ham Xj) ∧
            M.B i j = expv W.state (dcomm Xid W.ham Xjd)) ∧
          (i < n → n ≤ j → ∀ G, (lrOps W (lettersOf excitations))[j - n]? = some G →
            M.A i j = expv W.state (dcomm Xid W.ham Xj) + 1 / 2 * expv W.state G * expv W.state (comm W.ham Xi) ∧
            M.B i j = expv W.state (dcomm Xid W.ham Xjd) - 1 / 2 * expv W.state G * expv W.state (comm W.ham Xi) ∧
            M.A j i = M.A i j ∧ M.B j i = M.B i j) := by
  intro X n
  obtain ⟨G, hG, opsG, excG⟩ := lrG_ok ht hW excitations
  obtain ⟨Q, hQ, fQ⟩ := lrQ_ok ht hW
  obtain ⟨H1, h1, h1g, h1s⟩ := ham1_gen ht hb W.h W.g W.ci
  obtain ⟨H0, h0, h0g, h0s⟩ := ham0_gen ht hb W.h W.g W.ci
  obtain ⟨H2, h2, h2g, h2s⟩ := ham2_gen ht hb W.h W.g W.ci
  refine ⟨⟨H0, H1, G, Q, LRMats.zero⟩, by unfold qlrInit; simp only [h0, h1, hG, hQ, ok_bind]; rfl,
    fun doGradients => ?_⟩
  have hact := emb_active W.ci
  have hHa := ham_adjoint hW
  have aW : ActiveState W.ci.nI W.ci.nA W.state := hact _
  have lenQ : Q.length = n := fQ.length_eq.symm
  have hX : X = (W.kappa.map fun k => ketbra (qOp k.2 k.1 W.state) W.state) ++
      G.map fun d => projOp W.state (sumOp d) := by
    show W.allProjOps _ = _
    unfold RespWf.allProjOps RespWf.ops lettersOf
    rw [← opsG, List.map_append, List.map_map, List.map_map]
    congr 1
    exact List.map_congr_left fun k hk => projOp_q hW hk
  have lenX : X.length = n + G.length := by rw [hX]; simp [n]
  have kill : ∀ {k}, k ∈ W.kappa → ∀ x, ActiveState W.ci.nI W.ci.nA x → qOp k.1 k.2 x = 0 :=
    fun hk x hx => qOp_kills hx (hW.kappa _ hk).1
  have orthq : ∀ {k}, k ∈ W.kappa → ∀ x, ActiveState W.ci.nI W.ci.nA x → inner x (qOp k.2 k.1 W.state) = 0 :=
    fun hk x hx => by rw [← (qOp_adjoint _ _).symm, kill hk x hx, inner_zero_left]
  have getq : ∀ {j : ℕ} {k : ℕ × ℕ}, W.kappa[j]? = some k → X[j]? = some (ketbra (qOp k.2 k.1 W.state) W.state) := by
    intro j k h
    rw [hX, List.getElem?_append_left (by
      have := (List.getElem?_eq_some_iff.1 h).1
      simpa using this), List.getElem?_map, h]
    rfl
  have getG : ∀ {i : ℕ} {g : Dict ℝ}, G[i]? = some g → X[i + n]? = some (projOp W.state (sumOp g)) := by
    intro i g h
    rw [hX, List.getElem?_append_right (by simp [n])]
    simp [n, h]
  have hadj : ∀ T ∈ X, ∃ T', IsAdjoint T T' := by
    intro T hT
    rw [hX] at hT
    rcases List.mem_append.1 hT with h | h
    · obtain ⟨k, -, rfl⟩ := List.mem_map.1 h
      exact ⟨_, ketbra_adjoint _ _⟩
    · obtain ⟨g, -, rfl⟩ := List.mem_map.1 h
      exact ⟨_, projOp_adjoint _ _⟩
  -- the mixed entries as functions of the positions
  let N := respOps W G
  let mA : ℕ → ℕ → ℝ := fun q g => inner (opAt N g W.state) (W.ham (opAt N q W.state))
  let fA : ℕ → ℕ → ℝ := fun r c => if r < n ∧ n ≤ c then mA r c else if c < n ∧ n ≤ r then mA c r else 0
  have sA : ∀ r c, fA r c = fA c r := by
    intro r c
    simp only [fA]
    by_cases h1 : r < n <;> by_cases h2 : c < n
    · rw [if_neg (by omega), if_neg (by omega), if_neg (by omega), if_neg (by omega)]
    · rw [if_pos (by omega), if_neg (by omega), if_pos (by omega)]
    · rw [if_neg (by omega), if_pos (by omega), if_pos (by omega)]
    · rw [if_neg (by omega), if_neg (by omega), if_neg (by omega), if_neg (by omega)]
  have qrel : ∀ {i : ℕ} {q : Dict ℝ}, Q[i]? = some q → ∃ k, W.kappa[i]? = some k ∧ GenOp W.ci q ∧
      sumOp q = qOp k.2 k.1 := by
    intro i q hq
    obtain ⟨k, hk⟩ : ∃ k, W.kappa[i]? = some k := ⟨_, List.getElem?_eq_getElem (by
      have := (List.getElem?_eq_some_iff.1 hq).1
      omega)⟩
    have hRq := (List.forall₂_iff_get.1 fQ).2 i (List.getElem?_eq_some_iff.1 hk).1 (List.getElem?_eq_some_iff.1 hq).1
    rw [List.get_eq_getElem, List.get_eq_getElem, (List.getElem?_eq_some_iff.1 hk).2,
      (List.getElem?_eq_some_iff.1 hq).2] at hRq
    exact ⟨k, hk, hRq⟩
  obtain ⟨gq, g1, -⟩ := mapM_ok_exists (f := qGradQ tiny qev W H1) (fun _ _ => True) Q (fun q hq' => by
    obtain ⟨i, hi⟩ := List.getElem?_of_mem hq'
    obtain ⟨k, -, k2, -⟩ := qrel hi
    obtain ⟨v, hv⟩ := qGradQ_ok ht hq h1g k2
    exact ⟨v, hv, trivial⟩)
  obtain ⟨E, E1, E2⟩ := mapM_ok_exists (f := qpExp tiny qev W H0)
    (fun d v => v = (inner W.state (sumOp d W.state), inner W.state (W.ham (sumOp d W.state)))) G
    (fun d hd => ⟨_, qpExp_ok ht hq h0g h0s (excG d hd).1, rfl⟩)
  have getE : ∀ {i : ℕ} {g : Dict ℝ}, G[i]? = some g →
      E[i]? = some (inner W.state (sumOp g W.state), inner W.state (W.ham (sumOp g W.state))) := by
    intro i g hg
    have hlt := (List.getElem?_eq_some_iff.1 hg).1
    have hlt' : i < E.length := by rw [← E2.length_eq]; exact hlt
    have := (List.forall₂_iff_get.1 E2).2 i hlt hlt'
    rw [List.get_eq_getElem, List.get_eq_getElem, (List.getElem?_eq_some_iff.1 hg).2] at this
    rw [List.getElem?_eq_getElem hlt', this]
  have vals : ∀ {i j : ℕ} {I J : Fock ℝ}, X[i]? = some (ketbra I W.state) → X[j]? = some (ketbra J W.state) →
      inner W.state I = 0 → inner W.state J = 0 →
      FA W X i j = inner I (W.ham J) - expv W.state W.ham * inner I J ∧ FB W X i j = 0 ∧
      FS W X i j = inner I J ∧ expv W.state (comm (adj (opAt X i)) (adj (opAt X j))) = 0 := by
    intro i j I J hI hJ oI oJ
    unfold FA FB FS
    rw [opAt_of hI, opAt_of hJ, adj_eq (ketbra_adjoint _ _), adj_eq (ketbra_adjoint _ _)]
    obtain ⟨t1, t2, -⟩ := transfer_S (H := W.ham) hW.norm oI oJ
    exact ⟨transfer_A hW.norm oI oJ, transfer_B oI oJ, t1, t2⟩
  have eH : ∃ T, qaH2 tiny big W Q = .ok T ∧ (Q.length ≠ 0 → T = H2) := by
    unfold qaH2
    by_cases h : Q.length ≠ 0
    · exact ⟨H2, by rw [if_pos h, h2], fun _ => rfl⟩
    · exact ⟨[], by rw [if_neg h]; rfl, fun h' => absurd h' h⟩
  obtain ⟨T, hT, eT⟩ := eH
  obtain ⟨M0, o1, oB, oD, o2⟩ := pst_orb_loop (Q := Q) (entry := fun _ x y => qaOrb tiny qev W T x.1 y.1)
    (FA_symm (X := X) hW hadj) (FS_symm (W := W) (X := X) hadj) (by
      intro x hx y hy
      obtain ⟨k, hk, gk, ek⟩ := qrel (zipIdx_get hx)
      obtain ⟨l, hl, gl, el⟩ := qrel (zipIdx_drop_get hy)
      have hlt := (List.getElem?_eq_some_iff.1 (zipIdx_get hx)).1
      rw [eT (by omega)]
      obtain ⟨t1, -, t3, -⟩ := vals (getq hl) (getq hk) (orthq (List.mem_of_getElem? hl) _ aW)
        (orthq (List.mem_of_getElem? hk) _ aW)
      exact ⟨_, qaOrb_ok ht hq h2g h2s gk ek gl el, by rw [t1, hE]; ring, by rw [t3]⟩) LRMats.zero
  obtain ⟨M1, m1, mB, mS, mD, m2⟩ := pst_mixed_loop (Q := Q) (G := G) (pre := fun q => pure q)
    (entry := fun _ x y => qaMixed tiny qev W H1 x.1 y.1) sA (by
      intro x hx
      refine ⟨x.1, rfl, fun y hy => ?_⟩
      obtain ⟨k, hk, gk, ek⟩ := qrel (zipIdx_get hx)
      refine ⟨_, (qpMixed_ok ht hq h1g h1s gk ek (excG _ (List.mem_of_getElem? (zipIdx_get hy))).1).2, ?_⟩
      have e1 : opAt N (y.2 + n) = sumOp y.1 := opAt_G (zipIdx_get hy)
      have e2 : opAt N x.2 = qOp k.2 k.1 := opAt_q hk
      have hlt : x.2 < n := (List.getElem?_eq_some_iff.1 hk).1
      simp only [fA, mA]
      rw [lenQ, if_neg (by omega), if_pos (by omega), e1, e2]) M0
  obtain ⟨M2, a1, aD, a2⟩ := act_loop (G := G) Q.length (pre := fun g => pure g)
    (entry := fun _ x y => qpAct tiny qev W H0 E x y) (FA_symm hW hadj) (FB_symm (W := W) (X := X))
    (FS_symm (W := W) hadj) (by
      intro x hx
      refine ⟨x.1, rfl, fun y hy => ?_⟩
      have hx' := zipIdx_get hx
      have hy' := zipIdx_drop_get hy
      obtain ⟨v, v1, v2⟩ := qpAct_ok ht hW hE hq h0g h0s (excG _ (List.mem_of_getElem? hx')).1
        (excG _ (List.mem_of_getElem? hy')).1 (getE hx') (getE hy')
      have e1 := opAt_of (getG hy')
      have e2 := opAt_of (getG hx')
      obtain ⟨v3, v4, v5⟩ := v2 (adj (opAt X (x.2 + n))) (by rw [← e2]; exact opAt_adj hadj _)
        (adj (opAt X (y.2 + n))) (by rw [← e1]; exact opAt_adj hadj _)
      rw [lenQ]
      refine ⟨v, v1, ?_, ?_, ?_⟩
      · unfold FA; rw [v3, e2]
      · unfold FB; rw [v4]
      · unfold FS; rw [v5, e2]) M1
  refine ⟨M2, E, by
    unfold qaRun qpActLoop
    cases doGradients
    · simp only [hT, E1, ok_bind]
      rw [if_neg (by simp), o1]
      simp only [ok_bind]
      rw [m1]
      simp only [ok_bind]
      rw [a1]
      rfl
    · simp only [hT, E1, ok_bind, g1]
      rw [if_pos trivial, o1]
      simp only [ok_bind]
      rw [m1]
      simp only [ok_bind]
      rw [a1]
      rfl, ?_, ?_⟩
  · unfold lettersOf
    rw [← opsG, List.map_map]
    clear * - E2
    induction E2 with
    | nil => rfl
    | cons h _ ih => rw [List.map_cons, ← ih, h]; rfl
  intro i j Xi Xid Xj Xjd hi hj hid hjd
  have li : i < n + G.length := by rw [← lenX]; exact (List.getElem?_eq_some_iff.1 hi).1
  have lj : j < n + G.length := by rw [← lenX]; exact (List.getElem?_eq_some_iff.1 hj).1
  have oi : opAt X i = Xi := opAt_of hi
  have oj : opAt X j = Xj := opAt_of hj
  have oid : adj (opAt X i) = Xid := by rw [oi]; exact adj_eq hid
  have ojd : adj (opAt X j) = Xjd := by rw [oj]; exact adj_eq hjd
  have va : FA W X i j = expv W.state (dcomm Xid W.ham Xj) := by unfold FA; rw [oid, oj]
  have vb : FB W X i j = expv W.state (dcomm Xid W.ham Xjd) := by unfold FB; rw [oid, ojd]
  have vs : FS W X i j = expv W.state (comm Xid Xj) := by unfold FS; rw [oid, oj]
  rw [lenQ] at m2 a2 o2
  have zD : M2.Delta i j = 0 := by rw [aD, mD, oD]; rfl
  rw [zD]
  have qform : ∀ {i : ℕ} {T Td : FOp ℝ}, X[i]? = some T → IsAdjoint T Td → i < n → ∃ k, W.kappa[i]? = some k ∧
      T = ketbra (qOp k.2 k.1 W.state) W.state ∧ Td = ketbra W.state (qOp k.2 k.1 W.state) ∧
      ∀ x, ActiveState W.ci.nI W.ci.nA x → inner x (qOp k.2 k.1 W.state) = 0 := by
    intro i T Td hT hTd h
    obtain ⟨k, hk⟩ : ∃ k, W.kappa[i]? = some k := ⟨_, List.getElem?_eq_getElem h⟩
    have := getq hk
    rw [hT] at this
    obtain rfl := Option.some.inj this
    exact ⟨k, hk, rfl, hTd.unique (ketbra_adjoint _ _), orthq (List.mem_of_getElem? hk)⟩
  have gform : ∀ {i : ℕ} {T Td : FOp ℝ}, X[i]? = some T → IsAdjoint T Td → n ≤ i → i < n + G.length →
      ∃ g, G[i - n]? = some g ∧ T = projOp W.state (sumOp g) ∧
        Td = ketbra W.state (sumOp g W.state) - expv W.state (sumOp g) • 1 ∧
        ActiveState W.ci.nI W.ci.nA (sumOp g W.state) := by
    intro i T Td hT hTd h h'
    obtain ⟨g, hg⟩ : ∃ g, G[i - n]? = some g := ⟨_, List.getElem?_eq_getElem (by omega)⟩
    have := getG hg
    rw [show i - n + n = i by omega, hT] at this
    obtain rfl := Option.some.inj this
    exact ⟨g, hg, rfl, hTd.unique (projOp_adjoint _ _), active_sumOp (excG g (List.mem_of_getElem? hg)).1.2 aW⟩
  by_cases ci : i < n <;> by_cases cj : j < n
  · -- two orbital rotations
    obtain ⟨k, hk, rfl, rfl, nk⟩ := qform hi hid ci
    obtain ⟨l, hl, rfl, rfl, nl⟩ := qform hj hjd cj
    obtain ⟨-, t2, -, t4⟩ := vals (getq hk) (getq hl) (nk _ aW) (nl _ aW)
    rw [oid, ojd] at t4
    obtain ⟨b1, b2, b3⟩ := (a2 i j).2 (by omega)
    refine ⟨?_, t4.symm, fun _ => ⟨?_, ?_⟩, fun _ h => by omega⟩
    · rw [b3, mS, ((o2 i j).1 ⟨ci, cj⟩).2, vs]
    · rw [b1, (m2 i j).2 (by omega), ((o2 i j).1 ⟨ci, cj⟩).1, va]
    · rw [b2, mB, oB, ← vb, t2]; rfl
  · -- orbital rotation and active operator
    obtain ⟨k, hk, rfl, rfl, nk⟩ := qform hi hid ci
    obtain ⟨g, hg, rfl, rfl, ag⟩ := gform hj hjd (by omega) lj
    obtain ⟨b1, b2, b3⟩ := (a2 i j).2 (by omega)
    obtain ⟨b1', b2', -⟩ := (a2 j i).2 (by omega)
    have sig : M2.Sigma i j = 0 := by rw [b3, mS, ((o2 i j).2 (by omega)).2]; rfl
    have z1 : inner W.state (qOp k.2 k.1 W.state) = 0 := nk _ aW
    have z1' : inner (qOp k.2 k.1 W.state) W.state = 0 := by rw [inner_comm, z1]
    have z2 : inner (qOp k.2 k.1 W.state) (sumOp g W.state) = 0 := by rw [inner_comm, nk _ ag]
    have zq : inner (qOp k.2 k.1 W.state) (W.ham W.state) = inner W.state (W.ham (qOp k.2 k.1 W.state)) := by
      rw [← hHa, inner_comm]
    have zq' : inner (qOp k.2 k.1 W.state) (W.ham (sumOp g W.state))
        = inner (sumOp g W.state) (W.ham (qOp k.2 k.1 W.state)) := by
      rw [← hHa, inner_comm]
    have zg : inner (sumOp g W.state) W.state = expv W.state (sumOp g) := inner_comm _ _
    have w1 : opAt N i = qOp k.2 k.1 := opAt_q hk
    have w2 : opAt N j = sumOp g := by
      have := opAt_G (W := W) hg
      rwa [show j - n + W.kappa.length = j from by show j - n + n = j; omega] at this
    have vA : fA i j = inner (sumOp g W.state) (W.ham (qOp k.2 k.1 W.state)) := by
      simp only [fA, mA]; rw [if_pos (by omega), w1, w2]
    refine ⟨?_, ?_, fun h => by omega, fun _ _ T hT => ?_⟩
    · rw [sig]
      unfold projOp
      rw [comm_scalar_right, expv_comm]
      simp only [ketbra_apply, map_smul, inner_smul_right, hW.norm, one_smul, z1', z2, zero_smul, map_zero,
        inner_zero_right, zero_mul, mul_zero, sub_zero]
    · rw [comm_scalar_right, expv_comm]
      simp only [ketbra_apply, map_smul, inner_smul_right, hW.norm, one_smul, z1', z2, zero_smul, map_zero,
        inner_zero_right, zero_mul, mul_zero, sub_zero]
    · have eT : T = sumOp g := by
        have : (lrOps W (lettersOf excitations))[j - n]? = some (sumOp g) := by
          unfold lettersOf
          rw [← opsG, List.getElem?_map, hg]; rfl
        rw [hT] at this
        exact Option.some.inj this
      subst eT
      rw [b1, (m2 i j).1 (by omega), vA, b2, mB, oB, b1', (m2 j i).1 (by omega), sA, vA, b2', mB, oB]
      refine ⟨?_, ?_, rfl, rfl⟩
      · unfold projOp
        rw [dcomm_scalar_right]
        simp only [expv_dcomm, expv_comm, ketbra_apply, map_smul, inner_smul_right, hW.norm, one_smul, z1, z1', z2,
          zq, zq', zero_smul, map_zero, inner_zero_right, zero_mul, mul_zero, sub_zero]
        unfold expv
        ring
      · rw [dcomm_scalar_right]
        simp only [expv_dcomm, expv_comm, ketbra_apply, map_smul, inner_smul_right, hW.norm, one_smul, z1, z1', z2,
          zq, zg, zero_smul, map_zero, inner_zero_right, zero_mul, mul_zero, sub_zero]
        show (0 : ℝ) = _
        ring
  · -- active operator and orbital rotation
    obtain ⟨k, hk, rfl, rfl, nk⟩ := qform hj hjd cj
    obtain ⟨g, hg, rfl, rfl, ag⟩ := gform hi hid (by omega) li
    obtain ⟨b1, b2, b3⟩ := (a2 i j).2 (by omega)
    have sig : M2.Sigma i j = 0 := by rw [b3, mS, ((o2 i j).2 (by omega)).2]; rfl
    have z1 : inner W.state (qOp k.2 k.1 W.state) = 0 := nk _ aW
    have z1' : inner (qOp k.2 k.1 W.state) W.state = 0 := by rw [inner_comm, z1]
    have z2 : inner (sumOp g W.state) (qOp k.2 k.1 W.state) = 0 := nk _ ag
    refine ⟨?_, ?_, fun h => by omega, fun h => by omega⟩
    · rw [sig, comm_scalar_left, expv_comm]
      simp only [ketbra_apply, map_smul, inner_smul_right, hW.norm, one_smul, z1, z1', z2, zero_smul, map_zero,
        inner_zero_right, zero_mul, mul_zero, sub_zero]
    · rw [comm_scalar_left, expv_comm]
      simp only [ketbra_apply, map_smul, inner_smul_right, hW.norm, one_smul, z1, z1', z2, zero_smul, map_zero,
        inner_zero_right, zero_mul, mul_zero, sub_zero]
  · -- two active operators
    obtain ⟨g, hg, rfl, rfl, ag⟩ := gform hi hid (by omega) li
    obtain ⟨g', hg', rfl, rfl, ag'⟩ := gform hj hjd (by omega) lj
    obtain ⟨b1, b2, b3⟩ := (a2 i j).1 (by omega)
    refine ⟨by rw [b3, vs], ?_, fun _ => ⟨by rw [b1, va], by rw [b2, vb]⟩, fun h => by omega⟩
    rw [comm_scalar_left, comm_scalar_right, expv_comm]
    simp only [ketbra_apply, map_smul, inner_smul_right, hW.norm]
    ring

end SQ
