import Verif.Lemmas.ResponseMats
import Verif.Props.OrbitalSpaces
import Verif.Props.Rdm

/-!
# C94: the matrices of linear response
-/

namespace SQ

variable {tiny big : ℝ → Bool} {th : Threads} {W : RespWf}

/-- C94: the operators of the response classes. -/
theorem C94_operators (ht : ExactTiny tiny) (hW : W.Proper) (excitations : String) :
    ∃ Q G, lrQ tiny W = .ok Q ∧ lrG tiny W excitations = .ok G ∧
      Q.map sumOp ++ G.map sumOp = W.ops (lettersOf excitations) ∧
      (∀ S ∈ W.ops (lettersOf excitations), ∃ S', IsAdjoint S S') ∧
      ∀ S ∈ lrOps W (lettersOf excitations), ∀ T ∈ lrOps W (lettersOf excitations), S * T = T * S := by
  obtain ⟨G, h1, h2, h3⟩ := lrG_ok ht hW excitations
  obtain ⟨Q, h4, h5⟩ := lrQ_ok ht hW
  have e : Q.map sumOp = W.kappa.map fun k => qOp k.2 k.1 := by
    clear h4
    generalize W.kappa = l at h5
    induction h5 with
    | nil => rfl
    | cons h _ ih => rw [List.map_cons, List.map_cons, h.2, ih]
  refine ⟨Q, G, h4, h1, by rw [h2, e]; rfl, ?_, ?_⟩
  · have hX : W.ops (lettersOf excitations) = respOps W G := by
      unfold RespWf.ops respOps lettersOf
      rw [h2]
    rw [hX]
    exact respOps_adj ht h3
  unfold lettersOf
  rw [← h2]
  intro S hS T hT
  obtain ⟨s, hs, rfl⟩ := List.mem_map.1 hS
  obtain ⟨t, ht', rfl⟩ := List.mem_map.1 hT
  exact (h3 s hs).2.comm hW.disjS (h3 t ht').2

/-- C94: the constructor of the naive linear response class raises exactly when an element of the gradient is
larger than `10⁻³`.  Otherwise it leaves the metric `Σ_ij = ⟨[X_i†, X_j]⟩`, `Δ_ij = ⟨[X_i†, X_j†]⟩`, the double
commutators `A_ij = ⟨[X_i†, [H, X_j]]⟩`, `B_ij = ⟨[X_i†, [H, X_j†]]⟩` for two orbital rotations, and the symmetric
ones when an excitation of the active space is involved. -/
theorem C94_naive (ht : ExactTiny tiny) (hb : ExactBig big) (hW : W.Proper) (hth : th.Fair W.ci.idx2det.length)
    (excitations : String) :
    let X := W.ops (lettersOf excitations)
    ((∃ T ∈ X, 1 / 1000 < |expv W.state (comm W.ham T)|) →
      naiveInit tiny big th W excitations = .error .valueError) ∧
    ((∀ T ∈ X, |expv W.state (comm W.ham T)| ≤ 1 / 1000) →
      ∃ M, naiveInit tiny big th W excitations = .ok M ∧
        ∀ i j Xi Xid Xj Xjd, X[i]? = some Xi → X[j]? = some Xj → IsAdjoint Xi Xid → IsAdjoint Xj Xjd →
          M.Sigma i j = expv W.state (comm Xid Xj) ∧
          M.Delta i j = expv W.state (comm Xid Xjd) ∧
          (i < W.kappa.length ∧ j < W.kappa.length →
            M.A i j = expv W.state (comm Xid (comm W.ham Xj)) ∧
            M.B i j = expv W.state (comm Xid (comm W.ham Xjd))) ∧
          (W.kappa.length ≤ i ∨ W.kappa.length ≤ j →
            M.A i j = expv W.state (dcomm Xid W.ham Xj) ∧
            M.B i j = expv W.state (dcomm Xid W.ham Xjd))) := by
  intro X
  obtain ⟨G, hG, opsG, excG⟩ := lrG_ok ht hW excitations
  obtain ⟨Q, hQ, fQ⟩ := lrQ_ok ht hW
  obtain ⟨H1, h1, h1g, h1s⟩ := ham1_gen ht hb W.h W.g W.ci
  obtain ⟨H0, h0, h0g, h0s⟩ := ham0_gen ht hb W.h W.g W.ci
  have hact := emb_active W.ci
  have hs := hW.space
  obtain ⟨H00, p1, p2⟩ := W.prop_gen (th := th) ht hs hth h0g W.c
  have hH00 : IsH00 W H00 := fun bra => by
    rw [p2, h0s _ _ (hact _) (hact _)]; rfl
  have lenQ : Q.length = W.kappa.length := fQ.length_eq.symm
  have hX : X = respOps W G := by
    show W.ops _ = _
    unfold RespWf.ops respOps lettersOf
    rw [opsG]
  obtain ⟨gr, g1, g2⟩ := mapM_ok_exists (f := naiveGrad tiny th W H00)
    (fun d v => v.1 = expv W.state (comm W.ham (sumOp d)) ∧ v.2 = expv W.state (comm W.ham (sumOp d))) G
    (fun d hd => naiveGrad_ok ht hW hth hH00 (excG d hd).1)
  have hgr : ∀ x, x ∈ gr.map (·.1) ++ gr.map (·.2) ↔ ∃ T ∈ G.map sumOp, x = expv W.state (comm W.ham T) := by
    intro x
    clear hX opsG hG X g1
    induction g2 with
    | nil => simp
    | cons h _ ih =>
      have ih := ih fun d hd => excG d (by simp [hd])
      simp only [List.mem_append, List.map_cons, List.mem_cons, h.1, h.2, exists_eq_or_imp] at ih ⊢
      rw [← ih]
      constructor
      · rintro ((h | h) | (h | h))
        · exact .inl h
        · exact .inr (.inl h)
        · exact .inl h
        · exact .inr (.inr h)
      · rintro (h | (h | h))
        · exact .inl (.inl h)
        · exact .inl (.inr h)
        · exact .inr (.inr h)
  have hgr' : (∃ x ∈ gr.map (·.1) ++ gr.map (·.2), 1 / 1000 < |x|) ↔
      ∃ T ∈ G.map sumOp, 1 / 1000 < |expv W.state (comm W.ham T)| := by
    constructor
    · rintro ⟨x, hx, hx'⟩
      obtain ⟨T, hT, rfl⟩ := (hgr x).1 hx
      exact ⟨T, hT, hx'⟩
    · rintro ⟨T, hT, h⟩
      exact ⟨_, (hgr _).2 ⟨T, hT, rfl⟩, h⟩
  have hsplit : (∃ T ∈ X, 1 / 1000 < |expv W.state (comm W.ham T)|) ↔
      (∃ T ∈ W.kappa.map fun k => qOp k.2 k.1, 1 / 1000 < |expv W.state (comm W.ham T)|) ∨
      ∃ T ∈ G.map sumOp, 1 / 1000 < |expv W.state (comm W.ham T)| := by
    rw [hX]
    unfold respOps
    simp only [List.mem_append, or_and_right, exists_or]
  obtain ⟨oc1, oc2⟩ := lrOrbCheck_eq hW lenQ
  obtain ⟨gc1, gc2⟩ := lrGradCheck_eq (gr.map (·.1) ++ gr.map (·.2))
  rw [hgr'] at gc1 gc2
  refine ⟨fun hbig => ?_, fun hsmall => ?_⟩
  · unfold naiveInit
    simp only [hG, hQ, h1, h0, ok_bind]
    by_cases ho : ∃ T ∈ W.kappa.map fun k => qOp k.2 k.1, 1 / 1000 < |expv W.state (comm W.ham T)|
    · rw [oc1 ho]; rfl
    · rw [oc2 ho]
      simp only [ok_bind, p1, g1]
      rw [gc1 ((hsplit.1 hbig).resolve_left ho)]
      rfl
  · have hno : ¬ ∃ T ∈ X, 1 / 1000 < |expv W.state (comm W.ham T)| := by
      rintro ⟨T, hT, h⟩
      exact absurd (hsmall T hT) (not_le.2 h)
    rw [hsplit, not_or] at hno
    have hadj := respOps_adj ht excG
    rw [← hX] at hadj
    have getq : ∀ {j : ℕ} {k : ℕ × ℕ}, W.kappa[j]? = some k → opAt X j = qOp k.2 k.1 ∧ adj (opAt X j) = qOp k.1 k.2 := by
      intro j k h
      have e := opAt_q (G := G) h
      rw [← hX] at e
      exact ⟨e, by rw [e]; exact adj_eq (qOp_adjoint _ _)⟩
    have getG : ∀ {i : ℕ} {g : Dict ℝ}, G[i]? = some g → opAt X (i + Q.length) = sumOp g ∧
        IsAdjoint (sumOp g) (adj (opAt X (i + Q.length))) := by
      intro i g h
      have e := opAt_G (W := W) h
      rw [← hX, ← lenQ] at e
      exact ⟨e, by rw [← e]; exact opAt_adj hadj _⟩
    obtain ⟨L1, a1, a2, a3⟩ := lrLoop_ok (js := Q.zipIdx) (is := fun _ => G.zipIdx)
      (pre := naiveMixedPre tiny th W H1) (entry := fun k x y => naiveMixed tiny th W H1 k x.1 y.1)
      (fun M i j v => { M with A := setSym M.A (i + Q.length) j v.1, B := setSym M.B (i + Q.length) j v.2 })
      (fun i j v => v.1 = FA W X (i + Q.length) j ∧ v.2 = FB W X (i + Q.length) j) (by
        intro x hx
        have hx' := zipIdx_get hx
        obtain ⟨k, hk⟩ : ∃ k, W.kappa[x.2]? = some k := by
          have := (List.getElem?_eq_some_iff.1 hx').1
          rw [lenQ] at this
          exact ⟨_, List.getElem?_eq_getElem this⟩
        have hR := (List.forall₂_iff_get.1 fQ).2 x.2 (List.getElem?_eq_some_iff.1 hk).1
          (List.getElem?_eq_some_iff.1 hx').1
        rw [List.get_eq_getElem, List.get_eq_getElem, (List.getElem?_eq_some_iff.1 hk).2,
          (List.getElem?_eq_some_iff.1 hx').2] at hR
        obtain ⟨κ, m1, m2⟩ := naiveMixed_ok (th := th) ht hW hth h1g h1s
          (hW.kappa k (List.mem_of_getElem? hk)).1 hR.1 hR.2
        refine ⟨κ, m1, fun y hy => ?_⟩
        have hy' := zipIdx_get hy
        obtain ⟨v, v1, v2⟩ := m2 y.1 (excG _ (List.mem_of_getElem? hy')).1
        obtain ⟨e1, e2⟩ := getG hy'
        obtain ⟨e3, e4⟩ := getq hk
        obtain ⟨v3, v4⟩ := v2 _ e2
        refine ⟨v, v1, ?_, ?_⟩
        · unfold FA; rw [e3]; exact v3
        · unfold FB; rw [e4]; exact v4)
    obtain ⟨L2, b1, b2, b3⟩ := lrLoop_ok (js := G.zipIdx) (is := fun j => (G.drop j).zipIdx j)
      (pre := naiveActPre tiny th W H0 H00) (entry := fun k _ y => naiveAct tiny th W H00 k y.1)
      (fun M i j v => { M with
        A := setSym M.A (i + Q.length) (j + Q.length) v.1
        B := setSym M.B (i + Q.length) (j + Q.length) v.2.1
        Sigma := setSym M.Sigma (i + Q.length) (j + Q.length) v.2.2 })
      (fun i j v => v.1 = FA W X (i + Q.length) (j + Q.length) ∧ v.2.1 = FB W X (i + Q.length) (j + Q.length) ∧
        v.2.2 = FS W X (i + Q.length) (j + Q.length)) (by
        intro x hx
        have hx' := zipIdx_get hx
        have ex := excG _ (List.mem_of_getElem? hx')
        obtain ⟨κ, m1, m2⟩ := naiveAct_ok (th := th) ht hW hth hH00 h0g h0s ex.1
        refine ⟨κ, m1, fun y hy => ?_⟩
        have hy' := zipIdx_drop_get hy
        have ey := excG _ (List.mem_of_getElem? hy')
        obtain ⟨v, v1, v2⟩ := m2 y.1 ey.1 (by
          intro GJd hJd GId hId
          have hc := (ex.2.comm hW.disjS ey.2).eq
          exact (hId.mul hJd).unique (by rw [← hc]; exact hJd.mul hId))
        obtain ⟨e1, e2⟩ := getG hy'
        obtain ⟨e3, e4⟩ := getG hx'
        obtain ⟨v3, v4, v5⟩ := v2 _ e4 _ e2
        refine ⟨v, v1, ?_, ?_, ?_⟩
        · unfold FA; rw [e3]; exact v3
        · unfold FB; exact v4
        · unfold FS; rw [e3]; exact v5)
    refine ⟨_, by
      unfold naiveInit
      simp only [hG, hQ, h1, h0, ok_bind, oc2 hno.1, p1, g1, gc2 hno.2]
      rw [a3]
      simp only [ok_bind]
      rw [b3], ?_⟩
    intro i j Xi Xid Xj Xjd hi hj hid hjd
    have li : i < Q.length + G.length := by
      have := (List.getElem?_eq_some_iff.1 hi).1
      rw [hX, respOps, List.length_append, List.length_map, List.length_map] at this
      omega
    have lj : j < Q.length + G.length := by
      have := (List.getElem?_eq_some_iff.1 hj).1
      rw [hX, respOps, List.length_append, List.length_map, List.length_map] at this
      omega
    have oi : opAt X i = Xi := opAt_of hi
    have oj : opAt X j = Xj := opAt_of hj
    have oid : adj (opAt X i) = Xid := by rw [oi]; exact adj_eq hid
    have ojd : adj (opAt X j) = Xjd := by rw [oj]; exact adj_eq hjd
    have va : FA W X i j = expv W.state (dcomm Xid W.ham Xj) := by unfold FA; rw [oid, oj]
    have vb : FB W X i j = expv W.state (dcomm Xid W.ham Xjd) := by unfold FB; rw [oid, ojd]
    have vs : FS W X i j = expv W.state (comm Xid Xj) := by unfold FS; rw [oid, oj]
    have vis1 := mixed_visited (fun i j => (a2 i j).trans (mixed_pairs Q G i j)) i j
    have vis2 := act_visited (nQ := Q.length) (fun i j => (b2 i j).trans (act_pairs G i j)) i j
    -- the four matrices
    set M0 := lrOrbBlocks W Q.length LRMats.zero with hM0
    have A1 := loop_writes (fun v : ℝ × ℝ => v.1) Q.length 0 (FA W X) (FA_symm hW hadj) L1
      (fun t h => (a1 t h).1) M0.A i j
    have B1 := loop_writes (fun v : ℝ × ℝ => v.2) Q.length 0 (FB W X) FB_symm L1
      (fun t h => (a1 t h).2) M0.B i j
    set M1 := L1.foldl (fun (M : LRMats) t => { M with
      A := setSym M.A (t.1 + Q.length) t.2.1 t.2.2.1, B := setSym M.B (t.1 + Q.length) t.2.1 t.2.2.2 }) M0 with hM1
    have pA1 : M1.A = L1.foldl (fun X t => setSym X (t.1 + Q.length) (t.2.1 + 0) t.2.2.1) M0.A :=
      foldl_proj LRMats.A _ _ (fun _ _ => rfl) _ _
    have pB1 : M1.B = L1.foldl (fun X t => setSym X (t.1 + Q.length) (t.2.1 + 0) t.2.2.2) M0.B :=
      foldl_proj LRMats.B _ _ (fun _ _ => rfl) _ _
    have pS1 : M1.Sigma = M0.Sigma :=
      foldl_same LRMats.Sigma _ (by intro _ _; rfl) _ _
    have pD1 : M1.Delta = M0.Delta :=
      foldl_same LRMats.Delta _ (by intro _ _; rfl) _ _
    rw [← pA1] at A1
    rw [← pB1] at B1
    have A2 := loop_writes (fun v : ℝ × ℝ × ℝ => v.1) Q.length Q.length (FA W X) (FA_symm hW hadj) L2
      (fun t h => (b1 t h).1) M1.A i j
    have B2 := loop_writes (fun v : ℝ × ℝ × ℝ => v.2.1) Q.length Q.length (FB W X) FB_symm L2
      (fun t h => (b1 t h).2.1) M1.B i j
    have S2 := loop_writes (fun v : ℝ × ℝ × ℝ => v.2.2) Q.length Q.length (FS W X) (FS_symm hadj) L2
      (fun t h => (b1 t h).2.2) M1.Sigma i j
    set M2 := L2.foldl (fun (M : LRMats) t => { M with
      A := setSym M.A (t.1 + Q.length) (t.2.1 + Q.length) t.2.2.1
      B := setSym M.B (t.1 + Q.length) (t.2.1 + Q.length) t.2.2.2.1
      Sigma := setSym M.Sigma (t.1 + Q.length) (t.2.1 + Q.length) t.2.2.2.2 }) M1 with hM2
    have pA2 : M2.A = L2.foldl (fun X t => setSym X (t.1 + Q.length) (t.2.1 + Q.length) t.2.2.1) M1.A :=
      foldl_proj LRMats.A _ _ (fun _ _ => rfl) _ _
    have pB2 : M2.B = L2.foldl (fun X t => setSym X (t.1 + Q.length) (t.2.1 + Q.length) t.2.2.2.1) M1.B :=
      foldl_proj LRMats.B _ _ (fun _ _ => rfl) _ _
    have pS2 : M2.Sigma = L2.foldl (fun X t => setSym X (t.1 + Q.length) (t.2.1 + Q.length) t.2.2.2.2) M1.Sigma :=
      foldl_proj LRMats.Sigma _ _ (fun _ _ => rfl) _ _
    have pD2 : M2.Delta = M1.Delta :=
      foldl_same LRMats.Delta _ (by intro _ _; rfl) _ _
    rw [← pA2] at A2
    rw [← pB2] at B2
    rw [← pS2] at S2
    rw [vis1] at A1 B1
    rw [vis2] at A2 B2 S2
    have zD : M2.Delta i j = 0 := by rw [pD2, pD1, hM0, lrOrbBlocks_delta]; rfl
    rw [zD]
    have aW : ActiveState W.ci.nI W.ci.nA W.state := hact _
    by_cases ci : i < Q.length <;> by_cases cj : j < Q.length
    · -- two orbital rotations
      obtain ⟨k, hk⟩ : ∃ k, W.kappa[i]? = some k := ⟨_, List.getElem?_eq_getElem (by omega)⟩
      obtain ⟨l, hl⟩ : ∃ l, W.kappa[j]? = some l := ⟨_, List.getElem?_eq_getElem (by omega)⟩
      obtain ⟨o1, o2, o3⟩ := lrOrbBlocks_eq hW lenQ LRMats.zero hk hl
      obtain ⟨k1, k2⟩ := getq hk
      obtain ⟨l1, l2⟩ := getq hl
      rw [oid] at k2
      rw [oj] at l1
      rw [ojd] at l2
      have nk := qOp_kills aW (hW.kappa k (List.mem_of_getElem? hk)).1
      have nl := qOp_kills aW (hW.kappa l (List.mem_of_getElem? hl)).1
      refine ⟨?_, ?_, fun _ => ⟨?_, ?_⟩, fun h => by omega⟩
      · rw [S2.2 (by omega), pS1, o3, k2, l1]
      · rw [k2, l2, expv_comm, nk, nl, map_zero, map_zero, inner_zero_right, sub_zero]
      · rw [A2.2 (by omega), A1.2 (by omega), o1, k2, l1]
      · rw [B2.2 (by omega), B1.2 (by omega), o2, k2, l2]
    · -- orbital rotation and active excitation
      obtain ⟨k, hk⟩ : ∃ k, W.kappa[i]? = some k := ⟨_, List.getElem?_eq_getElem (by omega)⟩
      obtain ⟨g, hg⟩ : ∃ g, G[j - Q.length]? = some g := ⟨_, List.getElem?_eq_getElem (by omega)⟩
      obtain ⟨k1, k2⟩ := getq hk
      obtain ⟨l1, l2⟩ := getG hg
      rw [show j - Q.length + Q.length = j by omega] at l1 l2
      rw [oi] at k1
      rw [oid] at k2
      rw [oj] at l1
      have nk := fun x hx => qOp_kills (x := x) hx (hW.kappa k (List.mem_of_getElem? hk)).1
      have ag := excG g (List.mem_of_getElem? hg)
      obtain ⟨d, -, d2, d3⟩ := ag.1.dagger ht
      have ed : Xjd = sumOp d := hjd.unique (by rw [l1]; exact d3)
      refine ⟨?_, ?_, fun h => by omega, fun _ => ⟨?_, ?_⟩⟩
      · rw [S2.2 (by omega), pS1, k2, l1, expv_comm, nk _ aW, nk _ (active_sumOp ag.1.2 aW), map_zero,
          inner_zero_right, sub_zero, hM0, lrOrbBlocks_sigma hW (by omega)]
        rfl
      · rw [k2, ed, expv_comm, nk _ aW, nk _ (active_sumOp d2.2 aW), map_zero, inner_zero_right, sub_zero]
      · rw [A2.2 (by omega), A1.1 (by omega), va]
      · rw [B2.2 (by omega), B1.1 (by omega), vb]
    · -- active excitation and orbital rotation
      obtain ⟨k, hk⟩ : ∃ k, W.kappa[j]? = some k := ⟨_, List.getElem?_eq_getElem (by omega)⟩
      obtain ⟨g, hg⟩ : ∃ g, G[i - Q.length]? = some g := ⟨_, List.getElem?_eq_getElem (by omega)⟩
      obtain ⟨k1, k2⟩ := getq hk
      obtain ⟨l1, l2⟩ := getG hg
      rw [show i - Q.length + Q.length = i by omega] at l1 l2
      rw [oj] at k1
      rw [ojd] at k2
      rw [oi] at l1
      have nk := fun x hx => qOp_kills (x := x) hx (hW.kappa k (List.mem_of_getElem? hk)).1
      have ag := excG g (List.mem_of_getElem? hg)
      obtain ⟨d, -, d2, d3⟩ := ag.1.dagger ht
      have ed : Xid = sumOp d := hid.unique (by rw [l1]; exact d3)
      refine ⟨?_, ?_, fun h => by omega, fun _ => ⟨?_, ?_⟩⟩
      · have e1 : inner W.state (Xid (qOp k.2 k.1 W.state)) = 0 := by
          rw [← hid, ← (qOp_adjoint k.1 k.2), l1, nk _ (active_sumOp ag.1.2 aW), inner_zero_left]
        have e2 : inner W.state (qOp k.2 k.1 (Xid W.state)) = 0 := by
          rw [← (qOp_adjoint k.1 k.2), nk _ aW, inner_zero_left]
        rw [S2.2 (by omega), pS1, k1, expv_comm, e1, e2, sub_zero, hM0,
          lrOrbBlocks_sigma hW (by omega)]
        rfl
      · rw [k2, ed, expv_comm, nk _ aW, nk _ (active_sumOp d2.2 aW), map_zero, inner_zero_right, sub_zero]
      · rw [A2.2 (by omega), A1.1 (by omega), va]
      · rw [B2.2 (by omega), B1.1 (by omega), vb]
    · -- two active excitations
      obtain ⟨g, hg⟩ : ∃ g, G[i - Q.length]? = some g := ⟨_, List.getElem?_eq_getElem (by omega)⟩
      obtain ⟨g', hg'⟩ : ∃ g, G[j - Q.length]? = some g := ⟨_, List.getElem?_eq_getElem (by omega)⟩
      have l1 := (getG hg).1
      have l2 := (getG hg').1
      rw [show i - Q.length + Q.length = i by omega, oi] at l1
      rw [show j - Q.length + Q.length = j by omega, oj] at l2
      have hc := ((excG g (List.mem_of_getElem? hg)).2.comm hW.disjS (excG g' (List.mem_of_getElem? hg')).2).eq
      rw [← l1, ← l2] at hc
      have hcd : Xid * Xjd = Xjd * Xid := (hjd.mul hid).unique (by rw [← hc]; exact hid.mul hjd)
      refine ⟨?_, ?_, fun h => by omega, fun _ => ⟨?_, ?_⟩⟩
      · rw [S2.1 (by omega), vs]
      · unfold expv comm
        rw [hcd, sub_self, LinearMap.zero_apply, inner_zero_right]
      · rw [A2.1 (by omega), va]
      · rw [B2.1 (by omega), vb]

/-- C94: the wave function objects of the program are as required: orbital spaces and rotations of the constructor
(C38), determinants of `get_indexing`, density matrices of the stored state. -/
theorem C94_proper (ht : ExactTiny tiny) {numOrbs numElec cas0 cas1 : ℕ} (h : CasFits numOrbs numElec cas0 cas1)
    (hA : 0 < cas1) (inc : Bool) (na nb : ℤ) :
    let s := mkSpaces numOrbs numElec cas0 cas1
    let k := kappaLists s numOrbs inc
    ∃ ci, getIndexing s.numInactiveOrbs s.numActiveOrbs s.numVirtualOrbs na nb = .ok ci ∧
      ∀ c : Vec ℝ, dot ci.idx2det.length c c = 1 → th.Fair ci.idx2det.length →
        ∃ R1 R2, upsRdm1 tiny th ci c = .ok R1 ∧ upsRdm2 tiny th ci c = .ok R2 ∧
          ∀ h g, RealIntegrals h g → ∀ U csf en,
            RespWf.Proper ⟨ci, U, csf, c, h, g, R1, R2, en, s.activeOcc, s.activeUnocc, s.activeOccSpin,
              s.activeUnoccSpin, k.noActiveActive, k.noActiveActiveDagger⟩ := by
  intro s k
  obtain ⟨s', -, rfl, -, -, -, ho, hu, -, -, -, hos, hus, -, -, -, -, -, -, -, hnA, hnI, hN⟩ := C38_orbitals h
  obtain ⟨-, -, hk, hkD, -⟩ := C38_kappa h inc
  obtain ⟨ci, h1, h2, h3, h4, h5, h6, -, h7⟩ := C17_space (nA := s.numActiveOrbs) (by rw [hnA]; exact hA)
    s.numInactiveOrbs s.numVirtualOrbs na nb
  obtain ⟨ci', h1', h8, -⟩ := (C26_spaces s.numInactiveOrbs s.numActiveOrbs s.numVirtualOrbs na nb 0).1
    (by rw [hnA]; exact hA)
  rw [h1] at h1'
  obtain rfl := Except.ok.inj h1'
  refine ⟨ci, h1, fun c hc hth => ?_⟩
  obtain ⟨R1, R2, r1, r2, r3⟩ := C29_ups ht h8 hth c
  refine ⟨R1, R2, r1, r2, fun hh g hhg U csf en => ?_⟩
  rw [← h2, ← h3, ← h4] at hN
  have hf := h.enoughElec
  have hf2 := h.evenElec
  have hf3 := h.evenActive
  have hnI' : ci.nI = (numElec - cas0) / 2 := by rw [h2]; exact hnI
  have hnA' : ci.nA = cas1 := by rw [h3]; exact hnA
  have hf4 := h.enoughActive
  refine ⟨h8, ?_, r3, hhg, ?_, hkD, ?_, ?_, ?_, ?_, ?_⟩
  · rw [← hc]; exact (dot_emb h8 c c).symm
  · intro p hp
    obtain ⟨a, b⟩ := (hk.2 p).1 hp
    unfold RespWf.numOrbs
    dsimp only
    rw [hN, hnI', hnA']
    exact ⟨b, a⟩
  · intro p hp
    rcases List.mem_append.1 hp with hp | hp
    · have := (ho.2 p).1 hp
      dsimp only at this ⊢
      omega
    · have := (hu.2 p).1 hp
      dsimp only at this ⊢
      omega
  · intro p hp
    rcases List.mem_append.1 hp with hp | hp
    · have := (hos.2 p).1 hp
      dsimp only at this ⊢
      omega
    · have := (hus.2 p).1 hp
      dsimp only at this ⊢
      omega
  · intro p
    dsimp only
    rw [ho.2, hu.2, hos.2, hus.2]
    exact ⟨Iff.rfl, Iff.rfl⟩
  · refine List.nodup_append.2 ⟨ho.1, hu.1, ?_⟩
    rintro p hp q hq rfl
    have a := (ho.2 p).1 hp
    have b := (hu.2 p).1 hq
    omega
  · refine List.nodup_append.2 ⟨hos.1, hus.1, ?_⟩
    rintro p hp q hq rfl
    have a := (hos.2 p).1 hp
    have b := (hus.2 p).1 hq
    omega

/-- Four electrons in four orbitals, two of each active: orbital rotations and active excitations are there. -/
example : CasFits 4 4 2 2 ∧ 0 < 2 ∧ (kappaLists (mkSpaces 4 4 2 2) 4 false).noActiveActive ≠ [] ∧
    (mkSpaces 4 4 2 2).activeOcc = [1] ∧ (mkSpaces 4 4 2 2).activeUnocc = [2] := by
  refine ⟨⟨rfl, rfl, by decide, by decide, by decide⟩, by decide, by decide, by decide, by decide⟩

end SQ
