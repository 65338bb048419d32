import Verif.Lemmas.ResponseTransfer
import Verif.Lemmas.Uncore
import Verif.Lemmas.AnsatzLayout
import Verif.Props.PerfectPairing
import Verif.Props.Response
import Verif.Props.ResponseProjected

/-!
# C96, C97: state-transfer linear response
-/

namespace SQ

variable {tiny big : ℝ → Bool} {th : Threads} {W : RespWf} {U Ud : FOp ℝ}

/-- C96, states: the states `U G |ref⟩` of the excitations named by the letters, on the closed-shell
determinant, are orthonormal and orthogonal to the wave function. -/
theorem C96_states (ht : ExactTiny tiny) (hW : W.Proper) (hth : th.Fair W.ci.idx2det.length) (hR : W.Rotates U Ud)
    (hD : emb W.ci W.csf = ket W.refDet) (excitations : String) :
    let Gs := lrOps W (lettersOf excitations)
    (∀ (i j : ℕ) (S T : FOp ℝ), Gs[i]? = some S → Gs[j]? = some T →
      inner (W.moved U S) (W.moved U T) = if i = j then 1 else 0) ∧
    ∀ T ∈ Gs, inner W.state (W.moved U T) = 0 := by
  intro Gs
  obtain ⟨G, -, opsG, excG⟩ := lrG_ok ht hW excitations
  obtain ⟨o1, o2⟩ := lrOps_ortho hW (lettersOf excitations)
  have form : ∀ T ∈ Gs, ∃ g ∈ G, T = sumOp g := by
    intro T hT
    have : T ∈ G.map sumOp := by rw [opsG]; exact hT
    obtain ⟨g, hg, rfl⟩ := List.mem_map.1 this
    exact ⟨g, hg, rfl⟩
  refine ⟨fun i j S T hS hT => ?_, fun T hT => ?_⟩
  · obtain ⟨g, hg, rfl⟩ := form S (List.mem_of_getElem? hS)
    obtain ⟨g', hg', rfl⟩ := form T (List.mem_of_getElem? hT)
    rw [(moved_inner (th := th) ht hW.space hth hR (excG _ hg).1 (excG _ hg').1).1, hD]
    exact o1 i j _ _ hS hT
  · obtain ⟨g, hg, rfl⟩ := form T hT
    rw [(moved_inner (th := th) ht hW.space hth hR (excG _ hg).1 (excG _ hg).1).2.1, hD]
    exact o2 _ hT

/-- C96: the constructor of state-transfer linear response raises exactly when an element of the gradient is larger
than `10⁻³`.  Otherwise it leaves the matrices of the orbital rotations and the operators `U G |ref⟩⟨0|`: nested
commutators for two orbital rotations, symmetric double commutators for all other pairs. -/
theorem C96_transfer (ht : ExactTiny tiny) (hb : ExactBig big) (hW : W.Proper)
    (hE : W.energy = expv W.state W.ham) (hth : th.Fair W.ci.idx2det.length) (hR : W.Rotates U Ud)
    (hD : emb W.ci W.csf = ket W.refDet) (excitations : String) :
    let X := W.transferOps U (lettersOf excitations)
    let n := W.kappa.length
    ((∃ T ∈ X, 1 / 1000 < |expv W.state (comm W.ham T)|) →
      stInit tiny big th W excitations = .error .valueError) ∧
    ((∀ T ∈ X, |expv W.state (comm W.ham T)| ≤ 1 / 1000) →
      ∃ M, stInit tiny big th W excitations = .ok M ∧
        ∀ i j Xi Xid Xj Xjd, X[i]? = some Xi → X[j]? = some Xj → IsAdjoint Xi Xid → IsAdjoint Xj Xjd →
          M.Sigma i j = expv W.state (comm Xid Xj) ∧
          M.Delta i j = expv W.state (comm Xid Xjd) ∧
          (i < n → j < n →
            M.A i j = expv W.state (comm Xid (comm W.ham Xj)) ∧
            M.B i j = expv W.state (comm Xid (comm W.ham Xjd))) ∧
          (n ≤ i ∨ n ≤ j →
            M.A i j = expv W.state (dcomm Xid W.ham Xj) ∧
            M.B i j = expv W.state (dcomm Xid W.ham Xjd))) := by
  intro X n
  obtain ⟨G, hG, opsG, excG⟩ := lrG_ok ht hW excitations
  obtain ⟨Q, hQ, fQ⟩ := lrQ_ok ht hW
  obtain ⟨H1, h1, h1g, h1s⟩ := ham1_gen ht hb W.h W.g W.ci
  obtain ⟨H0, h0, h0g, h0s⟩ := ham0_gen ht hb W.h W.g W.ci
  obtain ⟨st1, st2⟩ := C96_states (th := th) ht hW hth hR hD excitations
  have hact := emb_active W.ci
  have hs := hW.space
  have aW : ActiveState W.ci.nI W.ci.nA W.state := hact _
  obtain ⟨H00, p1, p2⟩ := W.prop_Ud_gen (th := th) ht hs hth hR h0g W.c
  have movA : ∀ {g}, g ∈ G → ActiveState W.ci.nI W.ci.nA (W.moved U (sumOp g)) := fun hg =>
    (moved_inner (th := th) ht hs hth hR (excG _ hg).1 (excG _ hg).1).2.2
  have hH00 : ∀ bra, inner (emb W.ci bra) (emb W.ci H00) = inner (U (emb W.ci bra)) (W.ham W.state) := fun bra => by
    obtain ⟨b, -, hb⟩ := hR.run bra
    rw [p2, ← hb, h0s _ _ (hact _) (hact _)]; rfl
  have lenQ : Q.length = n := fQ.length_eq.symm
  have hX : X = (W.kappa.map fun k => qOp k.2 k.1) ++ G.map fun d => ketbra (W.moved U (sumOp d)) W.state := by
    show W.transferOps U _ = _
    unfold RespWf.transferOps lettersOf
    rw [← opsG, List.map_map]
    rfl
  have lenX : X.length = n + G.length := by rw [hX]; simp [n]
  have atG : ∀ {i : ℕ} {g : Dict ℝ}, G[i]? = some g → (lrOps W (lettersOf excitations))[i]? = some (sumOp g) := by
    intro i g h
    unfold lettersOf
    rw [← opsG, List.getElem?_map, h]; rfl
  have orth : ∀ {g}, g ∈ G → inner W.state (W.moved U (sumOp g)) = 0 := by
    intro g hg
    obtain ⟨i, hi⟩ := List.getElem?_of_mem hg
    exact st2 _ (List.mem_of_getElem? (atG hi))
  obtain ⟨gr, g1, g2⟩ := mapM_ok_exists (f := stGrad tiny th W H00)
    (fun d v => |v.1| = |expv W.state (comm W.ham (ketbra (W.moved U (sumOp d)) W.state))| ∧
      |v.2| = |expv W.state (comm W.ham (ketbra (W.moved U (sumOp d)) W.state))|) G (fun d hd => by
      obtain ⟨v, v1, v2, v3⟩ := stGrad_ok (th := th) ht hW hth hR hH00 (excG d hd).1
      have e := (transfer_S (H := W.ham) hW.norm (orth hd) (orth hd)).2.2
      exact ⟨v, v1, by rw [v2, e, abs_neg], by rw [v3, e]⟩)
  obtain ⟨gc1, gc2⟩ := gradCheck_forall g2
  obtain ⟨oc1, oc2⟩ := lrOrbCheck_eq hW lenQ
  have hsplit : (∃ T ∈ X, 1 / 1000 < |expv W.state (comm W.ham T)|) ↔
      (∃ T ∈ W.kappa.map fun k => qOp k.2 k.1, 1 / 1000 < |expv W.state (comm W.ham T)|) ∨
      ∃ d ∈ G, 1 / 1000 < |expv W.state (comm W.ham (ketbra (W.moved U (sumOp d)) W.state))| := by
    rw [hX]
    simp only [List.mem_append, or_and_right, exists_or, List.mem_map, exists_exists_and_eq_and]
  refine ⟨fun hbig => ?_, fun hsmall => ?_⟩
  · unfold stInit
    simp only [hG, hQ, h1, h0, ok_bind]
    by_cases ho : ∃ T ∈ W.kappa.map fun k => qOp k.2 k.1, 1 / 1000 < |expv W.state (comm W.ham T)|
    · rw [oc1 ho]; rfl
    · rw [oc2 ho]
      simp only [ok_bind, p1, g1]
      rw [gc1 ((hsplit.1 hbig).resolve_left ho)]
      rfl
  have hno : ¬ ∃ T ∈ X, 1 / 1000 < |expv W.state (comm W.ham T)| := by
    rintro ⟨T, hT, h⟩
    exact absurd (hsmall T hT) (not_le.2 h)
  rw [hsplit, not_or] at hno
  have getq : ∀ {j : ℕ} {k : ℕ × ℕ}, W.kappa[j]? = some k → X[j]? = some (qOp k.2 k.1) := by
    intro j k h
    rw [hX, List.getElem?_append_left (by
      have := (List.getElem?_eq_some_iff.1 h).1
      simpa using this), List.getElem?_map, h]
    rfl
  have getG : ∀ {i : ℕ} {g : Dict ℝ}, G[i]? = some g →
      X[i + n]? = some (ketbra (W.moved U (sumOp g)) W.state) := by
    intro i g h
    rw [hX, List.getElem?_append_right (by simp [n])]
    simp [n, h]
  have hadj : ∀ T ∈ X, ∃ T', IsAdjoint T T' := by
    intro T hT
    rw [hX] at hT
    rcases List.mem_append.1 hT with h | h
    · obtain ⟨k, -, rfl⟩ := List.mem_map.1 h
      exact ⟨_, qOp_adjoint _ _⟩
    · obtain ⟨g, -, rfl⟩ := List.mem_map.1 h
      exact ⟨_, ketbra_adjoint _ _⟩
  have sA := FA_symm (X := X) hW hadj
  have sB := FB_symm (W := W) (X := X)
  have sS := FS_symm (W := W) (X := X) hadj
  have kill : ∀ {k}, k ∈ W.kappa → ∀ x, ActiveState W.ci.nI W.ci.nA x → qOp k.1 k.2 x = 0 :=
    fun hk x hx => qOp_kills hx (hW.kappa _ hk).1
  -- the entries of the four kinds of pairs
  have vmix : ∀ {i j : ℕ} {g : Dict ℝ} {k : ℕ × ℕ}, G[i]? = some g → W.kappa[j]? = some k →
      FA W X (i + n) j = inner (W.moved U (sumOp g)) (W.ham (qOp k.2 k.1 W.state)) ∧
      FB W X (i + n) j = -1 / 2 * inner (W.moved U (sumOp g)) (qOp k.1 k.2 (W.ham W.state)) ∧
      FS W X (i + n) j = 0 ∧ expv W.state (comm (adj (opAt X (i + n))) (adj (opAt X j))) = 0 := by
    intro i j g k hg hk
    unfold FA FB FS
    rw [opAt_of (getG hg), opAt_of (getq hk), adj_eq (ketbra_adjoint _ _), adj_eq (qOp_adjoint _ _)]
    have mk := List.mem_of_getElem? hk
    have mg := List.mem_of_getElem? hg
    exact transfer_mixed hW.norm (orth mg) (qOp_adjoint _ _) (kill mk _ aW) (kill mk _ (movA mg))
  have vact : ∀ {i j : ℕ} {g f : Dict ℝ}, G[i]? = some g → G[j]? = some f →
      FA W X (i + n) (j + n) = inner (W.moved U (sumOp g)) (W.ham (W.moved U (sumOp f)))
        - (if i = j then W.energy else 0) ∧
      FB W X (i + n) (j + n) = 0 ∧ FS W X (i + n) (j + n) = (if i = j then 1 else 0) ∧
      expv W.state (comm (adj (opAt X (i + n))) (adj (opAt X (j + n)))) = 0 := by
    intro i j g f hg hf
    unfold FA FB FS
    rw [opAt_of (getG hg), opAt_of (getG hf), adj_eq (ketbra_adjoint _ _), adj_eq (ketbra_adjoint _ _)]
    have og := orth (List.mem_of_getElem? hg)
    have of' := orth (List.mem_of_getElem? hf)
    have dl := st1 i j _ _ (atG hg) (atG hf)
    obtain ⟨t1, t2, -⟩ := transfer_S (H := W.ham) hW.norm og of'
    refine ⟨?_, transfer_B og of', by rw [t1, dl], t2⟩
    rw [transfer_A hW.norm og of', dl, hE]
    split <;> simp
  obtain ⟨M1, m1, mS, mD, m2⟩ := mixed_loop (Q := Q) (G := G) (pre := stMixedPre tiny th W H1)
    (entry := fun k _ y => stMixed tiny th W k y.1) sA sB (by
      intro x hx
      have hx' := zipIdx_get hx
      obtain ⟨k, hk⟩ : ∃ k, W.kappa[x.2]? = some k := by
        have := (List.getElem?_eq_some_iff.1 hx').1
        rw [lenQ] at this
        exact ⟨_, List.getElem?_eq_getElem this⟩
      have hRq := (List.forall₂_iff_get.1 fQ).2 x.2 (List.getElem?_eq_some_iff.1 hk).1
        (List.getElem?_eq_some_iff.1 hx').1
      rw [List.get_eq_getElem, List.get_eq_getElem, (List.getElem?_eq_some_iff.1 hk).2,
        (List.getElem?_eq_some_iff.1 hx').2] at hRq
      obtain ⟨κ, c1, c2⟩ := (stMixed_ok (th := th) ht hW hth hR h1g h1s hRq.1 hRq.2).1
      refine ⟨κ, c1, fun y hy => ?_⟩
      have hy' := zipIdx_get hy
      obtain ⟨v, v1, v2, v3⟩ := c2 y.1 (excG _ (List.mem_of_getElem? hy')).1
      obtain ⟨w1, w2, -⟩ := vmix hy' hk
      rw [lenQ]
      exact ⟨v, v1, by rw [v2, w1], by rw [v3, w2]⟩) (lrOrbBlocks W Q.length LRMats.zero)
  obtain ⟨M2, a1, aB, aD, a2⟩ := stActLoop_ok (tiny := tiny) (th := th) (W := W) (H0 := H0) (G := G) Q.length sA (by
      intro x hx
      have hx' := zipIdx_get hx
      obtain ⟨κ, c1, c2⟩ := stAct_ok (th := th) ht hW hth hR h0g h0s (excG _ (List.mem_of_getElem? hx')).1
      refine ⟨κ, c1, fun y hy => ?_⟩
      have hy' := zipIdx_drop_get hy
      rw [c2 y.1 (excG _ (List.mem_of_getElem? hy')).1, lenQ, (vact hy' hx').1]
      simp only [beq_iff_eq]) M1
  refine ⟨M2, by
    unfold stInit
    simp only [hG, hQ, h1, h0, ok_bind, oc2 hno.1, p1, g1, gc2 hno.2]
    have : (fun (M : LRMats) (i j : ℕ) (v : ℝ × ℝ) => { M with
        A := setSym M.A j (i + Q.length) v.1, B := setSym M.B j (i + Q.length) v.2 })
      = fun M i j v => { M with A := setSym M.A (i + Q.length) j v.1, B := setSym M.B (i + Q.length) j v.2 } := by
      funext M i j v
      rw [setSym_comm M.A, setSym_comm M.B]
    rw [this, m1]
    simp only [ok_bind]
    rw [a1], ?_⟩
  intro i j Xi Xid Xj Xjd hi hj hid hjd
  have li : i < n + G.length := by rw [← lenX]; exact (List.getElem?_eq_some_iff.1 hi).1
  have lj : j < n + G.length := by rw [← lenX]; exact (List.getElem?_eq_some_iff.1 hj).1
  have oi : opAt X i = Xi := opAt_of hi
  have oj : opAt X j = Xj := opAt_of hj
  have oid : adj (opAt X i) = Xid := by rw [oi]; exact adj_eq hid
  have ojd : adj (opAt X j) = Xjd := by rw [oj]; exact adj_eq hjd
  have va : FA W X i j = expv W.state (dcomm Xid W.ham Xj) := by unfold FA; rw [oid, oj]
  have vb : FB W X i j = expv W.state (dcomm Xid W.ham Xjd) := by unfold FB; rw [oid, ojd]
  have vs : FS W X i j = expv W.state (comm Xid Xj) := by unfold FS; rw [oid, oj]
  rw [lenQ] at m2 a2 mS mD
  have zD : M2.Delta i j = 0 := by rw [aD, mD, lrOrbBlocks_delta]; rfl
  rw [zD, ← vs, ← va, ← vb]
  have zB : M2.B i j = M1.B i j := by rw [aB]
  have zS : ¬ (i < n ∧ j < n) → M1.Sigma i j = 0 := fun h => by
    rw [mS, lrOrbBlocks_sigma hW (by show n ≤ i ∨ n ≤ j; omega)]; rfl
  have qat : ∀ {i : ℕ}, i < n → ∃ k, W.kappa[i]? = some k := fun h => ⟨_, List.getElem?_eq_getElem h⟩
  have gat : ∀ {i : ℕ}, n ≤ i → i < n + G.length → ∃ g, G[i - n]? = some g := fun h h' =>
    ⟨_, List.getElem?_eq_getElem (by omega)⟩
  by_cases ci : i < n <;> by_cases cj : j < n
  · obtain ⟨k, hk⟩ := qat ci
    obtain ⟨l, hl⟩ := qat cj
    have hi' := getq hk
    have hj' := getq hl
    rw [hi] at hi'
    rw [hj] at hj'
    obtain rfl := Option.some.inj hi'
    obtain rfl := Option.some.inj hj'
    obtain rfl := hid.unique (qOp_adjoint _ _)
    obtain rfl := hjd.unique (qOp_adjoint _ _)
    have nk := kill (List.mem_of_getElem? hk) _ aW
    have nl := kill (List.mem_of_getElem? hl) _ aW
    obtain ⟨o1, o2, o3⟩ := lrOrbBlocks_eq hW lenQ LRMats.zero hk hl
    obtain ⟨b1, b3⟩ := (a2 i j).2 (by omega)
    obtain ⟨b4, b5⟩ := (m2 i j).2 (by omega)
    refine ⟨?_, ?_, fun _ _ => ⟨?_, ?_⟩, fun h => by omega⟩
    · rw [b3, mS, ← lenQ, o3, vs]
    · rw [expv_comm, nk, nl, map_zero, map_zero, inner_zero_right, sub_zero]
    · rw [b1, b4, ← lenQ, o1]
    · rw [zB, b5, ← lenQ, o2]
  · obtain ⟨k, hk⟩ := qat ci
    obtain ⟨g, hg⟩ := gat (not_lt.1 cj) lj
    obtain ⟨w1, w2, w3, w4⟩ := vmix hg hk
    rw [show j - n + n = j by omega] at w1 w2 w3 w4
    obtain ⟨b1, b3⟩ := (a2 i j).2 (by omega)
    obtain ⟨b4, b5⟩ := (m2 i j).1 (by omega)
    refine ⟨?_, ?_, fun _ h => by omega, fun _ => ⟨by rw [b1, b4], by rw [zB, b5]⟩⟩
    · rw [b3, zS (by omega), sS, w3]
    · rw [oid, ojd] at w4
      rw [expv_comm] at w4 ⊢
      linarith
  · obtain ⟨k, hk⟩ := qat cj
    obtain ⟨g, hg⟩ := gat (not_lt.1 ci) li
    obtain ⟨w1, w2, w3, w4⟩ := vmix hg hk
    rw [show i - n + n = i by omega] at w1 w2 w3 w4
    obtain ⟨b1, b3⟩ := (a2 i j).2 (by omega)
    obtain ⟨b4, b5⟩ := (m2 i j).1 (by omega)
    refine ⟨?_, ?_, fun h => absurd h ci, fun _ => ⟨by rw [b1, b4], by rw [zB, b5]⟩⟩
    · rw [b3, zS (by omega), w3]
    · rw [oid, ojd] at w4
      rw [w4]
  · obtain ⟨f, hf⟩ := gat (not_lt.1 cj) lj
    obtain ⟨g, hg⟩ := gat (not_lt.1 ci) li
    obtain ⟨w1, w2, w3, w4⟩ := vact hg hf
    rw [show i - n + n = i by omega, show j - n + n = j by omega] at w1 w2 w3 w4
    obtain ⟨b1, b3⟩ := (a2 i j).1 (by omega)
    obtain ⟨b4, b5⟩ := (m2 i j).2 (by omega)
    refine ⟨?_, ?_, fun h => absurd h ci, fun _ => ⟨by rw [b1], ?_⟩⟩
    · rw [b3, zS (by omega), w3]
      have : i = j ↔ i - n = j - n := by omega
      simp only [this]
    · rw [oid, ojd] at w4
      rw [w4]
    · rw [zB, b5, w2]
      unfold lrOrbBlocks
      split
      · dsimp only
        unfold hessianBlock
        rw [lrSetBlock_out _ _ _ _ (by rw [hW.dagger, List.length_map]; exact Or.inl (not_lt.1 ci))]
        rfl
      · rfl

/-- C97: the constructor of projected state-transfer linear response raises exactly when an element of the gradient
is larger than `10⁻³`.  Otherwise it leaves the matrices of the operators `q|0⟩⟨0|` and `U G |ref⟩⟨0|`. -/
theorem C97_projected_transfer (ht : ExactTiny tiny) (hb : ExactBig big) (hW : W.Proper)
    (hE : W.energy = expv W.state W.ham) (hth : th.Fair W.ci.idx2det.length) (hR : W.Rotates U Ud)
    (hD : emb W.ci W.csf = ket W.refDet) (excitations : String) :
    let X := W.projTransferOps U (lettersOf excitations)
    ((∃ T ∈ X, 1 / 1000 < |expv W.state (comm W.ham T)|) →
      pstInit tiny big th W excitations = .error .valueError) ∧
    ((∀ T ∈ X, |expv W.state (comm W.ham T)| ≤ 1 / 1000) →
      ∃ M, pstInit tiny big th W excitations = .ok M ∧
        ∀ i j Xi Xid Xj Xjd, X[i]? = some Xi → X[j]? = some Xj → IsAdjoint Xi Xid → IsAdjoint Xj Xjd →
          M.Sigma i j = expv W.state (comm Xid Xj) ∧
          M.Delta i j = expv W.state (comm Xid Xjd) ∧
          M.A i j = expv W.state (dcomm Xid W.ham Xj) ∧
          M.B i j = expv W.state (dcomm Xid W.ham Xjd)) := by
  intro X
  set n := W.kappa.length with hn
  obtain ⟨G, hG, opsG, excG⟩ := lrG_ok ht hW excitations
  obtain ⟨Q, hQ, fQ⟩ := lrQ_ok ht hW
  obtain ⟨H1, h1, h1g, h1s⟩ := ham1_gen ht hb W.h W.g W.ci
  obtain ⟨H0, h0, h0g, h0s⟩ := ham0_gen ht hb W.h W.g W.ci
  obtain ⟨H2, h2, h2g, h2s⟩ := ham2_gen ht hb W.h W.g W.ci
  obtain ⟨st1, st2⟩ := C96_states (th := th) ht hW hth hR hD excitations
  have hact := emb_active W.ci
  have hs := hW.space
  have aW : ActiveState W.ci.nI W.ci.nA W.state := hact _
  obtain ⟨H00, p1, p2⟩ := W.prop_Ud_gen (th := th) ht hs hth hR h0g W.c
  have movA : ∀ {g}, g ∈ G → ActiveState W.ci.nI W.ci.nA (W.moved U (sumOp g)) := fun hg =>
    (moved_inner (th := th) ht hs hth hR (excG _ hg).1 (excG _ hg).1).2.2
  have hH00 : ∀ bra, inner (emb W.ci bra) (emb W.ci H00) = inner (U (emb W.ci bra)) (W.ham W.state) := fun bra => by
    obtain ⟨b, -, hb⟩ := hR.run bra
    rw [p2, ← hb, h0s _ _ (hact _) (hact _)]; rfl
  have lenQ : Q.length = n := fQ.length_eq.symm
  have hX : X = (W.kappa.map fun k => ketbra (qOp k.2 k.1 W.state) W.state) ++ G.map fun d => ketbra (W.moved U (sumOp d)) W.state := by
    show W.projTransferOps U _ = _
    unfold RespWf.projTransferOps lettersOf
    rw [← opsG, List.map_map]
    rfl
  have lenX : X.length = n + G.length := by rw [hX]; simp [n]
  have atG : ∀ {i : ℕ} {g : Dict ℝ}, G[i]? = some g → (lrOps W (lettersOf excitations))[i]? = some (sumOp g) := by
    intro i g h
    unfold lettersOf
    rw [← opsG, List.getElem?_map, h]; rfl
  have orth : ∀ {g}, g ∈ G → inner W.state (W.moved U (sumOp g)) = 0 := by
    intro g hg
    obtain ⟨i, hi⟩ := List.getElem?_of_mem hg
    exact st2 _ (List.mem_of_getElem? (atG hi))
  have kill : ∀ {k}, k ∈ W.kappa → ∀ x, ActiveState W.ci.nI W.ci.nA x → qOp k.1 k.2 x = 0 :=
    fun hk x hx => qOp_kills hx (hW.kappa _ hk).1
  have orthq : ∀ {k}, k ∈ W.kappa → ∀ x, ActiveState W.ci.nI W.ci.nA x → inner x (qOp k.2 k.1 W.state) = 0 :=
    fun hk x hx => by rw [← (qOp_adjoint _ _).symm, kill hk x hx, inner_zero_left]
  have gradq : ∀ {k}, k ∈ W.kappa → expv W.state (comm W.ham (ketbra (qOp k.2 k.1 W.state) W.state))
      = expv W.state (comm W.ham (qOp k.2 k.1)) := by
    intro k hk
    have o := orthq hk _ aW
    rw [(transfer_S (H := W.ham) hW.norm o o).2.2, expv_comm, ← (qOp_adjoint _ _).symm _ (W.ham W.state),
      kill hk _ aW, inner_zero_left, sub_zero]
  obtain ⟨gr, g1, g2⟩ := mapM_ok_exists (f := stGrad tiny th W H00)
    (fun d v => |v.1| = |expv W.state (comm W.ham (ketbra (W.moved U (sumOp d)) W.state))| ∧
      |v.2| = |expv W.state (comm W.ham (ketbra (W.moved U (sumOp d)) W.state))|) G (fun d hd => by
      obtain ⟨v, v1, v2, v3⟩ := stGrad_ok (th := th) ht hW hth hR hH00 (excG d hd).1
      have e := (transfer_S (H := W.ham) hW.norm (orth hd) (orth hd)).2.2
      exact ⟨v, v1, by rw [v2, e, abs_neg], by rw [v3, e]⟩)
  obtain ⟨gc1, gc2⟩ := gradCheck_forall g2
  obtain ⟨oc1, oc2⟩ := lrOrbCheck_eq hW lenQ
  have hsplit : (∃ T ∈ X, 1 / 1000 < |expv W.state (comm W.ham T)|) ↔
      (∃ T ∈ W.kappa.map fun k => qOp k.2 k.1, 1 / 1000 < |expv W.state (comm W.ham T)|) ∨
      ∃ d ∈ G, 1 / 1000 < |expv W.state (comm W.ham (ketbra (W.moved U (sumOp d)) W.state))| := by
    rw [hX]
    simp only [List.mem_append, or_and_right, exists_or, List.mem_map, exists_exists_and_eq_and]
    refine or_congr (exists_congr fun k => and_congr_right fun hk => ?_) Iff.rfl
    rw [gradq hk]
  refine ⟨fun hbig => ?_, fun hsmall => ?_⟩
  · unfold pstInit
    simp only [hG, hQ, h1, h0, h2, ok_bind]
    by_cases ho : ∃ T ∈ W.kappa.map fun k => qOp k.2 k.1, 1 / 1000 < |expv W.state (comm W.ham T)|
    · rw [oc1 ho]; rfl
    · rw [oc2 ho]
      simp only [ok_bind, p1, g1]
      rw [gc1 ((hsplit.1 hbig).resolve_left ho)]
      rfl
  have hno : ¬ ∃ T ∈ X, 1 / 1000 < |expv W.state (comm W.ham T)| := by
    rintro ⟨T, hT, h⟩
    exact absurd (hsmall T hT) (not_le.2 h)
  rw [hsplit, not_or] at hno
  have getq : ∀ {j : ℕ} {k : ℕ × ℕ}, W.kappa[j]? = some k → X[j]? = some (ketbra (qOp k.2 k.1 W.state) W.state) := by
    intro j k h
    rw [hX, List.getElem?_append_left (by
      have := (List.getElem?_eq_some_iff.1 h).1
      simpa using this), List.getElem?_map, h]
    rfl
  have getG : ∀ {i : ℕ} {g : Dict ℝ}, G[i]? = some g →
      X[i + n]? = some (ketbra (W.moved U (sumOp g)) W.state) := by
    intro i g h
    rw [hX, List.getElem?_append_right (by simp [n])]
    simp [n, h]
  have hadj : ∀ T ∈ X, ∃ T', IsAdjoint T T' := by
    intro T hT
    rw [hX] at hT
    rcases List.mem_append.1 hT with h | h
    · obtain ⟨k, -, rfl⟩ := List.mem_map.1 h
      exact ⟨_, ketbra_adjoint _ _⟩
    · obtain ⟨g, -, rfl⟩ := List.mem_map.1 h
      exact ⟨_, ketbra_adjoint _ _⟩
  have sA := FA_symm (X := X) hW hadj
  have sS := FS_symm (W := W) (X := X) hadj
  -- the entries of any two of the states
  have vals : ∀ {i j : ℕ} {I J : Fock ℝ}, X[i]? = some (ketbra I W.state) → X[j]? = some (ketbra J W.state) →
      inner W.state I = 0 → inner W.state J = 0 →
      FA W X i j = inner I (W.ham J) - expv W.state W.ham * inner I J ∧ FB W X i j = 0 ∧
      FS W X i j = inner I J ∧ expv W.state (comm (adj (opAt X i)) (adj (opAt X j))) = 0 := by
    intro i j I J hI hJ oI oJ
    unfold FA FB FS
    rw [opAt_of hI, opAt_of hJ, adj_eq (ketbra_adjoint _ _), adj_eq (ketbra_adjoint _ _)]
    obtain ⟨t1, t2, -⟩ := transfer_S (H := W.ham) hW.norm oI oJ
    exact ⟨transfer_A hW.norm oI oJ, transfer_B oI oJ, t1, t2⟩
  have vact : ∀ {i j : ℕ} {g f : Dict ℝ}, G[i]? = some g → G[j]? = some f →
      FA W X (i + n) (j + n) = inner (W.moved U (sumOp g)) (W.ham (W.moved U (sumOp f)))
        - (if i = j then W.energy else 0) ∧ FS W X (i + n) (j + n) = (if i = j then 1 else 0) := by
    intro i j g f hg hf
    have dl := st1 i j _ _ (atG hg) (atG hf)
    obtain ⟨t1, -, t3, -⟩ := vals (getG hg) (getG hf) (orth (List.mem_of_getElem? hg)) (orth (List.mem_of_getElem? hf))
    rw [t1, t3, dl, hE]
    refine ⟨?_, rfl⟩
    split <;> simp
  have qat : ∀ {i : ℕ}, i < n → ∃ k, W.kappa[i]? = some k := fun h => ⟨_, List.getElem?_eq_getElem h⟩
  have gat : ∀ {i : ℕ}, n ≤ i → i < n + G.length → ∃ g, G[i - n]? = some g := fun h h' =>
    ⟨_, List.getElem?_eq_getElem (by omega)⟩
  have qrel : ∀ {i : ℕ} {q : Dict ℝ}, Q[i]? = some q → ∃ k, W.kappa[i]? = some k ∧ GenOp W.ci q ∧
      sumOp q = qOp k.2 k.1 := by
    intro i q hq
    obtain ⟨k, hk⟩ := qat (i := i) (by rw [← lenQ]; exact (List.getElem?_eq_some_iff.1 hq).1)
    have hRq := (List.forall₂_iff_get.1 fQ).2 i (List.getElem?_eq_some_iff.1 hk).1 (List.getElem?_eq_some_iff.1 hq).1
    rw [List.get_eq_getElem, List.get_eq_getElem, (List.getElem?_eq_some_iff.1 hk).2,
      (List.getElem?_eq_some_iff.1 hq).2] at hRq
    exact ⟨k, hk, hRq⟩
  obtain ⟨M0, o1, oB, oD, o2⟩ := pst_orb_loop (Q := Q) (entry := fun _ x y => pstOrb tiny th W H2 x.1 y.1) sA sS (by
      intro x hx y hy
      obtain ⟨k, hk, gk, ek⟩ := qrel (zipIdx_get hx)
      obtain ⟨l, hl, gl, el⟩ := qrel (zipIdx_drop_get hy)
      obtain ⟨v, v1, v2, v3⟩ := pstOrb_ok (th := th) ht hW hE hth h2g h2s gk ek gl el
      obtain ⟨t1, -, t3, -⟩ := vals (getq hl) (getq hk) (orthq (List.mem_of_getElem? hl) _ aW)
        (orthq (List.mem_of_getElem? hk) _ aW)
      exact ⟨v, v1, by rw [v2, t1], by rw [v3, t3]⟩) LRMats.zero
  obtain ⟨M1, m1, mB, mS, mD, m2⟩ := pst_mixed_loop (Q := Q) (G := G) (pre := pstMixedPre tiny th W H1)
    (entry := fun k _ y => pstMixed tiny th W k y.1) sA (by
      intro x hx
      obtain ⟨k, hk, gk, ek⟩ := qrel (zipIdx_get hx)
      obtain ⟨κ, c1, c2⟩ := (stMixed_ok (th := th) ht hW hth hR h1g h1s gk ek).2
      refine ⟨κ, c1, fun y hy => ⟨_, c2 y.1 (excG _ (List.mem_of_getElem? (zipIdx_get hy))).1, ?_⟩⟩
      have mg := List.mem_of_getElem? (zipIdx_get hy)
      have mk := List.mem_of_getElem? hk
      rw [lenQ, (vals (getG (zipIdx_get hy)) (getq hk) (orth mg) (orthq mk _ aW)).1, orthq mk _ (movA mg), mul_zero,
        sub_zero]) M0
  obtain ⟨M2, a1, aB, aD, a2⟩ := stActLoop_ok (tiny := tiny) (th := th) (W := W) (H0 := H0) (G := G) Q.length sA (by
      intro x hx
      have hx' := zipIdx_get hx
      obtain ⟨κ, c1, c2⟩ := stAct_ok (th := th) ht hW hth hR h0g h0s (excG _ (List.mem_of_getElem? hx')).1
      refine ⟨κ, c1, fun y hy => ?_⟩
      have hy' := zipIdx_drop_get hy
      rw [c2 y.1 (excG _ (List.mem_of_getElem? hy')).1, lenQ, (vact hy' hx').1]
      simp only [beq_iff_eq]) M1
  refine ⟨M2, by
    unfold pstInit
    simp only [hG, hQ, h1, h0, h2, ok_bind, oc2 hno.1, p1, g1, gc2 hno.2]
    rw [o1]
    simp only [ok_bind]
    rw [m1]
    simp only [ok_bind]
    rw [a1], ?_⟩
  intro i j Xi Xid Xj Xjd hi hj hid hjd
  have li : i < n + G.length := by rw [← lenX]; exact (List.getElem?_eq_some_iff.1 hi).1
  have lj : j < n + G.length := by rw [← lenX]; exact (List.getElem?_eq_some_iff.1 hj).1
  have oi : opAt X i = Xi := opAt_of hi
  have oj : opAt X j = Xj := opAt_of hj
  have oid : adj (opAt X i) = Xid := by rw [oi]; exact adj_eq hid
  have ojd : adj (opAt X j) = Xjd := by rw [oj]; exact adj_eq hjd
  have va : FA W X i j = expv W.state (dcomm Xid W.ham Xj) := by unfold FA; rw [oid, oj]
  have vb : FB W X i j = expv W.state (dcomm Xid W.ham Xjd) := by unfold FB; rw [oid, ojd]
  have vs : FS W X i j = expv W.state (comm Xid Xj) := by unfold FS; rw [oid, oj]
  have ket_at : ∀ {i : ℕ}, i < n + G.length → ∃ I, X[i]? = some (ketbra I W.state) ∧ inner W.state I = 0 ∧
      (i < n → ∀ x, ActiveState W.ci.nI W.ci.nA x → inner x I = 0) ∧ (n ≤ i → ActiveState W.ci.nI W.ci.nA I) := by
    intro i h
    by_cases c : i < n
    · obtain ⟨k, hk⟩ := qat c
      have mk := List.mem_of_getElem? hk
      exact ⟨_, getq hk, orthq mk _ aW, fun _ => orthq mk, fun h => by omega⟩
    · obtain ⟨g, hg⟩ := gat (not_lt.1 c) h
      have e := getG hg
      rw [show i - n + n = i by omega] at e
      have mg := List.mem_of_getElem? hg
      exact ⟨_, e, orth mg, fun h => absurd h c, fun _ => movA mg⟩
  obtain ⟨I, kI, oI, qI, gI⟩ := ket_at li
  obtain ⟨J, kJ, oJ, qJ, gJ⟩ := ket_at lj
  obtain ⟨-, t2, t3, t4⟩ := vals kI kJ oI oJ
  rw [oid, ojd] at t4
  rw [lenQ] at m2 a2 o2
  rw [← vs, ← va, ← vb, t4, t2]
  refine ⟨?_, by rw [aD, mD, oD]; rfl, ?_, by rw [aB, mB, oB]; rfl⟩
  · by_cases c : n ≤ i ∧ n ≤ j
    · rw [((a2 i j).1 (by omega)).2, mS, ((o2 i j).2 (by omega)).2]
      obtain ⟨g, hg⟩ := gat c.1 li
      obtain ⟨f, hf⟩ := gat c.2 lj
      have w := (vact hg hf).2
      rw [show i - n + n = i by omega, show j - n + n = j by omega] at w
      rw [w]
      have : i = j ↔ i - n = j - n := by omega
      simp only [this]
      rfl
    · rw [((a2 i j).2 (by omega)).2, mS]
      by_cases d : i < n ∧ j < n
      · rw [((o2 i j).1 d).2]
      · rw [((o2 i j).2 d).2, t3]
        show (0 : ℝ) = _
        by_cases e : i < n
        · rw [inner_comm, qI e _ (gJ (by omega))]
        · rw [qJ (by omega) _ (gI (by omega))]
  · by_cases c : n ≤ i ∧ n ≤ j
    · rw [((a2 i j).1 (by omega)).1]
    · rw [((a2 i j).2 (by omega)).1]
      by_cases d : i < n ∧ j < n
      · rw [(m2 i j).2 (by omega), ((o2 i j).1 d).1]
      · rw [(m2 i j).1 (by omega)]

/-- C96: the wave function objects of the program meet the hypotheses: closed-shell reference determinant, any layout
of excitations, state, density matrices and energy of the stored angles.  The operator `U` is the product of the
exponentials. -/
theorem C96_rotates (ht : ExactTiny tiny) (hb : ExactBig big) {numOrbs numElec cas0 cas1 : ℕ}
    (h : CasFits numOrbs numElec cas0 cas1) (hA : 0 < cas1) (inc : Bool) :
    let s := mkSpaces numOrbs numElec cas0 cas1
    let k := kappaLists s numOrbs inc
    ∃ ci csf, getIndexing s.numInactiveOrbs s.numActiveOrbs s.numVirtualOrbs (cas0 / 2 : ℕ) (cas0 / 2 : ℕ) = .ok ci ∧
      reference ci (hfDet (2 * cas1) cas0) = .ok csf ∧
      ∀ (st : AnsatzStruct) (Ts : List (FOp ℝ)) (thetas : List ℝ) (h : Mat ℝ) (g : Arr4),
        Layout ci.offset ci.nA st.types st.indices Ts → Ts.length = thetas.length → th.Fair ci.idx2det.length →
        RealIntegrals h g →
        ∃ c R1 R2 en, upsVec tiny th ci st thetas false csf = .ok c ∧ upsRdm1 tiny th ci c = .ok R1 ∧
          upsRdm2 tiny th ci c = .ok R2 ∧ upsEnergy tiny big th ci h g st csf thetas = .ok en ∧
          let W : RespWf := ⟨ci, upsVec tiny th ci st thetas, csf, c, h, g, R1, R2, en, s.activeOcc, s.activeUnocc,
            s.activeOccSpin, s.activeUnoccSpin, k.noActiveActive, k.noActiveActiveDagger⟩
          W.Proper ∧ W.energy = expv W.state W.ham ∧ emb W.ci W.csf = ket W.refDet ∧
          ∃ U Ud, W.Rotates U Ud ∧ ∀ v, ∃ y, ExpChain (Ts.zip (thetas.map effAngle)) (stateOf ci v) y ∧
            U (emb ci v) = core (2 * ci.nI) y := by
  intro s k
  obtain ⟨ci, h1, h2⟩ := C94_proper (th := th) ht h hA inc (cas0 / 2 : ℕ) (cas0 / 2 : ℕ)
  obtain ⟨s', -, rfl, -, -, -, ho, hu, -, -, -, hos, hus, -, -, -, -, -, -, -, hnA, hnI, hN⟩ := C38_orbitals h
  have hf := h.enoughElec
  have hf2 := h.evenElec
  have hf3 := h.evenActive
  have hf4 := h.enoughActive
  have h1' := h1
  rw [hnA] at h1'
  obtain ⟨csf, r1, r2⟩ := C73_hartree_fock (R := ℝ) hA (by omega) h1'
  obtain ⟨ci', g1, hs, -⟩ := (C26_spaces s.numInactiveOrbs s.numActiveOrbs s.numVirtualOrbs (cas0 / 2 : ℕ)
    (cas0 / 2 : ℕ) 0).1 (by rw [hnA]; exact hA)
  rw [h1] at g1
  obtain rfl := Except.ok.inj g1
  obtain ⟨ci', g1, e1, -⟩ := C17_space (nA := s.numActiveOrbs) (by rw [hnA]; exact hA)
    s.numInactiveOrbs s.numVirtualOrbs (cas0 / 2 : ℕ) (cas0 / 2 : ℕ)
  rw [h1] at g1
  obtain rfl := Except.ok.inj g1
  refine ⟨ci, csf, h1, by rwa [show 2 * (cas0 / 2) = cas0 by omega] at r1, ?_⟩
  intro st Ts thetas hh g hL hlen hth hreal
  obtain ⟨gs, f1, f2⟩ := layout_facs ht hs hth hL thetas
  obtain ⟨l1, l2⟩ := hL.length
  obtain ⟨u1, u2⟩ := ups_acts f1 (l1.trans hlen) (l2.trans hlen)
  have good := good_of_real f1
  obtain ⟨c, c1, c2⟩ := u1 csf
  have nc : dot ci.idx2det.length c c = 1 := by
    have e := dot_emb hs c c
    unfold emb at e
    rw [inner_core, c2, opOf_inner good, r2, ket, inner_single_single, if_pos rfl, one_mul] at e
    exact e
  obtain ⟨R1, R2, q1, q2, q3⟩ := h2 c nc hth
  refine ⟨c, R1, R2, _, c1, q1, q2, C95_energy ht hb hs hth hh g c1, q3 hh g hreal _ _ _, rfl, ?_, ?_⟩
  · show core (2 * ci.nI) (stateOf ci csf) = _
    rw [r2, ket, core_sgl]
    unfold RespWf.refDet ket
    congr 1
    ext p
    have := hos.2 p
    have hnI' : ci.nI = (numElec - cas0) / 2 := by rw [e1]; exact hnI
    simp only [withCore, Finset.mem_union, Finset.mem_range, Finset.mem_image, List.mem_toFinset]
    rw [this]
    constructor
    · rintro (h | ⟨a, ha, rfl⟩)
      · exact Or.inl h
      · right; omega
    · rintro (h | h)
      · exact Or.inl h
      · exact Or.inr ⟨p - 2 * ci.nI, by omega, by omega⟩
  · set m := 2 * ci.nI with hm
    refine ⟨core m * opOf gs * uncore m, core m * opOf (invFacs gs) * uncore m, ⟨?_, ?_, ?_, ?_, ?_⟩, ?_⟩
    · intro v
      obtain ⟨w, w1, w2⟩ := u1 v
      refine ⟨w, w1, ?_⟩
      show core m (stateOf ci w) = core m (opOf gs (uncore m (core m (stateOf ci v))))
      rw [uncore_core, w2]
    · intro v
      obtain ⟨w, w1, w2⟩ := u2 v
      refine ⟨w, w1, ?_⟩
      show core m (stateOf ci w) = core m (opOf (invFacs gs) (uncore m (core m (stateOf ci v))))
      rw [uncore_core, w2]
    · have a := uncore_adjoint m
      have := (a.mul (opOf_adj good)).mul a.symm
      rwa [← mul_assoc] at this
    · intro v
      show core m (opOf (invFacs gs) (uncore m (core m (opOf gs (uncore m (core m (stateOf ci v))))))) = _
      rw [uncore_core, uncore_core, ← Module.End.mul_apply (opOf (invFacs gs)), (opOf_inv good).1]
      rfl
    · show core m (stateOf ci c) = core m (opOf gs (uncore m (core m (stateOf ci csf))))
      rw [uncore_core, c2]
    · intro v
      refine ⟨opOf gs (stateOf ci v), ?_, ?_⟩
      · rw [← f2]; exact opOf_chain good _
      · show core m (opOf gs (uncore m (core m (stateOf ci v)))) = _
        rw [uncore_core]

/-- Four electrons in four orbitals, two of each active, with one spin-adapted single in the layout. -/
example : CasFits 4 4 2 2 ∧ 0 < 2 ∧ Layout 0 2 ["sa_single"] [[0, 1]] [E 1 0 - E 0 1] := by
  refine ⟨⟨rfl, rfl, by decide, by decide, by decide⟩, by decide, ?_⟩
  exact .cons (.saSingle 0 1 (by simp)) .nil

/-- C96: what the constructor does with a reference state other than the closed-shell determinant, for example the
perfect-pairing determinant of tUPS.  An active excitation that kills the reference still gets norm `1` and the
diagonal element `-E` in `A`, although its operator is zero. -/
theorem C96_pairing_disagree (ht : ExactTiny tiny) (hb : ExactBig big) (hW : W.Proper)
    (hth : th.Fair W.ci.idx2det.length) (hR : W.Rotates U Ud) (excitations : String) {i : ℕ} {T : FOp ℝ}
    (hT : (lrOps W (lettersOf excitations))[i]? = some T) (h0 : T (emb W.ci W.csf) = 0) {M : LRMats}
    (hM : stInit tiny big th W excitations = .ok M) :
    let n := W.kappa.length
    (W.transferOps U (lettersOf excitations))[n + i]? = some 0 ∧
      M.Sigma (n + i) (n + i) = 1 ∧ M.A (n + i) (n + i) = -W.energy := by
  intro n
  obtain ⟨G, hG, opsG, excG⟩ := lrG_ok ht hW excitations
  obtain ⟨Q, hQ, fQ⟩ := lrQ_ok ht hW
  obtain ⟨H1, h1, h1g, h1s⟩ := ham1_gen ht hb W.h W.g W.ci
  obtain ⟨H0, e0, h0g, h0s⟩ := ham0_gen ht hb W.h W.g W.ci
  have lenQ : Q.length = n := fQ.length_eq.symm
  obtain ⟨g, hg, rfl⟩ : ∃ g, G[i]? = some g ∧ T = sumOp g := by
    have : (G.map sumOp)[i]? = some T := by rw [opsG]; exact hT
    rw [List.getElem?_map] at this
    obtain ⟨g, hg, e⟩ := Option.map_eq_some_iff.1 this
    exact ⟨g, hg, e.symm⟩
  have mv0 : W.moved U (sumOp g) = 0 := by unfold RespWf.moved; rw [h0, map_zero]
  let mv : ℕ → Fock ℝ := fun r => W.moved U (opAt (respOps W G) r)
  have hmv : ∀ {i g}, G[i]? = some g → mv (i + n) = W.moved U (sumOp g) := fun h => by
    show W.moved U (opAt _ _) = _
    rw [opAt_G h]
  let fA : ℕ → ℕ → ℝ := fun r c => inner (mv r) (W.ham (mv c)) - if r = c then W.energy else 0
  have sA : ∀ r c, fA r c = fA c r := by
    intro r c
    simp only [fA]
    rw [← ham_adjoint hW, inner_comm]
    simp only [eq_comm]
  unfold stInit at hM
  simp only [hG, hQ, h1, e0, ok_bind] at hM
  have hb : ∀ {α β : Type} {x : Res α} {f : α → Res β} {b : β}, (x >>= f) = .ok b → ∃ a, x = .ok a ∧ f a = .ok b := by
    intro α β x f b h
    cases x with
    | error e => exact absurd h (by simp [bind, Except.bind])
    | ok a => exact ⟨a, rfl, h⟩
  obtain ⟨_, _, hM1⟩ := hb hM
  obtain ⟨_, _, hM2⟩ := hb hM1
  obtain ⟨_, _, hM3⟩ := hb hM2
  obtain ⟨_, _, hM4⟩ := hb hM3
  obtain ⟨M1, m1, hM5⟩ := hb hM4
  obtain ⟨M2, a1, -, -, a2⟩ := stActLoop_ok (tiny := tiny) (th := th) (W := W) (H0 := H0) (G := G) Q.length sA (by
      intro x hx
      have hx' := zipIdx_get hx
      obtain ⟨κ, c1, c2⟩ := stAct_ok (th := th) ht hW hth hR h0g h0s (excG _ (List.mem_of_getElem? hx')).1
      refine ⟨κ, c1, fun y hy => ?_⟩
      have hy' := zipIdx_drop_get hy
      rw [c2 y.1 (excG _ (List.mem_of_getElem? hy')).1, lenQ]
      simp only [fA, hmv hx', hmv hy', beq_iff_eq, Nat.add_right_cancel_iff]) M1
  rw [a1] at hM5
  obtain rfl := Except.ok.inj hM5
  have li := (List.getElem?_eq_some_iff.1 hg).1
  obtain ⟨b1, b2⟩ := (a2 (n + i) (n + i)).1 (by omega)
  refine ⟨?_, ?_, ?_⟩
  · unfold RespWf.transferOps
    rw [List.getElem?_append_right (by simp [n]), List.getElem?_map]
    simp only [n, List.length_map, Nat.add_sub_cancel_left, hT, Option.map_some]
    rw [mv0]
    congr 1
    apply LinearMap.ext
    intro x
    rw [ketbra_apply, smul_zero]; rfl
  · rw [b2, if_pos rfl]
  · rw [b1]
    simp only [fA, if_true]
    rw [show n + i = i + n by omega, hmv hg, mv0, inner_zero_left, zero_sub]

/-- Four electrons in four active orbitals: perfect pairing fills the first and the third orbital, and the excitation
from the first to the third orbital, the first one listed, kills it. -/
example : (mkSpaces 4 4 4 4).activeOcc = [0, 1] ∧ (mkSpaces 4 4 4 4).activeUnocc = [2, 3] ∧
    ppDet 8 4 = .ok [true, true, false, false, true, true, false, false] ∧
    (iterateT1sa [0, 1] [2, 3])[0]?.map (fun x => (x.1, x.2.1)) = some (2, 0) ∧
    qOp 2 0 (ket {0, 1, 4, 5}) = 0 := by
  refine ⟨by decide, by decide, by decide, ?_, ?_⟩
  · simp [iterateT1sa]
  · unfold qOp E
    simp [ket, cr_single, an_single]

end SQ
