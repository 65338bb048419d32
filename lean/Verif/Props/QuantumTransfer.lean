import Verif.Lemmas.QuantumTransfer
import Verif.Props.QuantumDipole

/-!
# C110, C111: state-transfer and self-consistent linear response with a quantum computer

`ExactCsfs`, `RespWf.HFStart`, `transferAct`, `scOps`: Spec/QuantumTransfer.lean.
-/

namespace SQ

variable {tiny big : ℝ → Bool} {W : RespWf} {U Ud : FOp ℝ} {qcsf : Csf → Dict ℝ → Csf → Res ℝ} {na nb : ℕ}

/-- C110, expansion: an operator on `n` orbitals applied to the Hartree-Fock determinant is returned as lists of
coefficients and occupation strings of that state. -/
theorem C110_expansion {n : ℕ} (hn : 0 < n) (na nb : ℕ) {A : Dict ℝ} (hA : ∀ kv ∈ A, ∀ o ∈ kv.1, o.1 < 2 * n) :
    ∃ s, expandHF n na nb A = .ok s ∧ Csf.Good n s ∧ csfFock s = sumOp A (ket (hfOcc n na nb)) := by
  obtain ⟨s, h1, h2, h3, -⟩ := expandHF_ok hn na nb hA
  exact ⟨s, h1, h2, h3⟩

/-- What the constructor stores. -/
theorem qt_setup (ht : ExactTiny tiny) (hb : ExactBig big) (hW : W.Proper) (excitations : String) :
    ∃ L, qlrInit tiny big W excitations = .ok L ∧ L.G.map sumOp = lrOps W (lettersOf excitations) ∧
      (∀ d ∈ L.G, ActOp W.ci d) ∧ L.Q.length = W.kappa.length ∧ GenOp W.ci L.H0 ∧
      ∀ x y, ActiveState W.ci.nI W.ci.nA x → ActiveState W.ci.nI W.ci.nA y → inner x (sumOp L.H0 y) = inner x (W.ham y) := by
  obtain ⟨G, hG, opsG, excG⟩ := lrG_ok ht hW excitations
  obtain ⟨Q, hQ, fQ⟩ := lrQ_ok ht hW
  obtain ⟨H1, h1, h1g, h1s⟩ := ham1_gen ht hb W.h W.g W.ci
  obtain ⟨H0, h0, h0g, h0s⟩ := ham0_gen ht hb W.h W.g W.ci
  exact ⟨⟨H0, H1, G, Q, LRMats.zero⟩, by unfold qlrInit; simp only [h0, h1, hG, hQ, ok_bind]; rfl, opsG,
    fun d hd => (excG d hd).1, fQ.length_eq.symm, h0g, h0s⟩

/-- The operators by position. -/
theorem qt_ops (ht : ExactTiny tiny) {excitations : String} {G : List (Dict ℝ)}
    (opsG : G.map sumOp = lrOps W (lettersOf excitations)) (hG : ∀ d ∈ G, ActOp W.ci d) :
    (∀ (i : ℕ) g, G[i]? = some g → opAt (lrOps W (lettersOf excitations)) i = sumOp g) ∧
    ∀ i, IsAdjoint (opAt (lrOps W (lettersOf excitations)) i) (adj (opAt (lrOps W (lettersOf excitations)) i)) := by
  rw [← opsG]
  refine ⟨fun i g h => opAt_of (by rw [List.getElem?_map, h]; rfl), opAt_adj fun T hT => ?_⟩
  obtain ⟨d, hd, rfl⟩ := List.mem_map.1 hT
  obtain ⟨_, -, -, h⟩ := (hG d hd).dagger ht
  exact ⟨_, h⟩

/-- C110: on an interface that measures matrix elements between determinants exactly, state-transfer linear response
refuses to run when there are orbital rotations and it is not told to skip them.  Otherwise it runs, and leaves the
matrices of the operators `U G |ref⟩⟨0|` as the classical class does (C96), whatever the gradient. -/
theorem C110_transfer (ht : ExactTiny tiny) (hb : ExactBig big) (hW : W.Proper) (hE : W.energy = expv W.state W.ham)
    (hR : W.Rotates U Ud) (hS : W.HFStart na nb) (hq : ExactCsfs W qcsf) (excitations : String) :
    let X := W.transferAct U (lettersOf excitations)
    ∃ L, qlrInit tiny big W excitations = .ok L ∧ L.G.length = X.length ∧ ∀ skip doGradients,
      (W.kappa ≠ [] → skip = false → qstRun qcsf W na nb skip doGradients L = .error .notImplemented) ∧
      (W.kappa = [] ∨ skip = true → ∃ M S, qstRun qcsf W na nb skip doGradients L = .ok (M, S) ∧
        ∀ i j Xi Xid Xj Xjd, X[i]? = some Xi → X[j]? = some Xj → IsAdjoint Xi Xid → IsAdjoint Xj Xjd →
          M.Sigma i j = expv W.state (comm Xid Xj) ∧
          M.Delta i j = expv W.state (comm Xid Xjd) ∧
          M.A i j = expv W.state (dcomm Xid W.ham Xj) ∧
          M.B i j = expv W.state (dcomm Xid W.ham Xjd)) := by
  intro X
  obtain ⟨L, hL, opsG, hG, lenQ, h0g, h0s⟩ := qt_setup ht hb hW excitations
  have lenG : L.G.length = (lrOps W (lettersOf excitations)).length := by rw [← opsG, List.length_map]
  refine ⟨L, hL, by rw [lenG]; exact (List.length_map _).symm, fun skip doGradients => ?_⟩
  obtain ⟨hT, hTd⟩ := qt_ops ht opsG hG
  obtain ⟨S, s1, s2, s3, s4⟩ := qstStates_ok (Td := fun i => adj (opAt (lrOps W (lettersOf excitations)) i)) ht hW.space
    hS.orbitals hS.electrons hS.active hG hT
  have c : TransferCtx W U Ud qcsf (opAt (lrOps W (lettersOf excitations)))
      (fun i => adj (opAt (lrOps W (lettersOf excitations)) i)) S L.H0 W.ham := ⟨hq, hR, h0g, h0s, ham_adjoint hW, s2⟩
  refine ⟨fun hk hs => ?_, fun hk => ?_⟩
  · unfold qstRun
    rw [s1, ok_bind, if_pos]
    rw [lenQ]
    exact ⟨fun h => hk (List.length_eq_zero_iff.1 h), hs⟩
  obtain ⟨M, m1, m2, m3, m4⟩ := qtLoop_ok (G := L.G)
    (entry := fun _ x y => qstAct qcsf W S (getFolded W.ci.nI W.ci.nA W.ci.nV L.H0) x.2 y.2)
    (put := fun M i j v => { M with
        A := setSym M.A i j v
        Sigma := if i = j then set2 M.Sigma i j 1 else M.Sigma })
    (v := fun i j => inner (U (opAt (lrOps W (lettersOf excitations)) i (emb W.ci W.csf)))
      (W.ham (U (opAt (lrOps W (lettersOf excitations)) j (emb W.ci W.csf)))) - if i = j then W.energy else 0)
    (fun j i h1 h2 x y _ e1 e2 => by
      subst e1 e2
      exact c.st (s4 _ h2) (s4 _ (by omega))) (by intro _ _ _ _; rfl)
  obtain ⟨gr, g1⟩ := c.grad (G := L.G) s3 s4
  refine ⟨M, S, ?_, ?_⟩
  · unfold qstRun
    rw [s1, ok_bind, if_neg (by
      rw [lenQ]
      rintro ⟨h1, h2⟩
      rcases hk with hk | hk
      · rw [hk] at h1; exact h1 rfl
      · rw [hk] at h2; cases h2)]
    dsimp only
    rw [g1, m1]
    cases doGradients <;> rfl
  obtain ⟨st1, st2⟩ := C96_states (th := .one) ht hW trivial hR hS.closed excitations
  have hXi : ∀ {i : ℕ} {Xi : FOp ℝ}, X[i]? = some Xi → ∃ Gi, (lrOps W (lettersOf excitations))[i]? = some Gi ∧
      Xi = ketbra (W.moved U Gi) W.state := by
    intro i Xi h
    unfold X RespWf.transferAct at h
    rw [List.getElem?_map] at h
    obtain ⟨Gi, e1, e2⟩ := Option.map_eq_some_iff.1 h
    exact ⟨Gi, e1, e2.symm⟩
  intro i j Xi Xid Xj Xjd hi hj hid hjd
  obtain ⟨Gi, gi, rfl⟩ := hXi hi
  obtain ⟨Gj, gj, rfl⟩ := hXi hj
  obtain rfl := hid.unique (ketbra_adjoint _ _)
  obtain rfl := hjd.unique (ketbra_adjoint _ _)
  have li : i < L.G.length := by rw [lenG]; exact (List.getElem?_eq_some_iff.1 gi).1
  have lj : j < L.G.length := by rw [lenG]; exact (List.getElem?_eq_some_iff.1 gj).1
  have oi := st2 _ (List.mem_of_getElem? gi)
  have oj := st2 _ (List.mem_of_getElem? gj)
  obtain ⟨t1, t2, -⟩ := transfer_S (H := W.ham) hW.norm oi oj
  have ei : U (opAt (lrOps W (lettersOf excitations)) i (emb W.ci W.csf)) = W.moved U Gi := by rw [opAt_of gi]; rfl
  have ej : U (opAt (lrOps W (lettersOf excitations)) j (emb W.ci W.csf)) = W.moved U Gj := by rw [opAt_of gj]; rfl
  refine ⟨?_, ?_, ?_, ?_⟩
  · rw [m2 i j li lj, t1, st1 i j _ _ gi gj]
  · rw [m3 LRMats.Delta (by intro _ _ _ _; rfl), t2]
    rfl
  · rw [m4 LRMats.A (fun v => v) (by intro _ _ _ _; rfl) i j li lj, transfer_A hW.norm oi oj, st1 i j _ _ gi gj, ← hE]
    rcases le_total j i with h | h
    · rw [max_eq_left h, min_eq_right h, ei, ej]
      split <;> simp
    · rw [max_eq_right h, min_eq_left h, ei, ej, ← ham_adjoint hW, inner_comm]
      by_cases e : i = j
      · rw [if_pos e, if_pos e.symm, mul_one]
      · rw [if_neg e, if_neg (fun k => e k.symm), mul_zero]
  · rw [m3 LRMats.B (by intro _ _ _ _; rfl), transfer_B oi oj]
    rfl

/-- The operators of the self-consistent class on the wave function. -/
theorem sc_ops (ht : ExactTiny tiny) (hW : W.Proper) (hR : W.Rotates U Ud) (hS : W.HFStart na nb)
    {excitations : String} {G : List (Dict ℝ)} (opsG : G.map sumOp = lrOps W (lettersOf excitations))
    (hG : ∀ d ∈ G, ActOp W.ci d) {i : ℕ} {Xi Xid : FOp ℝ} (hi : (W.scOps U Ud (lettersOf excitations))[i]? = some Xi)
    (hid : IsAdjoint Xi Xid) : ∃ Gi Gid, (lrOps W (lettersOf excitations))[i]? = some Gi ∧ IsAdjoint Gi Gid ∧
      Xid W.state = 0 ∧ Xi W.state = U (Gi (emb W.ci W.csf)) ∧
      ∀ v, ∃ w w', emb W.ci w = Gi (emb W.ci v) ∧ Xi (U (emb W.ci v)) = U (Gi (emb W.ci v)) ∧
        emb W.ci w' = Gid (emb W.ci v) ∧ Xid (U (emb W.ci v)) = U (Gid (emb W.ci v)) := by
  unfold RespWf.scOps at hi
  rw [List.getElem?_map] at hi
  obtain ⟨Gi, gi, rfl⟩ := Option.map_eq_some_iff.1 hi
  have mem : Gi ∈ G.map sumOp := by rw [opsG]; exact List.mem_of_getElem? gi
  obtain ⟨d, hd, rfl⟩ := List.mem_map.1 mem
  obtain ⟨d', d1, d2, d3⟩ := (hG d hd).dagger ht
  have hXd : Xid = U * sumOp d' * Ud := hid.unique (by
    have := (hR.adjoint.mul d3).mul hR.adjoint.symm
    rwa [← mul_assoc] at this)
  subst hXd
  have up : ∀ v, (U * sumOp d * Ud) (U (emb W.ci v)) = U (sumOp d (emb W.ci v)) := fun v => by
    rw [Module.End.mul_apply, Module.End.mul_apply, hR.inverse]
  have dn : ∀ v, (U * sumOp d' * Ud) (U (emb W.ci v)) = U (sumOp d' (emb W.ci v)) := fun v => by
    rw [Module.End.mul_apply, Module.End.mul_apply, hR.inverse]
  refine ⟨sumOp d, sumOp d', gi, d3, ?_, by rw [hR.state, up], fun v => ?_⟩
  · rw [hR.state, dn, hS.closed, adj_ref hW _ (List.mem_of_getElem? gi) d3, map_zero]
  · obtain ⟨w, -, w2⟩ := fold_act ht hW.space (hG d hd) v
    obtain ⟨w', -, w2'⟩ := fold_act ht hW.space d2 v
    exact ⟨w, w', w2, up v, w2', dn v⟩

/-- C111: on an interface that measures matrix elements between determinants exactly, self-consistent linear response
refuses to run when there are orbital rotations and it is not told to skip them.  Otherwise it runs, and leaves the
matrices of the operators `U G U†`: the metric, and in the lower triangles of the Hessian the nested commutators, which
are mirrored. -/
theorem C111_selfconsistent (ht : ExactTiny tiny) (hb : ExactBig big) (hW : W.Proper) (hR : W.Rotates U Ud)
    (hS : W.HFStart na nb) (hq : ExactCsfs W qcsf) (excitations : String) :
    let X := W.scOps U Ud (lettersOf excitations)
    ∃ L, qlrInit tiny big W excitations = .ok L ∧ L.G.length = X.length ∧ ∀ skip doGradients,
      (W.kappa ≠ [] → skip = false → qscRun tiny qcsf W na nb skip doGradients L = .error .notImplemented) ∧
      (W.kappa = [] ∨ skip = true → ∃ M S, qscRun tiny qcsf W na nb skip doGradients L = .ok (M, S) ∧
        ∀ i j Xi Xid Xj Xjd, X[i]? = some Xi → X[j]? = some Xj → IsAdjoint Xi Xid → IsAdjoint Xj Xjd →
          M.Sigma i j = expv W.state (comm Xid Xj) ∧
          M.Delta i j = expv W.state (comm Xid Xjd) ∧
          M.A j i = M.A i j ∧ M.B j i = M.B i j ∧
          (j ≤ i →
            M.A i j = expv W.state (comm Xid (comm W.ham Xj)) ∧
            M.B i j = expv W.state (comm Xid (comm W.ham Xjd)))) := by
  intro X
  obtain ⟨L, hL, opsG, hG, lenQ, h0g, h0s⟩ := qt_setup ht hb hW excitations
  have lenG : L.G.length = (lrOps W (lettersOf excitations)).length := by rw [← opsG, List.length_map]
  refine ⟨L, hL, by rw [lenG]; exact (List.length_map _).symm, fun skip doGradients => ?_⟩
  obtain ⟨hT, hTd⟩ := qt_ops ht opsG hG
  obtain ⟨S, s1, s2, s3, s4, s5⟩ := qscStates_ok (na := na) (nb := nb)
    (Td := fun i => adj (opAt (lrOps W (lettersOf excitations)) i)) ht hW.space
    hS.orbitals hS.electrons hS.active hG hT hTd
  have c : TransferCtx W U Ud qcsf (opAt (lrOps W (lettersOf excitations)))
      (fun i => adj (opAt (lrOps W (lettersOf excitations)) i)) S L.H0 W.ham := ⟨hq, hR, h0g, h0s, ham_adjoint hW, s2⟩
  refine ⟨fun hk hs => ?_, fun hk => ?_⟩
  · unfold qscRun
    rw [s1, ok_bind, if_pos]
    rw [lenQ]
    exact ⟨fun h => hk (List.length_eq_zero_iff.1 h), hs⟩
  obtain ⟨M, m1, m2, m3, m4⟩ := qtLoop_ok (G := L.G)
    (entry := fun _ x y => qscAct qcsf S (getFolded W.ci.nI W.ci.nA W.ci.nV L.H0) x.2 y.2)
    (put := fun M i j v => { M with
        A := setSym M.A i j v.1
        B := setSym M.B i j v.2
        Sigma := if i = j then set2 M.Sigma i j 1 else M.Sigma })
    (v := fun i j => (inner (U (opAt (lrOps W (lettersOf excitations)) i (emb W.ci W.csf)))
        (W.ham (U (opAt (lrOps W (lettersOf excitations)) j (emb W.ci W.csf))))
          - inner (U (adj (opAt (lrOps W (lettersOf excitations)) j)
              (opAt (lrOps W (lettersOf excitations)) i (emb W.ci W.csf)))) (W.ham (U (emb W.ci W.csf))),
        - inner (U (opAt (lrOps W (lettersOf excitations)) j (opAt (lrOps W (lettersOf excitations)) i (emb W.ci W.csf))))
          (W.ham (U (emb W.ci W.csf)))))
    (fun j i h1 h2 x y _ e1 e2 => by
      subst e1 e2
      exact c.sc s3 (s4 _ h2) (s4 _ (by omega)) (s5 _ _ h1 h2).1 (s5 _ _ h1 h2).2) (by intro _ _ _ _; rfl)
  obtain ⟨gr, g1⟩ := c.grad (G := L.G) s3 s4
  refine ⟨M, S, ?_, ?_⟩
  · unfold qscRun
    rw [s1, ok_bind, if_neg (by
      rw [lenQ]
      rintro ⟨h1, h2⟩
      rcases hk with hk | hk
      · rw [hk] at h1; exact h1 rfl
      · rw [hk] at h2; cases h2)]
    dsimp only
    rw [g1, m1]
    cases doGradients <;> rfl
  obtain ⟨st1, -⟩ := C96_states (th := .one) ht hW trivial hR hS.closed excitations
  have hHa := ham_adjoint hW
  intro i j Xi Xid Xj Xjd hi hj hid hjd
  obtain ⟨Gi, Gid, gi, gid, zi, ai, vi⟩ := sc_ops ht hW hR hS opsG hG hi hid
  obtain ⟨Gj, Gjd, gj, gjd, zj, aj, vj⟩ := sc_ops ht hW hR hS opsG hG hj hjd
  have li : i < L.G.length := by rw [lenG]; exact (List.getElem?_eq_some_iff.1 gi).1
  have lj : j < L.G.length := by rw [lenG]; exact (List.getElem?_eq_some_iff.1 gj).1
  have eA := fun r c hr hc => m4 LRMats.A (fun v => v.1) (by intro _ _ _ _; rfl) r c hr hc
  have eB := fun r c hr hc => m4 LRMats.B (fun v => v.2) (by intro _ _ _ _; rfl) r c hr hc
  have z : ∀ {Y Yd : FOp ℝ}, IsAdjoint Y Yd → Yd W.state = 0 → ∀ x, inner W.state (Y x) = 0 := fun h h' x => by
    rw [← h.symm, h', inner_zero_left]
  refine ⟨?_, ?_, ?_, ?_, fun hji => ?_⟩
  · rw [m2 i j li lj, expv, comm, LinearMap.sub_apply, Module.End.mul_apply, Module.End.mul_apply, zi, map_zero, sub_zero,
      ← hid, ai, aj]
    exact (st1 i j _ _ gi gj).symm
  · rw [m3 LRMats.Delta (by intro _ _ _ _; rfl), expv, comm, LinearMap.sub_apply, Module.End.mul_apply,
      Module.End.mul_apply, zi, zj, map_zero, map_zero, sub_zero, inner_zero_right]
    rfl
  · rw [eA j i lj li, eA i j li lj, max_comm, min_comm]
  · rw [eB j i lj li, eB i j li lj, max_comm, min_comm]
  obtain ⟨w, -, w1, -, -, -⟩ := vi W.csf
  obtain ⟨-, -, -, u1, -, u2⟩ := vj w
  rw [w1, ← ai] at u1 u2
  refine ⟨?_, ?_⟩
  · rw [eA i j li lj, max_eq_left hji, min_eq_right hji, opAt_of gi, opAt_of gj, adj_eq gjd, ← hR.state, ← ai, ← aj]
    have e : U (Gjd (Gi (emb W.ci W.csf))) = Xjd (Xi W.state) := by rw [u2]
    rw [e]
    unfold expv comm
    simp only [LinearMap.sub_apply, Module.End.mul_apply, zi, map_sub, map_zero, inner_sub_right, inner_zero_right,
      sub_zero]
    rw [← hid, ← hid, hjd.symm]
  · rw [eB i j li lj, max_eq_left hji, min_eq_right hji, opAt_of gi, opAt_of gj, ← hR.state]
    have e : U (Gj (Gi (emb W.ci W.csf))) = Xj (Xi W.state) := by rw [u1]
    rw [e]
    unfold expv comm
    simp only [LinearMap.sub_apply, Module.End.mul_apply, zi, zj, map_sub, map_zero, inner_sub_right, inner_zero_right,
      sub_zero, zero_sub]
    rw [← hid, inner_neg_right, ← hjd]

end SQ
