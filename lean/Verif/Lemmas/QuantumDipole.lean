import Verif.Lemmas.QuantumResponse
import Verif.Lemmas.ResponseDipole
import Verif.Model.QuantumDipole

/-!
# Lemmas for transition dipole moments with a quantum computer
-/

namespace SQ

variable {tiny big : ℝ → Bool} {W : RespWf} {qev : Dict ℝ → Res ℝ}

theorem qOrbBlocks_block (hW : W.Proper) {doRdm : Bool} {Q : List (Dict ℝ)} {M : LRMats}
    (hn : Q.length = W.kappa.length) (h : qOrbBlocks tiny big qev W doRdm Q LRMats.zero = .ok M) :
    BlockMetric Q.length M := by
  unfold qOrbBlocks at h
  split at h
  · unfold qOrbLoop at h
    obtain ⟨_, -, h⟩ := Res.of_bind h
    refine lrLoop_inv (BlockMetric Q.length) (fun x hx y hy M v hM => blockMetric_sigma ?_ hM) (blockMetric_zero _) h
    have a := idx_zipIdx hx
    have b := idx_drop hy a
    omega
  · obtain rfl := Except.ok.inj h
    exact blockMetric_orb hW hn

theorem qnRun_block (hW : W.Proper) {doRdm doGradients : Bool} {L : QLR} {M : LRMats} (hz : L.M = LRMats.zero)
    (hn : L.Q.length = W.kappa.length) (h : qnRun tiny big qev W doRdm doGradients L = .ok M) :
    BlockMetric L.Q.length M := by
  unfold qnRun at h
  rw [hz] at h
  have key : ∀ {x : Res LRMats}, x = (do
      let M ← qOrbBlocks tiny big qev W doRdm L.Q LRMats.zero
      let M ← lrLoop L.Q.zipIdx (fun _ => L.G.zipIdx) (fun qJ => pure qJ)
        (fun _ x y => qnMixed tiny qev W L.H1 x.1 y.1)
        (fun M i j v => { M with A := setSym M.A (i + L.Q.length) j v.1, B := setSym M.B (i + L.Q.length) j v.2 }) M
      lrLoop L.G.zipIdx (fun j => (L.G.drop j).zipIdx j) (fun GJ => pure GJ)
        (fun _ x y => qnAct tiny qev W L.H0 x.1 y.1)
        (fun M i j v => { M with
          A := setSym M.A (i + L.Q.length) (j + L.Q.length) v.1
          B := setSym M.B (i + L.Q.length) (j + L.Q.length) v.2.1
          Sigma := setSym M.Sigma (i + L.Q.length) (j + L.Q.length) v.2.2 }) M) → x = .ok M →
      BlockMetric L.Q.length M := by
    rintro x rfl h
    obtain ⟨M1, h1, h⟩ := Res.of_bind h
    obtain ⟨M2, h2, h⟩ := Res.of_bind h
    refine lrLoop_inv (BlockMetric L.Q.length) (fun x _ y _ M v hM => blockMetric_sigma (by omega) hM) ?_ h
    exact lrLoop_inv (BlockMetric L.Q.length) (fun x _ y _ M v hM => hM) (qOrbBlocks_block hW hn h1) h2
  simp only [] at h
  split at h
  · obtain ⟨_, -, h⟩ := Res.of_bind h
    split at h
    · obtain ⟨_, -, h⟩ := Res.of_bind h
      exact key rfl h
    · exact key rfl h
  · split at h
    · obtain ⟨_, -, h⟩ := Res.of_bind h
      exact key rfl h
    · exact key rfl h

theorem qpActLoop_block {L : QLR} {E : List (ℝ × ℝ)} {M M' : LRMats} (hM : BlockMetric L.Q.length M)
    (h : qpActLoop tiny qev W L E M = .ok M') : BlockMetric L.Q.length M' :=
  lrLoop_inv (BlockMetric L.Q.length) (fun _ _ _ _ _ _ hM => blockMetric_sigma (by omega) hM) hM h

theorem qpRun_block (hW : W.Proper) {doRdm doGradients : Bool} {L : QLR} {M : LRMats} {E : List (ℝ × ℝ)}
    (hz : L.M = LRMats.zero) (hn : L.Q.length = W.kappa.length)
    (h : qpRun tiny big qev W doRdm doGradients L = .ok (M, E)) : BlockMetric L.Q.length M := by
  unfold qpRun at h
  rw [hz] at h
  have key : ∀ {x : Res (LRMats × List (ℝ × ℝ))}, x = (do
      let E ← L.G.mapM (qpExp tiny qev W L.H0)
      let M ← qOrbBlocks tiny big qev W doRdm L.Q LRMats.zero
      let M ← lrLoop L.Q.zipIdx (fun _ => L.G.zipIdx) (fun qJ => pure qJ)
        (fun _ x y => qpMixed tiny qev W L.H1 x.1 y.1)
        (fun M i j v => { M with A := setSym M.A j (i + L.Q.length) v.1, B := setSym M.B j (i + L.Q.length) v.2 }) M
      let M ← qpActLoop tiny qev W L E M
      pure (M, E)) → x = .ok (M, E) → BlockMetric L.Q.length M := by
    rintro x rfl h
    obtain ⟨_, -, h⟩ := Res.of_bind h
    obtain ⟨M1, h1, h⟩ := Res.of_bind h
    obtain ⟨M2, h2, h⟩ := Res.of_bind h
    obtain ⟨M3, h3, h⟩ := Res.of_bind h
    obtain ⟨rfl, rfl⟩ := Prod.mk.inj (Except.ok.inj h)
    refine qpActLoop_block ?_ h3
    exact lrLoop_inv (BlockMetric L.Q.length) (fun x _ y _ M v hM => hM) (qOrbBlocks_block hW hn h1) h2
  simp only [] at h
  split at h
  · obtain ⟨_, -, h⟩ := Res.of_bind h
    exact key rfl h
  · exact key rfl h

theorem qaRun_block {doGradients : Bool} {L : QLR} {M : LRMats} {E : List (ℝ × ℝ)} (hz : L.M = LRMats.zero)
    (h : qaRun tiny big qev W doGradients L = .ok (M, E)) : BlockMetric L.Q.length M := by
  unfold qaRun at h
  rw [hz] at h
  have key : ∀ {x : Res (LRMats × List (ℝ × ℝ))} (H2 : Dict ℝ) (E' : List (ℝ × ℝ)), x = (do
      let M ← lrLoop L.Q.zipIdx (fun j => (L.Q.drop j).zipIdx j) (fun qJ => pure qJ)
        (fun _ x y => qaOrb tiny qev W H2 x.1 y.1)
        (fun M i j v => { M with A := setSym M.A i j v.1, Sigma := setSym M.Sigma i j v.2 }) LRMats.zero
      let M ← lrLoop L.Q.zipIdx (fun _ => L.G.zipIdx) (fun qJ => pure qJ)
        (fun _ x y => qaMixed tiny qev W L.H1 x.1 y.1)
        (fun M i j v => { M with A := setSym M.A j (i + L.Q.length) v }) M
      let M ← qpActLoop tiny qev W L E' M
      pure (M, E')) → x = .ok (M, E) → BlockMetric L.Q.length M := by
    rintro x H2 E' rfl h
    obtain ⟨M1, h1, h⟩ := Res.of_bind h
    obtain ⟨M2, h2, h⟩ := Res.of_bind h
    obtain ⟨M3, h3, h⟩ := Res.of_bind h
    obtain ⟨rfl, rfl⟩ := Prod.mk.inj (Except.ok.inj h)
    refine qpActLoop_block ?_ h3
    refine lrLoop_inv (BlockMetric L.Q.length) (fun x _ y _ M v hM => hM) ?_ h2
    refine lrLoop_inv (BlockMetric L.Q.length) (fun x hx y hy M v hM => blockMetric_sigma ?_ hM) (blockMetric_zero _) h1
    have a := idx_zipIdx hx
    have b := idx_drop hy a
    omega
  simp only [] at h
  obtain ⟨H2, -, h⟩ := Res.of_bind h
  obtain ⟨E', -, h⟩ := Res.of_bind h
  split at h
  · obtain ⟨_, -, h⟩ := Res.of_bind h
    exact key H2 E' rfl h
  · exact key H2 E' rfl h

/-- The roots of the circuit class are those the classical class finds with a positive Hessian. -/
theorem qsolve_solve {lib : LRLib} {q g : ℕ} {M : LRMats} {out : LROut ((q + g) + (q + g))}
    (hD : ∀ i j, M.Delta i j = 0) (ho : M.qsolve lib q g = .ok out) :
    M.solve { lib with eigvals := fun _ _ => [1] } q g = .ok { out with warned := false } := by
  unfold LRMats.qsolve at ho
  obtain ⟨o, h1, h2⟩ := Res.of_bind ho
  have ho' : o = out := by
    split at h2
    · cases h2
    · exact Except.ok.inj h2
  subst ho'
  have hd : LRMats.arr (q + g) M.Delta = 0 := by
    funext i j
    exact hD i j
  unfold calcExcitations at h1
  obtain ⟨w, -, h1⟩ := Res.of_bind h1
  obtain rfl := Except.ok.inj h1
  unfold LRMats.solve calcExcitations hessianCheck minEig
  simp only [ok_bind, List.foldl_nil, if_true]
  rw [if_neg (by norm_num), if_neg (by norm_num), hd]
  rfl

/-- The naive class: one component for one state. -/
theorem qnDip_ok (ht : ExactTiny tiny) (hb : ExactBig big) (hq : ExactQuantum W.ci W.c qev)
    {x : Mat ℝ} (hx : ∀ p q, x p q = x q p) {q nexc : ℕ} {G : List (Dict ℝ)} (hG : ∀ d ∈ G, ActOp W.ci d) :
    ∃ k, oneElec0i0a tiny big x W.ci.nI W.ci.nA = .ok k ∧ ∀ (v : Fin ((q + G.length) + (q + G.length)) → ℝ) (qp : ℝ),
      dipQ W q nexc x v = .ok qp → ∀ B : Fin G.length → FOp ℝ, (∀ i, IsAdjoint (sumOp G[i]) (B i)) →
      qnDip tiny qev W G nexc v x k = .ok (qp + ∑ i : Fin G.length,
        (zg v i * expv W.state (comm (sumOp G[i]) (oneOp x W.numOrbs))
          + yg v i * expv W.state (comm (B i) (oneOp x W.numOrbs)))) := by
  have aW : ActiveState W.ci.nI W.ci.nA W.state := emb_active W.ci _
  have hM := oneOp_adjoint hx W.numOrbs
  obtain ⟨d, a1, a3, a5⟩ := one0_gen ht hb x W.ci
  refine ⟨d, a1, fun v qp hqp B hB => ?_⟩
  obtain ⟨T, t1, t2, t3⟩ := naiveTransfer_ok (tiny := tiny) ht hG v
  obtain ⟨Td, d1, d2, d3⟩ := t2.dagger ht
  obtain ⟨c, c1, c2, c3⟩ := a3.commutator ht t2.gen
  have e : inner W.state (sumOp c W.state) = expv W.state (comm (oneOp x W.numOrbs) (sumOp T)) := by
    rw [c3, expv_comm]
    simp only [comm, LinearMap.sub_apply, Module.End.mul_apply, inner_sub_right]
    rw [a5 _ _ aW (active_sumOp t2.2 aW), ← d3.symm, a5 _ _ (active_sumOp d2.2 aW) aW, d3.symm]
    rfl
  unfold qnDip
  simp only [t1, hqp, ok_bind]
  have val : expv W.state (comm (oneOp x W.numOrbs) (sumOp T)) = ∑ i : Fin G.length,
        (zg v i * expv W.state (comm (sumOp G[i]) (oneOp x W.numOrbs))
          + yg v i * expv W.state (comm (B i) (oneOp x W.numOrbs))) := by
    rw [comm_neg_swap, expv_neg, t3 B hB, expv_comm_sum_left, ← Finset.sum_neg_distrib]
    refine Finset.sum_congr rfl fun i _ => ?_
    rw [comm_add_left, expv_add, comm_smul_left, comm_smul_left, expv_smul, expv_smul, expv_comm_adj (hB i) hM]
    ring
  split
  · rw [c1, ok_bind, qexp_ok hq c2, ok_bind, e, val]
    rfl
  · rename_i h0
    have h0 : G = [] := List.length_eq_zero_iff.1 (not_not.1 h0)
    subst h0
    rw [pure_bind]
    simp
    rfl

/-- The projected classes. -/
theorem qpDip_ok (ht : ExactTiny tiny) (hb : ExactBig big) (hW : W.Proper) (hq : ExactQuantum W.ci W.c qev)
    {x : Mat ℝ} (hx : ∀ p q, x p q = x q p) {q nexc : ℕ} {G : List (Dict ℝ)} (hG : ∀ d ∈ G, ActOp W.ci d)
    {E : List (ℝ × ℝ)} (hE : ∀ i : Fin G.length, ∃ e, E[(i : ℕ)]? = some (expv W.state (sumOp G[i]), e)) :
    ∃ k, oneElec0i0a tiny big x W.ci.nI W.ci.nA = .ok k ∧ ∀ (v : Fin ((q + G.length) + (q + G.length)) → ℝ) (qp : ℝ),
      dipQ W q nexc x v = .ok qp → ∀ B : Fin G.length → FOp ℝ, (∀ i, IsAdjoint (projOp W.state (sumOp G[i])) (B i)) →
      qpDip tiny qev W G E nexc v x k = .ok (qp + ∑ i : Fin G.length,
        (zg v i * expv W.state (comm (projOp W.state (sumOp G[i])) (oneOp x W.numOrbs))
          + yg v i * expv W.state (comm (B i) (oneOp x W.numOrbs)))) := by
  have aW : ActiveState W.ci.nI W.ci.nA W.state := emb_active W.ci _
  have hM := oneOp_adjoint hx W.numOrbs
  obtain ⟨d, a1, a3, a5⟩ := one0_gen ht hb x W.ci
  refine ⟨d, a1, fun v qp hqp B hB => ?_⟩
  unfold qpDip
  rw [hqp, ok_bind, qexp_ok hq a3, ok_bind]
  rw [foldlM_fin (val := fun i => zg v i * expv W.state (comm (projOp W.state (sumOp G[i])) (oneOp x W.numOrbs))
    + yg v i * expv W.state (comm (B i) (oneOp x W.numOrbs))), ok_bind, zero_add]
  · rfl
  intro i s
  have hi := hG G[i] (List.getElem_mem _)
  obtain ⟨e, he⟩ := hE i
  obtain ⟨Gd, d1, d2, d3⟩ := hi.dagger ht
  obtain ⟨p, p1, p2, p3⟩ := d2.gen.mul ht a3
  unfold qpAt
  simp only [he, d1, p1, qexp_ok hq p2, ok_bind]
  refine congrArg Except.ok ?_
  have e1 : inner W.state (sumOp p W.state) = inner (sumOp G[i] W.state) (oneOp x W.numOrbs W.state) := by
    rw [p3, Module.End.mul_apply, ← d3, a5 _ _ (active_sumOp hi.2 aW) aW]
    rfl
  have e2 : inner W.state (sumOp d W.state) = inner W.state (oneOp x W.numOrbs W.state) := a5 _ _ aW aW
  rw [expv_comm_adj (hB i) hM, e1, e2, expv_comm]
  unfold projOp
  simp only [LinearMap.sub_apply, LinearMap.smul_apply, Module.End.one_apply, ketbra_apply, map_sub, map_smul,
    inner_sub_right, inner_smul_right, hW.norm]
  rw [hM.symm (sumOp G[i] W.state) W.state |>.symm.trans (inner_comm _ _)]
  unfold expv
  ring

end SQ
