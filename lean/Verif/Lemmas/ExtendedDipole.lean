import Verif.Lemmas.ExtendedStates
import Verif.Lemmas.ResponseDipole
import Verif.Props.Truncated

/-!
# Lemmas: transition dipole moments in the extended determinant space
-/

namespace SQ

section
variable {tiny big : ℝ → Bool}

theorem keys_one1 (h : ℕ → ℕ → ℝ) (nI nA nV : ℕ) :
    RKeys (· < 2 * (nI + nA + nV)) (fun _ => 0) (oneElec1i1a tiny big h nI nA nV) :=
  (Keeps.foldlM _ fun _ hp => Keeps.foldlM _ fun _ hq =>
      Keeps.ite _ Keeps.pure (keeps_addEif _ (both_lt (List.mem_range.1 hp)) (both_lt (List.mem_range.1 hq)))) [] keys_nil

/-- `one_elec_op_1i_1a`: the full operator as soon as one of the states is active. -/
theorem one1_gen (ht : ExactTiny tiny) (hb : ExactBig big) (h : ℕ → ℕ → ℝ) (ci : CIInfo) :
    ∃ H, oneElec1i1a tiny big h ci.nI ci.nA ci.nV = .ok H ∧ GenOp ci H ∧
      ∀ x y, ActiveState ci.nI ci.nA x →
        inner x (sumOp H y) = inner x (oneOp h (ci.nI + ci.nA + ci.nV) y) ∧
        inner y (sumOp H x) = inner y (oneOp h (ci.nI + ci.nA + ci.nV) x) := by
  obtain ⟨d, hd, hn, -⟩ := den_oneElec1i1a ht hb h ci.nI ci.nA ci.nV
  refine ⟨d, hd, ⟨hn, keys_one1 (tiny := tiny) (big := big) h ci.nI ci.nA ci.nV d hd⟩, fun x y hx => ?_⟩
  obtain ⟨d', f, e1, e2, e3, e4⟩ := C93_property ht hb h ci.nI ci.nA ci.nV hx y
  rw [hd] at e1
  obtain rfl := Except.ok.inj e1
  rw [e3, e4]
  obtain ⟨f', k1, -, k3⟩ := (C11_form ht hb h (fun _ _ _ _ => 0) (ci.nI + ci.nA + ci.nV)).2
  rw [k1] at e2
  obtain rfl := Except.ok.inj e2
  rw [k3]
  exact ⟨rfl, rfl⟩

end

/-- `⟨[T, μ]⟩` and `⟨[T†, μ]⟩` of an operator whose adjoint annihilates the state. -/
theorem killed_dip {Ψ : Fock ℝ} {T Td M : FOp ℝ} (hM : IsAdjoint M M) (hT : IsAdjoint T Td) (k : Td Ψ = 0) :
    expv Ψ (comm T M) = - inner (T Ψ) (M Ψ) ∧ expv Ψ (comm Td M) = inner (T Ψ) (M Ψ) := by
  have h := killed_comm hM hT k
  have e : expv Ψ (comm T M) = - inner (T Ψ) (M Ψ) := by rw [comm_neg_swap, expv_neg, h]
  exact ⟨e, by rw [expv_comm_adj hT hM, e, neg_neg]⟩

theorem zq_row {q g : ℕ} (v : Fin ((q + g) + (q + g)) → ℝ) (i : Fin q) : zq v i = rowAt v i :=
  (rowAt_lo v (Fin.castAdd g i)).symm

theorem yq_row {q g : ℕ} (v : Fin ((q + g) + (q + g)) → ℝ) (i : Fin q) : yq v i = rowAt v (i + (q + g)) :=
  (rowAt_hi v (Fin.castAdd g i)).symm

section
variable {tiny big : ℝ → Bool} {W : ExtWf} {U Ud : FOp ℝ} {dbl : Bool} {I : ExtInfo} (hC : ExtCtx W U Ud dbl I)
include hC

/-- selfconsistent.py: one component for one state. -/
theorem ExtCtx.scDip_ok (ht : ExactTiny tiny) (hz : tiny 0 = true) (hb : ExactBig big) {x : Mat ℝ}
    (hx : ∀ p q, x p q = x q p) {q nexc : ℕ} {G : List (Dict ℝ)} (hG : ∀ d ∈ G, ActOp W.ci d) :
    ∃ k, scDipPre tiny big .one W I x = .ok k ∧ ∀ (v : Fin ((q + G.length) + (q + G.length)) → ℝ) (qp : ℝ),
      dipQ W.toRespWf q nexc x v = .ok qp → ∀ T B : Fin G.length → FOp ℝ, (∀ i, IsAdjoint (T i) (B i)) →
      (∀ i, T i W.state = U (sumOp G[i] (ket W.refDet))) → (∀ i, B i W.state = 0) →
      scDip tiny .one W I G nexc v x k = .ok (qp + ∑ i : Fin G.length,
        (zg v i * expv W.state (comm (T i) (oneOp x W.numOrbs))
          + yg v i * expv W.state (comm (B i) (oneOp x W.numOrbs)))) := by
  have hM := oneOp_adjoint hx W.numOrbs
  obtain ⟨d, d', a1, a2, a3, a4, a5, a6⟩ := dip_ops (W := W.toRespWf) ht hb hx
  have ck := one0_core x W.ci.nI W.ci.nA a1
  have ck' := core_dagger a3.1.wf ck a2
  obtain ⟨k, k1, k2⟩ := hC.goD ((hC.of_c (tiny := tiny) false).op ht hz hC.sp a3 (reach_core hC.sp ck hC.st))
  obtain ⟨kd, l1, l2⟩ := hC.goD ((hC.of_c (tiny := tiny) false).op ht hz hC.sp a4 (reach_core hC.sp ck' hC.st))
  refine ⟨(kd, k), by unfold scDipPre; simp only [a1, k1, a2, l1, ok_bind]; rfl, fun v qp hqp T B hB hT hK => ?_⟩
  unfold scDip
  rw [hqp]
  simp only [ok_bind]
  rw [foldlM_fin (val := fun i => zg v i * expv W.state (comm (T i) (oneOp x W.numOrbs))
    + yg v i * expv W.state (comm (B i) (oneOp x W.numOrbs))), ok_bind, zero_add]
  · rfl
  intro i s
  have hi := hG G[i] (List.getElem_mem i.2)
  obtain ⟨g, g1, g2⟩ := hC.act ht hz (hC.of_csf false) hi
  simp only [g1, I.ev_nil hC.sp.valid, ok_bind]
  refine congrArg Except.ok ?_
  obtain ⟨t1, t2⟩ := killed_dip hM (hB i) (hK i)
  have aU := (hC.cas _ (hC.ref.core (act_core hi))).1.active
  rw [t1, t2, hT i, inner_comm (stateOf I.ci kd), g2, k2, l2, ← hC.adj, ← hC.adj, a5 _ _ aU hC.st.active,
    a6 _ _ aU hC.st.active]
  ring

/-- allstatetransfer.py and allselfconsistent.py: one component for one state. -/
theorem ExtCtx.allDip_ok (ht : ExactTiny tiny) (hz : tiny 0 = true) (hb : ExactBig big) {x : Mat ℝ}
    (hx : ∀ p q, x p q = x q p) {Q G : List (Dict ℝ)} (hG : ∀ d ∈ G, ActOp W.ci d)
    (hQ : ∀ d ∈ Q, ∃ k, ExcGen W.ci k.2 k.1 d ∧ NonRedundant W.ci.nI W.ci.nA k) :
    ∃ k, allDipPre tiny big W x = .ok k ∧
      ∀ (v : Fin ((Q.length + G.length) + (Q.length + G.length)) → ℝ) (T B : Fin G.length → FOp ℝ)
        (S D : Fin Q.length → FOp ℝ), (∀ i, IsAdjoint (T i) (B i)) → (∀ i, IsAdjoint (S i) (D i)) →
      (∀ i, T i W.state = U (sumOp G[i] (ket W.refDet))) → (∀ i, B i W.state = 0) →
      (∀ i, S i W.state = U (sumOp Q[i] (ket W.refDet))) → (∀ i, D i W.state = 0) →
      allDip tiny .one I Q G v k = .ok ((∑ i : Fin Q.length,
        (zq v i * expv W.state (comm (S i) (oneOp x W.numOrbs))
          + yq v i * expv W.state (comm (D i) (oneOp x W.numOrbs)))) + ∑ i : Fin G.length,
        (zg v i * expv W.state (comm (T i) (oneOp x W.numOrbs))
          + yg v i * expv W.state (comm (B i) (oneOp x W.numOrbs)))) := by
  have hM := oneOp_adjoint hx W.numOrbs
  have sw : ∀ y, inner W.state (oneOp x W.numOrbs y) = inner y (oneOp x W.numOrbs W.state) := fun y => by
    rw [← hM, inner_comm]
  obtain ⟨d, a1, a3, a5⟩ := one0_gen ht hb x W.ci
  obtain ⟨m, b1, b2, b3⟩ := one1_gen ht hb x W.ci
  have ck := one0_core x W.ci.nI W.ci.nA a1
  refine ⟨(d, m), by unfold allDipPre; simp only [a1, b1, ok_bind]; rfl, fun v T B S D hB hD hT hK hS hL => ?_⟩
  unfold allDip
  rw [foldlM_fin (val := fun i => zq v i * expv W.state (comm (S i) (oneOp x W.numOrbs))
    + yq v i * expv W.state (comm (D i) (oneOp x W.numOrbs))), ok_bind, zero_add]
  · rw [foldlM_fin (val := fun i => zg v i * expv W.state (comm (T i) (oneOp x W.numOrbs))
      + yg v i * expv W.state (comm (B i) (oneOp x W.numOrbs))), ok_bind, zero_add]
    · rfl
    intro i s
    have hi := hG G[i] (List.getElem_mem i.2)
    have cU := (hC.cas _ (hC.ref.core (act_core hi))).1
    obtain ⟨w, g1, g2⟩ := (hC.goU (hC.act ht hz (hC.of_csf (tiny := tiny) false) hi)).op ht hz hC.sp a3
      (reach_core hC.sp ck cU)
    obtain ⟨gd, d1, d2, d3⟩ := hi.dagger ht
    obtain ⟨w', f1, f2⟩ := hC.act ht hz (hC.goD ((hC.of_c (tiny := tiny) false).op ht hz hC.sp a3
      (reach_core hC.sp ck hC.st))) d2
    simp only [I.ev_of hC.sp.valid _ g1, d1, I.ev_of hC.sp.valid _ f1, ok_bind]
    refine congrArg Except.ok ?_
    obtain ⟨t1, t2⟩ := killed_dip hM (hB i) (hK i)
    rw [t1, t2, hT i, g2, f2, hC.c, hC.csf, ← d3, ← hC.adj, a5 _ _ hC.st.active cU.active,
      a5 _ _ cU.active hC.st.active]
    have := sw (U (sumOp G[i] (ket W.refDet)))
    unfold RespWf.numOrbs at this ⊢
    rw [this]
    ring
  · intro i s
    obtain ⟨k, e1, e2⟩ := hQ Q[i] (List.getElem_mem i.2)
    have gq := hC.goU (hC.exc ht hz (hC.of_csf (tiny := tiny) true) hC.ref e1)
    have inU := gq.inside
    obtain ⟨w, g1, g2⟩ := gq.opP ht hC.sp b2
    obtain ⟨qd, d1, d2, d3⟩ := e1.dagger ht
    obtain ⟨w', f1, f2⟩ := hC.deexc ht hz (hC.goD ((hC.of_c (tiny := tiny) true).opP ht hC.sp b2)) e2 d2
    simp only [I.ev_of hC.sp.valid _ g1, d1, I.ev_of hC.sp.valid _ f1, ok_bind]
    refine congrArg Except.ok ?_
    obtain ⟨t1, t2⟩ := killed_dip hM (hD i) (hL i)
    rw [t1, t2, hS i, g2, f2, hC.c, hC.csf, ← d3, ← hC.adj, hC.drop inU, hC.drop (hC.inside hC.st),
      (b3 _ _ hC.st.active).1, (b3 _ _ hC.st.active).2]
    have := sw (U (sumOp Q[i] (ket W.refDet)))
    unfold RespWf.numOrbs at this ⊢
    rw [this]
    ring

end

/-! ### The empty blocks of the metric -/

section
variable {tiny big : ℝ → Bool} {th : Threads} {W : ExtWf}

theorem scActLoop_block {I : ExtInfo} {H0 : Dict ℝ} {H00 : Vec ℝ} {G : List (Dict ℝ)} {n : ℕ} {M M' : LRMats}
    (hM : BlockMetric n M) (e : scActLoop tiny th I H0 H00 G n M = .ok M') : BlockMetric n M' := by
  refine lrLoop_inv (BlockMetric n) (fun x _ y _ M v hM => ?_) hM e
  refine ⟨hM.1, fun i j hij => ?_⟩
  dsimp only
  split
  · unfold set2
    rw [if_neg (by omega)]; exact hM.2 i j hij
  · exact hM.2 i j hij

theorem scInit_block (hW : W.toRespWf.Proper) {excitations : String} {Q : List (Dict ℝ)} {M : LRMats}
    (hQ : lrQ tiny W.toRespWf = .ok Q) (hn : Q.length = W.kappa.length)
    (h : scInit tiny big th W excitations = .ok M) : BlockMetric Q.length M := by
  unfold scInit at h
  obtain ⟨G, -, h⟩ := Res.of_bind h
  obtain ⟨Q', hQ', h⟩ := Res.of_bind h
  rw [hQ] at hQ'
  obtain rfl := Except.ok.inj hQ'
  obtain ⟨_, -, h⟩ := Res.of_bind h
  obtain ⟨_, -, h⟩ := Res.of_bind h
  obtain ⟨_, -, h⟩ := Res.of_bind h
  obtain ⟨_, -, h⟩ := Res.of_bind h
  obtain ⟨_, -, h⟩ := Res.of_bind h
  obtain ⟨_, -, h⟩ := Res.of_bind h
  obtain ⟨_, -, h⟩ := Res.of_bind h
  obtain ⟨M1, h1, h⟩ := Res.of_bind h
  refine scActLoop_block ?_ h
  exact lrLoop_inv (BlockMetric Q.length) (fun x _ y _ M v hM => hM) (blockMetric_orb hW hn) h1

theorem ascInit_block {excitations : String} {Q : List (Dict ℝ)} {M : LRMats} (hQ : hfQ tiny W = .ok Q)
    (h : ascInit tiny big th W excitations = .ok M) : BlockMetric Q.length M := by
  unfold ascInit at h
  obtain ⟨G, -, h⟩ := Res.of_bind h
  obtain ⟨_, -, h⟩ := Res.of_bind h
  obtain ⟨_, -, h⟩ := Res.of_bind h
  obtain ⟨_, -, h⟩ := Res.of_bind h
  obtain ⟨_, -, h⟩ := Res.of_bind h
  obtain ⟨Q', hQ', h⟩ := Res.of_bind h
  rw [hQ] at hQ'
  obtain rfl := Except.ok.inj hQ'
  obtain ⟨_, -, h⟩ := Res.of_bind h
  obtain ⟨_, -, h⟩ := Res.of_bind h
  obtain ⟨_, -, h⟩ := Res.of_bind h
  obtain ⟨_, -, h⟩ := Res.of_bind h
  obtain ⟨_, -, h⟩ := Res.of_bind h
  obtain ⟨_, -, h⟩ := Res.of_bind h
  obtain ⟨_, -, h⟩ := Res.of_bind h
  obtain ⟨M1, h1, h⟩ := Res.of_bind h
  obtain ⟨M2, h2, h⟩ := Res.of_bind h
  refine scActLoop_block ?_ h
  refine lrLoop_inv (BlockMetric Q.length) (fun x _ y _ M v hM => hM) ?_ h2
  refine lrLoop_inv (BlockMetric Q.length) (fun x hx y hy M v hM => ?_) (blockMetric_zero _) h1
  have a := idx_zipIdx hx
  have b := idx_drop hy a
  split
  · exact blockMetric_sigma (by omega) hM
  · exact hM

theorem astInit_block {excitations : String} {Q : List (Dict ℝ)} {M : LRMats} (hQ : hfQ tiny W = .ok Q)
    (h : astInit tiny big th W excitations = .ok M) : BlockMetric Q.length M := by
  unfold astInit at h
  obtain ⟨G, -, h⟩ := Res.of_bind h
  obtain ⟨_, -, h⟩ := Res.of_bind h
  obtain ⟨_, -, h⟩ := Res.of_bind h
  obtain ⟨_, -, h⟩ := Res.of_bind h
  obtain ⟨_, -, h⟩ := Res.of_bind h
  obtain ⟨Q', hQ', h⟩ := Res.of_bind h
  rw [hQ] at hQ'
  obtain rfl := Except.ok.inj hQ'
  obtain ⟨_, -, h⟩ := Res.of_bind h
  obtain ⟨_, -, h⟩ := Res.of_bind h
  obtain ⟨_, -, h⟩ := Res.of_bind h
  obtain ⟨_, -, h⟩ := Res.of_bind h
  obtain ⟨_, -, h⟩ := Res.of_bind h
  obtain ⟨M1, h1, h⟩ := Res.of_bind h
  have b1 : BlockMetric Q.length M1 := by
    refine foldlM_keep (BlockMetric Q.length) Q.zipIdx (fun x hx M M' hM e => ?_) (blockMetric_zero _) h1
    unfold astOrbStep at e
    obtain ⟨k, -, e⟩ := Res.of_bind e
    obtain ⟨M2, e2, e⟩ := Res.of_bind e
    refine foldlM_keep (BlockMetric Q.length) G.zipIdx (fun y _ M M' hM e => ?_) ?_ e
    · obtain ⟨v, -, e⟩ := Res.of_bind e
      obtain rfl := Except.ok.inj e
      exact hM
    · refine foldlM_keep (BlockMetric Q.length) _ (fun y hy M M' hM e => ?_) hM e2
      obtain ⟨v, -, e⟩ := Res.of_bind e
      obtain rfl := Except.ok.inj e
      have a := idx_zipIdx hx
      have b := idx_drop hy a
      split
      · exact blockMetric_sigma (by omega) hM
      · exact hM
  refine lrLoop_inv (BlockMetric Q.length) (fun x _ y _ M v hM => ?_) b1 h
  refine ⟨hM.1, fun i j hij => ?_⟩
  dsimp only
  split
  · unfold set2
    rw [if_neg (by omega)]; exact hM.2 i j hij
  · exact hM.2 i j hij

end

end SQ
