import Verif.Lemmas.ExtendedDipole
import Verif.Props.ResponseExtendedReal
import Verif.Props.ResponseDipole

/-!
# C103: transition dipole moments of linear response in an extended determinant space
-/

namespace SQ

variable {tiny big : ℝ → Bool} {W : ExtWf} {U Ud : FOp ℝ}

/-- **C103**, self-consistent linear response: the transition dipole moments are `⟨[O, μ]⟩` with normalised
excitation operators `O`. -/
theorem C103_selfconsistent (ht : ExactTiny tiny) (hz : tiny 0 = true) (hb : ExactBig big) (hW : W.Proper)
    (hR : W.Rotates U Ud) (lib : LRLib) (heig : ∀ m A S, (lib.eig m A S).length = m) {mu : Fin 3 → Mat ℝ}
    (hmu : ∀ c p q, mu c p q = mu c q p) (excitations : String) {Q G : List (Dict ℝ)} {I : ExtInfo} {M : LRMats}
    {out : LROut ((Q.length + G.length) + (Q.length + G.length))} (hQ : lrQ tiny W.toRespWf = .ok Q)
    (hG : lrG tiny W.toRespWf excitations = .ok G) (hI : extStart tiny .one W 1 = .ok I)
    (hM : scInit tiny big .one W excitations = .ok M) (ho : M.solve lib Q.length G.length = .ok out) :
    let X := W.scOps U Ud (lettersOf excitations)
    ∃ D, scDipoles tiny big .one W I G mu out = .ok D ∧ D.length = out.energies.length ∧
      out.energies.length = X.length ∧
      ∀ (k : ℕ) u v d, out.vectors[k]? = some u → out.normed[k]? = some v → D[k]? = some d →
        TransitionDipole W.toRespWf X mu u v d := by
  intro X
  obtain ⟨G', hG', opsG, excG⟩ := lrG_ok ht hW.base excitations
  rw [hG] at hG'
  obtain rfl := Except.ok.inj hG'
  obtain ⟨Q', hQ', fQ⟩ := lrQ_ok ht hW.base
  rw [hQ] at hQ'
  obtain rfl := Except.ok.inj hQ'
  obtain ⟨I', hI', hC⟩ := extStart_ok (tiny := tiny) hW hR (order := 1) (.inl rfl)
  rw [hI] at hI'
  obtain rfl := Except.ok.inj hI'
  have lenQ : Q.length = W.kappa.length := fQ.length_eq.symm
  have hX : X = (W.kappa.map fun k => qOp k.2 k.1) ++ G.map fun d => U * sumOp d * Ud := by
    show W.scOps U Ud _ = _
    unfold ExtWf.scOps lettersOf
    rw [← opsG, List.map_map]
    rfl
  have hl : X.length = Q.length + G.length := by rw [hX]; simp [lenQ]
  have memG : ∀ {g}, g ∈ G → sumOp g ∈ W.refOps (lettersOf excitations) := by
    intro g hg
    refine List.mem_append_right _ ?_
    unfold lettersOf
    rw [← opsG]
    exact List.mem_map_of_mem hg
  obtain ⟨c1, c2⟩ := C100_selfconsistent ht hz hb hW hR excitations
  by_cases hsm : ∃ T ∈ X, 1 / 1000 < |expv W.state (comm W.ham T)|
  · rw [c1 hsm] at hM; cases hM
  obtain ⟨M', m1, m2⟩ := c2 fun T hT => not_lt.1 fun h => hsm ⟨T, hT, h⟩
  rw [hM] at m1
  obtain rfl := Except.ok.inj m1
  obtain ⟨D, d1, d2, d3, d4⟩ := dip_finish heig ho hl (scInit_block hW.base hQ lenQ hM)
    (fun i j Xi Xid Xj Xjd a b c d => ⟨(m2 i j Xi Xid Xj Xjd a b c d).1, (m2 i j Xi Xid Xj Xjd a b c d).2.1⟩)
    (by rw [hX]; intro T hT; rcases List.mem_append.1 hT with h | h
        · obtain ⟨k, -, rfl⟩ := List.mem_map.1 h
          exact ⟨_, qOp_adjoint _ _⟩
        · obtain ⟨g, hg, rfl⟩ := List.mem_map.1 h
          obtain ⟨gd, -, -, ha⟩ := (excG g hg).1.dagger ht
          exact ⟨_, hC.dress ha⟩) hmu (pre := scDipPre tiny big .one W I)
    (entry := fun v m k => scDip tiny .one W I G out.energies.length v m k) (fun s1 x hx => by
      obtain ⟨k, k1, k2⟩ := hC.scDip_ok (q := Q.length) (nexc := out.energies.length) ht hz hb hx
        (fun d hd => (excG d hd).1)
      refine ⟨k, k1, fun v Xd hXd => ?_⟩
      have qp := dipQ_ok hW.base hx lenQ (m := (Q.length + G.length) + (Q.length + G.length))
        (nexc := out.energies.length) (by omega) v
      have ea : ∀ i : Fin G.length, X[Q.length + (i : ℕ)]?.getD 0 = U * sumOp G[i] * Ud := fun i => by
        rw [hX]; exact act_part (f := fun d => U * sumOp d * Ud) (by simp [lenQ]) rfl i
      have hadj : ∀ i : Fin G.length, IsAdjoint (U * sumOp G[i] * Ud) (Xd[Q.length + (i : ℕ)]?.getD 0) := fun i => by
        rw [← ea i]; exact forall2_at hXd _
      rw [k2 v _ qp (fun i => U * sumOp G[i] * Ud) (fun i => Xd[Q.length + (i : ℕ)]?.getD 0) hadj
        (fun i => hC.dress_state _) (fun i => by
          have mi := List.getElem_mem (l := G) i.2
          obtain ⟨gd, -, -, ha⟩ := (excG _ mi).1.dagger ht
          rw [(hadj i).unique (hC.dress ha), hC.dress_state, hW.ref_kills _ (memG mi) ha, map_zero]),
        ← dip_total hl v]
      refine congrArg Except.ok ?_
      congr 1
      · refine Finset.sum_congr rfl fun i hi => ?_
        have hXd' := hXd
        rw [hX] at hXd'
        obtain ⟨o1, o2⟩ := orb_part rfl lenQ hXd' (Finset.mem_range.1 hi)
        rw [hX, o1, o2, s1]
      · exact Finset.sum_congr rfl fun i _ => by rw [ea])
  exact ⟨D, d1.2, d2, d3, d4⟩

/-- The sums of `allDip` are the whole commutator. -/
theorem dip_total_fin {Ψ : Fock ℝ} {X Xd : List (FOp ℝ)} {q g : ℕ} (hl : X.length = q + g)
    (v : Fin ((q + g) + (q + g)) → ℝ) (M : FOp ℝ) :
    (∑ i : Fin q, (zq v i * expv Ψ (comm (X[(i : ℕ)]?.getD 0) M)
        + yq v i * expv Ψ (comm (Xd[(i : ℕ)]?.getD 0) M)))
      + ∑ i : Fin g, (zg v i * expv Ψ (comm (X[q + (i : ℕ)]?.getD 0) M)
        + yg v i * expv Ψ (comm (Xd[q + (i : ℕ)]?.getD 0) M)) = expv Ψ (comm (vecOp X Xd v) M) := by
  rw [← dip_total hl v, Finset.sum_range]
  congr 1
  exact Finset.sum_congr rfl fun i _ => by rw [zq_row, yq_row]

/-- From the entries of `allDip` to the rows: `f` gives the operator of the class. -/
theorem all_finish (ht : ExactTiny tiny) (hz : tiny 0 = true) (hb : ExactBig big) (hW : W.Proper) {dbl : Bool}
    {I : ExtInfo} (hC : ExtCtx W U Ud dbl I) (lib : LRLib) (heig : ∀ m A S, (lib.eig m A S).length = m)
    {mu : Fin 3 → Mat ℝ} (hmu : ∀ c p q, mu c p q = mu c q p) {excitations : String} {Q G : List (Dict ℝ)} {M : LRMats}
    {out : LROut ((Q.length + G.length) + (Q.length + G.length))} (hQ : hfQ tiny W = .ok Q)
    (hG : lrG tiny W.toRespWf excitations = .ok G) (ho : M.solve lib Q.length G.length = .ok out)
    (hB : BlockMetric Q.length M) {X : List (FOp ℝ)} {f : FOp ℝ → FOp ℝ}
    (hX : X = (W.refOps (lettersOf excitations)).map f)
    (hS : ∀ i j Xi Xid Xj Xjd, X[i]? = some Xi → X[j]? = some Xj → IsAdjoint Xi Xid → IsAdjoint Xj Xjd →
      M.Sigma i j = expv W.state (comm Xid Xj) ∧ M.Delta i j = expv W.state (comm Xid Xjd))
    (hf : ∀ S ∈ W.refOps (lettersOf excitations), ∀ Sd, IsAdjoint S Sd → f S W.state = U (S (ket W.refDet)) ∧
      ∃ T', IsAdjoint (f S) T' ∧ T' W.state = 0) :
    ∃ D, allDipoles tiny big .one W I Q G mu out = .ok D ∧ D.length = out.energies.length ∧
      out.energies.length = X.length ∧
      ∀ (k : ℕ) u v d, out.vectors[k]? = some u → out.normed[k]? = some v → D[k]? = some d →
        TransitionDipole W.toRespWf X mu u v d := by
  obtain ⟨G', Q', hG', hQ', lenQ, ops, actG, excQ, adjs⟩ := ref_lists ht hW excitations
  rw [hG] at hG'
  obtain rfl := Except.ok.inj hG'
  rw [hQ] at hQ'
  obtain rfl := Except.ok.inj hQ'
  have adjR : ∀ {g}, g ∈ Q ++ G → ∃ Td, IsAdjoint (sumOp g) Td := by
    intro g hg
    rcases List.mem_append.1 hg with h | h
    · obtain ⟨i, hi⟩ := List.getElem?_of_mem h
      obtain ⟨k, -, -, e, -⟩ := excQ i g hi
      exact ⟨_, by rw [e]; exact qOp_adjoint _ _⟩
    · exact (adjs _ (actG g h).2).1
  have hf' : ∀ g ∈ Q ++ G, f (sumOp g) W.state = U (sumOp g (ket W.refDet)) ∧
      ∃ T', IsAdjoint (f (sumOp g)) T' ∧ T' W.state = 0 := by
    intro g hg
    obtain ⟨Td, ha⟩ := adjR hg
    exact hf _ (by rw [← ops]; exact List.mem_map_of_mem hg) Td ha
  have hX' : X = (Q ++ G).map fun d => f (sumOp d) := by rw [hX, ← ops, List.map_map]; rfl
  have hl : X.length = Q.length + G.length := by rw [hX']; simp
  obtain ⟨D, d1, d2, d3, d4⟩ := dip_finish heig ho hl hB hS
    (by rw [hX']; intro T hT
        obtain ⟨g, hg, rfl⟩ := List.mem_map.1 hT
        obtain ⟨-, T', h, -⟩ := hf' g hg
        exact ⟨_, h⟩) hmu (pre := allDipPre tiny big W)
    (entry := fun v _ k => allDip tiny .one I Q G v k) (fun s1 x hx => by
      obtain ⟨k, k1, k2⟩ := hC.allDip_ok ht hz hb hx (fun d hd => (actG d hd).1) (fun d hd => by
        obtain ⟨i, hi⟩ := List.getElem?_of_mem hd
        obtain ⟨k, -, e1, -, e3⟩ := excQ i d hi
        exact ⟨k, e1, e3⟩)
      refine ⟨k, k1, fun v Xd hXd => ?_⟩
      have eq : ∀ i : Fin Q.length, X[(i : ℕ)]?.getD 0 = f (sumOp Q[i]) := fun i => by
        conv_lhs => rw [hX', List.getElem?_map, List.getElem?_append_left i.2]
        simp
      have eg : ∀ i : Fin G.length, X[Q.length + (i : ℕ)]?.getD 0 = f (sumOp G[i]) := fun i => by
        conv_lhs => rw [hX', List.getElem?_map, List.getElem?_append_right (Nat.le_add_right _ _)]
        simp
      have aq : ∀ i : Fin Q.length, IsAdjoint (f (sumOp Q[i])) (Xd[(i : ℕ)]?.getD 0) := fun i => by
        rw [← eq i]; exact forall2_at hXd _
      have ag : ∀ i : Fin G.length, IsAdjoint (f (sumOp G[i])) (Xd[Q.length + (i : ℕ)]?.getD 0) := fun i => by
        rw [← eg i]; exact forall2_at hXd _
      have mq : ∀ i : Fin Q.length, Q[i] ∈ Q ++ G := fun i => List.mem_append_left _ (List.getElem_mem i.2)
      have mg : ∀ i : Fin G.length, G[i] ∈ Q ++ G := fun i => List.mem_append_right _ (List.getElem_mem i.2)
      rw [k2 v (fun i => f (sumOp G[i])) (fun i => Xd[Q.length + (i : ℕ)]?.getD 0) (fun i => f (sumOp Q[i]))
        (fun i => Xd[(i : ℕ)]?.getD 0) ag aq (fun i => (hf' _ (mg i)).1) (fun i => by
          obtain ⟨-, T', h1, h2⟩ := hf' _ (mg i)
          rw [(ag i).unique h1, h2]) (fun i => (hf' _ (mq i)).1) (fun i => by
          obtain ⟨-, T', h1, h2⟩ := hf' _ (mq i)
          rw [(aq i).unique h1, h2]), ← dip_total_fin hl v]
      refine congrArg Except.ok ?_
      congr 1
      · exact Finset.sum_congr rfl fun i _ => by rw [eq]
      · exact Finset.sum_congr rfl fun i _ => by rw [eg])
  exact ⟨D, d1.2, d2, d3, d4⟩

/-- **C103**, all-state-transfer linear response: the transition dipole moments are `⟨[O, μ]⟩` with normalised
excitation operators `O`. -/
theorem C103_all_transfer (ht : ExactTiny tiny) (hz : tiny 0 = true) (hb : ExactBig big) (hW : W.Proper)
    (hE : W.energy = expv W.state W.ham) (hR : W.Rotates U Ud) (lib : LRLib)
    (heig : ∀ m A S, (lib.eig m A S).length = m) {mu : Fin 3 → Mat ℝ} (hmu : ∀ c p q, mu c p q = mu c q p)
    (excitations : String) {Q G : List (Dict ℝ)} {I : ExtInfo} {M : LRMats}
    {out : LROut ((Q.length + G.length) + (Q.length + G.length))} (hQ : hfQ tiny W = .ok Q)
    (hG : lrG tiny W.toRespWf excitations = .ok G) (hI : extStart tiny .one W 1 = .ok I)
    (hM : astInit tiny big .one W excitations = .ok M) (ho : M.solve lib Q.length G.length = .ok out) :
    let X := W.allTransferOps U (lettersOf excitations)
    ∃ D, allDipoles tiny big .one W I Q G mu out = .ok D ∧ D.length = out.energies.length ∧
      out.energies.length = X.length ∧
      ∀ (k : ℕ) u v d, out.vectors[k]? = some u → out.normed[k]? = some v → D[k]? = some d →
        TransitionDipole W.toRespWf X mu u v d := by
  intro X
  obtain ⟨I', hI', hC⟩ := extStart_ok (tiny := tiny) hW hR (order := 1) (.inl rfl)
  rw [hI] at hI'
  obtain rfl := Except.ok.inj hI'
  obtain ⟨c1, c2⟩ := C101_all_transfer ht hz hb hW hE hR excitations
  by_cases hsm : ∃ T ∈ X.drop W.hfLike.length, 1 / 1000 < |expv W.state (comm W.ham T)|
  · rw [c1 hsm] at hM; cases hM
  obtain ⟨M', m1, m2⟩ := c2 fun T hT => not_lt.1 fun h => hsm ⟨T, hT, h⟩
  rw [hM] at m1
  obtain rfl := Except.ok.inj m1
  obtain ⟨-, st2⟩ := C101_states hW hR excitations
  refine all_finish ht hz hb hW hC lib heig hmu hQ hG ho (astInit_block hQ hM)
    (f := fun S => ketbra (W.moved U S) W.state) rfl
    (fun i j Xi Xid Xj Xjd a b c d => ⟨(m2 i j Xi Xid Xj Xjd a b c d).1, (m2 i j Xi Xid Xj Xjd a b c d).2.1⟩)
    fun S hS _ _ => ⟨?_, _, ketbra_adjoint _ _, ?_⟩
  · rw [ketbra_apply, hW.base.norm, one_smul]
    unfold RespWf.moved
    rw [hW.csf]
  · rw [ketbra_apply, inner_comm, st2 S hS, zero_smul]

/-- **C103**, all-self-consistent linear response: the transition dipole moments are `⟨[O, μ]⟩` with normalised
excitation operators `O`. -/
theorem C103_all_selfconsistent (ht : ExactTiny tiny) (hz : tiny 0 = true) (hb : ExactBig big) (hW : W.Proper)
    (hR : W.Rotates U Ud) (lib : LRLib) (heig : ∀ m A S, (lib.eig m A S).length = m) {mu : Fin 3 → Mat ℝ}
    (hmu : ∀ c p q, mu c p q = mu c q p) (excitations : String) {Q G : List (Dict ℝ)} {I : ExtInfo} {M : LRMats}
    {out : LROut ((Q.length + G.length) + (Q.length + G.length))} (hQ : hfQ tiny W = .ok Q)
    (hG : lrG tiny W.toRespWf excitations = .ok G) (hI : extStart tiny .one W 2 = .ok I)
    (hM : ascInit tiny big .one W excitations = .ok M) (ho : M.solve lib Q.length G.length = .ok out) :
    let X := W.allScOps U Ud (lettersOf excitations)
    ∃ D, allDipoles tiny big .one W I Q G mu out = .ok D ∧ D.length = out.energies.length ∧
      out.energies.length = X.length ∧
      ∀ (k : ℕ) u v d, out.vectors[k]? = some u → out.normed[k]? = some v → D[k]? = some d →
        TransitionDipole W.toRespWf X mu u v d := by
  intro X
  obtain ⟨I', hI', hC⟩ := extStart_ok (tiny := tiny) hW hR (order := 2) (.inr rfl)
  rw [hI] at hI'
  obtain rfl := Except.ok.inj hI'
  obtain ⟨c1, c2⟩ := C102_all_selfconsistent ht hz hb hW hR excitations
  by_cases hsm : ∃ T ∈ X.drop W.hfLike.length, 1 / 1000 < |expv W.state (comm W.ham T)|
  · rw [c1 hsm] at hM; cases hM
  obtain ⟨M', m1, m2⟩ := c2 fun T hT => not_lt.1 fun h => hsm ⟨T, hT, h⟩
  rw [hM] at m1
  obtain rfl := Except.ok.inj m1
  refine all_finish ht hz hb hW hC lib heig hmu hQ hG ho (ascInit_block hQ hM) (f := fun S => U * S * Ud) rfl
    (fun i j Xi Xid Xj Xjd a b c d => ⟨(m2 i j Xi Xid Xj Xjd a b c d).1, (m2 i j Xi Xid Xj Xjd a b c d).2.1⟩)
    fun S hS Sd ha => ⟨hC.dress_state _, _, hC.dress ha, ?_⟩
  rw [hC.dress_state, hW.ref_kills _ hS ha, map_zero]

/-- The hypotheses of C103 are met whenever the gradient is small: there are a library, operators, matrices and
solutions. -/
example (ht : ExactTiny tiny) (hz : tiny 0 = true) (hb : ExactBig big) (hW : W.Proper)
    (hE : W.energy = expv W.state W.ham) (hR : W.Rotates U Ud) (excitations : String)
    (h : ∀ T ∈ W.allTransferOps U (lettersOf excitations), |expv W.state (comm W.ham T)| ≤ 1 / 1000) :
    ∃ (lib : LRLib) (Q G : List (Dict ℝ)) (I : ExtInfo) (M : LRMats)
      (out : LROut ((Q.length + G.length) + (Q.length + G.length))), (∀ m A S, (lib.eig m A S).length = m) ∧
      hfQ tiny W = .ok Q ∧ lrG tiny W.toRespWf excitations = .ok G ∧ extStart tiny .one W 1 = .ok I ∧
      astInit tiny big .one W excitations = .ok M ∧ M.solve lib Q.length G.length = .ok out := by
  obtain ⟨G, Q, h1, h2, -⟩ := ref_lists ht hW excitations
  obtain ⟨I, hI, -⟩ := extStart_ok (tiny := tiny) hW hR (order := 1) (.inl rfl)
  obtain ⟨M, h3, -⟩ := (C101_all_transfer ht hz hb hW hE hR excitations).2 fun T hT => h T (List.mem_of_mem_drop hT)
  have : ∃ out, M.solve ⟨fun _ _ => [1], fun m _ _ => List.replicate m (0, 0)⟩ Q.length G.length = .ok out := by
    unfold LRMats.solve calcExcitations hessianCheck minEig
    simp only [ok_bind, List.foldl_nil, if_true]
    rw [if_neg (by norm_num), if_neg (by norm_num)]
    exact ⟨_, rfl⟩
  obtain ⟨out, ho⟩ := this
  exact ⟨_, Q, G, I, M, out, fun m _ _ => by simp, h2, h1, hI, h3, ho⟩

end SQ
