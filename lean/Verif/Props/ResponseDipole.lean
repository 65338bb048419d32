import Verif.Lemmas.ResponseDipole
import Verif.Props.ResponseTransfer

/-!
# C98: transition dipole moments of linear response
-/

namespace SQ

variable {tiny big : ℝ → Bool} {th : Threads} {W : RespWf} {U Ud : FOp ℝ}

/-- What `calc_excitation_energies` stores. -/
theorem solve_out {lib : LRLib} {q g : ℕ} {M : LRMats} {out : LROut ((q + g) + (q + g))}
    (heig : ∀ m A S, (lib.eig m A S).length = m) (ho : M.solve lib q g = .ok out) :
    out.energies.length = q + g ∧ out.vectors.length = q + g ∧
    out.normed = out.vectors.map
      (normedVector (lrMetric (LRMats.arr (q + g) M.Sigma) (LRMats.arr (q + g) M.Delta))) := by
  unfold LRMats.solve calcExcitations at ho
  obtain ⟨w, -, ho⟩ := Res.of_bind ho
  obtain rfl := Except.ok.inj ho
  have e : ((sortedEig lib (lrHessian (LRMats.arr (q + g) M.A) (LRMats.arr (q + g) M.B))
      (lrMetric (LRMats.arr (q + g) M.Sigma) (LRMats.arr (q + g) M.Delta))).drop (q + g)).length = q + g := by
    rw [List.length_drop]
    unfold sortedEig
    rw [List.length_mergeSort, heig]
    omega
  dsimp only
  exact ⟨by rw [List.length_map, e], by rw [List.length_map, e], rfl⟩

/-- The part common to all classes. -/
theorem dipoles_common {X : List (FOp ℝ)} {lib : LRLib} {q g : ℕ} {M : LRMats} {out : LROut ((q + g) + (q + g))}
    (heig : ∀ m A S, (lib.eig m A S).length = m) (ho : M.solve lib q g = .ok out) (hl : X.length = q + g)
    (hB : BlockMetric q M)
    (hS : ∀ i j Xi Xid Xj Xjd, X[i]? = some Xi → X[j]? = some Xj → IsAdjoint Xi Xid → IsAdjoint Xj Xjd →
      M.Sigma i j = expv W.state (comm Xid Xj) ∧ M.Delta i j = expv W.state (comm Xid Xjd))
    {mu : Fin 3 → Mat ℝ} {F : (Fin ((q + g) + (q + g)) → ℝ) → Fin 3 → ℝ}
    (hF : ∀ v c Xd, List.Forall₂ IsAdjoint X Xd →
      F v c = expv W.state (comm (vecOp X Xd v) (oneOp (mu c) W.numOrbs))) :
    (out.normed.map F).length = out.energies.length ∧ out.energies.length = X.length ∧
    ∀ (k : ℕ) u v d, out.vectors[k]? = some u → out.normed[k]? = some v → (out.normed.map F)[k]? = some d →
      TransitionDipole W X mu u v d := by
  obtain ⟨e1, e2, e3⟩ := solve_out heig ho
  refine ⟨by rw [List.length_map, e3, List.length_map, e2, e1], by rw [e1, hl], fun k u v d hu hv hd Xd hXd => ?_⟩
  rw [e3, List.getElem?_map, hu] at hv
  obtain rfl := Option.some.inj hv
  rw [List.getElem?_map, e3, List.getElem?_map, hu] at hd
  obtain rfl := Option.some.inj hd
  exact ⟨fun c => hF _ c Xd hXd, normed_ok hl hXd hB hS u⟩

theorem range_columns {m : ℕ} {out : LROut m} {n : ℕ} (h : out.normed.length = n) (F : (Fin m → ℝ) → Fin 3 → ℝ) :
    (List.range n).map (fun s => F (out.normed[s]?.getD 0)) = out.normed.map F := by
  refine List.ext_getElem (by simp [h]) fun i h1 h2 => ?_
  have : i < out.normed.length := by simpa using h2
  simp [List.getElem?_eq_getElem this]

theorem column_ok {m : ℕ} {out : LROut m} {s : ℕ} (h : s < out.normed.length) :
    out.column s = .ok (out.normed[s]?.getD 0) := by
  unfold LROut.column
  rw [List.getElem?_eq_getElem h]
  rfl

/-- The orbital part is over the first operators and their adjoints. -/
theorem orb_part {A B Xd : List (FOp ℝ)} {q : ℕ} (hA : A = W.kappa.map fun k => qOp k.2 k.1)
    (hq : q = W.kappa.length) (hX : List.Forall₂ IsAdjoint (A ++ B) Xd) {i : ℕ} (hi : i < q) :
    ((A ++ B)[i]?.getD 0 = (W.kappa.map fun k => qOp k.2 k.1)[i]?.getD 0) ∧
    Xd[i]?.getD 0 = (qAdj W)[i]?.getD 0 := by
  have e : (A ++ B)[i]?.getD 0 = (W.kappa.map fun k => qOp k.2 k.1)[i]?.getD 0 := by
    rw [List.getElem?_append_left (by rw [hA, List.length_map]; omega), hA]
  refine ⟨e, ?_⟩
  have := forall2_at hX i
  rw [e] at this
  refine this.unique ?_
  unfold qAdj
  rw [List.getElem?_map, List.getElem?_map, List.getElem?_eq_getElem (by omega)]
  exact qOp_adjoint _ _

theorem act_part {A B : List (FOp ℝ)} {q : ℕ} (hq : A.length = q) {f : Dict ℝ → FOp ℝ} {G : List (Dict ℝ)}
    (hB : B = G.map f) (i : Fin G.length) : (A ++ B)[q + (i : ℕ)]?.getD 0 = f G[i] := by
  rw [List.getElem?_append_right (by omega), hB, hq]
  simp

theorem exists_adjoints {X : List (FOp ℝ)} (h : ∀ T ∈ X, ∃ T', IsAdjoint T T') :
    ∃ Xd, List.Forall₂ IsAdjoint X Xd := by
  induction X with
  | nil => exact ⟨[], .nil⟩
  | cons T X ih =>
    obtain ⟨T', h1⟩ := h T (by simp)
    obtain ⟨Xd, h'⟩ := ih fun S hS => h S (by simp [hS])
    exact ⟨T' :: Xd, .cons h1 h'⟩

/-- From the entries to the rows; both ways of running over the states. -/
theorem dip_finish {X : List (FOp ℝ)} {lib : LRLib} {q g : ℕ} {M : LRMats} {out : LROut ((q + g) + (q + g))}
    (heig : ∀ m A S, (lib.eig m A S).length = m) (ho : M.solve lib q g = .ok out) (hl : X.length = q + g)
    (hB : BlockMetric q M)
    (hS : ∀ i j Xi Xid Xj Xjd, X[i]? = some Xi → X[j]? = some Xj → IsAdjoint Xi Xid → IsAdjoint Xj Xjd →
      M.Sigma i j = expv W.state (comm Xid Xj) ∧ M.Delta i j = expv W.state (comm Xid Xjd))
    (hadj : ∀ T ∈ X, ∃ T', IsAdjoint T T') {mu : Fin 3 → Mat ℝ} (hmu : ∀ c p q, mu c p q = mu c q p) {κ : Type}
    {pre : Mat ℝ → Res κ} {entry : (Fin ((q + g) + (q + g)) → ℝ) → Mat ℝ → κ → Res ℝ}
    (hF : out.energies.length = q + g → ∀ (x : Mat ℝ), (∀ p q, x p q = x q p) → ∃ k, pre x = .ok k ∧
      ∀ v Xd, List.Forall₂ IsAdjoint X Xd →
        entry v x k = .ok (expv W.state (comm (vecOp X Xd v) (oneOp x W.numOrbs)))) :
    ∃ D, (dipRows mu pre (List.range out.energies.length) (fun s m k => do
        let v ← out.column s
        entry v m k) = .ok D ∧ dipRows mu pre out.normed entry = .ok D) ∧ D.length = out.energies.length ∧
      out.energies.length = X.length ∧
      ∀ (k : ℕ) u v d, out.vectors[k]? = some u → out.normed[k]? = some v → D[k]? = some d →
        TransitionDipole W X mu u v d := by
  obtain ⟨s1, s2, s3⟩ := solve_out heig ho
  have ln : out.normed.length = out.energies.length := by rw [s3, List.length_map, s2, s1]
  obtain ⟨Xd0, hXd0⟩ := exists_adjoints hadj
  refine ⟨out.normed.map fun v c => expv W.state (comm (vecOp X Xd0 v) (oneOp (mu c) W.numOrbs)), ⟨?_, ?_⟩,
    dipoles_common heig ho hl hB hS ?_⟩
  · rw [← range_columns ln]
    refine dipRows_ok fun c => ?_
    obtain ⟨k, k1, k2⟩ := hF s1 (mu c) (hmu c)
    refine ⟨k, k1, fun s hs => ?_⟩
    rw [column_ok (by rw [ln]; exact List.mem_range.1 hs), ok_bind, k2 _ Xd0 hXd0]
  · refine dipRows_ok fun c => ?_
    obtain ⟨k, k1, k2⟩ := hF s1 (mu c) (hmu c)
    exact ⟨k, k1, fun v _ => k2 v Xd0 hXd0⟩
  · intro v c Xd hXd
    obtain ⟨k, k1, k2⟩ := hF s1 (mu c) (hmu c)
    exact Except.ok.inj ((k2 v Xd0 hXd0).symm.trans (k2 v Xd hXd))

/-- **C98**, naive linear response: the transition dipole moments are `⟨[O, μ]⟩` with normalised excitation
operators `O`. -/
theorem C98_naive (ht : ExactTiny tiny) (hb : ExactBig big) (hW : W.Proper) (hth : th.Fair W.ci.idx2det.length)
    (lib : LRLib) (heig : ∀ m A S, (lib.eig m A S).length = m) {mu : Fin 3 → Mat ℝ}
    (hmu : ∀ c p q, mu c p q = mu c q p) (excitations : String) {Q G : List (Dict ℝ)} {M : LRMats}
    {out : LROut ((Q.length + G.length) + (Q.length + G.length))} (hQ : lrQ tiny W = .ok Q)
    (hG : lrG tiny W excitations = .ok G) (hM : naiveInit tiny big th W excitations = .ok M)
    (ho : M.solve lib Q.length G.length = .ok out) :
    let X := W.ops (lettersOf excitations)
    ∃ D, naiveDipoles tiny big th W G mu out = .ok D ∧ D.length = out.energies.length ∧
      out.energies.length = X.length ∧
      ∀ (k : ℕ) u v d, out.vectors[k]? = some u → out.normed[k]? = some v → D[k]? = some d →
        TransitionDipole W X mu u v d := by
  intro X
  obtain ⟨G', hG', opsG, excG⟩ := lrG_ok ht hW excitations
  rw [hG] at hG'
  obtain rfl := Except.ok.inj hG'
  obtain ⟨Q', hQ', fQ⟩ := lrQ_ok ht hW
  rw [hQ] at hQ'
  obtain rfl := Except.ok.inj hQ'
  have lenQ : Q.length = W.kappa.length := fQ.length_eq.symm
  have hX : X = (W.kappa.map fun k => qOp k.2 k.1) ++ G.map sumOp := by
    show W.ops _ = _
    unfold RespWf.ops lettersOf
    rw [opsG]
  have hl : X.length = Q.length + G.length := by rw [hX]; simp [lenQ]
  obtain ⟨c1, c2⟩ := C94_naive (th := th) ht hb hW hth excitations
  by_cases hsm : ∃ T ∈ X, 1 / 1000 < |expv W.state (comm W.ham T)|
  · rw [c1 hsm] at hM; cases hM
  obtain ⟨M', m1, m2⟩ := c2 fun T hT => not_lt.1 fun h => hsm ⟨T, hT, h⟩
  rw [hM] at m1
  obtain rfl := Except.ok.inj m1
  obtain ⟨D, d1, d2, d3, d4⟩ := dip_finish heig ho hl (naiveInit_block hW hQ lenQ hM)
    (fun i j Xi Xid Xj Xjd a b c d => ⟨(m2 i j Xi Xid Xj Xjd a b c d).1, (m2 i j Xi Xid Xj Xjd a b c d).2.1⟩)
    (by rw [hX]; exact respOps_adj ht excG) hmu (pre := naiveDipPre tiny big th W)
    (entry := fun v m k => naiveDip tiny th W G out.energies.length v m k) (fun s1 x hx => by
      obtain ⟨k, k1, k2⟩ := naiveDip_ok (q := Q.length) (nexc := out.energies.length) ht hb hW hth hx
        (fun d hd => (excG d hd).1)
      refine ⟨k, k1, fun v Xd hXd => ?_⟩
      have qp := dipQ_ok hW hx lenQ (m := (Q.length + G.length) + (Q.length + G.length))
        (nexc := out.energies.length) (by omega) v
      have ea : ∀ i : Fin G.length, X[Q.length + (i : ℕ)]?.getD 0 = sumOp G[i] := fun i => by
        rw [hX]; exact act_part (by simp [lenQ]) rfl i
      rw [k2 v _ qp (fun i => Xd[Q.length + (i : ℕ)]?.getD 0) (fun i => by
        rw [← ea i]; exact forall2_at hXd _), ← dip_total hl v]
      refine congrArg Except.ok ?_
      congr 1
      · refine Finset.sum_congr rfl fun i hi => ?_
        have hXd' := hXd
        rw [hX] at hXd'
        obtain ⟨o1, o2⟩ := orb_part rfl lenQ hXd' (Finset.mem_range.1 hi)
        rw [hX, o1, o2, s1]
      · exact Finset.sum_congr rfl fun i _ => by rw [ea])
  exact ⟨D, d1.1, d2, d3, d4⟩

/-- **C98**, projected linear response: the transition dipole moments are `⟨[O, μ]⟩` with normalised excitation
operators `O`. -/
theorem C98_projected (ht : ExactTiny tiny) (hb : ExactBig big) (hW : W.Proper) (hE : W.energy = expv W.state W.ham)
    (hth : th.Fair W.ci.idx2det.length)
    (lib : LRLib) (heig : ∀ m A S, (lib.eig m A S).length = m) {mu : Fin 3 → Mat ℝ}
    (hmu : ∀ c p q, mu c p q = mu c q p) (excitations : String) {Q G : List (Dict ℝ)} {M : LRMats}
    {out : LROut ((Q.length + G.length) + (Q.length + G.length))} (hQ : lrQ tiny W = .ok Q)
    (hG : lrG tiny W excitations = .ok G) (hM : projInit tiny big th W excitations = .ok M)
    (ho : M.solve lib Q.length G.length = .ok out) :
    let X := W.projOps (lettersOf excitations)
    ∃ D, projDipoles tiny big th W G mu out = .ok D ∧ D.length = out.energies.length ∧
      out.energies.length = X.length ∧
      ∀ (k : ℕ) u v d, out.vectors[k]? = some u → out.normed[k]? = some v → D[k]? = some d →
        TransitionDipole W X mu u v d := by
  intro X
  obtain ⟨G', hG', opsG, excG⟩ := lrG_ok ht hW excitations
  rw [hG] at hG'
  obtain rfl := Except.ok.inj hG'
  obtain ⟨Q', hQ', fQ⟩ := lrQ_ok ht hW
  rw [hQ] at hQ'
  obtain rfl := Except.ok.inj hQ'
  have lenQ : Q.length = W.kappa.length := fQ.length_eq.symm
  have hX : X = (W.kappa.map fun k => qOp k.2 k.1) ++ G.map fun d => projOp W.state (sumOp d) := by
    show W.projOps _ = _
    unfold RespWf.projOps lettersOf
    rw [← opsG, List.map_map]
    rfl
  have hl : X.length = Q.length + G.length := by rw [hX]; simp [lenQ]
  obtain ⟨c1, c2⟩ := C95_projected (th := th) ht hb hW hE hth excitations
  by_cases hsm : ∃ T ∈ X, 1 / 1000 < |expv W.state (comm W.ham T)|
  · rw [c1 hsm] at hM; cases hM
  obtain ⟨M', m1, m2⟩ := c2 fun T hT => not_lt.1 fun h => hsm ⟨T, hT, h⟩
  rw [hM] at m1
  obtain rfl := Except.ok.inj m1
  obtain ⟨D, d1, d2, d3, d4⟩ := dip_finish heig ho hl (projInit_block hW hQ lenQ hM)
    (fun i j Xi Xid Xj Xjd a b c d => ⟨(m2 i j Xi Xid Xj Xjd a b c d).1, (m2 i j Xi Xid Xj Xjd a b c d).2.1⟩)
    (by rw [hX]; intro T hT; rcases List.mem_append.1 hT with h | h
        · obtain ⟨k, -, rfl⟩ := List.mem_map.1 h
          exact ⟨_, qOp_adjoint _ _⟩
        · obtain ⟨g, -, rfl⟩ := List.mem_map.1 h
          exact ⟨_, projOp_adjoint _ _⟩) hmu (pre := projDipPre tiny big th W)
    (entry := fun v m k => projDip tiny th W G out.energies.length v m k) (fun s1 x hx => by
      obtain ⟨k, k1, k2⟩ := projDip_ok (q := Q.length) (nexc := out.energies.length) ht hb hW hth hx
        (fun d hd => (excG d hd).1)
      refine ⟨k, k1, fun v Xd hXd => ?_⟩
      have qp := dipQ_ok hW hx lenQ (m := (Q.length + G.length) + (Q.length + G.length))
        (nexc := out.energies.length) (by omega) v
      have ea : ∀ i : Fin G.length, X[Q.length + (i : ℕ)]?.getD 0 = projOp W.state (sumOp G[i]) := fun i => by
        rw [hX]; exact act_part (by simp [lenQ]) rfl i
      rw [k2 v _ qp (fun i => Xd[Q.length + (i : ℕ)]?.getD 0) (fun i => by
        rw [← ea i]; exact forall2_at hXd _), ← dip_total hl v]
      refine congrArg Except.ok ?_
      congr 1
      · refine Finset.sum_congr rfl fun i hi => ?_
        have hXd' := hXd
        rw [hX] at hXd'
        obtain ⟨o1, o2⟩ := orb_part rfl lenQ hXd' (Finset.mem_range.1 hi)
        rw [hX, o1, o2, s1]
      · exact Finset.sum_congr rfl fun i _ => by rw [ea])
  exact ⟨D, d1.1, d2, d3, d4⟩

/-- **C98**, state-transfer linear response: the transition dipole moments are `⟨[O, μ]⟩` with normalised excitation
operators `O`. -/
theorem C98_transfer (ht : ExactTiny tiny) (hb : ExactBig big) (hW : W.Proper) (hE : W.energy = expv W.state W.ham)
    (hR : W.Rotates U Ud) (hD : emb W.ci W.csf = ket W.refDet) (hth : th.Fair W.ci.idx2det.length)
    (lib : LRLib) (heig : ∀ m A S, (lib.eig m A S).length = m) {mu : Fin 3 → Mat ℝ}
    (hmu : ∀ c p q, mu c p q = mu c q p) (excitations : String) {Q G : List (Dict ℝ)} {M : LRMats}
    {out : LROut ((Q.length + G.length) + (Q.length + G.length))} (hQ : lrQ tiny W = .ok Q)
    (hG : lrG tiny W excitations = .ok G) (hM : stInit tiny big th W excitations = .ok M)
    (ho : M.solve lib Q.length G.length = .ok out) :
    let X := W.transferOps U (lettersOf excitations)
    ∃ D, stDipoles tiny big th W G mu out = .ok D ∧ D.length = out.energies.length ∧
      out.energies.length = X.length ∧
      ∀ (k : ℕ) u v d, out.vectors[k]? = some u → out.normed[k]? = some v → D[k]? = some d →
        TransitionDipole W X mu u v d := by
  intro X
  obtain ⟨G', hG', opsG, excG⟩ := lrG_ok ht hW excitations
  rw [hG] at hG'
  obtain rfl := Except.ok.inj hG'
  obtain ⟨Q', hQ', fQ⟩ := lrQ_ok ht hW
  rw [hQ] at hQ'
  obtain rfl := Except.ok.inj hQ'
  have lenQ : Q.length = W.kappa.length := fQ.length_eq.symm
  have hX : X = (W.kappa.map fun k => qOp k.2 k.1) ++
      G.map fun d => ketbra (W.moved U (sumOp d)) W.state := by
    show W.transferOps U _ = _
    unfold RespWf.transferOps lettersOf
    rw [← opsG, List.map_map]
    rfl
  have hl : X.length = Q.length + G.length := by rw [hX]; simp [lenQ]
  obtain ⟨c1, c2⟩ := C96_transfer (th := th) ht hb hW hE hth hR hD excitations
  by_cases hsm : ∃ T ∈ X, 1 / 1000 < |expv W.state (comm W.ham T)|
  · rw [c1 hsm] at hM; cases hM
  obtain ⟨M', m1, m2⟩ := c2 fun T hT => not_lt.1 fun h => hsm ⟨T, hT, h⟩
  rw [hM] at m1
  obtain rfl := Except.ok.inj m1
  obtain ⟨-, st2⟩ := C96_states (th := th) ht hW hth hR hD excitations
  have orth : ∀ d ∈ G, inner W.state (W.moved U (sumOp d)) = 0 := by
    intro d hd
    refine st2 _ ?_
    unfold lettersOf
    rw [← opsG]
    exact List.mem_map_of_mem hd
  obtain ⟨D, d1, d2, d3, d4⟩ := dip_finish heig ho hl (stInit_block hW hQ lenQ hM)
    (fun i j Xi Xid Xj Xjd a b c d => ⟨(m2 i j Xi Xid Xj Xjd a b c d).1, (m2 i j Xi Xid Xj Xjd a b c d).2.1⟩)
    (by rw [hX]; intro T hT; rcases List.mem_append.1 hT with h | h
        · obtain ⟨k, -, rfl⟩ := List.mem_map.1 h
          exact ⟨_, qOp_adjoint _ _⟩
        · obtain ⟨g, -, rfl⟩ := List.mem_map.1 h
          exact ⟨_, ketbra_adjoint _ _⟩) hmu (pre := stDipPre tiny big th W)
    (entry := fun v m k => stDip tiny th W G out.energies.length v m k) (fun s1 x hx => by
      obtain ⟨k, k1, k2⟩ := stDip_ok (q := Q.length) (nexc := out.energies.length) ht hb hW hth hR hx
        (fun d hd => (excG d hd).1) orth
      refine ⟨k, k1, fun v Xd hXd => ?_⟩
      have qp := dipQ_ok hW hx lenQ (m := (Q.length + G.length) + (Q.length + G.length))
        (nexc := out.energies.length) (by omega) v
      have ea : ∀ i : Fin G.length, X[Q.length + (i : ℕ)]?.getD 0 = ketbra (W.moved U (sumOp G[i])) W.state := fun i => by
        rw [hX]; exact act_part (by simp [lenQ]) rfl i
      rw [k2 v _ qp (fun i => Xd[Q.length + (i : ℕ)]?.getD 0) (fun i => by
        rw [← ea i]; exact forall2_at hXd _), ← dip_total hl v]
      refine congrArg Except.ok ?_
      congr 1
      · refine Finset.sum_congr rfl fun i hi => ?_
        have hXd' := hXd
        rw [hX] at hXd'
        obtain ⟨o1, o2⟩ := orb_part rfl lenQ hXd' (Finset.mem_range.1 hi)
        rw [hX, o1, o2, s1]
      · exact Finset.sum_congr rfl fun i _ => by rw [ea])
  exact ⟨D, d1.2, d2, d3, d4⟩

/-- `q|0⟩⟨0|` and `q` have the same transition moments. -/
theorem pst_orb_dip {Ψ : Fock ℝ} {q qd M : FOp ℝ} (hn : inner Ψ Ψ = 1) (hq : IsAdjoint q qd)
    (h : qd Ψ = 0) : expv Ψ (comm q M) = expv Ψ (comm (ketbra (q Ψ) Ψ) M) := by
  have z : ∀ x, inner Ψ (q x) = 0 := fun x => by rw [← hq.symm, h, inner_zero_left]
  rw [expv_comm, expv_comm, ketbra_apply, ketbra_apply, inner_smul_right, z, z, map_smul, inner_smul_right, hn]
  ring

/-- **C98**, projected state-transfer linear response: the transition dipole moments are `⟨[O, μ]⟩` with normalised excitation
operators `O`. -/
theorem C98_projected_transfer (ht : ExactTiny tiny) (hb : ExactBig big) (hW : W.Proper) (hE : W.energy = expv W.state W.ham)
    (hR : W.Rotates U Ud) (hD : emb W.ci W.csf = ket W.refDet) (hth : th.Fair W.ci.idx2det.length)
    (lib : LRLib) (heig : ∀ m A S, (lib.eig m A S).length = m) {mu : Fin 3 → Mat ℝ}
    (hmu : ∀ c p q, mu c p q = mu c q p) (excitations : String) {Q G : List (Dict ℝ)} {M : LRMats}
    {out : LROut ((Q.length + G.length) + (Q.length + G.length))} (hQ : lrQ tiny W = .ok Q)
    (hG : lrG tiny W excitations = .ok G) (hM : pstInit tiny big th W excitations = .ok M)
    (ho : M.solve lib Q.length G.length = .ok out) :
    let X := W.projTransferOps U (lettersOf excitations)
    ∃ D, stDipoles tiny big th W G mu out = .ok D ∧ D.length = out.energies.length ∧
      out.energies.length = X.length ∧
      ∀ (k : ℕ) u v d, out.vectors[k]? = some u → out.normed[k]? = some v → D[k]? = some d →
        TransitionDipole W X mu u v d := by
  intro X
  obtain ⟨G', hG', opsG, excG⟩ := lrG_ok ht hW excitations
  rw [hG] at hG'
  obtain rfl := Except.ok.inj hG'
  obtain ⟨Q', hQ', fQ⟩ := lrQ_ok ht hW
  rw [hQ] at hQ'
  obtain rfl := Except.ok.inj hQ'
  have lenQ : Q.length = W.kappa.length := fQ.length_eq.symm
  have hX : X = (W.kappa.map fun k => ketbra (qOp k.2 k.1 W.state) W.state) ++
      G.map fun d => ketbra (W.moved U (sumOp d)) W.state := by
    show W.projTransferOps U _ = _
    unfold RespWf.projTransferOps lettersOf
    rw [← opsG, List.map_map]
    rfl
  have hl : X.length = Q.length + G.length := by rw [hX]; simp [lenQ]
  obtain ⟨c1, c2⟩ := C97_projected_transfer (th := th) ht hb hW hE hth hR hD excitations
  by_cases hsm : ∃ T ∈ X, 1 / 1000 < |expv W.state (comm W.ham T)|
  · rw [c1 hsm] at hM; cases hM
  obtain ⟨M', m1, m2⟩ := c2 fun T hT => not_lt.1 fun h => hsm ⟨T, hT, h⟩
  rw [hM] at m1
  obtain rfl := Except.ok.inj m1
  obtain ⟨-, st2⟩ := C96_states (th := th) ht hW hth hR hD excitations
  have orth : ∀ d ∈ G, inner W.state (W.moved U (sumOp d)) = 0 := by
    intro d hd
    refine st2 _ ?_
    unfold lettersOf
    rw [← opsG]
    exact List.mem_map_of_mem hd
  obtain ⟨D, d1, d2, d3, d4⟩ := dip_finish heig ho hl (pstInit_block hQ hM)
    (fun i j Xi Xid Xj Xjd a b c d => ⟨(m2 i j Xi Xid Xj Xjd a b c d).1, (m2 i j Xi Xid Xj Xjd a b c d).2.1⟩)
    (by rw [hX]; intro T hT; rcases List.mem_append.1 hT with h | h
        · obtain ⟨k, -, rfl⟩ := List.mem_map.1 h
          exact ⟨_, ketbra_adjoint _ _⟩
        · obtain ⟨g, -, rfl⟩ := List.mem_map.1 h
          exact ⟨_, ketbra_adjoint _ _⟩) hmu (pre := stDipPre tiny big th W)
    (entry := fun v m k => stDip tiny th W G out.energies.length v m k) (fun s1 x hx => by
      obtain ⟨k, k1, k2⟩ := stDip_ok (q := Q.length) (nexc := out.energies.length) ht hb hW hth hR hx
        (fun d hd => (excG d hd).1) orth
      refine ⟨k, k1, fun v Xd hXd => ?_⟩
      have qp := dipQ_ok hW hx lenQ (m := (Q.length + G.length) + (Q.length + G.length))
        (nexc := out.energies.length) (by omega) v
      have ea : ∀ i : Fin G.length, X[Q.length + (i : ℕ)]?.getD 0 = ketbra (W.moved U (sumOp G[i])) W.state := fun i => by
        rw [hX]; exact act_part (by simp [lenQ]) rfl i
      rw [k2 v _ qp (fun i => Xd[Q.length + (i : ℕ)]?.getD 0) (fun i => by
        rw [← ea i]; exact forall2_at hXd _), ← dip_total hl v]
      refine congrArg Except.ok ?_
      congr 1
      · refine Finset.sum_congr rfl fun i hi => ?_
        have hlt := Finset.mem_range.1 hi
        have ha := forall2_at hXd i
        have hk := hW.kappa W.kappa[i] (List.getElem_mem _)
        have e1 : X[i]?.getD 0 = ketbra (qOp W.kappa[i].2 W.kappa[i].1 W.state) W.state := by
          rw [hX, List.getElem?_append_left (by simp; omega), List.getElem?_map, List.getElem?_eq_getElem (by omega)]
          rfl
        rw [e1] at ha ⊢
        rw [expv_comm_adj ha (oneOp_adjoint hx _), s1]
        unfold qAdj
        rw [List.getElem?_map, List.getElem?_map, List.getElem?_eq_getElem (by omega : i < W.kappa.length)]
        simp only [Option.map_some, Option.getD_some]
        rw [expv_comm_adj (qOp_adjoint W.kappa[i].2 W.kappa[i].1) (oneOp_adjoint hx _),
          pst_orb_dip hW.norm (qOp_adjoint _ _) (qOp_kills (show ActiveState _ _ W.state from emb_active W.ci _) hk.1)]
      · exact Finset.sum_congr rfl fun i _ => by rw [ea])
  exact ⟨D, d1.2, d2, d3, d4⟩

/-- **C98**, oscillator strengths: `2/3 E |⟨[O, μ]⟩|²`. -/
theorem C98_strengths {X : List (FOp ℝ)} {mu : Fin 3 → Mat ℝ} {m : ℕ} {energies : List ℝ} {D : List (Fin 3 → ℝ)}
    {k : ℕ} {e : ℝ} {u v : Fin m → ℝ} {d : Fin 3 → ℝ} (he : energies[k]? = some e) (hd : D[k]? = some d)
    (hT : TransitionDipole W X mu u v d) {Xd : List (FOp ℝ)} (hXd : List.Forall₂ IsAdjoint X Xd) :
    (oscillatorStrengths energies D)[k]? =
      some (2 / 3 * e * ∑ c, expv W.state (comm (vecOp X Xd v) (oneOp (mu c) W.numOrbs)) ^ 2) := by
  have h := (hT Xd hXd).1
  have h1 := (List.getElem?_eq_some_iff.1 he).1
  have h2 := (List.getElem?_eq_some_iff.1 hd).1
  unfold oscillatorStrengths
  simp only []
  rw [List.getElem?_append_left (by simp; omega), List.getElem?_map, List.getElem?_zip_eq_some (z := (e, d)) |>.2 ⟨he, hd⟩]
  simp only [Option.map_some, Fin.sum_univ_three, ← h]

/-- The hypotheses of C98 are met whenever the wave function is stationary: there are a library, operators, matrices
and solutions; for the other classes likewise. -/
example (ht : ExactTiny tiny) (hb : ExactBig big) (hW : W.Proper) (hth : th.Fair W.ci.idx2det.length)
    (excitations : String)
    (h : ∀ T ∈ W.ops (lettersOf excitations), |expv W.state (comm W.ham T)| ≤ 1 / 1000) :
    ∃ (lib : LRLib) (Q G : List (Dict ℝ)) (M : LRMats)
      (out : LROut ((Q.length + G.length) + (Q.length + G.length))), (∀ m A S, (lib.eig m A S).length = m) ∧
      lrQ tiny W = .ok Q ∧ lrG tiny W excitations = .ok G ∧ naiveInit tiny big th W excitations = .ok M ∧
      M.solve lib Q.length G.length = .ok out := by
  obtain ⟨Q, G, h1, h2, -⟩ := C94_operators ht hW excitations
  obtain ⟨M, h3, -⟩ := (C94_naive (th := th) ht hb hW hth excitations).2 h
  refine ⟨⟨fun _ _ => [1], fun m _ _ => List.replicate m (0, 0)⟩, Q, G, M, ?_⟩
  have : ∃ out, M.solve ⟨fun _ _ => [1], fun m _ _ => List.replicate m (0, 0)⟩ Q.length G.length = .ok out := by
    unfold LRMats.solve calcExcitations hessianCheck minEig
    simp only [ok_bind, List.foldl_nil, if_true]
    rw [if_neg (by norm_num), if_neg (by norm_num)]
    exact ⟨_, rfl⟩
  obtain ⟨out, ho⟩ := this
  exact ⟨out, fun m _ _ => by simp, h1, h2, h3, ho⟩

end SQ
