import Verif.Lemmas.QuantumDipole
import Verif.Props.QuantumResponse
import Verif.Props.ResponseAllProjected

/-!
# C109: transition dipole moments of linear response with a quantum computer

`TransitionDipole`: Spec/ResponseDipole.lean; `ExactQuantum`: Spec/QuantumResponse.lean.
-/

namespace SQ

variable {tiny big : ℝ → Bool} {W : RespWf} {qev : Dict ℝ → Res ℝ}

/-- What the constructor stores. -/
theorem qlrInit_parts {excitations : String} {L : QLR} (h : qlrInit tiny big W excitations = .ok L) :
    lrG tiny W excitations = .ok L.G ∧ lrQ tiny W = .ok L.Q ∧ L.M = LRMats.zero := by
  unfold qlrInit at h
  obtain ⟨_, -, h⟩ := Res.of_bind h
  obtain ⟨_, -, h⟩ := Res.of_bind h
  obtain ⟨G, h1, h⟩ := Res.of_bind h
  obtain ⟨Q, h2, h⟩ := Res.of_bind h
  obtain rfl := Except.ok.inj h
  exact ⟨h1, h2, rfl⟩

/-- C109: on an interface that measures exactly, the transition dipole moments of naive linear response are `⟨[O, μ]⟩`
with normalised excitation operators `O`, as in the classical class (C98). -/
theorem C109_naive (ht : ExactTiny tiny) (hb : ExactBig big) (hW : W.Proper) (hq : ExactQuantum W.ci W.c qev)
    (lib : LRLib) (heig : ∀ m A S, (lib.eig m A S).length = m) {mu : Fin 3 → Mat ℝ}
    (hmu : ∀ c p q, mu c p q = mu c q p) {excitations : String} {L : QLR} {M : LRMats} {doRdm doGradients : Bool}
    {out : LROut ((L.Q.length + L.G.length) + (L.Q.length + L.G.length))}
    (hL : qlrInit tiny big W excitations = .ok L) (hM : qnRun tiny big qev W doRdm doGradients L = .ok M)
    (ho : M.qsolve lib L.Q.length L.G.length = .ok out) :
    let X := W.ops (lettersOf excitations)
    ∃ D, qnDipoles tiny big qev W L.G mu out = .ok D ∧ D.length = out.energies.length ∧
      out.energies.length = X.length ∧
      ∀ (k : ℕ) u v d, out.vectors[k]? = some u → out.normed[k]? = some v → D[k]? = some d →
        TransitionDipole W X mu u v d := by
  intro X
  obtain ⟨hG, hQ, hz⟩ := qlrInit_parts hL
  obtain ⟨G', hG', opsG, excG⟩ := lrG_ok ht hW excitations
  rw [hG] at hG'
  obtain rfl := Except.ok.inj hG'
  obtain ⟨Q', hQ', fQ⟩ := lrQ_ok ht hW
  rw [hQ] at hQ'
  obtain rfl := Except.ok.inj hQ'
  have lenQ : L.Q.length = W.kappa.length := fQ.length_eq.symm
  have hX : X = (W.kappa.map fun k => qOp k.2 k.1) ++ L.G.map sumOp := by
    show W.ops _ = _
    unfold RespWf.ops lettersOf
    rw [opsG]
  have hl : X.length = L.Q.length + L.G.length := by rw [hX]; simp [lenQ]
  obtain ⟨L', l1, l2⟩ := C104_naive (qev := qev) ht hb hW hq excitations
  rw [hL] at l1
  obtain rfl := Except.ok.inj l1
  obtain ⟨M', m1, m2⟩ := l2 doRdm doGradients
  rw [hM] at m1
  obtain rfl := Except.ok.inj m1
  have hB := qnRun_block hW hz lenQ hM
  obtain ⟨D, d1, d2, d3, d4⟩ := dip_finish (out := { out with warned := false })
    (lib := { lib with eigvals := fun _ _ => [1] }) heig (qsolve_solve hB.1 ho) hl hB
    (fun i j Xi Xid Xj Xjd a b c d => ⟨(m2 i j Xi Xid Xj Xjd a b c d).1, (m2 i j Xi Xid Xj Xjd a b c d).2.1⟩)
    (by rw [hX]; exact respOps_adj ht excG) hmu (pre := fun m => oneElec0i0a tiny big m W.ci.nI W.ci.nA)
    (entry := fun v m k => qnDip tiny qev W L.G out.energies.length v m k) (fun s1 x hx => by
      obtain ⟨k, k1, k2⟩ := qnDip_ok (q := L.Q.length) (nexc := out.energies.length) ht hb hq hx
        (fun d hd => (excG d hd).1)
      refine ⟨k, k1, fun v Xd hXd => ?_⟩
      dsimp only at s1
      have qp := dipQ_ok hW hx lenQ (m := (L.Q.length + L.G.length) + (L.Q.length + L.G.length))
        (nexc := out.energies.length) (by omega) v
      have ea : ∀ i : Fin L.G.length, X[L.Q.length + (i : ℕ)]?.getD 0 = sumOp L.G[i] := fun i => by
        rw [hX]; exact act_part (by simp [lenQ]) rfl i
      rw [k2 v _ qp (fun i => Xd[L.Q.length + (i : ℕ)]?.getD 0) (fun i => by
        rw [← ea i]; exact forall2_at hXd _), ← dip_total hl v]
      refine congrArg Except.ok ?_
      congr 1
      · refine Finset.sum_congr rfl fun i hi => ?_
        have hXd' := hXd
        rw [hX] at hXd'
        obtain ⟨o1, o2⟩ := orb_part rfl lenQ hXd' (Finset.mem_range.1 hi)
        rw [hX, o1, o2, s1]
      · exact Finset.sum_congr rfl fun i _ => by rw [ea])
  exact ⟨D, d1.1, d2, d3, d4⟩

/-- The lists `_G_exp`, `_HG_exp` at the positions of the operators. -/
theorem exp_at {G : List (Dict ℝ)} {ops : List (FOp ℝ)} (h : G.map sumOp = ops) (i : Fin G.length) :
    ∃ e, (ops.map (fun G => (expv W.state G, expv W.state (W.ham * G))))[(i : ℕ)]?
      = some (expv W.state (sumOp G[i]), e) := by
  subst h
  exact ⟨expv W.state (W.ham * sumOp G[i]), by simp⟩

/-- C109: the same for projected linear response. -/
theorem C109_projected (ht : ExactTiny tiny) (hb : ExactBig big) (hW : W.Proper) (hE : W.energy = expv W.state W.ham)
    (hq : ExactQuantum W.ci W.c qev)
    (lib : LRLib) (heig : ∀ m A S, (lib.eig m A S).length = m) {mu : Fin 3 → Mat ℝ}
    (hmu : ∀ c p q, mu c p q = mu c q p) {excitations : String} {L : QLR} {M : LRMats} {E : List (ℝ × ℝ)}
    {doRdm doGradients : Bool} {out : LROut ((L.Q.length + L.G.length) + (L.Q.length + L.G.length))}
    (hL : qlrInit tiny big W excitations = .ok L) (hM : qpRun tiny big qev W doRdm doGradients L = .ok (M, E))
    (ho : M.qsolve lib L.Q.length L.G.length = .ok out) :
    let X := W.projOps (lettersOf excitations)
    ∃ D, qpDipoles tiny big qev W L.G E mu out = .ok D ∧ D.length = out.energies.length ∧
      out.energies.length = X.length ∧
      ∀ (k : ℕ) u v d, out.vectors[k]? = some u → out.normed[k]? = some v → D[k]? = some d →
        TransitionDipole W X mu u v d := by
  intro X
  obtain ⟨hG, hQ, hz⟩ := qlrInit_parts hL
  obtain ⟨G', hG', opsG, excG⟩ := lrG_ok ht hW excitations
  rw [hG] at hG'
  obtain rfl := Except.ok.inj hG'
  obtain ⟨Q', hQ', fQ⟩ := lrQ_ok ht hW
  rw [hQ] at hQ'
  obtain rfl := Except.ok.inj hQ'
  have lenQ : L.Q.length = W.kappa.length := fQ.length_eq.symm
  have hX : X = (W.kappa.map fun k => qOp k.2 k.1) ++ L.G.map fun d => projOp W.state (sumOp d) := by
    show W.projOps _ = _
    unfold RespWf.projOps lettersOf
    rw [← opsG, List.map_map]
    rfl
  have hl : X.length = L.Q.length + L.G.length := by rw [hX]; simp [lenQ]
  obtain ⟨L', l1, l2⟩ := C105_projected (qev := qev) ht hb hW hE hq excitations
  rw [hL] at l1
  obtain rfl := Except.ok.inj l1
  obtain ⟨M', E', m1, hEl, m2⟩ := l2 doRdm doGradients
  rw [hM] at m1
  obtain ⟨rfl, rfl⟩ := Prod.mk.inj (Except.ok.inj m1)
  have hB := qpRun_block hW hz lenQ hM
  have hexp : ∀ i : Fin L.G.length, ∃ e, E[(i : ℕ)]? = some (expv W.state (sumOp L.G[i]), e) := fun i => by
    rw [hEl]; exact exp_at opsG i
  obtain ⟨D, d1, d2, d3, d4⟩ := dip_finish (out := { out with warned := false })
    (lib := { lib with eigvals := fun _ _ => [1] }) heig (qsolve_solve hB.1 ho) hl hB
    (fun i j Xi Xid Xj Xjd a b c d => ⟨(m2 i j Xi Xid Xj Xjd a b c d).1, (m2 i j Xi Xid Xj Xjd a b c d).2.1⟩)
    (by rw [hX]; intro T hT; rcases List.mem_append.1 hT with h | h
        · obtain ⟨k, -, rfl⟩ := List.mem_map.1 h
          exact ⟨_, qOp_adjoint _ _⟩
        · obtain ⟨g, -, rfl⟩ := List.mem_map.1 h
          exact ⟨_, projOp_adjoint _ _⟩) hmu (pre := fun m => oneElec0i0a tiny big m W.ci.nI W.ci.nA)
    (entry := fun v m k => qpDip tiny qev W L.G E out.energies.length v m k) (fun s1 x hx => by
      obtain ⟨k, k1, k2⟩ := qpDip_ok (q := L.Q.length) (nexc := out.energies.length) ht hb hW hq hx
        (fun d hd => (excG d hd).1) hexp
      refine ⟨k, k1, fun v Xd hXd => ?_⟩
      dsimp only at s1
      have qp := dipQ_ok hW hx lenQ (m := (L.Q.length + L.G.length) + (L.Q.length + L.G.length))
        (nexc := out.energies.length) (by omega) v
      have ea : ∀ i : Fin L.G.length, X[L.Q.length + (i : ℕ)]?.getD 0 = projOp W.state (sumOp L.G[i]) := fun i => by
        rw [hX]; exact act_part (by simp [lenQ]) rfl i
      rw [k2 v _ qp (fun i => Xd[L.Q.length + (i : ℕ)]?.getD 0) (fun i => by
        rw [← ea i]; exact forall2_at hXd _), ← dip_total hl v]
      refine congrArg Except.ok ?_
      congr 1
      · refine Finset.sum_congr rfl fun i hi => ?_
        have hXd' := hXd
        rw [hX] at hXd'
        obtain ⟨o1, o2⟩ := orb_part rfl lenQ hXd' (Finset.mem_range.1 hi)
        rw [hX, o1, o2, s1]
      · exact Finset.sum_congr rfl fun i _ => by rw [ea])
  exact ⟨D, d1.1, d2, d3, d4⟩

/-- C109: the same for all-projected linear response. -/
theorem C109_all_projected (ht : ExactTiny tiny) (hb : ExactBig big) (hW : W.Proper)
    (hE : W.energy = expv W.state W.ham) (hq : ExactQuantum W.ci W.c qev)
    (lib : LRLib) (heig : ∀ m A S, (lib.eig m A S).length = m) {mu : Fin 3 → Mat ℝ}
    (hmu : ∀ c p q, mu c p q = mu c q p) {excitations : String} {L : QLR} {M : LRMats} {E : List (ℝ × ℝ)}
    {doGradients : Bool} {out : LROut ((L.Q.length + L.G.length) + (L.Q.length + L.G.length))}
    (hL : qlrInit tiny big W excitations = .ok L) (hM : qaRun tiny big qev W doGradients L = .ok (M, E))
    (ho : M.qsolve lib L.Q.length L.G.length = .ok out) :
    let X := W.allProjOps (lettersOf excitations)
    ∃ D, qpDipoles tiny big qev W L.G E mu out = .ok D ∧ D.length = out.energies.length ∧
      out.energies.length = X.length ∧
      ∀ (k : ℕ) u v d, out.vectors[k]? = some u → out.normed[k]? = some v → D[k]? = some d →
        TransitionDipole W X mu u v d := by
  intro X
  obtain ⟨hG, hQ, hz⟩ := qlrInit_parts hL
  obtain ⟨G', hG', opsG, excG⟩ := lrG_ok ht hW excitations
  rw [hG] at hG'
  obtain rfl := Except.ok.inj hG'
  obtain ⟨Q', hQ', fQ⟩ := lrQ_ok ht hW
  rw [hQ] at hQ'
  obtain rfl := Except.ok.inj hQ'
  have lenQ : L.Q.length = W.kappa.length := fQ.length_eq.symm
  have hX : X = (W.kappa.map fun k => ketbra (qOp k.2 k.1 W.state) W.state) ++
      L.G.map fun d => projOp W.state (sumOp d) := by
    show W.allProjOps _ = _
    unfold RespWf.allProjOps RespWf.ops lettersOf
    rw [← opsG, List.map_append, List.map_map, List.map_map]
    congr 1
    exact List.map_congr_left fun k hk => projOp_q hW hk
  have hl : X.length = L.Q.length + L.G.length := by rw [hX]; simp [lenQ]
  obtain ⟨L', l1, l2⟩ := C106_all_projected (qev := qev) ht hb hW hE hq excitations
  rw [hL] at l1
  obtain rfl := Except.ok.inj l1
  obtain ⟨M', E', m1, hEl, m2⟩ := l2 doGradients
  rw [hM] at m1
  obtain ⟨rfl, rfl⟩ := Prod.mk.inj (Except.ok.inj m1)
  have hB := qaRun_block hz hM
  have hexp : ∀ i : Fin L.G.length, ∃ e, E[(i : ℕ)]? = some (expv W.state (sumOp L.G[i]), e) := fun i => by
    rw [hEl]; exact exp_at opsG i
  obtain ⟨D, d1, d2, d3, d4⟩ := dip_finish (out := { out with warned := false })
    (lib := { lib with eigvals := fun _ _ => [1] }) heig (qsolve_solve hB.1 ho) hl hB
    (fun i j Xi Xid Xj Xjd a b c d => ⟨(m2 i j Xi Xid Xj Xjd a b c d).1, (m2 i j Xi Xid Xj Xjd a b c d).2.1⟩)
    (by rw [hX]; intro T hT; rcases List.mem_append.1 hT with h | h
        · obtain ⟨k, -, rfl⟩ := List.mem_map.1 h
          exact ⟨_, ketbra_adjoint _ _⟩
        · obtain ⟨g, -, rfl⟩ := List.mem_map.1 h
          exact ⟨_, projOp_adjoint _ _⟩) hmu (pre := fun m => oneElec0i0a tiny big m W.ci.nI W.ci.nA)
    (entry := fun v m k => qpDip tiny qev W L.G E out.energies.length v m k) (fun s1 x hx => by
      obtain ⟨k, k1, k2⟩ := qpDip_ok (q := L.Q.length) (nexc := out.energies.length) ht hb hW hq hx
        (fun d hd => (excG d hd).1) hexp
      refine ⟨k, k1, fun v Xd hXd => ?_⟩
      dsimp only at s1
      have qp := dipQ_ok hW hx lenQ (m := (L.Q.length + L.G.length) + (L.Q.length + L.G.length))
        (nexc := out.energies.length) (by omega) v
      have ea : ∀ i : Fin L.G.length, X[L.Q.length + (i : ℕ)]?.getD 0 = projOp W.state (sumOp L.G[i]) := fun i => by
        rw [hX]; exact act_part (by simp [lenQ]) rfl i
      rw [k2 v _ qp (fun i => Xd[L.Q.length + (i : ℕ)]?.getD 0) (fun i => by
        rw [← ea i]; exact forall2_at hXd _), ← dip_total hl v]
      refine congrArg Except.ok ?_
      congr 1
      · refine Finset.sum_congr rfl fun i hi => ?_
        have hlt := Finset.mem_range.1 hi
        have ha := forall2_at hXd i
        have hk := hW.kappa W.kappa[i] (List.getElem_mem _)
        have e1 : X[i]?.getD 0 = ketbra (qOp W.kappa[i].2 W.kappa[i].1 W.state) W.state := by
          rw [hX, List.getElem?_append_left (by simp; omega), List.getElem?_map, List.getElem?_eq_getElem (by omega)]
          rfl
        rw [e1] at ha ⊢
        rw [expv_comm_adj ha (oneOp_adjoint hx _), s1]
        unfold qAdj
        rw [List.getElem?_map, List.getElem?_map, List.getElem?_eq_getElem (by omega : i < W.kappa.length)]
        simp only [Option.map_some, Option.getD_some]
        rw [expv_comm_adj (qOp_adjoint W.kappa[i].2 W.kappa[i].1) (oneOp_adjoint hx _),
          pst_orb_dip hW.norm (qOp_adjoint _ _) (qOp_kills (show ActiveState _ _ W.state from emb_active W.ci _) hk.1)]
      · exact Finset.sum_congr rfl fun i _ => by rw [ea])
  exact ⟨D, d1.1, d2, d3, d4⟩

/-- C109: with active operators the solver does not raise as long as the library returns eigenvalues of the Hessian. -/
theorem C109_solves (lib : LRLib) {q g : ℕ} (M : LRMats) (hg : g ≠ 0) (h : ∀ m A, lib.eigvals m A ≠ []) :
    ∃ out, M.qsolve lib q g = .ok out := by
  unfold LRMats.qsolve calcExcitations hessianCheck
  cases he : lib.eigvals ((q + g) + (q + g)) (lrHessian (LRMats.arr _ M.A) (LRMats.arr _ M.B)) with
  | nil => exact absurd he (h _ _)
  | cons a l =>
    simp only [he, minEig, ok_bind, if_neg hg]
    exact ⟨_, rfl⟩

/-- C109 fails without active operators: with the excitation string "" (orbital rotations only) the constructor makes
no active operators; the classical class then normalises the vectors, the circuit class raises `IndexError`, whatever the
wave function. -/
theorem C109_orbital_only_disagree (lib : LRLib) (h : ∀ m A, lib.eigvals m A = [1]) (q : ℕ) (M : LRMats) :
    lrG tiny W "" = .ok [] ∧ (∃ out, M.solve lib q 0 = .ok out) ∧ M.qsolve lib q 0 = .error .indexError := by
  refine ⟨rfl, ?_, ?_⟩
  · unfold LRMats.solve calcExcitations hessianCheck
    simp only [h, minEig, ok_bind, List.foldl_nil, if_true]
    rw [if_neg (by norm_num), if_neg (by norm_num)]
    exact ⟨_, rfl⟩
  · unfold LRMats.qsolve calcExcitations hessianCheck
    simp only [h, minEig, ok_bind]
    rfl

/-- The hypotheses of C109 are met for every wave function of the program and every exact interface as soon as there is
an active operator; for the other classes likewise. -/
example (ht : ExactTiny tiny) (hb : ExactBig big) (hW : W.Proper) (hq : ExactQuantum W.ci W.c qev)
    (excitations : String) (hn : lrG tiny W excitations ≠ .ok []) (doRdm doGradients : Bool) :
    ∃ (lib : LRLib) (L : QLR) (M : LRMats) (out : LROut ((L.Q.length + L.G.length) + (L.Q.length + L.G.length))),
      (∀ m A S, (lib.eig m A S).length = m) ∧ qlrInit tiny big W excitations = .ok L ∧
      qnRun tiny big qev W doRdm doGradients L = .ok M ∧ M.qsolve lib L.Q.length L.G.length = .ok out := by
  obtain ⟨L, h1, h2⟩ := C104_naive (qev := qev) ht hb hW hq excitations
  obtain ⟨M, h3, -⟩ := h2 doRdm doGradients
  obtain ⟨out, h4⟩ := C109_solves ⟨fun _ _ => [1], fun m _ _ => List.replicate m (0, 0)⟩ (q := L.Q.length)
    (g := L.G.length) M (fun h => hn (by rw [(qlrInit_parts h1).1, List.length_eq_zero_iff.1 h])) (by simp)
  exact ⟨⟨fun _ _ => [1], fun m _ _ => List.replicate m (0, 0)⟩, L, M, out, fun m _ _ => by simp, h1, h3, h4⟩

end SQ
