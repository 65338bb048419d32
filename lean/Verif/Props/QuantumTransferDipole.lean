import Verif.Props.QuantumTransfer

/-!
# C112: transition dipole moments of state-transfer and self-consistent linear response with a quantum computer

`TransitionDipole`: Spec/ResponseDipole.lean.
-/

namespace SQ

variable {tiny big : ℝ → Bool} {W : RespWf} {U Ud : FOp ℝ} {qcsf : Csf → Dict ℝ → Csf → Res ℝ} {na nb : ℕ}

/-! ### Roots and norms without orbital rotations -/

theorem SqArr.op_same {f : ℝ → ℝ → ℝ} {a b : SqArr} (h : a.size = b.size) :
    a.op f b = .ok ⟨a.size, fun i j => f (a.val i j) (b.val i j)⟩ := by
  unfold SqArr.op
  rw [if_pos h]

theorem normPart_same {Z Y m : SqArr} (h : Z.size = Y.size) (h' : m.size = Z.size) :
    normPart Z Y m = .ok (∑ i ∈ Finset.range m.size, ∑ j ∈ Finset.range m.size,
      m.val i j * (Z.val i j - Y.val i j)) := by
  unfold normPart
  rw [SqArr.op_same h, ok_bind, SqArr.op_same (by exact h'), ok_bind]
  rfl

theorem cutNorm_zero (g : ℕ) (metric : ℕ → ℕ → ℝ) (u : ℕ → ℝ) :
    cutNorm (2 * g) 0 g metric u = .ok (∑ i ∈ Finset.range g, ∑ j ∈ Finset.range g,
      metric i j * (u i * u j - u (g + i) * u (g + j))) := by
  have l0 : cutLen (2 * g) 0 0 = 0 := by simp [cutLen]
  have l1 : cutLen (2 * g) (0 + g) (2 * 0 + g) = 0 := by simp [cutLen]
  have l2 : cutLen (2 * g) 0 (0 + g) = g := by unfold cutLen; omega
  have l3 : cutLen (2 * g) (2 * 0 + g) (2 * g) = g := by unfold cutLen; omega
  unfold cutNorm SqArr.outer SqArr.cut
  simp only [l0, l1, l2, l3]
  rw [normPart_same (by rfl) (by rfl), ok_bind, normPart_same (by rfl) (by rfl), ok_bind]
  simp only [Finset.range_zero, Finset.sum_empty, zero_add, mul_zero]
  rfl

theorem stateNorm_cut {g : ℕ} (S : RMat ((0 + g) + (0 + g))) (u : Fin ((0 + g) + (0 + g)) → ℝ) :
    cutNorm (2 * g) 0 g (fun i j => if h : i < (0 + g) + (0 + g) ∧ j < (0 + g) + (0 + g) then S ⟨i, h.1⟩ ⟨j, h.2⟩ else 0)
      (rowAt u) = .ok (stateNorm S u) := by
  rw [cutNorm_zero]
  unfold stateNorm
  rw [Finset.univ_eq_empty, Finset.sum_empty, Finset.sum_range]
  refine congrArg Except.ok (Eq.trans (Finset.sum_congr rfl fun i _ => ?_) (zero_add _).symm)
  rw [Finset.sum_range]
  refine Finset.sum_congr rfl fun j _ => ?_
  rw [dif_pos ⟨by omega, by omega⟩, zg_row, zg_row, yg_row, yg_row]
  have e : ∀ k : Fin g, (0 : ℕ) + (k : ℕ) + (0 + g) = g + k := fun k => by omega
  have e' : ∀ k : Fin g, (0 : ℕ) + (k : ℕ) = k := fun k => by omega
  rw [e, e, e', e']
  congr 2
  · exact Fin.ext (by simp)
  · exact Fin.ext (by simp)

/-- The columns of `_Z_G_normed` and `_Y_G_normed` of a normalised vector. -/
noncomputable def colOf {g : ℕ} (v : Fin ((0 + g) + (0 + g)) → ℝ) : List ℝ × List ℝ :=
  ((List.range g).map fun i => rowAt v i, (List.range g).map fun i => rowAt v (g + i))

theorem qtSolve_zero {lib : LRLib} {g : ℕ} {M : LRMats} {out : LROut ((0 + g) + (0 + g))}
    (ho : M.qsolve lib 0 g = .ok out) : qtSolve lib 0 g M = .ok (out.energies, out.normed.map colOf) := by
  unfold LRMats.qsolve at ho
  obtain ⟨o, h1, h2⟩ := Res.of_bind ho
  have hg : g ≠ 0 := by
    rintro rfl
    simp at h2
  rw [if_neg hg] at h2
  obtain rfl := Except.ok.inj h2
  have hn : o.normed = o.vectors.map (normedVector (lrMetric (LRMats.arr (0 + g) M.Sigma) 0)) := by
    unfold calcExcitations at h1
    obtain ⟨w, -, h1⟩ := Res.of_bind h1
    obtain rfl := Except.ok.inj h1
    rfl
  have l2 : cutLen (2 * g) 0 (0 + g) = g := by unfold cutLen; omega
  have l3 : cutLen (2 * g) (2 * 0 + g) (2 * g) = g := by unfold cutLen; omega
  unfold qtSolve
  rw [h1, ok_bind, if_neg (by rw [l2]; exact hg)]
  dsimp only
  have hm : o.vectors.mapM (fun u => cutNorm (2 * g) 0 g (fun i j => if h : i < (0 + g) + (0 + g) ∧ j < (0 + g) + (0 + g)
      then lrMetric (LRMats.arr (0 + g) M.Sigma) 0 ⟨i, h.1⟩ ⟨j, h.2⟩ else 0) (rowAt u))
      = .ok (o.vectors.map (stateNorm (lrMetric (LRMats.arr (0 + g) M.Sigma) 0))) := by
    generalize o.vectors = vs
    induction vs with
    | nil => rfl
    | cons v vs ih => rw [List.mapM_cons, stateNorm_cut, ok_bind, ih]; rfl
  rw [hm, ok_bind, hn]
  refine congrArg Except.ok (Prod.ext rfl ?_)
  dsimp only
  rw [List.zip_map_right, List.map_map, List.map_map]
  have hz : o.vectors.zip o.vectors = o.vectors.map fun v => (v, v) := by
    generalize o.vectors = vs
    induction vs with
    | nil => rfl
    | cons v vs ih => rw [List.zip_cons_cons, ih]; rfl
  rw [hz, List.map_map]
  refine List.map_congr_left fun v _ => ?_
  dsimp only [Function.comp, Prod.map, id]
  unfold cutNormed colOf
  rw [l2, l3]
  have hr : ∀ k, rowAt (normedVector (lrMetric (LRMats.arr (0 + g) M.Sigma) 0) v) k
      = if stateNorm (lrMetric (LRMats.arr (0 + g) M.Sigma) 0) v < 1e-10 then 0
        else rowAt v k * (1 / stateNorm (lrMetric (LRMats.arr (0 + g) M.Sigma) 0) v) ^ (0.5 : ℝ) := by
    intro k
    unfold normedVector rowAt
    split
    · split <;> rfl
    · split
      · rfl
      · rw [zero_mul]
  refine Prod.ext (List.map_congr_left fun i _ => ?_) (List.map_congr_left fun i _ => ?_)
  · rw [hr, show 0 + i = i by omega]
  · rw [hr, show 2 * 0 + g + i = g + i by omega]

theorem foldlM_range_val {g : ℕ} {f : ℝ → ℕ → Res ℝ} {val : ℕ → ℝ} (h : ∀ i < g, ∀ s, f s i = .ok (s + val i)) (s : ℝ) :
    (List.range g).foldlM f s = .ok (s + ∑ i ∈ Finset.range g, val i) := by
  induction g with
  | zero => simp; rfl
  | succ g ih =>
    rw [List.range_succ, List.foldlM_append, ih fun i hi => h i (by omega), ok_bind, List.foldlM_cons, h g (by omega),
      ok_bind, Finset.sum_range_succ, add_assoc]
    rfl

/-- One component for one state: `X i` takes the wave function to `U G_i |ref⟩` and its adjoint destroys it. -/
theorem qtDip_ok {T Td : ℕ → FOp ℝ} {S : States} {op : Dict ℝ} {K : FOp ℝ}
    (c : TransferCtx W U Ud qcsf T Td S op K) {g : ℕ} (hf : StateKey.hf ∈ S.map (·.1))
    (hg : ∀ i < g, StateKey.g i ∈ S.map (·.1)) {X Xd : ℕ → FOp ℝ}
    (hX : ∀ i < g, IsAdjoint (X i) (Xd i) ∧ Xd i W.state = 0 ∧ X i W.state = U (T i (emb W.ci W.csf)))
    (v : Fin ((0 + g) + (0 + g)) → ℝ) :
    qtDip qcsf S g (colOf v) (getFolded W.ci.nI W.ci.nA W.ci.nV op) = .ok (∑ i ∈ Finset.range g,
      (rowAt v i * expv W.state (comm (X i) K) + rowAt v (g + i) * expv W.state (comm (Xd i) K))) := by
  unfold qtDip
  rw [foldlM_range_val (val := fun i => rowAt v i * expv W.state (comm (X i) K)
    + rowAt v (g + i) * expv W.state (comm (Xd i) K)), zero_add]
  intro i hi s
  obtain ⟨a, b, a1, b1, -, e⟩ := c.elem hf (hg i hi)
  obtain ⟨b', a', b1', a1', -, e'⟩ := c.elem (hg i hi) hf
  rw [a1] at a1'
  rw [b1] at b1'
  obtain rfl := Except.ok.inj a1'
  obtain rfl := Except.ok.inj b1'
  have r1 : rowGet (colOf v).1 i = .ok (rowAt v i) := by
    unfold rowGet colOf
    simp [hi]
  have r2 : rowGet (colOf v).2 i = .ok (rowAt v (g + i)) := by
    unfold rowGet colOf
    simp [hi]
  simp only [r1, r2, a1, b1, e, e', ok_bind]
  refine congrArg Except.ok ?_
  obtain ⟨x1, x2, x3⟩ := hX i hi
  have y1 : expv W.state (comm (X i) K) = - inner W.state (K (X i W.state)) := by
    rw [expv, comm, LinearMap.sub_apply, Module.End.mul_apply, Module.End.mul_apply, inner_sub_right,
      ← x1.symm, x2, inner_zero_left, zero_sub]
  have y2 : expv W.state (comm (Xd i) K) = inner (X i W.state) (K W.state) := by
    rw [expv, comm, LinearMap.sub_apply, Module.End.mul_apply, Module.End.mul_apply, inner_sub_right,
      ← x1, x2, map_zero, inner_zero_right, sub_zero]
  rw [y1, y2, x3, c.rot.state]
  dsimp only [keyState]
  ring

/-- The part common to both classes. -/
theorem qt_dipoles (ht : ExactTiny tiny) (hb : ExactBig big) (hq : ExactCsfs W qcsf) (hR : W.Rotates U Ud)
    (lib : LRLib) (heig : ∀ m A S, (lib.eig m A S).length = m) {mu : Fin 3 → Mat ℝ}
    (hmu : ∀ c p q, mu c p q = mu c q p) {T Td : ℕ → FOp ℝ} {S : States} (hS : ∀ e ∈ S, HoldsState W T Td e) {g : ℕ}
    (hf : StateKey.hf ∈ S.map (·.1)) (hg : ∀ i < g, StateKey.g i ∈ S.map (·.1)) {X : List (FOp ℝ)} (hl : X.length = g)
    (hadj : ∀ Y ∈ X, ∃ Y', IsAdjoint Y Y')
    (hX : ∀ i Xi Xid, X[i]? = some Xi → IsAdjoint Xi Xid → Xid W.state = 0 ∧ Xi W.state = U (T i (emb W.ci W.csf)))
    {M : LRMats} (hM : ∀ i j Xi Xid Xj, X[i]? = some Xi → X[j]? = some Xj → IsAdjoint Xi Xid →
      M.Sigma i j = expv W.state (comm Xid Xj))
    {out : LROut ((0 + g) + (0 + g))} (ho : M.qsolve lib 0 g = .ok out) :
    ∃ r D, qtSolve lib 0 g M = .ok r ∧ r.1 = out.energies ∧ qtDipoles tiny big qcsf W S g mu r = .ok D ∧
      D.length = out.energies.length ∧ out.energies.length = X.length ∧
      ∀ (k : ℕ) u v d, out.vectors[k]? = some u → out.normed[k]? = some v → D[k]? = some d →
        TransitionDipole W X mu u v d := by
  subst hl
  obtain ⟨D, d1, d2, d3, d4⟩ := dip_finish (M := { M with Delta := LRMats.zero.Delta }) (X := X) (q := 0)
    (g := X.length) (W := W)
    (out := { out with warned := false }) (lib := { lib with eigvals := fun _ _ => [1] }) heig
    (qsolve_solve (M := { M with Delta := LRMats.zero.Delta }) (fun _ _ => rfl) ho) (by omega)
    ⟨fun _ _ => rfl, fun i j h => by omega⟩ (fun i j Xi Xid Xj Xjd a b c d => by
      refine ⟨hM i j Xi Xid Xj a b c, ?_⟩
      rw [expv, comm, LinearMap.sub_apply, Module.End.mul_apply, Module.End.mul_apply, (hX i Xi Xid a c).1,
        (hX j Xj Xjd b d).1, map_zero, map_zero, sub_zero, inner_zero_right]
      rfl) hadj hmu
    (pre := fun m => do
      let op ← oneElec0i0a tiny big m W.ci.nI W.ci.nA
      pure (getFolded W.ci.nI W.ci.nA W.ci.nV op))
    (entry := fun v _ k => qtDip qcsf S X.length (colOf v) k) (fun _ x hx => by
      obtain ⟨op, o1, o2, o3⟩ := one0_gen ht hb x W.ci
      refine ⟨getFolded W.ci.nI W.ci.nA W.ci.nV op, by rw [o1]; rfl, fun v Xd hXd => ?_⟩
      have c : TransferCtx W U Ud qcsf T Td S op (oneOp x W.numOrbs) := ⟨hq, hR, o2, o3, oneOp_adjoint hx _, hS⟩
      rw [qtDip_ok c hf hg (X := fun i => X[i]?.getD 0) (Xd := fun i => Xd[i]?.getD 0) (fun i hi => by
        have a := forall2_at hXd i
        have e : X[i]? = some (X[i]?.getD 0) := by rw [List.getElem?_eq_getElem hi]; rfl
        exact ⟨a, hX i _ _ e a⟩) v, ← dip_total (X := X) (by omega) v]
      rw [Finset.range_zero, Finset.sum_empty, Finset.sum_range]
      refine congrArg Except.ok (Eq.trans (Finset.sum_congr rfl fun i _ => ?_) (zero_add _).symm)
      rw [zg_row, yg_row, show 0 + (i : ℕ) + (0 + X.length) = X.length + i by omega, show 0 + (i : ℕ) = i by omega])
  refine ⟨_, D, qtSolve_zero ho, rfl, ?_, d2, d3, d4⟩
  rw [← d1.1]
  unfold qtDipoles
  congr 1
  funext s m k
  unfold LROut.column
  dsimp only
  rw [List.getElem?_map]
  cases out.normed[s]? <;> rfl

/-- C112: without orbital rotations the transition dipole moments of state-transfer linear response on an exact interface
are `⟨[O, μ]⟩` with normalised excitation operators `O` made of `U G |ref⟩⟨0|`, as in the classical class (C98). -/
theorem C112_transfer (ht : ExactTiny tiny) (hb : ExactBig big) (hW : W.Proper) (hE : W.energy = expv W.state W.ham)
    (hR : W.Rotates U Ud) (hS : W.HFStart na nb) (hq : ExactCsfs W qcsf) (hk : W.kappa = [])
    (lib : LRLib) (heig : ∀ m A S, (lib.eig m A S).length = m) {mu : Fin 3 → Mat ℝ}
    (hmu : ∀ c p q, mu c p q = mu c q p) {excitations : String} {L : QLR} {M : LRMats} {S : States}
    {skip doGradients : Bool} {out : LROut ((0 + L.G.length) + (0 + L.G.length))}
    (hL : qlrInit tiny big W excitations = .ok L) (hM : qstRun qcsf W na nb skip doGradients L = .ok (M, S))
    (ho : M.qsolve lib 0 L.G.length = .ok out) :
    let X := W.transferAct U (lettersOf excitations)
    ∃ r D, qtSolve lib L.Q.length L.G.length M = .ok r ∧ r.1 = out.energies ∧
      qtDipoles tiny big qcsf W S L.G.length mu r = .ok D ∧
      D.length = out.energies.length ∧ out.energies.length = X.length ∧
      ∀ (k : ℕ) u v d, out.vectors[k]? = some u → out.normed[k]? = some v → D[k]? = some d →
        TransitionDipole W X mu u v d := by
  intro X
  obtain ⟨L', l1, l2, l3⟩ := C110_transfer (qcsf := qcsf) ht hb hW hE hR hS hq excitations
  rw [hL] at l1
  obtain rfl := Except.ok.inj l1
  obtain ⟨M', S', m1, m2⟩ := (l3 skip doGradients).2 (.inl hk)
  rw [hM] at m1
  obtain ⟨rfl, rfl⟩ := Prod.mk.inj (Except.ok.inj m1)
  obtain ⟨L', l1, opsG, hG, lenQ, -⟩ := qt_setup ht hb hW excitations
  rw [hL] at l1
  obtain rfl := Except.ok.inj l1
  obtain ⟨hT, -⟩ := qt_ops ht opsG hG
  obtain ⟨S', s1, s2, s3, s4⟩ := qstStates_ok (Td := fun i => adj (opAt (lrOps W (lettersOf excitations)) i)) ht hW.space
    hS.orbitals hS.electrons hS.active hG hT
  have hSS : S' = S := by
    unfold qstRun at hM
    rw [s1, ok_bind, if_neg (by rw [lenQ, hk]; exact fun h => h.1 rfl)] at hM
    dsimp only at hM
    split at hM
    · obtain ⟨_, -, hM⟩ := Res.of_bind hM
      obtain ⟨_, -, hM⟩ := Res.of_bind hM
      exact (Prod.mk.inj (Except.ok.inj hM)).2
    · obtain ⟨_, -, hM⟩ := Res.of_bind hM
      exact (Prod.mk.inj (Except.ok.inj hM)).2
  subst hSS
  obtain ⟨-, st2⟩ := C96_states (th := .one) ht hW trivial hR hS.closed excitations
  rw [lenQ, hk]
  have hadj : ∀ Y ∈ X, ∃ Y', IsAdjoint Y Y' := by
    intro Y hY
    obtain ⟨G, -, rfl⟩ := List.mem_map.1 hY
    exact ⟨_, ketbra_adjoint _ _⟩
  refine qt_dipoles ht hb hq hR lib heig hmu s2 s3 s4 l2.symm hadj ?_ ?_ ho
  · intro i Xi Xid hi hid
    unfold RespWf.transferAct at hi
    rw [List.getElem?_map] at hi
    obtain ⟨Gi, gi, rfl⟩ := Option.map_eq_some_iff.1 hi
    obtain rfl := hid.unique (ketbra_adjoint _ _)
    have := st2 _ (List.mem_of_getElem? gi)
    rw [ketbra_apply, ketbra_apply, hW.norm, one_smul, inner_comm, this, zero_smul, opAt_of gi]
    exact ⟨rfl, rfl⟩
  · intro i j Xi Xid Xj hi hj hid
    obtain ⟨Xjd, hjd⟩ := hadj Xj (List.mem_of_getElem? hj)
    exact (m2 i j Xi Xid Xj Xjd hi hj hid hjd).1

/-- C112, self-consistent: the same with `U G U†`. -/
theorem C112_selfconsistent (ht : ExactTiny tiny) (hb : ExactBig big) (hW : W.Proper)
    (hR : W.Rotates U Ud) (hS : W.HFStart na nb) (hq : ExactCsfs W qcsf) (hk : W.kappa = [])
    (lib : LRLib) (heig : ∀ m A S, (lib.eig m A S).length = m) {mu : Fin 3 → Mat ℝ}
    (hmu : ∀ c p q, mu c p q = mu c q p) {excitations : String} {L : QLR} {M : LRMats} {S : States}
    {skip doGradients : Bool} {out : LROut ((0 + L.G.length) + (0 + L.G.length))}
    (hL : qlrInit tiny big W excitations = .ok L) (hM : qscRun tiny qcsf W na nb skip doGradients L = .ok (M, S))
    (ho : M.qsolve lib 0 L.G.length = .ok out) :
    let X := W.scOps U Ud (lettersOf excitations)
    ∃ r D, qtSolve lib L.Q.length L.G.length M = .ok r ∧ r.1 = out.energies ∧
      qtDipoles tiny big qcsf W S L.G.length mu r = .ok D ∧
      D.length = out.energies.length ∧ out.energies.length = X.length ∧
      ∀ (k : ℕ) u v d, out.vectors[k]? = some u → out.normed[k]? = some v → D[k]? = some d →
        TransitionDipole W X mu u v d := by
  intro X
  obtain ⟨L', l1, l2, l3⟩ := C111_selfconsistent (qcsf := qcsf) ht hb hW hR hS hq excitations
  rw [hL] at l1
  obtain rfl := Except.ok.inj l1
  obtain ⟨M', S', m1, m2⟩ := (l3 skip doGradients).2 (.inl hk)
  rw [hM] at m1
  obtain ⟨rfl, rfl⟩ := Prod.mk.inj (Except.ok.inj m1)
  obtain ⟨L', l1, opsG, hG, lenQ, -⟩ := qt_setup ht hb hW excitations
  rw [hL] at l1
  obtain rfl := Except.ok.inj l1
  obtain ⟨hT, hTd⟩ := qt_ops ht opsG hG
  obtain ⟨S', s1, s2, s3, s4, -⟩ := qscStates_ok (na := na) (nb := nb)
    (Td := fun i => adj (opAt (lrOps W (lettersOf excitations)) i)) ht hW.space
    hS.orbitals hS.electrons hS.active hG hT hTd
  have hSS : S' = S := by
    unfold qscRun at hM
    rw [s1, ok_bind, if_neg (by rw [lenQ, hk]; exact fun h => h.1 rfl)] at hM
    dsimp only at hM
    split at hM
    · obtain ⟨_, -, hM⟩ := Res.of_bind hM
      obtain ⟨_, -, hM⟩ := Res.of_bind hM
      exact (Prod.mk.inj (Except.ok.inj hM)).2
    · obtain ⟨_, -, hM⟩ := Res.of_bind hM
      exact (Prod.mk.inj (Except.ok.inj hM)).2
  subst hSS
  rw [lenQ, hk]
  have hadj : ∀ Y ∈ X, ∃ Y', IsAdjoint Y Y' := by
    intro Y hY
    obtain ⟨G, hG', rfl⟩ := List.mem_map.1 hY
    rw [← opsG] at hG'
    obtain ⟨d, hd, rfl⟩ := List.mem_map.1 hG'
    obtain ⟨_, -, -, h⟩ := (hG d hd).dagger ht
    exact ⟨_, (hR.adjoint.mul h).mul hR.adjoint.symm⟩
  refine qt_dipoles ht hb hq hR lib heig hmu s2 s3 s4 l2.symm hadj ?_ ?_ ho
  · intro i Xi Xid hi hid
    obtain ⟨Gi, Gid, gi, -, zi, ai, -⟩ := sc_ops ht hW hR hS opsG hG hi hid
    exact ⟨zi, by rw [ai, opAt_of gi]⟩
  · intro i j Xi Xid Xj hi hj hid
    obtain ⟨Xjd, hjd⟩ := hadj Xj (List.mem_of_getElem? hj)
    exact (m2 i j Xi Xid Xj Xjd hi hj hid hjd).1

theorem normPart_err {Z Y m : SqArr} {e : PyErr} (h : normPart Z Y m = .error e) : e = .valueError := by
  have opErr : ∀ {f : ℝ → ℝ → ℝ} {a b : SqArr} {e}, a.op f b = .error e → e = .valueError := by
    intro f a b e h
    unfold SqArr.op at h
    split_ifs at h
    exact (Except.error.inj h).symm
  unfold normPart at h
  cases h1 : Z.op (· - ·) Y with
  | error e' =>
    rw [h1] at h
    obtain rfl := Except.error.inj h
    exact opErr h1
  | ok d =>
    rw [h1, ok_bind] at h
    cases h2 : m.op (· * ·) d with
    | error e' =>
      rw [h2] at h
      obtain rfl := Except.error.inj h
      exact opErr h2
    | ok p => rw [h2] at h; cases h

/-- C112 fails when orbital rotations are present and skipped: the matrices cover the `g` active operators, but the
vectors are cut as if they also covered the `q` orbital rotations.  Normalising raises, except when there is one of each
or `g = 2 q + 1`. -/
theorem C112_skip_disagree (lib : LRLib) (heig : ∀ m A S, (lib.eig m A S).length = m)
    (hval : ∀ m A, lib.eigvals m A ≠ []) {q g : ℕ} (hq : 0 < q) (hg : 0 < g) (h1 : ¬ (q = 1 ∧ g = 1))
    (h2 : g ≠ 2 * q + 1) (M : LRMats) :
    (∃ out, M.qsolve lib 0 g = .ok out) ∧
    qtSolve lib q g M = .error (if 2 * g ≤ q then .indexError else .valueError) := by
  refine ⟨C109_solves lib M (by omega) hval, ?_⟩
  obtain ⟨out, ho⟩ := C109_solves lib (q := 0) M (by omega : g ≠ 0) hval
  unfold LRMats.qsolve at ho
  obtain ⟨o, h, ho⟩ := Res.of_bind ho
  have hv : ∃ u us, o.vectors = u :: us := by
    unfold calcExcitations at h
    obtain ⟨w, -, h⟩ := Res.of_bind h
    obtain rfl := Except.ok.inj h
    apply List.exists_cons_of_ne_nil
    intro e
    have := congrArg List.length e
    simp only [List.length_map, List.length_drop, sortedEig, List.length_mergeSort, heig, List.length_nil] at this
    omega
  obtain ⟨u, us, hv⟩ := hv
  unfold qtSolve
  rw [h, ok_bind]
  by_cases hq2 : 2 * g ≤ q
  · rw [if_pos (by unfold cutLen; omega), if_pos hq2]
  rw [if_neg (by unfold cutLen; omega), if_neg hq2]
  dsimp only
  rw [hv, List.mapM_cons]
  have bad : ∀ m u, cutNorm (2 * g) q g m u = .error .valueError := by
    intro m u
    have fail : ∀ {f : ℝ → ℝ → ℝ} {a b : SqArr}, a.size ≠ b.size → a.size ≠ 1 → b.size ≠ 1 →
        a.op f b = .error .valueError := by
      intro f a b x y z
      unfold SqArr.op
      rw [if_neg x, if_neg y, if_neg z]
    have second : cutLen (2 * g) 0 q = q → normPart (SqArr.outer (2 * g) u q (q + g))
        (SqArr.outer (2 * g) u (2 * q + g) (2 * g)) (SqArr.cut (2 * g) m q (q + g)) = .error .valueError ∨
        g ≤ q := by
      intro _
      by_cases hgq : g ≤ q
      · exact .inr hgq
      · left
        unfold normPart
        rw [fail (by simp only [SqArr.outer, cutLen]; omega) (by simp only [SqArr.outer, cutLen]; omega)
          (by simp only [SqArr.outer, cutLen]; omega)]
        rfl
    by_cases hfirst : cutLen (2 * g) 0 q ≠ cutLen (2 * g) (q + g) (2 * q + g) ∧ cutLen (2 * g) 0 q ≠ 1 ∧
        cutLen (2 * g) (q + g) (2 * q + g) ≠ 1
    · unfold cutNorm normPart
      rw [fail hfirst.1 hfirst.2.1 hfirst.2.2]
      rfl
    · have s := (second (by unfold cutLen; omega)).resolve_right (by unfold cutLen at hfirst; omega)
      unfold cutNorm
      rw [s]
      cases hp : normPart (SqArr.outer (2 * g) u 0 q) (SqArr.outer (2 * g) u (q + g) (2 * q + g)) (SqArr.cut (2 * g) m 0 q) with
      | ok a => rfl
      | error e => rw [normPart_err hp]; rfl
  rw [bad]
  rfl

/-- The shape error is met: two orbital rotations and four active operators, and the sizes of a full active space of two
orbitals next to one inactive orbital. -/
example : (0 < 2 ∧ 0 < 4 ∧ ¬ (2 = 1 ∧ 4 = 1) ∧ 4 ≠ 2 * 2 + 1) := by decide

/-! ### The hypotheses -/

/-- C110, start: a closed-shell determinant that fills the first active orbitals is the Hartree-Fock determinant. -/
theorem C110_start (hpos : 0 < W.ci.nA) (he : (hfOcc W.ci.nA na nb).Nonempty) (hD : emb W.ci W.csf = ket W.refDet)
    (hocc : ∀ p, p ∈ W.occS ↔ ∃ a ∈ hfOcc W.ci.nA na nb, p = 2 * W.ci.nI + a) : W.HFStart na nb := by
  refine ⟨hD, ?_, hpos, he⟩
  have e : (ket W.refDet : Fock ℝ) = core (2 * W.ci.nI) (ket (hfOcc W.ci.nA na nb)) := by
    rw [ket, ket, core_sgl]
    congr 1
    ext p
    simp only [RespWf.refDet, withCore, Finset.mem_union, Finset.mem_range, Finset.mem_image, List.mem_toFinset]
    rw [hocc]
    constructor
    · rintro (h | ⟨a, ha, rfl⟩)
      · exact Or.inl h
      · exact Or.inr ⟨a, ha, by omega⟩
    · rintro (h | ⟨a, ha, rfl⟩)
      · exact Or.inl h
      · exact Or.inr ⟨a, ha, by omega⟩
  have := congrArg (uncore (2 * W.ci.nI)) (hD.trans e)
  unfold emb at this
  rwa [uncore_core, uncore_core] at this

/-- There is an exact interface for every wave function. -/
theorem exactCsfs_exists (hR : W.Rotates U Ud) : ∃ qcsf, ExactCsfs W qcsf := by
  refine ⟨fun bra A ket => .ok (inner (uncore (2 * W.ci.nI) (U (core (2 * W.ci.nI) (csfFock bra))))
    (sumOp A (uncore (2 * W.ci.nI) (U (core (2 * W.ci.nI) (csfFock ket)))))), ?_⟩
  intro A _ _ _ bra ket _ _ _ _ b k b' k' hb hk hb' hk'
  have key : ∀ {v w}, W.U false v = .ok w → uncore (2 * W.ci.nI) (U (core (2 * W.ci.nI) (stateOf W.ci v))) = stateOf W.ci w := by
    intro v w h
    obtain ⟨w', h1, h2⟩ := hR.run v
    rw [h] at h1
    obtain rfl := Except.ok.inj h1
    unfold emb at h2
    rw [← h2, uncore_core]
  dsimp only
  rw [hb, hk, key hb', key hk']

/-- The hypotheses of C110, C111 and C112 are met by every wave function of the program with closed-shell reference (C96). -/
theorem C110_met (ht : ExactTiny tiny) (hb : ExactBig big) {numOrbs numElec cas0 cas1 : ℕ}
    (h : CasFits numOrbs numElec cas0 cas1) (hA : 0 < cas1) (he : 0 < cas0) (st : AnsatzStruct) (Ts : List (FOp ℝ)) (thetas : List ℝ)
    (hh : Mat ℝ) (g : Arr4) (hlen : Ts.length = thetas.length) (hreal : RealIntegrals hh g)
    (hL : Layout 0 cas1 st.types st.indices Ts) :
    ∃ (W : RespWf) (U Ud : FOp ℝ) (qcsf : Csf → Dict ℝ → Csf → Res ℝ), W.h = hh ∧ W.g = g ∧ W.ci.nA = cas1 ∧
      W.kappa = (kappaLists (mkSpaces numOrbs numElec cas0 cas1) numOrbs false).noActiveActive ∧ W.Proper ∧
      W.energy = expv W.state W.ham ∧ W.Rotates U Ud ∧ W.HFStart (cas0 / 2) (cas0 / 2) ∧ ExactCsfs W qcsf := by
  obtain ⟨ci, csf, h1, -, h2⟩ := C96_rotates (th := .one) ht hb h hA false
  obtain ⟨s', -, rfl, -, -, -, -, -, -, -, -, hos, -, -, -, -, -, -, -, -, hnA, hnI, hN⟩ := C38_orbitals h
  have hf := h.enoughElec
  have hf2 := h.evenElec
  have hf3 := h.evenActive
  have hf4 := h.enoughActive
  obtain ⟨ci', g1, e1, e2, -, e3, -⟩ := C17_space (nA := (mkSpaces numOrbs numElec cas0 cas1).numActiveOrbs)
    (by rw [hnA]; exact hA) (mkSpaces numOrbs numElec cas0 cas1).numInactiveOrbs
    (mkSpaces numOrbs numElec cas0 cas1).numVirtualOrbs (cas0 / 2 : ℕ) (cas0 / 2 : ℕ)
  rw [h1] at g1
  obtain rfl := Except.ok.inj g1
  rw [hnA] at e2
  rw [hnI] at e1
  obtain ⟨c, R1, R2, en, -, -, -, -, hP, hE, hD, U, Ud, hR, -⟩ :=
    h2 st Ts thetas hh g (by rw [e3, e2]; exact hL) hlen trivial hreal
  obtain ⟨qcsf, hq⟩ := exactCsfs_exists hR
  refine ⟨_, U, Ud, qcsf, rfl, rfl, e2, rfl, hP, hE, hR, C110_start (by show 0 < ci.nA; omega)
    ⟨0, by show 0 ∈ hfOcc ci.nA _ _; unfold hfOcc; rw [e2]; simp; omega⟩ hD fun p => ?_, hq⟩
  show p ∈ (mkSpaces numOrbs numElec cas0 cas1).activeOccSpin ↔ ∃ a ∈ hfOcc ci.nA (cas0 / 2) (cas0 / 2), p = 2 * ci.nI + a
  rw [hos.2 p, e1, e2]
  unfold hfOcc
  simp only [Finset.mem_filter, Finset.mem_range]
  constructor
  · intro hp
    exact ⟨p - 2 * ((numElec - cas0) / 2), ⟨by omega, by omega⟩, by omega⟩
  · rintro ⟨a, ⟨ha, ha'⟩, rfl⟩
    omega

/-- Two electrons in two active orbitals. -/
example (ht : ExactTiny tiny) (hb : ExactBig big) (θ : ℝ) (hh : Mat ℝ) (g : Arr4) (hreal : RealIntegrals hh g) :=
  C110_met ht hb (numOrbs := 4) (numElec := 4) (cas0 := 2) (cas1 := 2) ⟨rfl, rfl, by decide, by decide, by decide⟩ (by decide) (by decide)
    ⟨["sa_single"], [[0, 1]]⟩ [E 1 0 - E 0 1] [θ] hh g rfl hreal (.cons (.saSingle 0 1 (by simp)) .nil)

/-- There are no orbital rotations when all orbitals are active, and five with an inactive and a virtual orbital. -/
example : (kappaLists (mkSpaces 2 2 2 2) 2 false).noActiveActive = [] ∧
    (kappaLists (mkSpaces 4 4 2 2) 4 false).noActiveActive.length = 5 := by decide

end SQ
