import Verif.Props.QuantumDipole
import Verif.Props.Sampler

/-!
# C134: linear response on a quantum computer and with state vectors
-/

namespace SQ

variable {tiny big : ℝ → Bool} {W : RespWf} {th : Threads} {qev : Dict ℝ → Res ℝ}

theorem solve_same {lib : LRLib} {q g : ℕ} {M Mq : LRMats} {out outq : LROut ((q + g) + (q + g))}
    (h : ∀ i j, i < q + g → j < q + g → Mq.A i j = M.A i j ∧ Mq.B i j = M.B i j ∧ Mq.Sigma i j = M.Sigma i j)
    (hD : ∀ i j, M.Delta i j = 0) (ho : M.solve lib q g = .ok out) (hq : Mq.qsolve lib q g = .ok outq) :
    outq.energies = out.energies ∧ outq.vectors = out.vectors ∧ outq.normed = out.normed := by
  have eA : LRMats.arr (q + g) Mq.A = LRMats.arr (q + g) M.A := by funext i j; exact (h i j i.2 j.2).1
  have eB : LRMats.arr (q + g) Mq.B = LRMats.arr (q + g) M.B := by funext i j; exact (h i j i.2 j.2).2.1
  have eS : LRMats.arr (q + g) Mq.Sigma = LRMats.arr (q + g) M.Sigma := by funext i j; exact (h i j i.2 j.2).2.2
  have eD : LRMats.arr (q + g) M.Delta = 0 := by funext i j; exact hD i j
  unfold LRMats.qsolve at hq
  obtain ⟨o, h1, h2⟩ := Res.of_bind hq
  have ho' : o = outq := by
    split at h2
    · cases h2
    · exact Except.ok.inj h2
  subst ho'
  unfold LRMats.solve at ho
  rw [eD] at ho
  rw [eA, eB, eS] at h1
  unfold calcExcitations at ho h1
  obtain ⟨w, -, h1⟩ := Res.of_bind h1
  obtain ⟨w', -, ho⟩ := Res.of_bind ho
  obtain rfl := Except.ok.inj h1
  obtain rfl := Except.ok.inj ho
  exact ⟨rfl, rfl, rfl⟩

theorem lrQ_length (ht : ExactTiny tiny) (hW : W.Proper) {Q : List (Dict ℝ)} (hQ : lrQ tiny W = .ok Q) :
    Q.length = W.kappa.length := by
  obtain ⟨Q', h1, h2⟩ := lrQ_ok ht hW
  rw [hQ] at h1
  obtain rfl := Except.ok.inj h1
  exact h2.length_eq.symm

theorem projOps_adj {letters : List Char} : ∀ T ∈ W.projOps letters, ∃ T', IsAdjoint T T' := by
  intro T hT
  unfold RespWf.projOps at hT
  rcases List.mem_append.1 hT with h | h
  · obtain ⟨k, -, rfl⟩ := List.mem_map.1 h
    exact ⟨_, qOp_adjoint _ _⟩
  · obtain ⟨g, -, rfl⟩ := List.mem_map.1 h
    exact ⟨_, projOp_adjoint _ _⟩

theorem allProjOps_adj {letters : List Char} : ∀ T ∈ W.allProjOps letters, ∃ T', IsAdjoint T T' := by
  intro T hT
  obtain ⟨g, -, rfl⟩ := List.mem_map.1 hT
  exact ⟨_, projOp_adjoint _ _⟩

/-- C134: the naive classes: whatever the quantum class builds from exact expectation values of the state is what the class
working with state vectors builds, and with density matrices for the orbital part the roots and response vectors are the
same. -/
theorem C134_naive (ht : ExactTiny tiny) (hb : ExactBig big) (hW : W.Proper) (hth : th.Fair W.ci.idx2det.length)
    (hq : ExactQuantum W.ci W.c qev) {excitations : String} {M Mq : LRMats} {L : QLR} {doRdm doGradients : Bool}
    (hM : naiveInit tiny big th W excitations = .ok M) (hL : qlrInit tiny big W excitations = .ok L)
    (hr : qnRun tiny big qev W doRdm doGradients L = .ok Mq) :
    let n := L.Q.length + L.G.length
    (∀ i j, i < n → j < n → Mq.Sigma i j = M.Sigma i j ∧
      (doRdm = true ∨ W.kappa.length ≤ i ∨ j ≤ i → Mq.A i j = M.A i j ∧ Mq.B i j = M.B i j)) ∧
    (doRdm = true → ∀ lib out outq, M.solve lib L.Q.length L.G.length = .ok out →
      Mq.qsolve lib L.Q.length L.G.length = .ok outq →
      outq.energies = out.energies ∧ outq.vectors = out.vectors ∧ outq.normed = out.normed) := by
  intro n
  obtain ⟨hG, hQ, -⟩ := qlrInit_parts hL
  have lenQ := lrQ_length ht hW hQ
  obtain ⟨Q', G', o1, o2, o3, o4, -⟩ := C94_operators ht hW excitations
  rw [hQ] at o1
  rw [hG] at o2
  obtain rfl := Except.ok.inj o1
  obtain rfl := Except.ok.inj o2
  have hl : (W.ops (lettersOf excitations)).length = n := by rw [← o3]; simp [n]
  obtain ⟨L', l1, l2⟩ := C104_naive (qev := qev) ht hb hW hq excitations
  rw [hL] at l1
  obtain rfl := Except.ok.inj l1
  obtain ⟨M', m1, m2⟩ := l2 doRdm doGradients
  rw [hr] at m1
  obtain rfl := Except.ok.inj m1
  obtain ⟨c1, c2⟩ := C94_naive (th := th) ht hb hW hth excitations
  obtain ⟨M'', n1, n2⟩ := c2 (by
    by_contra hc
    push Not at hc
    rw [c1 hc] at hM
    cases hM)
  rw [hM] at n1
  obtain rfl := Except.ok.inj n1
  have main : ∀ i j, i < n → j < n → Mq.Sigma i j = M.Sigma i j ∧
      (doRdm = true ∨ W.kappa.length ≤ i ∨ j ≤ i → Mq.A i j = M.A i j ∧ Mq.B i j = M.B i j) := by
    intro i j hi hj
    obtain ⟨Xi, ei⟩ : ∃ T, (W.ops (lettersOf excitations))[i]? = some T := ⟨_, List.getElem?_eq_getElem (by omega)⟩
    obtain ⟨Xj, ej⟩ : ∃ T, (W.ops (lettersOf excitations))[j]? = some T := ⟨_, List.getElem?_eq_getElem (by omega)⟩
    obtain ⟨Xid, di⟩ := o4 Xi (List.mem_of_getElem? ei)
    obtain ⟨Xjd, dj⟩ := o4 Xj (List.mem_of_getElem? ej)
    obtain ⟨p1, p2, p3, p4⟩ := m2 i j Xi Xid Xj Xjd ei ej di dj
    obtain ⟨q1, q2, q3, q4⟩ := n2 i j Xi Xid Xj Xjd ei ej di dj
    refine ⟨p1.trans q1.symm, fun hd => ?_⟩
    by_cases h1 : i < W.kappa.length ∧ j < W.kappa.length
    · obtain ⟨a, b⟩ := (p3 h1.1 h1.2).1 (hd.imp id fun h => by omega)
      exact ⟨a.trans (q3 h1).1.symm, b.trans (q3 h1).2.symm⟩
    · obtain ⟨a, b⟩ := p4 (by omega)
      obtain ⟨c, d⟩ := q4 (by omega)
      exact ⟨a.trans c.symm, b.trans d.symm⟩
  refine ⟨main, fun hd lib out outq s1 s2 => solve_same (fun i j hi hj => ?_) (fun i j => ?_) s1 s2⟩
  · obtain ⟨a, b⟩ := main i j hi hj
    exact ⟨(b (.inl hd)).1, (b (.inl hd)).2, a⟩
  · exact (naiveInit_block hW hQ lenQ hM).1 i j

/-- C134: the projected classes. -/
theorem C134_projected (ht : ExactTiny tiny) (hb : ExactBig big) (hW : W.Proper) (hE : W.energy = expv W.state W.ham)
    (hth : th.Fair W.ci.idx2det.length) (hq : ExactQuantum W.ci W.c qev) {excitations : String} {M Mq : LRMats} {L : QLR}
    {E : List (ℝ × ℝ)} {doRdm doGradients : Bool} (hM : projInit tiny big th W excitations = .ok M)
    (hL : qlrInit tiny big W excitations = .ok L) (hr : qpRun tiny big qev W doRdm doGradients L = .ok (Mq, E)) :
    let n := L.Q.length + L.G.length
    (∀ i j, i < n → j < n → Mq.Sigma i j = M.Sigma i j ∧
      (doRdm = true ∨ W.kappa.length ≤ i ∨ j ≤ i → Mq.A i j = M.A i j ∧ Mq.B i j = M.B i j)) ∧
    (doRdm = true → ∀ lib out outq, M.solve lib L.Q.length L.G.length = .ok out →
      Mq.qsolve lib L.Q.length L.G.length = .ok outq →
      outq.energies = out.energies ∧ outq.vectors = out.vectors ∧ outq.normed = out.normed) := by
  intro n
  obtain ⟨hG, hQ, -⟩ := qlrInit_parts hL
  have lenQ := lrQ_length ht hW hQ
  obtain ⟨Q', G', o1, o2, o3, -, -⟩ := C94_operators ht hW excitations
  rw [hQ] at o1
  rw [hG] at o2
  obtain rfl := Except.ok.inj o1
  obtain rfl := Except.ok.inj o2
  have hG' : (lrOps W (lettersOf excitations)).length = L.G.length := by
    have := congrArg List.length o3
    simp only [List.length_append, List.length_map, RespWf.ops] at this
    omega
  have hl : (W.projOps (lettersOf excitations)).length = n := by
    simp only [RespWf.projOps, RespWf.ops, List.length_append, List.length_map, n]
    omega
  have o4 : ∀ T ∈ W.projOps (lettersOf excitations), ∃ T', IsAdjoint T T' := projOps_adj
  obtain ⟨L', l1, l2⟩ := C105_projected (qev := qev) ht hb hW hE hq excitations
  rw [hL] at l1
  obtain rfl := Except.ok.inj l1
  obtain ⟨M', E', m1, -, m2⟩ := l2 doRdm doGradients
  rw [hr] at m1
  obtain ⟨rfl, rfl⟩ := Prod.mk.inj (Except.ok.inj m1)
  obtain ⟨c1, c2⟩ := C95_projected (th := th) ht hb hW hE hth excitations
  obtain ⟨M'', n1, n2⟩ := c2 (by
    by_contra hc
    push Not at hc
    rw [c1 hc] at hM
    cases hM)
  rw [hM] at n1
  obtain rfl := Except.ok.inj n1
  have main : ∀ i j, i < n → j < n → Mq.Sigma i j = M.Sigma i j ∧
      (doRdm = true ∨ W.kappa.length ≤ i ∨ j ≤ i → Mq.A i j = M.A i j ∧ Mq.B i j = M.B i j) := by
    intro i j hi hj
    have get : ∀ i < n, ∃ T T', (W.projOps (lettersOf excitations))[i]? = some T ∧ IsAdjoint T T' := by
      intro i hi
      obtain ⟨Xi, ei⟩ : ∃ T, (W.projOps (lettersOf excitations))[i]? = some T := ⟨_, List.getElem?_eq_getElem (by omega)⟩
      obtain ⟨Xid, di⟩ := o4 Xi (List.mem_of_getElem? ei)
      exact ⟨Xi, Xid, ei, di⟩
    obtain ⟨Xi, Xid, ei, di⟩ := get i hi
    obtain ⟨Xj, Xjd, ej, dj⟩ := get j hj
    have hp := m2 i j Xi Xid Xj Xjd ei ej di dj
    have hc := n2 i j Xi Xid Xj Xjd ei ej di dj
    have hp' := m2 j i Xj Xjd Xi Xid ej ei dj di
    have hc' := n2 j i Xj Xjd Xi Xid ej ei dj di
    have hGe : ∀ k, W.kappa.length ≤ k → k < n → ∃ G, (lrOps W (lettersOf excitations))[k - W.kappa.length]? = some G :=
      fun k h1 h2 => ⟨_, List.getElem?_eq_getElem (by omega)⟩
    obtain ⟨p1, -, p2, p3, p4⟩ := hp
    obtain ⟨q1, -, q2, q3, q4⟩ := hc
    obtain ⟨-, -, -, -, p5⟩ := hp'
    obtain ⟨-, -, -, -, q5⟩ := hc'
    refine ⟨p1.trans q1.symm, fun hd => ?_⟩
    by_cases h1 : i < W.kappa.length <;> by_cases h2 : j < W.kappa.length
    · obtain ⟨a, b⟩ := (p2 h1 h2).1 (hd.imp id fun h => by omega)
      exact ⟨a.trans (q2 h1 h2).1.symm, b.trans (q2 h1 h2).2.symm⟩
    · obtain ⟨G, hg⟩ := hGe j (by omega) hj
      obtain ⟨a, b, -⟩ := p4 h1 (by omega) G hg
      obtain ⟨c, d, -⟩ := q4 h1 (by omega) G hg
      exact ⟨a.trans c.symm, b.trans d.symm⟩
    · obtain ⟨G, hg⟩ := hGe i (by omega) hi
      obtain ⟨a, b, e, f⟩ := p5 h2 (by omega) G hg
      obtain ⟨c, d, e', f'⟩ := q5 h2 (by omega) G hg
      rw [e, f, e', f']
      exact ⟨a.trans c.symm, b.trans d.symm⟩
    · obtain ⟨a, b⟩ := p3 (by omega) (by omega)
      obtain ⟨c, d⟩ := q3 (by omega) (by omega)
      exact ⟨a.trans c.symm, b.trans d.symm⟩
  refine ⟨main, fun hd lib out outq s1 s2 => solve_same (fun i j hi hj => ?_) (fun i j => ?_) s1 s2⟩
  · obtain ⟨a, b⟩ := main i j hi hj
    exact ⟨(b (.inl hd)).1, (b (.inl hd)).2, a⟩
  · exact (projInit_block hW hQ lenQ hM).1 i j

/-- C134: the all-projected classes. -/
theorem C134_all_projected (ht : ExactTiny tiny) (hb : ExactBig big) (hW : W.Proper) (hE : W.energy = expv W.state W.ham)
    (hth : th.Fair W.ci.idx2det.length) (hq : ExactQuantum W.ci W.c qev) {excitations : String} {M Mq : LRMats} {L : QLR}
    {E : List (ℝ × ℝ)} {doGradients : Bool} (hM : aprojInit tiny big th W excitations = .ok M)
    (hL : qlrInit tiny big W excitations = .ok L) (hr : qaRun tiny big qev W doGradients L = .ok (Mq, E)) :
    let n := L.Q.length + L.G.length
    (∀ i j, i < n → j < n → Mq.Sigma i j = M.Sigma i j ∧
      (Mq.A i j = M.A i j ∧ Mq.B i j = M.B i j)) ∧
    (∀ lib out outq, M.solve lib L.Q.length L.G.length = .ok out →
      Mq.qsolve lib L.Q.length L.G.length = .ok outq →
      outq.energies = out.energies ∧ outq.vectors = out.vectors ∧ outq.normed = out.normed) := by
  intro n
  obtain ⟨hG, hQ, -⟩ := qlrInit_parts hL
  have lenQ := lrQ_length ht hW hQ
  obtain ⟨Q', G', o1, o2, o3, -, -⟩ := C94_operators ht hW excitations
  rw [hQ] at o1
  rw [hG] at o2
  obtain rfl := Except.ok.inj o1
  obtain rfl := Except.ok.inj o2
  have hG' : (lrOps W (lettersOf excitations)).length = L.G.length := by
    have := congrArg List.length o3
    simp only [List.length_append, List.length_map, RespWf.ops] at this
    omega
  have hl : (W.allProjOps (lettersOf excitations)).length = n := by
    simp only [RespWf.allProjOps, RespWf.ops, List.length_append, List.length_map, n]
    omega
  have o4 : ∀ T ∈ W.allProjOps (lettersOf excitations), ∃ T', IsAdjoint T T' := allProjOps_adj
  obtain ⟨L', l1, l2⟩ := C106_all_projected (qev := qev) ht hb hW hE hq excitations
  rw [hL] at l1
  obtain rfl := Except.ok.inj l1
  obtain ⟨M', E', m1, -, m2⟩ := l2 doGradients
  rw [hr] at m1
  obtain ⟨rfl, rfl⟩ := Prod.mk.inj (Except.ok.inj m1)
  obtain ⟨c1, c2⟩ := C99_all_projected (th := th) ht hb hW hE hth excitations
  obtain ⟨M'', n1, n2⟩ := c2 (by
    by_contra hc
    push Not at hc
    rw [c1 hc] at hM
    cases hM)
  rw [hM] at n1
  obtain rfl := Except.ok.inj n1
  have main : ∀ i j, i < n → j < n → Mq.Sigma i j = M.Sigma i j ∧
      (Mq.A i j = M.A i j ∧ Mq.B i j = M.B i j) := by
    intro i j hi hj
    have get : ∀ i < n, ∃ T T', (W.allProjOps (lettersOf excitations))[i]? = some T ∧ IsAdjoint T T' := by
      intro i hi
      obtain ⟨Xi, ei⟩ : ∃ T, (W.allProjOps (lettersOf excitations))[i]? = some T := ⟨_, List.getElem?_eq_getElem (by omega)⟩
      obtain ⟨Xid, di⟩ := o4 Xi (List.mem_of_getElem? ei)
      exact ⟨Xi, Xid, ei, di⟩
    obtain ⟨Xi, Xid, ei, di⟩ := get i hi
    obtain ⟨Xj, Xjd, ej, dj⟩ := get j hj
    have hp := m2 i j Xi Xid Xj Xjd ei ej di dj
    have hc := n2 i j Xi Xid Xj Xjd ei ej di dj
    have hp' := m2 j i Xj Xjd Xi Xid ej ei dj di
    have hc' := n2 j i Xj Xjd Xi Xid ej ei dj di
    have hGe : ∀ k, W.kappa.length ≤ k → k < n → ∃ G, (lrOps W (lettersOf excitations))[k - W.kappa.length]? = some G :=
      fun k h1 h2 => ⟨_, List.getElem?_eq_getElem (by omega)⟩
    obtain ⟨p1, -, p2, p4⟩ := hp
    obtain ⟨q1, -, q2, q4⟩ := hc
    obtain ⟨-, -, -, p5⟩ := hp'
    obtain ⟨-, -, -, q5⟩ := hc'
    refine ⟨p1.trans q1.symm, ?_⟩
    by_cases h1 : i < W.kappa.length <;> by_cases h2 : j < W.kappa.length
    · obtain ⟨a, b⟩ := p2 (by omega)
      obtain ⟨c, d⟩ := q2 (by omega)
      exact ⟨a.trans c.symm, b.trans d.symm⟩
    · obtain ⟨G, hg⟩ := hGe j (by omega) hj
      obtain ⟨a, b, -⟩ := p4 h1 (by omega) G hg
      obtain ⟨c, d, -⟩ := q4 h1 (by omega) G hg
      exact ⟨a.trans c.symm, b.trans d.symm⟩
    · obtain ⟨G, hg⟩ := hGe i (by omega) hi
      obtain ⟨a, b, e, f⟩ := p5 h2 (by omega) G hg
      obtain ⟨c, d, e', f'⟩ := q5 h2 (by omega) G hg
      rw [e, f, e', f']
      exact ⟨a.trans c.symm, b.trans d.symm⟩
    · obtain ⟨a, b⟩ := p2 (by omega)
      obtain ⟨c, d⟩ := q2 (by omega)
      exact ⟨a.trans c.symm, b.trans d.symm⟩
  refine ⟨main, fun lib out outq s1 s2 => solve_same (fun i j hi hj => ?_) (fun i j => ?_) s1 s2⟩
  · obtain ⟨a, b⟩ := main i j hi hj
    exact ⟨b.1, b.2, a⟩
  · exact (aprojInit_block hQ hM).1 i j

/-! ### Transition dipoles -/

theorem solve_lengths {lib : LRLib} {q g : ℕ} {M : LRMats} {out : LROut ((q + g) + (q + g))} (ho : M.solve lib q g = .ok out) :
    out.vectors.length = out.energies.length ∧ out.normed.length = out.energies.length := by
  unfold LRMats.solve calcExcitations at ho
  obtain ⟨w', -, ho⟩ := Res.of_bind ho
  obtain rfl := Except.ok.inj ho
  simp

theorem forall2_exists {X : List (FOp ℝ)} (h : ∀ T ∈ X, ∃ T', IsAdjoint T T') : ∃ Xd, List.Forall₂ IsAdjoint X Xd := by
  induction X with
  | nil => exact ⟨[], .nil⟩
  | cons T X ih =>
    obtain ⟨T', h1⟩ := h T (by simp)
    obtain ⟨Xd, h2⟩ := ih fun S hS => h S (by simp [hS])
    exact ⟨T' :: Xd, .cons h1 h2⟩

theorem dip_same {X : List (FOp ℝ)} (hX : ∀ T ∈ X, ∃ T', IsAdjoint T T') {mu : Fin 3 → Mat ℝ} {m : ℕ} {out outq : LROut m}
    {D Dq : List (Fin 3 → ℝ)} (h1 : out.vectors.length = out.energies.length ∧ out.normed.length = out.energies.length)
    (h2 : outq.energies = out.energies ∧ outq.vectors = out.vectors ∧ outq.normed = out.normed)
    (h3 : D.length = out.energies.length) (h4 : Dq.length = outq.energies.length)
    (h5 : ∀ (k : ℕ) u v d, out.vectors[k]? = some u → out.normed[k]? = some v → D[k]? = some d → TransitionDipole W X mu u v d)
    (h6 : ∀ (k : ℕ) u v d, outq.vectors[k]? = some u → outq.normed[k]? = some v → Dq[k]? = some d → TransitionDipole W X mu u v d) :
    Dq = D := by
  obtain ⟨e1, e2, e3⟩ := h2
  rw [e1] at h4
  rw [e2, e3] at h6
  obtain ⟨Xd, hXd⟩ := forall2_exists hX
  refine List.ext_getElem (by omega) fun k hk hk' => ?_
  have hu := List.getElem?_eq_getElem (l := out.vectors) (i := k) (by omega)
  have hv := List.getElem?_eq_getElem (l := out.normed) (i := k) (by omega)
  have a := (h5 k _ _ _ hu hv (List.getElem?_eq_getElem hk') Xd hXd).1
  have b := (h6 k _ _ _ hu hv (List.getElem?_eq_getElem hk) Xd hXd).1
  funext c
  rw [a c, b c]

/-- C134: and the transition dipoles and oscillator strengths that the naive classes compute are the same. -/
theorem C134_naive_dipoles (ht : ExactTiny tiny) (hb : ExactBig big) (hW : W.Proper) (hth : th.Fair W.ci.idx2det.length)
    (hq : ExactQuantum W.ci W.c qev) (lib : LRLib) (heig : ∀ m A S, (lib.eig m A S).length = m) {mu : Fin 3 → Mat ℝ}
    (hmu : ∀ c p q, mu c p q = mu c q p) {excitations : String} {M Mq : LRMats} {L : QLR} {doGradients : Bool}
    {out outq : LROut ((L.Q.length + L.G.length) + (L.Q.length + L.G.length))} {D Dq : List (Fin 3 → ℝ)}
    (hM : naiveInit tiny big th W excitations = .ok M) (hL : qlrInit tiny big W excitations = .ok L)
    (hr : qnRun tiny big qev W true doGradients L = .ok Mq) (ho : M.solve lib L.Q.length L.G.length = .ok out)
    (hoq : Mq.qsolve lib L.Q.length L.G.length = .ok outq) (hD : naiveDipoles tiny big th W L.G mu out = .ok D)
    (hDq : qnDipoles tiny big qev W L.G mu outq = .ok Dq) :
    Dq = D ∧ oscillatorStrengths outq.energies Dq = oscillatorStrengths out.energies D := by
  obtain ⟨hG, hQ, -⟩ := qlrInit_parts hL
  have hsame := (C134_naive ht hb hW hth hq hM hL hr).2 rfl lib out outq ho hoq
  obtain ⟨D', a1, a2, -, a3⟩ := C98_naive (th := th) ht hb hW hth lib heig hmu excitations hQ hG hM ho
  rw [hD] at a1
  obtain rfl := Except.ok.inj a1
  obtain ⟨Dq', b1, b2, -, b3⟩ := C109_naive (qev := qev) ht hb hW hq lib heig hmu hL hr hoq
  rw [hDq] at b1
  obtain rfl := Except.ok.inj b1
  have e : Dq = D := dip_same (X := W.ops (lettersOf excitations)) (C94_operators ht hW excitations).choose_spec.choose_spec.2.2.2.1 (solve_lengths ho) hsame a2 b2 a3 b3
  exact ⟨e, by rw [e, hsame.1]⟩

/-- C134: and the transition dipoles and oscillator strengths that the projected classes compute are the same. -/
theorem C134_projected_dipoles (ht : ExactTiny tiny) (hb : ExactBig big) (hW : W.Proper) (hE : W.energy = expv W.state W.ham) (hth : th.Fair W.ci.idx2det.length)
    (hq : ExactQuantum W.ci W.c qev) (lib : LRLib) (heig : ∀ m A S, (lib.eig m A S).length = m) {mu : Fin 3 → Mat ℝ}
    (hmu : ∀ c p q, mu c p q = mu c q p) {excitations : String} {M Mq : LRMats} {L : QLR} {E : List (ℝ × ℝ)} {doGradients : Bool}
    {out outq : LROut ((L.Q.length + L.G.length) + (L.Q.length + L.G.length))} {D Dq : List (Fin 3 → ℝ)}
    (hM : projInit tiny big th W excitations = .ok M) (hL : qlrInit tiny big W excitations = .ok L)
    (hr : qpRun tiny big qev W true doGradients L = .ok (Mq, E)) (ho : M.solve lib L.Q.length L.G.length = .ok out)
    (hoq : Mq.qsolve lib L.Q.length L.G.length = .ok outq) (hD : projDipoles tiny big th W L.G mu out = .ok D)
    (hDq : qpDipoles tiny big qev W L.G E mu outq = .ok Dq) :
    Dq = D ∧ oscillatorStrengths outq.energies Dq = oscillatorStrengths out.energies D := by
  obtain ⟨hG, hQ, -⟩ := qlrInit_parts hL
  have hsame := (C134_projected ht hb hW hE hth hq hM hL hr).2 rfl lib out outq ho hoq
  obtain ⟨D', a1, a2, -, a3⟩ := C98_projected (th := th) ht hb hW hE hth lib heig hmu excitations hQ hG hM ho
  rw [hD] at a1
  obtain rfl := Except.ok.inj a1
  obtain ⟨Dq', b1, b2, -, b3⟩ := C109_projected (qev := qev) ht hb hW hE hq lib heig hmu hL hr hoq
  rw [hDq] at b1
  obtain rfl := Except.ok.inj b1
  have e : Dq = D := dip_same (X := W.projOps (lettersOf excitations)) projOps_adj (solve_lengths ho) hsame a2 b2 a3 b3
  exact ⟨e, by rw [e, hsame.1]⟩

/-- C134: and the transition dipoles and oscillator strengths that the all-projected classes compute are the same. -/
theorem C134_all_projected_dipoles (ht : ExactTiny tiny) (hb : ExactBig big) (hW : W.Proper) (hE : W.energy = expv W.state W.ham) (hth : th.Fair W.ci.idx2det.length)
    (hq : ExactQuantum W.ci W.c qev) (lib : LRLib) (heig : ∀ m A S, (lib.eig m A S).length = m) {mu : Fin 3 → Mat ℝ}
    (hmu : ∀ c p q, mu c p q = mu c q p) {excitations : String} {M Mq : LRMats} {L : QLR} {E : List (ℝ × ℝ)} {doGradients : Bool}
    {out outq : LROut ((L.Q.length + L.G.length) + (L.Q.length + L.G.length))} {D Dq : List (Fin 3 → ℝ)}
    (hM : aprojInit tiny big th W excitations = .ok M) (hL : qlrInit tiny big W excitations = .ok L)
    (hr : qaRun tiny big qev W doGradients L = .ok (Mq, E)) (ho : M.solve lib L.Q.length L.G.length = .ok out)
    (hoq : Mq.qsolve lib L.Q.length L.G.length = .ok outq) (hD : aprojDipoles tiny big th W L.G mu out = .ok D)
    (hDq : qpDipoles tiny big qev W L.G E mu outq = .ok Dq) :
    Dq = D ∧ oscillatorStrengths outq.energies Dq = oscillatorStrengths out.energies D := by
  obtain ⟨hG, hQ, -⟩ := qlrInit_parts hL
  have hsame := (C134_all_projected ht hb hW hE hth hq hM hL hr).2 lib out outq ho hoq
  obtain ⟨D', a1, a2, -, a3⟩ := C99_dipoles (th := th) ht hb hW hE hth lib heig hmu excitations hQ hG hM ho
  rw [hD] at a1
  obtain rfl := Except.ok.inj a1
  obtain ⟨Dq', b1, b2, -, b3⟩ := C109_all_projected (qev := qev) ht hb hW hE hq lib heig hmu hL hr hoq
  rw [hDq] at b1
  obtain rfl := Except.ok.inj b1
  have e : Dq = D := dip_same (X := W.allProjOps (lettersOf excitations)) allProjOps_adj (solve_lengths ho) hsame a2 b2 a3 b3
  exact ⟨e, by rw [e, hsame.1]⟩

/-! ### On an interface -/

/-- C134: so the naive class on an interface with an ideal device that runs the ansatz of the wave function, in whatever state
the interface is, finds the excitation energies and response vectors that the class working with state vectors finds. -/
theorem C134_interface {st : AnsatzStruct} {Ts Ts' : List (FOp ℝ)} {B : Bench W.ci.nA} {ansatz : List ℝ → List (PGate (2 * W.ci.nA))}
    (ht : ExactTiny tiny) (hb : ExactBig big) (hW : W.Proper) (hs : AnsatzSpace W.ci W.ci.nA) (hth : th.Fair W.ci.idx2det.length)
    (hT : Layout 0 W.ci.nA st.types st.indices Ts) (hC : CircuitLayout W.ci.nA st.types st.indices Ts') (hB : B.Sound ansatz)
    (hA : LayoutAnsatz W.ci.nA st.types st.indices ansatz) {m : ℕ} (hm : m ≤ W.ci.nA) (he : B.numElec = (m, m)) {q : QI}
    (hq : B.Reached q) (hf : q.flags.isEnabled = false) (hl : q.params.length = st.types.length)
    (ha : ∀ θ ∈ q.params, effAngle θ = θ) {v : Vec ℝ} (hv : stateOf W.ci v = ket (hfOcc W.ci.nA m m))
    (hw : constructUps (propVec tiny th W.ci) tiny W.ci.offset st q.params false v = .ok W.c) {excitations : String} {M : LRMats}
    {L : QLR} {doGradients : Bool} (hM : naiveInit tiny big th W excitations = .ok M)
    (hL : qlrInit tiny big W excitations = .ok L) :
    ∃ Mq, qnRun tiny big (fun A => (quantumExpectation B none A q).1) W true doGradients L = .ok Mq ∧
      ∀ lib out outq, M.solve lib L.Q.length L.G.length = .ok out → Mq.qsolve lib L.Q.length L.G.length = .ok outq →
        outq.energies = out.energies ∧ outq.vectors = out.vectors ∧ outq.normed = out.normed := by
  have hx := C114_expectation ht hs hth hT hC hB hA hm he hq hf hl ha hv hw
  obtain ⟨L', l1, l2⟩ := C104_naive ht hb hW hx excitations
  rw [hL] at l1
  obtain rfl := Except.ok.inj l1
  obtain ⟨Mq, m1, -⟩ := l2 true doGradients
  exact ⟨Mq, m1, (C134_naive ht hb hW hth hx hM hL m1).2 rfl⟩

/-- At a stationary point (or near one) both classes get as far as this; exact interfaces are those of C114. -/
example (ht : ExactTiny tiny) (hb : ExactBig big) (hW : W.Proper) (hth : th.Fair W.ci.idx2det.length)
    (hq : ExactQuantum W.ci W.c qev) (excitations : String)
    (hg : ∀ T ∈ W.ops (lettersOf excitations), |expv W.state (comm W.ham T)| ≤ 1 / 1000) :
    ∃ M L Mq, naiveInit tiny big th W excitations = .ok M ∧ qlrInit tiny big W excitations = .ok L ∧
      qnRun tiny big qev W true true L = .ok Mq := by
  obtain ⟨M, h1, -⟩ := (C94_naive (th := th) ht hb hW hth excitations).2 hg
  obtain ⟨L, h2, h3⟩ := C104_naive ht hb hW hq excitations
  obtain ⟨Mq, h4, -⟩ := h3 true true
  exact ⟨M, L, Mq, h1, h2, h4⟩

end SQ
