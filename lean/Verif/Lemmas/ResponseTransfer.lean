import Verif.Lemmas.ResponseProjected
import Verif.Lemmas.ResponseOrtho
import Verif.Model.ResponseTransfer

/-!
# Lemmas for state-transfer linear response
-/

namespace SQ

section
variable {tiny big : ℝ → Bool} {th : Threads} {W : RespWf} {U Ud : FOp ℝ}

theorem RespWf.prop_cons (W : RespWf) (a : StateOp ℝ) (l : List (StateOp ℝ)) (v w : Vec ℝ)
    (h : W.prop tiny th l v = .ok w) : W.prop tiny th (a :: l) v = W.prop tiny th [a] w := by
  unfold RespWf.prop propagateState at h ⊢
  rw [if_neg (by simp), if_neg (by simp), List.reverse_cons, List.foldlM_append]
  split at h
  · rename_i h0
    obtain rfl := List.length_eq_zero_iff.1 h0
    cases h
    rfl
  · rw [h]; rfl

theorem RespWf.prop_U (W : RespWf) (v : Vec ℝ) : W.prop tiny th [.name "U"] v = W.U false v := by
  unfold RespWf.prop propagateState
  rw [if_neg (by simp)]
  simp [propStep, List.foldlM_cons, List.foldlM_nil]

theorem RespWf.prop_Ud (W : RespWf) (v : Vec ℝ) : W.prop tiny th [.name "Ud"] v = W.U true v := by
  unfold RespWf.prop propagateState
  rw [if_neg (by simp)]
  simp [propStep, List.foldlM_cons, List.foldlM_nil]

/-- `["Ud", A]`: matrix elements with `v` are those of `A` with `U v`. -/
theorem RespWf.prop_Ud_gen (ht : ExactTiny tiny) (hs : AnsatzSpace W.ci W.ci.nA) (hth : th.Fair W.ci.idx2det.length)
    (hR : W.Rotates U Ud) {A : Dict ℝ} (hA : GenOp W.ci A) (v : Vec ℝ) :
    ∃ w, W.prop tiny th [.name "Ud", .op A] v = .ok w ∧
      ∀ bra, inner (emb W.ci bra) (emb W.ci w) = inner (U (emb W.ci bra)) (sumOp A (emb W.ci v)) := by
  obtain ⟨x, h1, h2⟩ := W.prop_gen (th := th) ht hs hth hA v
  obtain ⟨w, h3, h4⟩ := hR.runDagger x
  refine ⟨w, by rw [W.prop_cons _ _ _ _ h1, W.prop_Ud, h3], fun bra => ?_⟩
  obtain ⟨b, -, hb⟩ := hR.run bra
  rw [h4, ← hR.adjoint, ← hb, h2]

/-- `|I⟩ = U G |ref⟩` is a state of the active space. -/
theorem moved_vec (ht : ExactTiny tiny) (hs : AnsatzSpace W.ci W.ci.nA) (hth : th.Fair W.ci.idx2det.length)
    (hR : W.Rotates U Ud) {G : Dict ℝ} (hG : ActOp W.ci G) :
    ∃ g w, W.prop tiny th [.op G] W.csf = .ok g ∧ emb W.ci g = sumOp G (emb W.ci W.csf) ∧
      W.prop tiny th [.name "U", .op G] W.csf = .ok w ∧ emb W.ci w = W.moved U (sumOp G) ∧
      U (emb W.ci g) = W.moved U (sumOp G) := by
  obtain ⟨g, h1, h2⟩ := W.prop_act (th := th) ht hs hth hG W.csf
  obtain ⟨w, h3, h4⟩ := hR.run g
  exact ⟨g, w, h1, h2, by rw [W.prop_cons _ _ _ _ h1, W.prop_U, h3], by rw [h4, h2]; rfl, by rw [h2]; rfl⟩

theorem stGrad_ok (ht : ExactTiny tiny) (hW : W.Proper) (hth : th.Fair W.ci.idx2det.length) (hR : W.Rotates U Ud)
    {UdH00 : Vec ℝ} (h0 : ∀ bra, inner (emb W.ci bra) (emb W.ci UdH00) = inner (U (emb W.ci bra)) (W.ham W.state))
    {G : Dict ℝ} (hG : ActOp W.ci G) :
    ∃ v : ℝ × ℝ, stGrad tiny th W UdH00 G = .ok v ∧
      v.1 = - inner W.state (W.ham (W.moved U (sumOp G))) ∧ v.2 = inner W.state (W.ham (W.moved U (sumOp G))) := by
  have hs := hW.space
  obtain ⟨g, w, a1, -, -, -, a5⟩ := moved_vec (th := th) ht hs hth hR hG
  have e : inner (emb W.ci g) (emb W.ci UdH00) = inner W.state (W.ham (W.moved U (sumOp G))) := by
    rw [h0, a5, ← ham_adjoint hW, inner_comm]
  refine ⟨_, by
    unfold stGrad
    simp only [a1, W.ev_nil hs, ok_bind]
    rfl, ?_, ?_⟩
  · dsimp only; rw [inner_comm, e]
  · dsimp only; rw [e]

theorem stMixed_ok (ht : ExactTiny tiny) (hW : W.Proper) (hth : th.Fair W.ci.idx2det.length) (hR : W.Rotates U Ud)
    {H1 : Dict ℝ} (hH1 : GenOp W.ci H1)
    (hH : ∀ x y, ActiveState W.ci.nI W.ci.nA x → NearState W.ci.nI W.ci.nA y →
      inner x (sumOp H1 y) = inner x (W.ham y) ∧ inner y (sumOp H1 x) = inner y (W.ham x))
    {k : ℕ × ℕ} {q : Dict ℝ} (hq : GenOp W.ci q) (eq : sumOp q = qOp k.2 k.1) :
    (∃ κ, stMixedPre tiny th W H1 q = .ok κ ∧ ∀ GI, ActOp W.ci GI → ∃ v : ℝ × ℝ, stMixed tiny th W κ GI = .ok v ∧
        v.1 = inner (W.moved U (sumOp GI)) (W.ham (qOp k.2 k.1 W.state)) ∧
        v.2 = -1 / 2 * inner (W.moved U (sumOp GI)) (qOp k.1 k.2 (W.ham W.state))) ∧
    (∃ κ, pstMixedPre tiny th W H1 q = .ok κ ∧ ∀ GI, ActOp W.ci GI → pstMixed tiny th W κ GI =
        .ok (inner (W.moved U (sumOp GI)) (W.ham (qOp k.2 k.1 W.state)))) := by
  have hs := hW.space
  have hact := emb_active W.ci
  obtain ⟨Hq, a1, a2, a3⟩ := hH1.mul ht hq
  obtain ⟨Hqk, b1, b2⟩ := W.prop_Ud_gen (th := th) ht hs hth hR a2 W.c
  obtain ⟨qd, c1, c2, c3⟩ := hq.dagger ht
  obtain ⟨qdH, d1, d2, d3⟩ := c2.mul ht hH1
  obtain ⟨qdHk, e1, e2⟩ := W.prop_Ud_gen (th := th) ht hs hth hR d2 W.c
  have eqd : sumOp qd = qOp k.1 k.2 := c3.unique (by rw [eq]; exact qOp_adjoint _ _)
  have hadj := qOp_adjoint k.2 k.1
  rw [a3, eq] at b2
  rw [d3, eqd] at e2
  have main : ∀ GI, ActOp W.ci GI → ∃ Gk, W.prop tiny th [.op GI] W.csf = .ok Gk ∧
      inner (emb W.ci Gk) (emb W.ci Hqk) = inner (W.moved U (sumOp GI)) (W.ham (qOp k.2 k.1 W.state)) ∧
      inner (emb W.ci Gk) (emb W.ci qdHk) = inner (W.moved U (sumOp GI)) (qOp k.1 k.2 (W.ham W.state)) := by
    intro GI hI
    obtain ⟨g, w, f1, -, -, f4, f5⟩ := moved_vec (th := th) ht hs hth hR hI
    have aM : ActiveState W.ci.nI W.ci.nA (W.moved U (sumOp GI)) := by rw [← f4]; exact hact _
    refine ⟨g, f1, ?_, ?_⟩
    · rw [b2, f5, Module.End.mul_apply, (hH _ _ aM (near_qOp (hact _) _ _)).1]; rfl
    · rw [e2, f5, Module.End.mul_apply, ← hadj, ← hadj, (hH _ _ (hact _) (near_qOp aM _ _)).2]; rfl
  refine ⟨⟨(Hqk, qdHk), by
    unfold stMixedPre
    simp only [a1, b1, c1, d1, e1, ok_bind]
    rfl, fun GI hI => ?_⟩, ⟨Hqk, by
    unfold pstMixedPre
    simp only [a1, b1, ok_bind], fun GI hI => ?_⟩⟩
  · obtain ⟨Gk, g1, g2, g3⟩ := main GI hI
    refine ⟨_, by
      unfold stMixed
      simp only [g1, W.ev_nil hs, ok_bind]
      rfl, ?_, ?_⟩
    · exact g2
    · dsimp only; rw [g3]
  · obtain ⟨Gk, g1, g2, g3⟩ := main GI hI
    unfold pstMixed
    simp only [g1, W.ev_nil hs, ok_bind, g2]

theorem stAct_ok (ht : ExactTiny tiny) (hW : W.Proper) (hth : th.Fair W.ci.idx2det.length) (hR : W.Rotates U Ud)
    {H0 : Dict ℝ} (hH0 : GenOp W.ci H0)
    (hH : ∀ x y, ActiveState W.ci.nI W.ci.nA x → ActiveState W.ci.nI W.ci.nA y →
      inner x (sumOp H0 y) = inner x (W.ham y)) {GJ : Dict ℝ} (hJ : ActOp W.ci GJ) :
    ∃ k, W.prop tiny th [.name "Ud", .op H0, .name "U", .op GJ] W.csf = .ok k ∧ ∀ GI, ActOp W.ci GI → ∀ diag : Bool,
      stAct tiny th W k diag GI = .ok (inner (W.moved U (sumOp GI)) (W.ham (W.moved U (sumOp GJ)))
        - if diag then W.energy else 0) := by
  have hs := hW.space
  have hact := emb_active W.ci
  obtain ⟨g, w, -, -, a3, a4, -⟩ := moved_vec (th := th) ht hs hth hR hJ
  obtain ⟨k, b1, b2⟩ := W.prop_Ud_gen (th := th) ht hs hth hR hH0 w
  obtain ⟨y, c1, -⟩ := W.prop_gen (th := th) ht hs hth hH0 w
  refine ⟨k, ?_, fun GI hI diag => ?_⟩
  · rw [W.prop_cons _ _ _ _ c1] at b1
    rw [W.prop_cons _ [.op H0, .name "U", .op GJ] W.csf y (by rw [W.prop_cons _ _ _ _ a3, c1]), b1]
  obtain ⟨Id, i1, i2, i3⟩ := hI.dagger ht
  obtain ⟨gI, wI, f1, f2, -, f4, f5⟩ := moved_vec (th := th) ht hs hth hR hI
  have e : inner (emb W.ci W.csf) (sumOp Id (emb W.ci k)) =
      inner (W.moved U (sumOp GI)) (W.ham (W.moved U (sumOp GJ))) := by
    rw [← i3, ← f2, b2, f5, a4, hH _ _ (by rw [← f4]; exact hact _) (by rw [← a4]; exact hact _)]
  unfold stAct
  simp only [i1, ok_bind, W.ev_op ht hs hth i2.gen, e]
  cases diag <;> simp <;> rfl

end

/-! ### Writing the entries -/

theorem foldl_diag {ν : Type} (n : ℕ) (L : List (ℕ × ℕ × ν)) (X : Mat ℝ) (r c : ℕ) :
    ((∃ t ∈ L, t.1 = t.2.1 ∧ t.1 + n = r ∧ t.2.1 + n = c) →
      (L.foldl (fun X t => if t.1 = t.2.1 then set2 X (t.1 + n) (t.2.1 + n) 1 else X) X) r c = 1) ∧
    ((¬ ∃ t ∈ L, t.1 = t.2.1 ∧ t.1 + n = r ∧ t.2.1 + n = c) →
      (L.foldl (fun X t => if t.1 = t.2.1 then set2 X (t.1 + n) (t.2.1 + n) 1 else X) X) r c = X r c) := by
  induction L generalizing X with
  | nil => exact ⟨by rintro ⟨t, h, -⟩; simp at h, fun _ => rfl⟩
  | cons t L ih =>
    rw [List.foldl_cons]
    obtain ⟨i1, i2⟩ := ih (if t.1 = t.2.1 then set2 X (t.1 + n) (t.2.1 + n) 1 else X)
    by_cases h : ∃ t ∈ L, t.1 = t.2.1 ∧ t.1 + n = r ∧ t.2.1 + n = c
    · refine ⟨fun _ => i1 h, fun k => absurd ?_ k⟩
      obtain ⟨u, hu, e⟩ := h
      exact ⟨u, by simp [hu], e⟩
    · rw [i2 h]
      refine ⟨?_, fun k => ?_⟩
      · rintro ⟨u, hu, e1, e2, e3⟩
        rcases List.mem_cons.1 hu with rfl | hu
        · rw [if_pos e1, set2, if_pos ⟨e2.symm, e3.symm⟩]
        · exact absurd ⟨u, hu, e1, e2, e3⟩ h
      · split
        · rename_i e
          rw [set2, if_neg]
          rintro ⟨e2, e3⟩
          exact k ⟨t, by simp, e, e2.symm, e3.symm⟩
        · rfl

/-- One field of the matrices after a loop. -/
theorem loop_field {ν : Type} (π : LRMats → Mat ℝ) (put : LRMats → ℕ → ℕ → ν → LRMats) (val : ν → ℝ) (a b : ℕ)
    (hput : ∀ M i j v, π (put M i j v) = setSym (π M) (i + a) (j + b) (val v)) (F : ℕ → ℕ → ℝ)
    (hF : ∀ r c, F r c = F c r) (L : List (ℕ × ℕ × ν)) (hL : ∀ t ∈ L, val t.2.2 = F (t.1 + a) (t.2.1 + b))
    (M : LRMats) (r c : ℕ) :
    ((∃ t ∈ L, (t.1 + a = r ∧ t.2.1 + b = c) ∨ (t.1 + a = c ∧ t.2.1 + b = r)) →
      π (L.foldl (fun M t => put M t.1 t.2.1 t.2.2) M) r c = F r c) ∧
    ((¬ ∃ t ∈ L, (t.1 + a = r ∧ t.2.1 + b = c) ∨ (t.1 + a = c ∧ t.2.1 + b = r)) →
      π (L.foldl (fun M t => put M t.1 t.2.1 t.2.2) M) r c = π M r c) := by
  have p := foldl_proj π (fun (M : LRMats) (t : ℕ × ℕ × ν) => put M t.1 t.2.1 t.2.2)
    (fun X t => setSym X (t.1 + a) (t.2.1 + b) (val t.2.2)) (fun _ _ => hput _ _ _ _) L M
  rw [p]
  exact loop_writes val a b F hF L hL (π M) r c

theorem stActLoop_ok {tiny : ℝ → Bool} {th : Threads} {W : RespWf} {H0 : Dict ℝ} {G : List (Dict ℝ)} (n : ℕ)
    {fA : ℕ → ℕ → ℝ} (hA : ∀ r c, fA r c = fA c r)
    (h : ∀ x ∈ G.zipIdx, ∃ k, W.prop tiny th [.name "Ud", .op H0, .name "U", .op x.1] W.csf = .ok k ∧
      ∀ y ∈ (G.drop x.2).zipIdx x.2, stAct tiny th W k (y.2 == x.2) y.1 = .ok (fA (y.2 + n) (x.2 + n))) (M : LRMats) :
    ∃ M', stActLoop tiny th W H0 G n M = .ok M' ∧ M'.B = M.B ∧ M'.Delta = M.Delta ∧ ∀ i j,
      ((n ≤ i ∧ i < n + G.length ∧ n ≤ j ∧ j < n + G.length) →
        M'.A i j = fA i j ∧ M'.Sigma i j = if i = j then 1 else M.Sigma i j) ∧
      (¬ (n ≤ i ∧ i < n + G.length ∧ n ≤ j ∧ j < n + G.length) →
        M'.A i j = M.A i j ∧ M'.Sigma i j = M.Sigma i j) := by
  obtain ⟨L, a1, a2, a3⟩ := lrLoop_ok (js := G.zipIdx) (is := fun j => (G.drop j).zipIdx j)
    (pre := fun GJ => W.prop tiny th [.name "Ud", .op H0, .name "U", .op GJ] W.csf)
    (entry := fun k x y => stAct tiny th W k (y.2 == x.2) y.1) (fun M i j v => { M with
      A := setSym M.A (i + n) (j + n) v
      Sigma := if i = j then set2 M.Sigma (i + n) (j + n) 1 else M.Sigma })
    (fun i j v => v = fA (i + n) (j + n)) (fun x hx => by
      obtain ⟨k, k1, k2⟩ := h x hx
      exact ⟨k, k1, fun y hy => ⟨_, k2 y hy, rfl⟩⟩)
  have pairs := fun i j => (a2 i j).trans (act_pairs G i j)
  refine ⟨_, a3 M, foldl_same LRMats.B _ (by intro _ _; rfl) _ _,
    foldl_same LRMats.Delta _ (by intro _ _; rfl) _ _, fun i j => ?_⟩
  have vis := act_visited (nQ := n) pairs i j
  have A1 := loop_field LRMats.A (fun M i j v => { M with
      A := setSym M.A (i + n) (j + n) v
      Sigma := if i = j then set2 M.Sigma (i + n) (j + n) 1 else M.Sigma }) (fun v : ℝ => v) n n
      (by intro _ _ _ _; rfl) fA hA L (fun t h => a1 t h) M i j
  have pS := foldl_proj LRMats.Sigma (fun (M : LRMats) (t : ℕ × ℕ × ℝ) => { M with
      A := setSym M.A (t.1 + n) (t.2.1 + n) t.2.2
      Sigma := if t.1 = t.2.1 then set2 M.Sigma (t.1 + n) (t.2.1 + n) 1 else M.Sigma })
    (fun X t => if t.1 = t.2.1 then set2 X (t.1 + n) (t.2.1 + n) 1 else X) (fun _ _ => rfl) L M
  have S1 := foldl_diag n L M.Sigma i j
  rw [← pS] at S1
  rw [vis] at A1
  have dv : (∃ t ∈ L, t.1 = t.2.1 ∧ t.1 + n = i ∧ t.2.1 + n = j) ↔ i = j ∧ n ≤ i ∧ i < n + G.length := by
    constructor
    · rintro ⟨t, ht, e1, e2, e3⟩
      have := (pairs t.1 t.2.1).1 ⟨t, ht, rfl, rfl⟩
      omega
    · rintro ⟨rfl, h1, h2⟩
      obtain ⟨t, ht, e1, e2⟩ := (pairs (i - n) (i - n)).2 (by omega)
      exact ⟨t, ht, by omega, by omega, by omega⟩
  rw [dv] at S1
  refine ⟨fun hh => ⟨A1.1 hh, ?_⟩, fun hh => ⟨A1.2 hh, S1.2 (by omega)⟩⟩
  split
  · rename_i e
    exact S1.1 ⟨e, by omega, by omega⟩
  · rename_i e
    exact S1.2 fun k => e k.1

/-! ### Commutators with operators `|K⟩⟨0|` -/

section
variable {Ψ : Fock ℝ} {H : FOp ℝ}

theorem transfer_A (hn : inner Ψ Ψ = 1) {I J : Fock ℝ} (hI : inner Ψ I = 0)
    (hJ : inner Ψ J = 0) :
    expv Ψ (dcomm (ketbra Ψ I) H (ketbra J Ψ)) = inner I (H J) - expv Ψ H * inner I J := by
  have hI' : inner I Ψ = 0 := by rw [inner_comm, hI]
  rw [expv_dcomm, expv]
  simp only [ketbra_apply, map_smul, inner_smul_right, hn, hI', hJ, zero_smul, map_zero,
    inner_zero_right, one_smul, smul_zero]
  ring

theorem transfer_B {I J : Fock ℝ} (hI : inner Ψ I = 0) (hJ : inner Ψ J = 0) :
    expv Ψ (dcomm (ketbra Ψ I) H (ketbra Ψ J)) = 0 := by
  have hI' : inner I Ψ = 0 := by rw [inner_comm, hI]
  have hJ' : inner J Ψ = 0 := by rw [inner_comm, hJ]
  simp only [expv_dcomm, ketbra_apply, map_smul, inner_smul_right, hI', hJ', zero_smul, map_zero,
    inner_zero_right, smul_zero]
  ring

theorem transfer_S (hn : inner Ψ Ψ = 1) {I J : Fock ℝ} (hI : inner Ψ I = 0) (hJ : inner Ψ J = 0) :
    expv Ψ (comm (ketbra Ψ I) (ketbra J Ψ)) = inner I J ∧ expv Ψ (comm (ketbra Ψ I) (ketbra Ψ J)) = 0 ∧
    expv Ψ (comm H (ketbra J Ψ)) = inner Ψ (H J) := by
  have hI' : inner I Ψ = 0 := by rw [inner_comm, hI]
  have hJ' : inner J Ψ = 0 := by rw [inner_comm, hJ]
  simp only [expv_comm, ketbra_apply, map_smul, inner_smul_right, hn, hI', hJ, hJ', zero_smul, map_zero,
    inner_zero_right, one_smul, smul_zero]
  refine ⟨by ring, by ring, by ring⟩

/-- Orbital rotation and transferred state. -/
theorem transfer_mixed (hn : inner Ψ Ψ = 1) {I : Fock ℝ} (hI : inner Ψ I = 0) {q qd : FOp ℝ} (hq : IsAdjoint q qd) (h0 : qd Ψ = 0)
    (h1 : qd I = 0) :
    expv Ψ (dcomm (ketbra Ψ I) H q) = inner I (H (q Ψ)) ∧
    expv Ψ (dcomm (ketbra Ψ I) H qd) = -1 / 2 * inner I (qd (H Ψ)) ∧
    expv Ψ (comm (ketbra Ψ I) q) = 0 ∧ expv Ψ (comm (ketbra Ψ I) qd) = 0 := by
  have hI' : inner I Ψ = 0 := by rw [inner_comm, hI]
  have z1 : ∀ x, inner Ψ (q x) = 0 := fun x => by rw [← hq.symm, h0, inner_zero_left]
  have z2 : ∀ x, inner I (q x) = 0 := fun x => by rw [← hq.symm, h1, inner_zero_left]
  simp only [expv_dcomm, expv_comm, ketbra_apply, map_smul, inner_smul_right, hI', h0, z1, z2, zero_smul, map_zero,
    inner_zero_right, smul_zero, mul_zero, hn]
  refine ⟨by ring, by ring, by ring, by ring⟩

end

/-! ### The transferred states -/

section
variable {tiny big : ℝ → Bool} {th : Threads} {W : RespWf} {U Ud : FOp ℝ}

theorem moved_inner (ht : ExactTiny tiny) (hs : AnsatzSpace W.ci W.ci.nA) (hth : th.Fair W.ci.idx2det.length)
    (hR : W.Rotates U Ud) {S T : Dict ℝ} (hS : ActOp W.ci S) (hT : ActOp W.ci T) :
    inner (W.moved U (sumOp S)) (W.moved U (sumOp T)) =
      inner (sumOp S (emb W.ci W.csf)) (sumOp T (emb W.ci W.csf)) ∧
    inner W.state (W.moved U (sumOp T)) = inner (emb W.ci W.csf) (sumOp T (emb W.ci W.csf)) ∧
    ActiveState W.ci.nI W.ci.nA (W.moved U (sumOp T)) := by
  obtain ⟨g, w, a1, a2, -, -, -⟩ := moved_vec (th := th) ht hs hth hR hS
  obtain ⟨g', w', b1, b2, -, b4, -⟩ := moved_vec (th := th) ht hs hth hR hT
  have key : ∀ x, inner (U x) (W.moved U (sumOp T)) = inner x (sumOp T (emb W.ci W.csf)) := by
    intro x
    rw [hR.adjoint]
    unfold RespWf.moved
    rw [← b2, hR.inverse]
  refine ⟨key _, by rw [hR.state, key], ?_⟩
  rw [← b4]; exact emb_active _ _

/-- `hamiltonian_2i_2a`: between near states the full Hamiltonian. -/
theorem ham2_gen (ht : ExactTiny tiny) (hb : ExactBig big) (h : ℕ → ℕ → ℝ) (g : ℕ → ℕ → ℕ → ℕ → ℝ) (ci : CIInfo) :
    ∃ H, hamiltonian2i2a tiny big h g ci.nI ci.nA ci.nV = .ok H ∧ GenOp ci H ∧
      ∀ x y, NearState ci.nI ci.nA x → NearState ci.nI ci.nA y →
        inner x (sumOp H y) = inner x (hamOp h g (ci.nI + ci.nA + ci.nV) y) := by
  obtain ⟨d, hd, hn, -⟩ := den_hamiltonian2i2a ht hb h g ci.nI ci.nA ci.nV
  refine ⟨d, hd, ⟨hn, keys_ham2 (tiny := tiny) (big := big) h g ci.nI ci.nA ci.nV d hd⟩, fun x y hx hy => ?_⟩
  obtain ⟨d', f, e1, e2, e3⟩ := C93_double ht hb h g ci.nI ci.nA ci.nV hx hy
  rw [hd] at e1
  obtain rfl := Except.ok.inj e1
  rw [e3]
  obtain ⟨f', k1, -, k3⟩ := (C11_form ht hb h g (ci.nI + ci.nA + ci.nV)).1
  rw [k1] at e2
  obtain rfl := Except.ok.inj e2
  rw [k3]; rfl

theorem pstOrb_ok (ht : ExactTiny tiny) (hW : W.Proper) (hE : W.energy = expv W.state W.ham)
    (hth : th.Fair W.ci.idx2det.length) {H2 : Dict ℝ} (hH2 : GenOp W.ci H2)
    (hH : ∀ x y, NearState W.ci.nI W.ci.nA x → NearState W.ci.nI W.ci.nA y →
      inner x (sumOp H2 y) = inner x (W.ham y))
    {k l : ℕ × ℕ} {qJ qI : Dict ℝ} (hJ : GenOp W.ci qJ) (eJ : sumOp qJ = qOp k.2 k.1) (hI : GenOp W.ci qI)
    (eI : sumOp qI = qOp l.2 l.1) :
    ∃ v : ℝ × ℝ, pstOrb tiny th W H2 qJ qI = .ok v ∧
      v.1 = inner (qOp l.2 l.1 W.state) (W.ham (qOp k.2 k.1 W.state))
        - expv W.state W.ham * inner (qOp l.2 l.1 W.state) (qOp k.2 k.1 W.state) ∧
      v.2 = inner (qOp l.2 l.1 W.state) (qOp k.2 k.1 W.state) := by
  have hs := hW.space
  have hact := emb_active W.ci
  obtain ⟨qd, a1, a2, a3⟩ := hI.dagger ht
  obtain ⟨qdH, b1, b2, b3⟩ := a2.mul ht hH2
  obtain ⟨qdHq, c1, c2, c3⟩ := b2.mul ht hJ
  obtain ⟨qdq, d1, d2, d3⟩ := a2.mul ht hJ
  have e1 : inner (emb W.ci W.c) (sumOp qdHq (emb W.ci W.c)) =
      inner (qOp l.2 l.1 W.state) (W.ham (qOp k.2 k.1 W.state)) := by
    rw [c3, b3, Module.End.mul_apply, Module.End.mul_apply, ← a3, eI, eJ,
      hH _ _ (near_qOp (hact _) _ _) (near_qOp (hact _) _ _)]
    rfl
  have e2 : inner (emb W.ci W.c) (sumOp qdq (emb W.ci W.c)) =
      inner (qOp l.2 l.1 W.state) (qOp k.2 k.1 W.state) := by
    rw [d3, Module.End.mul_apply, ← a3, eI, eJ]
    rfl
  refine ⟨_, by
    unfold pstOrb
    simp only [a1, b1, c1, d1, ok_bind, W.ev_op ht hs hth c2, W.ev_op ht hs hth d2, e1, e2]
    rfl, ?_, rfl⟩
  dsimp only
  rw [hE]; ring

end

/-- The loop over the orbital rotations of the projected variant. -/
theorem pst_orb_loop {α : Type} {Q : List α} {entry : α → α × ℕ → α × ℕ → Res (ℝ × ℝ)} {fA fS : ℕ → ℕ → ℝ}
    (hA : ∀ r c, fA r c = fA c r) (hS : ∀ r c, fS r c = fS c r)
    (h : ∀ x ∈ Q.zipIdx, ∀ y ∈ (Q.drop x.2).zipIdx x.2, ∃ v, entry x.1 x y = .ok v ∧
      v.1 = fA y.2 x.2 ∧ v.2 = fS y.2 x.2) (M : LRMats) :
    ∃ M', lrLoop Q.zipIdx (fun j => (Q.drop j).zipIdx j) (fun q => pure q) entry
        (fun M i j v => { M with A := setSym M.A i j v.1, Sigma := setSym M.Sigma i j v.2 }) M = .ok M' ∧
      M'.B = M.B ∧ M'.Delta = M.Delta ∧ ∀ i j,
      ((i < Q.length ∧ j < Q.length) → M'.A i j = fA i j ∧ M'.Sigma i j = fS i j) ∧
      (¬ (i < Q.length ∧ j < Q.length) → M'.A i j = M.A i j ∧ M'.Sigma i j = M.Sigma i j) := by
  obtain ⟨L, a1, a2, a3⟩ := lrLoop_ok (js := Q.zipIdx) (is := fun j => (Q.drop j).zipIdx j)
    (pre := fun q => pure q) (entry := entry)
    (fun M i j v => { M with A := setSym M.A i j v.1, Sigma := setSym M.Sigma i j v.2 })
    (fun i j v => v.1 = fA i j ∧ v.2 = fS i j) (fun x hx => ⟨x.1, rfl, h x hx⟩)
  refine ⟨_, a3 M, foldl_same LRMats.B _ (by intro _ _; rfl) _ _,
    foldl_same LRMats.Delta _ (by intro _ _; rfl) _ _, fun i j => ?_⟩
  have vis := act_visited (nQ := 0) (fun i j => (a2 i j).trans (act_pairs Q i j)) i j
  have A1 := loop_field LRMats.A (fun M i j v => { M with A := setSym M.A i j v.1, Sigma := setSym M.Sigma i j v.2 })
    (fun v : ℝ × ℝ => v.1) 0 0 (by intro _ _ _ _; rfl) fA hA L (fun t h => (a1 t h).1) M i j
  have S1 := loop_field LRMats.Sigma (fun M i j v => { M with
      A := setSym M.A i j v.1, Sigma := setSym M.Sigma i j v.2 })
    (fun v : ℝ × ℝ => v.2) 0 0 (by intro _ _ _ _; rfl) fS hS L (fun t h => (a1 t h).2) M i j
  rw [vis] at A1 S1
  exact ⟨fun h => ⟨A1.1 (by omega), S1.1 (by omega)⟩, fun h => ⟨A1.2 (by omega), S1.2 (by omega)⟩⟩

/-- The mixed loop of the projected variant. -/
theorem pst_mixed_loop {α β κ : Type} {Q : List α} {G : List β} {pre : α → Res κ}
    {entry : κ → α × ℕ → β × ℕ → Res ℝ} {fA : ℕ → ℕ → ℝ} (hA : ∀ r c, fA r c = fA c r)
    (h : ∀ x ∈ Q.zipIdx, ∃ k, pre x.1 = .ok k ∧ ∀ y ∈ G.zipIdx, ∃ v, entry k x y = .ok v ∧
      v = fA (y.2 + Q.length) x.2) (M : LRMats) :
    ∃ M', lrLoop Q.zipIdx (fun _ => G.zipIdx) pre entry
        (fun M i j v => { M with A := setSym M.A j (i + Q.length) v }) M = .ok M' ∧
      M'.B = M.B ∧ M'.Sigma = M.Sigma ∧ M'.Delta = M.Delta ∧ ∀ i j,
      ((Q.length ≤ i ∧ i < Q.length + G.length ∧ j < Q.length ∨ Q.length ≤ j ∧ j < Q.length + G.length ∧ i < Q.length) →
        M'.A i j = fA i j) ∧
      (¬ (Q.length ≤ i ∧ i < Q.length + G.length ∧ j < Q.length ∨
        Q.length ≤ j ∧ j < Q.length + G.length ∧ i < Q.length) → M'.A i j = M.A i j) := by
  obtain ⟨L, a1, a2, a3⟩ := lrLoop_ok (js := Q.zipIdx) (is := fun _ => G.zipIdx) (pre := pre) (entry := entry)
    (fun M i j v => { M with A := setSym M.A j (i + Q.length) v })
    (fun i j v => v = fA (i + Q.length) j) h
  refine ⟨_, a3 M, foldl_same LRMats.B _ (by intro _ _; rfl) _ _, foldl_same LRMats.Sigma _ (by intro _ _; rfl) _ _,
    foldl_same LRMats.Delta _ (by intro _ _; rfl) _ _, fun i j => ?_⟩
  have vis := mixed_visited (fun i j => (a2 i j).trans (mixed_pairs Q G i j)) i j
  have A1 := loop_field LRMats.A (fun M i j v => { M with A := setSym M.A j (i + Q.length) v })
    (fun v : ℝ => v) Q.length 0 (by intro _ _ _ _; exact setSym_comm _ _ _ _) fA hA L (fun t h => a1 t h) M i j
  rw [vis] at A1
  exact A1

end SQ
