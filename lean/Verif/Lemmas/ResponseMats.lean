import Verif.Lemmas.ResponseEntries
import Verif.Lemmas.ResponseGens

/-!
# Lemmas for the response matrices: assembling
-/

namespace SQ

/-- The adjoint, if there is one. -/
noncomputable def adj (T : FOp ℝ) : FOp ℝ := by
  classical exact if h : ∃ T', IsAdjoint T T' then h.choose else 0

theorem adj_spec {T T' : FOp ℝ} (h : IsAdjoint T T') : IsAdjoint T (adj T) := by
  unfold adj
  have hex : ∃ T', IsAdjoint T T' := ⟨T', h⟩
  rw [dif_pos hex]
  exact hex.choose_spec

theorem adj_eq {T T' : FOp ℝ} (h : IsAdjoint T T') : adj T = T' := (adj_spec h).unique h

/-- Entry of a list of operators. -/
noncomputable def opAt (X : List (FOp ℝ)) (i : ℕ) : FOp ℝ := X[i]?.getD 0

theorem opAt_adj {X : List (FOp ℝ)} (h : ∀ T ∈ X, ∃ T', IsAdjoint T T') (i : ℕ) :
    IsAdjoint (opAt X i) (adj (opAt X i)) := by
  unfold opAt
  cases e : X[i]? with
  | none => exact adj_spec isAdjoint_zero
  | some T =>
    obtain ⟨T', hT⟩ := h T (List.mem_of_getElem? e)
    exact adj_spec hT

theorem opAt_of {X : List (FOp ℝ)} {i : ℕ} {T : FOp ℝ} (h : X[i]? = some T) : opAt X i = T := by
  unfold opAt; rw [h]; rfl

/-- The list of all operators: first the orbital ones. -/
noncomputable def respOps (W : RespWf) (G : List (Dict ℝ)) : List (FOp ℝ) :=
  (W.kappa.map fun k => qOp k.2 k.1) ++ G.map sumOp

theorem opAt_q {W : RespWf} {G : List (Dict ℝ)} {j : ℕ} {k : ℕ × ℕ} (h : W.kappa[j]? = some k) :
    opAt (respOps W G) j = qOp k.2 k.1 := by
  refine opAt_of ?_
  unfold respOps
  rw [List.getElem?_append_left (by
    have := (List.getElem?_eq_some_iff.1 h).1
    simpa using this), List.getElem?_map, h]
  rfl

theorem opAt_G {W : RespWf} {G : List (Dict ℝ)} {i : ℕ} {g : Dict ℝ} (h : G[i]? = some g) :
    opAt (respOps W G) (i + W.kappa.length) = sumOp g := by
  refine opAt_of ?_
  unfold respOps
  rw [List.getElem?_append_right (by simp)]
  simp [h]

theorem respOps_adj {tiny : ℝ → Bool} (ht : ExactTiny tiny) {W : RespWf} {G : List (Dict ℝ)}
    (hG : ∀ d ∈ G, ExcOp W d) : ∀ T ∈ respOps W G, ∃ T', IsAdjoint T T' := by
  intro T hT
  rcases List.mem_append.1 hT with h | h
  · obtain ⟨k, -, rfl⟩ := List.mem_map.1 h
    exact ⟨_, qOp_adjoint _ _⟩
  · obtain ⟨g, hg, rfl⟩ := List.mem_map.1 h
    obtain ⟨d, -, -, h3⟩ := (hG g hg).1.dagger ht
    exact ⟨_, h3⟩

/-- The matrices as functions of the operators. -/
noncomputable def FA (W : RespWf) (X : List (FOp ℝ)) (r c : ℕ) : ℝ :=
  expv W.state (dcomm (adj (opAt X r)) W.ham (opAt X c))
noncomputable def FB (W : RespWf) (X : List (FOp ℝ)) (r c : ℕ) : ℝ :=
  expv W.state (dcomm (adj (opAt X r)) W.ham (adj (opAt X c)))
noncomputable def FS (W : RespWf) (X : List (FOp ℝ)) (r c : ℕ) : ℝ :=
  expv W.state (comm (adj (opAt X r)) (opAt X c))

section
variable {W : RespWf} {X : List (FOp ℝ)}

theorem FA_symm (hW : W.Proper) (hX : ∀ T ∈ X, ∃ T', IsAdjoint T T') (r c : ℕ) : FA W X r c = FA W X c r := by
  unfold FA
  exact expv_adjoint _ (dcomm_adjoint (opAt_adj hX r).symm (opAt_adj hX c) (ham_adjoint hW))

theorem FB_symm (r c : ℕ) : FB W X r c = FB W X c r := by
  unfold FB
  rw [dcomm_swap]

theorem FS_symm (hX : ∀ T ∈ X, ∃ T', IsAdjoint T T') (r c : ℕ) : FS W X r c = FS W X c r := by
  unfold FS
  exact expv_adjoint _ ((opAt_adj hX r).symm.comm (opAt_adj hX c))

end

/-- What the loop leaves in one matrix. -/
theorem loop_writes {ν : Type} (val : ν → ℝ) (a b : ℕ) (F : ℕ → ℕ → ℝ) (hF : ∀ r c, F r c = F c r)
    (L : List (ℕ × ℕ × ν)) (hL : ∀ t ∈ L, val t.2.2 = F (t.1 + a) (t.2.1 + b)) (X : Mat ℝ) (r c : ℕ) :
    ((∃ t ∈ L, (t.1 + a = r ∧ t.2.1 + b = c) ∨ (t.1 + a = c ∧ t.2.1 + b = r)) →
      (L.foldl (fun X t => setSym X (t.1 + a) (t.2.1 + b) (val t.2.2)) X) r c = F r c) ∧
    ((¬ ∃ t ∈ L, (t.1 + a = r ∧ t.2.1 + b = c) ∨ (t.1 + a = c ∧ t.2.1 + b = r)) →
      (L.foldl (fun X t => setSym X (t.1 + a) (t.2.1 + b) (val t.2.2)) X) r c = X r c) := by
  rw [foldl_shift]
  have := foldl_setSym F hF (L.map fun t => (t.1 + a, t.2.1 + b, val t.2.2)) (by
    intro t ht
    obtain ⟨t', h, rfl⟩ := List.mem_map.1 ht
    exact hL t' h) X r c
  simpa only [List.mem_map, exists_exists_and_eq_and] using this

/-- Mixed block: which entries are written. -/
theorem mixed_visited {ν : Type} {L : List (ℕ × ℕ × ν)} {nQ nG : ℕ}
    (h : ∀ i j, (∃ t ∈ L, t.1 = i ∧ t.2.1 = j) ↔ j < nQ ∧ i < nG) (r c : ℕ) :
    (∃ t ∈ L, (t.1 + nQ = r ∧ t.2.1 + 0 = c) ∨ (t.1 + nQ = c ∧ t.2.1 + 0 = r)) ↔
      (nQ ≤ r ∧ r < nQ + nG ∧ c < nQ) ∨ (nQ ≤ c ∧ c < nQ + nG ∧ r < nQ) := by
  constructor
  · rintro ⟨t, ht, h1⟩
    have := (h t.1 t.2.1).1 ⟨t, ht, rfl, rfl⟩
    omega
  · rintro (⟨h1, h2, h3⟩ | ⟨h1, h2, h3⟩)
    · obtain ⟨t, ht, e1, e2⟩ := (h (r - nQ) c).2 ⟨h3, by omega⟩
      exact ⟨t, ht, by omega⟩
    · obtain ⟨t, ht, e1, e2⟩ := (h (c - nQ) r).2 ⟨h3, by omega⟩
      exact ⟨t, ht, by omega⟩

/-- Block of the active operators: which entries are written. -/
theorem act_visited {ν : Type} {L : List (ℕ × ℕ × ν)} {nQ nG : ℕ}
    (h : ∀ i j, (∃ t ∈ L, t.1 = i ∧ t.2.1 = j) ↔ j ≤ i ∧ i < nG) (r c : ℕ) :
    (∃ t ∈ L, (t.1 + nQ = r ∧ t.2.1 + nQ = c) ∨ (t.1 + nQ = c ∧ t.2.1 + nQ = r)) ↔
      nQ ≤ r ∧ r < nQ + nG ∧ nQ ≤ c ∧ c < nQ + nG := by
  constructor
  · rintro ⟨t, ht, h1⟩
    have := (h t.1 t.2.1).1 ⟨t, ht, rfl, rfl⟩
    omega
  · rintro ⟨h1, h2, h3, h4⟩
    rcases le_total c r with hcr | hcr
    · obtain ⟨t, ht, e1, e2⟩ := (h (r - nQ) (c - nQ)).2 (by omega)
      exact ⟨t, ht, by omega⟩
    · obtain ⟨t, ht, e1, e2⟩ := (h (c - nQ) (r - nQ)).2 (by omega)
      exact ⟨t, ht, by omega⟩

/-- The pairs of the mixed loop. -/
theorem mixed_pairs {α β : Type} (Q : List α) (G : List β) (i j : ℕ) :
    (∃ x ∈ Q.zipIdx, x.2 = j ∧ ∃ y ∈ G.zipIdx, y.2 = i) ↔ j < Q.length ∧ i < G.length := by
  have h1 := mem_zipIdx_snd (l := Q) (k := 0) (i := j)
  have h2 := mem_zipIdx_snd (l := G) (k := 0) (i := i)
  constructor
  · rintro ⟨x, hx, rfl, hy⟩
    have a := h1.1 ⟨x, hx, rfl⟩
    have b := h2.1 hy
    omega
  · rintro ⟨a, b⟩
    obtain ⟨x, hx, e⟩ := h1.2 ⟨by omega, by omega⟩
    exact ⟨x, hx, e, h2.2 ⟨by omega, by omega⟩⟩

/-- The pairs of the loop over the active operators. -/
theorem act_pairs {β : Type} (G : List β) (i j : ℕ) :
    (∃ x ∈ G.zipIdx, x.2 = j ∧ ∃ y ∈ (G.drop x.2).zipIdx x.2, y.2 = i) ↔ j ≤ i ∧ i < G.length := by
  have h1 := mem_zipIdx_snd (l := G) (k := 0) (i := j)
  have h2 := mem_zipIdx_snd (l := G.drop j) (k := j) (i := i)
  constructor
  · rintro ⟨x, hx, rfl, hy⟩
    have a := h1.1 ⟨x, hx, rfl⟩
    have b := h2.1 hy
    rw [List.length_drop] at b
    omega
  · rintro ⟨a, b⟩
    obtain ⟨x, hx, rfl⟩ := h1.2 ⟨by omega, by omega⟩
    exact ⟨x, hx, rfl, h2.2 ⟨by omega, by rw [List.length_drop]; omega⟩⟩

theorem zipIdx_get {α : Type} {l : List α} {x : α × ℕ} (h : x ∈ l.zipIdx) : l[x.2]? = some x.1 := by
  have := List.mem_zipIdx_iff_getElem? (x := x) (l := l)
  exact this.1 h

theorem zipIdx_drop_get {α : Type} {l : List α} {k : ℕ} {x : α × ℕ} (h : x ∈ (l.drop k).zipIdx k) :
    l[x.2]? = some x.1 := by
  have h' := List.mk_mem_zipIdx_iff_le_and_getElem?_sub.1 (show (x.1, x.2) ∈ (l.drop k).zipIdx k from h)
  rw [List.getElem?_drop] at h'
  rw [← h'.2]
  congr 1
  omega

/-! ### The gradients -/

section
variable {tiny : ℝ → Bool} {th : Threads} {W : RespWf}

theorem proper_reference (hW : W.Proper) : Reference W.ci.nI W.ci.nA [W.state] :=
  ⟨fun Ψ h => by rw [List.mem_singleton.1 h]; exact emb_active _ _, by rw [mean_single]; exact hW.norm⟩

theorem kappa_lt (hW : W.Proper) {k : ℕ × ℕ} (hk : k ∈ W.kappa) :
    k.1 < W.ci.nI + W.ci.nA + W.ci.nV ∧ k.2 < W.ci.nI + W.ci.nA + W.ci.nV := by
  obtain ⟨h1, h2⟩ := hW.kappa k hk
  unfold RespWf.numOrbs at h2
  unfold NonRedundant at h1
  omega

theorem orbGrad_iff (hW : W.Proper) :
    bigGrad (getOrbitalGradientResponse W.h W.g W.ci.nI W.ci.nA W.rdm1 W.rdm2 W.kappa) ↔
      ∃ T ∈ W.kappa.map fun k => qOp k.2 k.1, 1 / 1000 < |expv W.state (comm W.ham T)| := by
  rw [C32_response (nV := W.ci.nV) (proper_reference hW) hW.rdm hW.ints fun k hk => kappa_lt hW hk, bigGrad_iff]
  have e1 : ∀ k : ℕ × ℕ, mean [W.state] (comm (qOp k.1 k.2) (electronic W.h W.g (W.ci.nI + W.ci.nA + W.ci.nV)))
      = expv W.state (comm W.ham (qOp k.2 k.1)) := fun k => by
    rw [← expv_mean]
    exact expv_adjoint _ ((qOp_adjoint _ _).comm (ham_adjoint hW))
  have e2 : ∀ k : ℕ × ℕ, mean [W.state] (comm (qOp k.2 k.1) (electronic W.h W.g (W.ci.nI + W.ci.nA + W.ci.nV)))
      = -expv W.state (comm W.ham (qOp k.2 k.1)) := fun k => by
    rw [comm_anti, mean_neg, expv_mean]
    rfl
  constructor
  · rintro ⟨x, hx, h⟩
    rcases List.mem_append.1 hx with hx | hx
    · obtain ⟨k, hk, rfl⟩ := List.mem_map.1 hx
      refine ⟨_, List.mem_map_of_mem hk, ?_⟩
      rw [e1] at h; exact h
    · obtain ⟨k, hk, rfl⟩ := List.mem_map.1 hx
      refine ⟨_, List.mem_map_of_mem hk, ?_⟩
      rw [e2, abs_neg] at h; exact h
  · rintro ⟨T, hT, h⟩
    obtain ⟨k, hk, rfl⟩ := List.mem_map.1 hT
    refine ⟨_, List.mem_append_left _ (List.mem_map_of_mem hk), ?_⟩
    rw [e1]; exact h

theorem lrOrbCheck_eq (hW : W.Proper) {n : ℕ} (hn : n = W.kappa.length) :
    ((∃ T ∈ W.kappa.map fun k => qOp k.2 k.1, 1 / 1000 < |expv W.state (comm W.ham T)|) →
      lrOrbCheck W n = .error .valueError) ∧
    ((¬ ∃ T ∈ W.kappa.map fun k => qOp k.2 k.1, 1 / 1000 < |expv W.state (comm W.ham T)|) →
      lrOrbCheck W n = .ok ()) := by
  unfold lrOrbCheck
  rw [orbGrad_iff hW]
  constructor
  · intro h
    rw [if_pos]
    refine ⟨?_, h⟩
    obtain ⟨T, hT, -⟩ := h
    obtain ⟨k, hk, -⟩ := List.mem_map.1 hT
    have := List.length_pos_of_mem hk
    omega
  · intro h
    rw [if_neg fun h' => h h'.2]

theorem lrGradCheck_eq (l : List ℝ) :
    ((∃ x ∈ l, 1 / 1000 < |x|) → lrGradCheck l = .error .valueError) ∧
    ((¬ ∃ x ∈ l, 1 / 1000 < |x|) → lrGradCheck l = .ok ()) := by
  unfold lrGradCheck
  rw [bigGrad_iff]
  constructor
  · intro h
    rw [if_pos]
    refine ⟨?_, h⟩
    obtain ⟨x, hx, -⟩ := h
    have := List.length_pos_of_mem hx
    omega
  · intro h
    rw [if_neg fun h' => h h'.2]

/-! ### The orbital block -/

theorem lrSetBlock_map {α β : Type} (X : Mat ℝ) (l : List α) (m : List β) (f : α → β → ℝ) {i j : ℕ} {x : α} {y : β}
    (hx : l[i]? = some x) (hy : m[j]? = some y) :
    lrSetBlock X (l.map fun a => m.map fun b => f a b) i j = f x y := by
  unfold lrSetBlock
  rw [List.getElem?_map, hx]
  simp only [Option.map_some]
  rw [List.getElem?_map, hy]
  rfl

theorem lrSetBlock_out {α β : Type} (X : Mat ℝ) (l : List α) (m : List β) (f : α → β → ℝ) {i j : ℕ}
    (h : l.length ≤ i ∨ m.length ≤ j) : lrSetBlock X (l.map fun a => m.map fun b => f a b) i j = X i j := by
  unfold lrSetBlock
  rw [List.getElem?_map]
  cases e : l[i]? with
  | none => rfl
  | some x =>
    simp only [Option.map_some]
    have := (List.getElem?_eq_some_iff.1 e).1
    rw [List.getElem?_map, List.getElem?_eq_none (by omega)]
    rfl

theorem lrOrbBlocks_sigma (hW : W.Proper) {n : ℕ} {M : LRMats} {i j : ℕ}
    (h : W.kappa.length ≤ i ∨ W.kappa.length ≤ j) : (lrOrbBlocks W n M).Sigma i j = M.Sigma i j := by
  unfold lrOrbBlocks
  split
  · dsimp only
    rw [C33_metric (proper_reference hW) hW.rdm.one, lrSetBlock_out _ _ _ _ h]
  · rfl

theorem lrOrbBlocks_delta (W : RespWf) (n : ℕ) (M : LRMats) : (lrOrbBlocks W n M).Delta = M.Delta := by
  unfold lrOrbBlocks; split <;> rfl

/-- The orbital blocks. -/
theorem lrOrbBlocks_eq (hW : W.Proper) {n : ℕ} (hn : n = W.kappa.length) (M : LRMats) {i j : ℕ} {k l : ℕ × ℕ}
    (hi : W.kappa[i]? = some k) (hj : W.kappa[j]? = some l) :
    (lrOrbBlocks W n M).A i j = expv W.state (comm (qOp k.1 k.2) (comm W.ham (qOp l.2 l.1))) ∧
    (lrOrbBlocks W n M).B i j = expv W.state (comm (qOp k.1 k.2) (comm W.ham (qOp l.1 l.2))) ∧
    (lrOrbBlocks W n M).Sigma i j = expv W.state (comm (qOp k.1 k.2) (qOp l.2 l.1)) := by
  have hn0 : n ≠ 0 := by
    have := (List.getElem?_eq_some_iff.1 hi).1
    omega
  have hR := proper_reference hW
  have hk := fun k hk => kappa_lt hW (k := k) hk
  have hkD : ∀ k ∈ W.kappaD, k.1 < W.ci.nI + W.ci.nA + W.ci.nV ∧ k.2 < W.ci.nI + W.ci.nA + W.ci.nV := by
    rw [hW.dagger]
    intro k h
    obtain ⟨k', h', rfl⟩ := List.mem_map.1 h
    exact ⟨(hk k' h').2, (hk k' h').1⟩
  have hiD : W.kappaD[i]? = some k.swap := by rw [hW.dagger, List.getElem?_map, hi]; rfl
  have hjD : W.kappaD[j]? = some l.swap := by rw [hW.dagger, List.getElem?_map, hj]; rfl
  have hH := ham_adjoint hW
  have flip : ∀ m n p q : ℕ, expv W.state (comm (qOp m n) (comm W.ham (qOp p q)))
      = expv W.state (comm (qOp n m) (comm W.ham (qOp q p))) := by
    intro m n p q
    rw [expv_adjoint _ ((qOp_adjoint m n).comm (hH.comm (qOp_adjoint p q)))]
    congr 1
    unfold comm
    noncomm_ring
  unfold lrOrbBlocks
  rw [if_pos hn0]
  dsimp only
  rw [C34_hessian (nV := W.ci.nV) hR hW.rdm W.h W.g hkD hk, C34_hessian (nV := W.ci.nV) hR hW.rdm W.h W.g hkD hkD,
    C33_metric hR hW.rdm.one, lrSetBlock_map _ _ _ _ hiD hj, lrSetBlock_map _ _ _ _ hiD hjD,
    lrSetBlock_map _ _ _ _ hi hj]
  simp only [← expv_mean]
  refine ⟨?_, ?_, trivial⟩
  · rw [flip]; rfl
  · rw [flip]; rfl

end

end SQ
