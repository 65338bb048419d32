import Verif.Lemmas.EigSym
import Verif.Lemmas.ResponseDipole
import Verif.Props.CircuitWave
import Verif.Lemmas.QuantumTransfer

/-! # Matrices of operators between the states of a state-averaged wave function -/

namespace SQ

open Matrix

section
variable {n : ℕ} {Ψ : Fin n → Fock ℝ}

theorem inner_superpose_left (c : Fin n → ℝ) (y : Fock ℝ) : inner (superpose Ψ c) y = ∑ i, c i * inner (Ψ i) y := by
  unfold superpose
  rw [inner_sum_left]
  exact Finset.sum_congr rfl fun i _ => inner_smul_left _ _ _

theorem inner_superpose (T : FOp ℝ) (a b : Fin n → ℝ) :
    inner (superpose Ψ a) (T (superpose Ψ b)) = ∑ i, a i * ((fun i j => inner (Ψ i) (T (Ψ j)) : RMat n) *ᵥ b) i := by
  rw [inner_superpose_left]
  refine Finset.sum_congr rfl fun i _ => ?_
  congr 1
  unfold superpose
  rw [map_sum, inner_comm, inner_sum_left]
  refine Finset.sum_congr rfl fun j _ => ?_
  rw [map_smul, inner_smul_left, inner_comm, mul_comm]

theorem inner_superpose_one (ho : OrthonormalStates Ψ) (a b : Fin n → ℝ) :
    inner (superpose Ψ a) (superpose Ψ b) = ∑ i, a i * b i := by
  have := inner_superpose (Ψ := Ψ) 1 a b
  rw [Module.End.one_apply] at this
  rw [this]
  refine Finset.sum_congr rfl fun i _ => ?_
  simp only [mulVec, dotProduct, Module.End.one_apply, ho i]
  simp

/-- The eigenvectors of the matrix of a self-adjoint operator give its eigenstates in the span. -/
theorem subspace_eigenstates {eig : EigLib} (he : EigOK eig) (ho : OrthonormalStates Ψ) {T : FOp ℝ}
    (hT : ∀ i j, inner (Ψ i) (T (Ψ j)) = inner (Ψ j) (T (Ψ i))) :
    SubspaceEigenstates T Ψ
      (((sortedPairs eig (fun i j => inner (Ψ i) (T (Ψ j)) : RMat n)).map fun p i => (p.2 i).re).map (superpose Ψ))
      ((sortedPairs eig (fun i j => inner (Ψ i) (T (Ψ j)) : RMat n)).map fun p => p.1.re) := by
  set M : RMat n := fun i j => inner (Ψ i) (T (Ψ j)) with hMdef
  have hM : M.IsSymm := Matrix.IsSymm.ext fun i j => hT j i
  have hlen : (sortedPairs eig M).length = n := by rw [sortedPairs_perm.length_eq, he.number n M hM]
  have hmem : ∀ p ∈ sortedPairs eig M, p ∈ eig n M := fun p hp => sortedPairs_perm.mem_iff.1 hp
  have hzip : ∀ x ∈ (((sortedPairs eig M).map fun p i => (p.2 i).re).map (superpose Ψ)).zip
      ((sortedPairs eig M).map fun p => p.1.re), ∃ p ∈ eig n M, x = (superpose Ψ fun i => (p.2 i).re, p.1.re) := by
    intro x hx
    rw [List.map_map, List.zip_map', List.mem_map] at hx
    obtain ⟨p, hp, rfl⟩ := hx
    exact ⟨p, hmem p hp, rfl⟩
  have hst : ∀ p ∈ eig n M, ∀ c, inner (superpose Ψ c) (T (superpose Ψ fun i => (p.2 i).re)) =
      p.1.re * inner (superpose Ψ c) (superpose Ψ fun i => (p.2 i).re) := by
    intro p hp c
    rw [inner_superpose, (eig_pair he hM hp).1, inner_superpose_one ho, Finset.mul_sum]
    refine Finset.sum_congr rfl fun i _ => ?_
    rw [Pi.smul_apply, smul_eq_mul]
    ring
  have hno : ∀ p ∈ eig n M, inner (superpose Ψ fun i => (p.2 i).re) (superpose Ψ fun i => (p.2 i).re) = 1 := by
    intro p hp
    rw [inner_superpose_one ho, ← (eig_pair he hM hp).2]
    exact Finset.sum_congr rfl fun i _ => (sq _).symm
  have hsy : ∀ a b, inner (superpose Ψ a) (T (superpose Ψ b)) = inner (superpose Ψ b) (T (superpose Ψ a)) := by
    intro a b
    rw [inner_superpose, inner_superpose]
    simp only [mulVec, dotProduct, Finset.mul_sum]
    rw [Finset.sum_comm]
    refine Finset.sum_congr rfl fun i _ => Finset.sum_congr rfl fun j _ => ?_
    rw [hT j i]
    ring
  refine ⟨⟨by simp [hlen], by simp [hlen]⟩, ?_, sortedPairs_ascending, ?_, ?_, ?_, ?_, ?_, ?_⟩
  · intro Φ h
    obtain ⟨c, -, rfl⟩ := List.mem_map.1 h
    exact ⟨c, rfl⟩
  · intro Φ h
    rw [List.map_map] at h
    obtain ⟨p, hp, rfl⟩ := List.mem_map.1 h
    exact hno p (hmem p hp)
  · intro x hx c
    obtain ⟨p, hp, rfl⟩ := hzip x hx
    exact hst p hp c
  · intro x hx
    obtain ⟨p, hp, rfl⟩ := hzip x hx
    unfold expv
    rw [hst p hp, hno p hp, mul_one]
  · intro x hx y hy hne
    obtain ⟨p, hp, rfl⟩ := hzip x hx
    obtain ⟨q, hq, rfl⟩ := hzip y hy
    have h1 := hst q hq fun i => (p.2 i).re
    have h2 := hst p hp fun i => (q.2 i).re
    rw [hsy, h1, inner_comm (superpose Ψ fun i => (q.2 i).re)] at h2
    dsimp only at hne ⊢
    have h3 : (p.1.re - q.1.re) * inner (superpose Ψ fun i => (p.2 i).re) (superpose Ψ fun i => (q.2 i).re) = 0 := by
      rw [sub_mul, ← h2, sub_self]
    exact (mul_eq_zero.1 h3).resolve_left (sub_ne_zero.2 hne)
  · intro e hh c
    have := eig_lowest he hM hh c
    unfold expv
    rw [inner_superpose, inner_superpose_one ho]
    exact this
  · rw [eig_trace he hM]
    rfl

end

/-! ### Loops over pairs of states -/

section
variable {σ : Type} {el : σ → Dict ℝ → σ → Res ℝ} {L : List σ} {A : Dict ℝ}

theorem mem_zipIdx_get {x : σ × ℕ} (h : x ∈ L.zipIdx) : ∃ hi : x.2 < L.length, x.1 = L[x.2] := by
  obtain ⟨s, i⟩ := x
  have := List.mem_zipIdx' h
  exact ⟨this.1, this.2⟩

theorem get_mem_zipIdx {i : ℕ} (hi : i < L.length) : (L[i], i) ∈ L.zipIdx := by
  rw [List.mem_zipIdx_iff_getElem?]
  simp [hi]

theorem stateHam_sem {f : σ → σ → ℝ} (hel : ∀ s ∈ L, ∀ t ∈ L, el s A t = .ok (f s t))
    (hsym : ∀ s ∈ L, ∀ t ∈ L, f s t = f t s) :
    ∃ M, stateHam el L A = .ok M ∧ ∀ i j : Fin L.length, M i j = f (L.get i) (L.get j) := by
  classical
  set F : ℕ × ℕ → ℝ := fun i => if h : i.1 < L.length ∧ i.2 < L.length then f L[i.1] L[i.2] else 0 with hF
  obtain ⟨M, h1, h2⟩ := fill (ι := ℕ × ℕ) (fun (a : Mat ℝ) i => a i.1 i.2)
    (fun M (xy : (σ × ℕ) × σ × ℕ) => do
      let v ← el xy.1.1 A xy.2.1
      pure (set2 (set2 M xy.1.2 xy.2.2 v) xy.2.2 xy.1.2 v)) F
    (fun x i => (i.1 = x.1.2 ∧ i.2 = x.2.2) ∨ (i.1 = x.2.2 ∧ i.2 = x.1.2))
    (L.zipIdx.flatMap fun x => (L.zipIdx.filter fun y => ¬y.2 > x.2).map fun y => (x, y)) (by
      rintro ⟨x, y⟩ hxy a
      simp only [List.mem_flatMap, List.mem_map, List.mem_filter, Prod.mk.injEq] at hxy
      obtain ⟨x', hx, y', ⟨hy, -⟩, rfl, rfl⟩ := hxy
      obtain ⟨hi, ex⟩ := mem_zipIdx_get hx
      obtain ⟨hj, ey⟩ := mem_zipIdx_get hy
      obtain ⟨s, i⟩ := x'
      obtain ⟨t, j⟩ := y'
      dsimp only at hi hj ex ey ⊢
      subst ex ey
      refine ⟨_, by rw [hel _ (List.getElem_mem _) _ (List.getElem_mem _)]; rfl, ?_⟩
      rintro ⟨k, l⟩
      unfold set2
      dsimp only
      constructor
      · rintro (⟨rfl, rfl⟩ | ⟨rfl, rfl⟩)
        · rw [hF]
          dsimp only
          rw [dif_pos ⟨hi, hj⟩]
          split_ifs with h1 h2
          · rfl
          · rfl
          · exact absurd ⟨rfl, rfl⟩ h2
        · rw [if_pos ⟨rfl, rfl⟩, hF]
          dsimp only
          rw [dif_pos ⟨hj, hi⟩, hsym _ (List.getElem_mem _) _ (List.getElem_mem _)]
      · intro h
        rw [not_or] at h
        rw [if_neg h.2, if_neg h.1]) (fun _ _ => 0)
  refine ⟨M, h1, fun i j => ?_⟩
  have hF' : F (i, j) = f (L.get i) (L.get j) := by
    rw [hF]
    dsimp only
    rw [dif_pos ⟨i.2, j.2⟩]
    rfl
  rw [← hF']
  refine h2 (i, j) (Or.inl ?_)
  rcases Nat.le_total (j : ℕ) i with h | h
  · exact ⟨((L[i], (i : ℕ)), (L[j], (j : ℕ))), List.mem_flatMap.2 ⟨_, get_mem_zipIdx i.2, List.mem_map.2
      ⟨_, List.mem_filter.2 ⟨get_mem_zipIdx j.2, by simpa using h⟩, rfl⟩⟩, Or.inl ⟨rfl, rfl⟩⟩
  · exact ⟨((L[j], (j : ℕ)), (L[i], (i : ℕ))), List.mem_flatMap.2 ⟨_, get_mem_zipIdx j.2, List.mem_map.2
      ⟨_, List.mem_filter.2 ⟨get_mem_zipIdx i.2, by simpa using h⟩, rfl⟩⟩, Or.inr ⟨rfl, rfl⟩⟩

theorem stateOp_sem {f : σ → σ → ℝ} (hel : ∀ s ∈ L, ∀ t ∈ L, el s A t = .ok (f s t)) :
    ∃ M, stateOp el L A = .ok M ∧ ∀ i j : Fin L.length, M i j = f (L.get i) (L.get j) := by
  classical
  set F : ℕ × ℕ → ℝ := fun i => if h : i.1 < L.length ∧ i.2 < L.length then f L[i.1] L[i.2] else 0 with hF
  obtain ⟨M, h1, h2⟩ := fill (ι := ℕ × ℕ) (fun (a : Mat ℝ) i => a i.1 i.2)
    (fun M (xy : (σ × ℕ) × σ × ℕ) => do
      let v ← el xy.1.1 A xy.2.1
      pure (set2 M xy.1.2 xy.2.2 v)) F
    (fun x i => i.1 = x.1.2 ∧ i.2 = x.2.2)
    (L.zipIdx.flatMap fun x => L.zipIdx.map fun y => (x, y)) (by
      rintro ⟨x, y⟩ hxy a
      simp only [List.mem_flatMap, List.mem_map, Prod.mk.injEq] at hxy
      obtain ⟨x', hx, y', hy, rfl, rfl⟩ := hxy
      obtain ⟨hi, ex⟩ := mem_zipIdx_get hx
      obtain ⟨hj, ey⟩ := mem_zipIdx_get hy
      obtain ⟨s, i⟩ := x'
      obtain ⟨t, j⟩ := y'
      dsimp only at hi hj ex ey ⊢
      subst ex ey
      refine ⟨_, by rw [hel _ (List.getElem_mem _) _ (List.getElem_mem _)]; rfl, ?_⟩
      rintro ⟨k, l⟩
      unfold set2
      dsimp only
      constructor
      · rintro ⟨rfl, rfl⟩
        rw [if_pos ⟨rfl, rfl⟩, hF]
        dsimp only
        rw [dif_pos ⟨hi, hj⟩]
      · intro h
        rw [if_neg h]) (fun _ _ => 0)
  refine ⟨M, h1, fun i j => ?_⟩
  have hF' : F (i, j) = f (L.get i) (L.get j) := by
    rw [hF]
    dsimp only
    rw [dif_pos ⟨i.2, j.2⟩]
    rfl
  rw [← hF']
  exact h2 (i, j) (Or.inl ⟨((L[i], (i : ℕ)), (L[j], (j : ℕ))), List.mem_flatMap.2 ⟨_, get_mem_zipIdx i.2,
    List.mem_map.2 ⟨_, get_mem_zipIdx j.2, rfl⟩⟩, rfl, rfl⟩)

/-! ### Folded operators -/

variable {ci : CIInfo} {amp : σ → Vec ℝ}

theorem ExactElems.diag (hx : ExactElems ci amp L el) (hA : GenOp ci A) {s : σ} (hs : s ∈ L) :
    el s (getFolded ci.nI ci.nA ci.nV A) s = .ok (expv (emb ci (amp s)) (sumOp A)) := by
  obtain ⟨f1, f2⟩ := getFolded_inv hA.1 hA.2
  rw [(hx _ f1 f2).1 s hs]
  unfold expv
  rw [getFolded_sem _ _ _ A hA.1.ord hA.1.bal (fun kv hk o ho => (hA.2 kv hk).1 o ho) (below_stateOf _ _)
    (below_stateOf _ _)]
  rfl

theorem ExactElems.elem (hx : ExactElems ci amp L el) (hA : GenOp ci A)
    (hsym : ∀ x y, ActiveState ci.nI ci.nA x → ActiveState ci.nI ci.nA y →
      inner x (sumOp A y) = inner y (sumOp A x)) {s t : σ} (hs : s ∈ L) (ht : t ∈ L) :
    el s (getFolded ci.nI ci.nA ci.nV A) t = .ok (inner (emb ci (amp s)) (sumOp A (emb ci (amp t)))) := by
  obtain ⟨f1, f2⟩ := getFolded_inv hA.1 hA.2
  have sem := fun {x y : Fock ℝ} (hx : Below (2 * ci.nA) x) (hy : Below (2 * ci.nA) y) =>
    getFolded_sem _ _ _ A hA.1.ord hA.1.bal (fun kv hk o ho => (hA.2 kv hk).1 o ho) hx hy
  rw [(hx _ f1 f2).2 (fun x y hx hy => by
    rw [sem hx hy, sem hy hx, hsym _ _ (activeState_core hx) (activeState_core hy)]) s hs t ht,
    sem (below_stateOf _ _) (below_stateOf _ _)]
  rfl

theorem averaged_sem (hn : 0 < L.length) (hx : ExactElems ci amp L el) (hA : GenOp ci A) :
    averaged el L.length L (getFolded ci.nI ci.nA ci.nV A)
      = .ok (mean (L.map fun s => emb ci (amp s)) (sumOp A)) := by
  have key : ∀ (l : List σ), (∀ s ∈ l, s ∈ L) → ∀ v : ℝ, l.foldlM (fun val s => do
      let v ← el s (getFolded ci.nI ci.nA ci.nV A) s
      return val + v) v = (.ok (v + (l.map fun s => expv (emb ci (amp s)) (sumOp A)).sum) : Res ℝ) := by
    intro l
    induction l with
    | nil => intro _ v; simp; rfl
    | cons s l ih =>
      intro hl v
      rw [List.foldlM_cons, hx.diag hA (hl s (by simp))]
      simp only [ok_bind, pure_bind]
      rw [ih (fun t ht => hl t (by simp [ht])), List.map_cons, List.sum_cons, add_assoc]
  unfold averaged
  rw [key L (fun _ h => h) 0, ok_bind, if_neg hn.ne', zero_add]
  unfold mean
  rw [List.map_map, List.length_map]
  rfl

end

end SQ
