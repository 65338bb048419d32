import Verif.Lemmas.ResponseMats

/-!
# Lemmas for the response matrices: assembling, for any rule for the entries
-/

namespace SQ

theorem setSym_comm (X : Mat ℝ) (i j : ℕ) (v : ℝ) : setSym X i j v = setSym X j i v := by
  funext r c
  rw [setSym_get, setSym_get]
  simp only [or_comm]

/-- The check of the gradient of the active operators. -/
theorem gradCheck_forall {G : List (Dict ℝ)} {gr : List (ℝ × ℝ)} {F : Dict ℝ → ℝ}
    (h : List.Forall₂ (fun d (v : ℝ × ℝ) => |v.1| = |F d| ∧ |v.2| = |F d|) G gr) :
    ((∃ d ∈ G, 1 / 1000 < |F d|) → lrGradCheck (gr.map (·.1) ++ gr.map (·.2)) = .error .valueError) ∧
    ((¬ ∃ d ∈ G, 1 / 1000 < |F d|) → lrGradCheck (gr.map (·.1) ++ gr.map (·.2)) = .ok ()) := by
  have key : (∃ x ∈ gr.map (·.1) ++ gr.map (·.2), 1 / 1000 < |x|) ↔ ∃ d ∈ G, 1 / 1000 < |F d| := by
    induction h with
    | nil => simp
    | cons h _ ih =>
      simp only [List.mem_append, List.map_cons, List.mem_cons, or_and_right, exists_or, exists_eq_left, h.1, h.2]
        at ih ⊢
      rw [← ih]
      generalize (∃ x ∈ List.map (fun x : ℝ × ℝ => x.1) _, 1 / 1000 < |x|) = P
      generalize (∃ x ∈ List.map (fun x : ℝ × ℝ => x.2) _, 1 / 1000 < |x|) = Q
      generalize (1 / 1000 < |F _|) = R
      tauto
  have := lrGradCheck_eq (gr.map (·.1) ++ gr.map (·.2))
  rwa [key] at this

/-- The mixed loop for any rule for the entries. -/
theorem mixed_loop {α β κ : Type} {Q : List α} {G : List β} {pre : α → Res κ}
    {entry : κ → α × ℕ → β × ℕ → Res (ℝ × ℝ)} {fA fB : ℕ → ℕ → ℝ} (hA : ∀ r c, fA r c = fA c r)
    (hB : ∀ r c, fB r c = fB c r)
    (h : ∀ x ∈ Q.zipIdx, ∃ k, pre x.1 = .ok k ∧ ∀ y ∈ G.zipIdx, ∃ v, entry k x y = .ok v ∧
      v.1 = fA (y.2 + Q.length) x.2 ∧ v.2 = fB (y.2 + Q.length) x.2) (M : LRMats) :
    ∃ M', lrLoop Q.zipIdx (fun _ => G.zipIdx) pre entry
        (fun M i j v => { M with A := setSym M.A (i + Q.length) j v.1, B := setSym M.B (i + Q.length) j v.2 }) M
        = .ok M' ∧ M'.Sigma = M.Sigma ∧ M'.Delta = M.Delta ∧ ∀ i j,
      ((Q.length ≤ i ∧ i < Q.length + G.length ∧ j < Q.length ∨ Q.length ≤ j ∧ j < Q.length + G.length ∧ i < Q.length) →
        M'.A i j = fA i j ∧ M'.B i j = fB i j) ∧
      (¬ (Q.length ≤ i ∧ i < Q.length + G.length ∧ j < Q.length ∨
        Q.length ≤ j ∧ j < Q.length + G.length ∧ i < Q.length) → M'.A i j = M.A i j ∧ M'.B i j = M.B i j) := by
  obtain ⟨L, a1, a2, a3⟩ := lrLoop_ok (js := Q.zipIdx) (is := fun _ => G.zipIdx) (pre := pre) (entry := entry)
    (fun M i j v => { M with A := setSym M.A (i + Q.length) j v.1, B := setSym M.B (i + Q.length) j v.2 })
    (fun i j v => v.1 = fA (i + Q.length) j ∧ v.2 = fB (i + Q.length) j) h
  refine ⟨_, a3 M, foldl_same LRMats.Sigma _ (by intro _ _; rfl) _ _,
    foldl_same LRMats.Delta _ (by intro _ _; rfl) _ _, fun i j => ?_⟩
  have vis := mixed_visited (fun i j => (a2 i j).trans (mixed_pairs Q G i j)) i j
  have A1 := loop_writes (fun v : ℝ × ℝ => v.1) Q.length 0 fA hA L (fun t h => (a1 t h).1) M.A i j
  have B1 := loop_writes (fun v : ℝ × ℝ => v.2) Q.length 0 fB hB L (fun t h => (a1 t h).2) M.B i j
  rw [vis] at A1 B1
  have pA := foldl_proj LRMats.A (fun (M : LRMats) (t : ℕ × ℕ × ℝ × ℝ) => { M with
    A := setSym M.A (t.1 + Q.length) t.2.1 t.2.2.1, B := setSym M.B (t.1 + Q.length) t.2.1 t.2.2.2 })
    (fun X t => setSym X (t.1 + Q.length) (t.2.1 + 0) t.2.2.1) (fun _ _ => rfl) L M
  have pB := foldl_proj LRMats.B (fun (M : LRMats) (t : ℕ × ℕ × ℝ × ℝ) => { M with
    A := setSym M.A (t.1 + Q.length) t.2.1 t.2.2.1, B := setSym M.B (t.1 + Q.length) t.2.1 t.2.2.2 })
    (fun X t => setSym X (t.1 + Q.length) (t.2.1 + 0) t.2.2.2) (fun _ _ => rfl) L M
  rw [← pA] at A1
  rw [← pB] at B1
  exact ⟨fun h => ⟨A1.1 h, B1.1 h⟩, fun h => ⟨A1.2 h, B1.2 h⟩⟩

/-- The loop over the active operators for any rule for the entries. -/
theorem act_loop {β κ : Type} {G : List β} (n : ℕ) {pre : β → Res κ}
    {entry : κ → β × ℕ → β × ℕ → Res (ℝ × ℝ × ℝ)} {fA fB fS : ℕ → ℕ → ℝ} (hA : ∀ r c, fA r c = fA c r)
    (hB : ∀ r c, fB r c = fB c r) (hS : ∀ r c, fS r c = fS c r)
    (h : ∀ x ∈ G.zipIdx, ∃ k, pre x.1 = .ok k ∧ ∀ y ∈ (G.drop x.2).zipIdx x.2, ∃ v, entry k x y = .ok v ∧
      v.1 = fA (y.2 + n) (x.2 + n) ∧ v.2.1 = fB (y.2 + n) (x.2 + n) ∧ v.2.2 = fS (y.2 + n) (x.2 + n)) (M : LRMats) :
    ∃ M', lrLoop G.zipIdx (fun j => (G.drop j).zipIdx j) pre entry
        (fun M i j v => { M with
          A := setSym M.A (i + n) (j + n) v.1
          B := setSym M.B (i + n) (j + n) v.2.1
          Sigma := setSym M.Sigma (i + n) (j + n) v.2.2 }) M
        = .ok M' ∧ M'.Delta = M.Delta ∧ ∀ i j,
      ((n ≤ i ∧ i < n + G.length ∧ n ≤ j ∧ j < n + G.length) →
        M'.A i j = fA i j ∧ M'.B i j = fB i j ∧ M'.Sigma i j = fS i j) ∧
      (¬ (n ≤ i ∧ i < n + G.length ∧ n ≤ j ∧ j < n + G.length) →
        M'.A i j = M.A i j ∧ M'.B i j = M.B i j ∧ M'.Sigma i j = M.Sigma i j) := by
  obtain ⟨L, a1, a2, a3⟩ := lrLoop_ok (js := G.zipIdx) (is := fun j => (G.drop j).zipIdx j) (pre := pre)
    (entry := entry) (fun M i j v => { M with
          A := setSym M.A (i + n) (j + n) v.1
          B := setSym M.B (i + n) (j + n) v.2.1
          Sigma := setSym M.Sigma (i + n) (j + n) v.2.2 })
    (fun i j v => v.1 = fA (i + n) (j + n) ∧ v.2.1 = fB (i + n) (j + n) ∧ v.2.2 = fS (i + n) (j + n)) h
  refine ⟨_, a3 M, foldl_same LRMats.Delta _ (by intro _ _; rfl) _ _, fun i j => ?_⟩
  have vis := act_visited (nQ := n) (fun i j => (a2 i j).trans (act_pairs G i j)) i j
  have A1 := loop_writes (fun v : ℝ × ℝ × ℝ => v.1) n n fA hA L (fun t h => (a1 t h).1) M.A i j
  have B1 := loop_writes (fun v : ℝ × ℝ × ℝ => v.2.1) n n fB hB L (fun t h => (a1 t h).2.1) M.B i j
  have S1 := loop_writes (fun v : ℝ × ℝ × ℝ => v.2.2) n n fS hS L (fun t h => (a1 t h).2.2) M.Sigma i j
  rw [vis] at A1 B1 S1
  have pA := foldl_proj LRMats.A (fun (M : LRMats) (t : ℕ × ℕ × ℝ × ℝ × ℝ) => { M with
          A := setSym M.A (t.1 + n) (t.2.1 + n) t.2.2.1
          B := setSym M.B (t.1 + n) (t.2.1 + n) t.2.2.2.1
          Sigma := setSym M.Sigma (t.1 + n) (t.2.1 + n) t.2.2.2.2 })
    (fun X t => setSym X (t.1 + n) (t.2.1 + n) t.2.2.1) (fun _ _ => rfl) L M
  have pB := foldl_proj LRMats.B (fun (M : LRMats) (t : ℕ × ℕ × ℝ × ℝ × ℝ) => { M with
          A := setSym M.A (t.1 + n) (t.2.1 + n) t.2.2.1
          B := setSym M.B (t.1 + n) (t.2.1 + n) t.2.2.2.1
          Sigma := setSym M.Sigma (t.1 + n) (t.2.1 + n) t.2.2.2.2 })
    (fun X t => setSym X (t.1 + n) (t.2.1 + n) t.2.2.2.1) (fun _ _ => rfl) L M
  have pS := foldl_proj LRMats.Sigma (fun (M : LRMats) (t : ℕ × ℕ × ℝ × ℝ × ℝ) => { M with
          A := setSym M.A (t.1 + n) (t.2.1 + n) t.2.2.1
          B := setSym M.B (t.1 + n) (t.2.1 + n) t.2.2.2.1
          Sigma := setSym M.Sigma (t.1 + n) (t.2.1 + n) t.2.2.2.2 })
    (fun X t => setSym X (t.1 + n) (t.2.1 + n) t.2.2.2.2) (fun _ _ => rfl) L M
  rw [← pA] at A1
  rw [← pB] at B1
  rw [← pS] at S1
  exact ⟨fun h => ⟨A1.1 h, B1.1 h, S1.1 h⟩, fun h => ⟨A1.2 h, B1.2 h, S1.2 h⟩⟩

end SQ
