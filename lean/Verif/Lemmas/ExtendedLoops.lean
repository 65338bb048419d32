import Verif.Lemmas.ExtendedEntries
import Verif.Lemmas.ResponseTransfer

/-!
# Lemmas for linear response in the extended space: the loops
-/

namespace SQ

theorem setSym_diag (X : Mat ℝ) (i : ℕ) (v : ℝ) : setSym X i i v = set2 X i i v := by
  funext r c
  rw [setSym_get, set2]
  simp

/-- The pairs on the diagonal of a triangular loop. -/
theorem diag_visited {ν : Type} {L : List (ℕ × ℕ × ν)} {n m m' : ℕ} (hm : m ≤ m')
    (h : ∀ i j, (∃ t ∈ L, t.1 = i ∧ t.2.1 = j) ↔ j ≤ i ∧ j < m ∧ i < m') (r c : ℕ) :
    (∃ t ∈ L, t.1 = t.2.1 ∧ t.1 + n = r ∧ t.2.1 + n = c) ↔ r = c ∧ n ≤ r ∧ r < n + m := by
  constructor
  · rintro ⟨t, ht, e1, e2, e3⟩
    have := (h t.1 t.2.1).1 ⟨t, ht, rfl, rfl⟩
    omega
  · rintro ⟨rfl, h1, h2⟩
    obtain ⟨t, ht, e1, e2⟩ := (h (r - n) (r - n)).2 (by omega)
    exact ⟨t, ht, by omega, by omega, by omega⟩

/-- The loop over pairs with entries for `A` and `B` and ones on the diagonal of `Sigma`. -/
theorem sc_act_loop {β κ : Type} {G : List β} (n : ℕ) {pre : β → Res κ}
    {entry : κ → β × ℕ → β × ℕ → Res (ℝ × ℝ)} {fA fB : ℕ → ℕ → ℝ} (hA : ∀ r c, fA r c = fA c r)
    (hB : ∀ r c, fB r c = fB c r)
    (h : ∀ x ∈ G.zipIdx, ∃ k, pre x.1 = .ok k ∧ ∀ y ∈ (G.drop x.2).zipIdx x.2, ∃ v, entry k x y = .ok v ∧
      v.1 = fA (y.2 + n) (x.2 + n) ∧ v.2 = fB (y.2 + n) (x.2 + n)) (M : LRMats) :
    ∃ M', lrLoop G.zipIdx (fun j => (G.drop j).zipIdx j) pre entry
        (fun M i j v => { M with
          A := setSym M.A (i + n) (j + n) v.1
          B := setSym M.B (i + n) (j + n) v.2
          Sigma := if i = j then set2 M.Sigma (i + n) (j + n) 1 else M.Sigma }) M
        = .ok M' ∧ M'.Delta = M.Delta ∧ ∀ i j,
      ((n ≤ i ∧ i < n + G.length ∧ n ≤ j ∧ j < n + G.length) →
        M'.A i j = fA i j ∧ M'.B i j = fB i j ∧ M'.Sigma i j = if i = j then 1 else M.Sigma i j) ∧
      (¬ (n ≤ i ∧ i < n + G.length ∧ n ≤ j ∧ j < n + G.length) →
        M'.A i j = M.A i j ∧ M'.B i j = M.B i j ∧ M'.Sigma i j = M.Sigma i j) := by
  obtain ⟨L, a1, a2, a3⟩ := lrLoop_ok (js := G.zipIdx) (is := fun j => (G.drop j).zipIdx j) (pre := pre)
    (entry := entry) (fun M i j v => { M with
          A := setSym M.A (i + n) (j + n) v.1
          B := setSym M.B (i + n) (j + n) v.2
          Sigma := if i = j then set2 M.Sigma (i + n) (j + n) 1 else M.Sigma })
    (fun i j v => v.1 = fA (i + n) (j + n) ∧ v.2 = fB (i + n) (j + n)) h
  have pairs := fun i j => (a2 i j).trans (act_pairs G i j)
  refine ⟨_, a3 M, foldl_same LRMats.Delta _ (by intro _ _; rfl) _ _, fun i j => ?_⟩
  have vis := act_visited (nQ := n) pairs i j
  have A1 := loop_field LRMats.A (fun M i j v => { M with
          A := setSym M.A (i + n) (j + n) v.1
          B := setSym M.B (i + n) (j + n) v.2
          Sigma := if i = j then set2 M.Sigma (i + n) (j + n) 1 else M.Sigma }) (fun v : ℝ × ℝ => v.1) n n
      (by intro _ _ _ _; rfl) fA hA L (fun t h => (a1 t h).1) M i j
  have B1 := loop_field LRMats.B (fun M i j v => { M with
          A := setSym M.A (i + n) (j + n) v.1
          B := setSym M.B (i + n) (j + n) v.2
          Sigma := if i = j then set2 M.Sigma (i + n) (j + n) 1 else M.Sigma }) (fun v : ℝ × ℝ => v.2) n n
      (by intro _ _ _ _; rfl) fB hB L (fun t h => (a1 t h).2) M i j
  have pS := foldl_proj LRMats.Sigma (fun (M : LRMats) (t : ℕ × ℕ × ℝ × ℝ) => { M with
      A := setSym M.A (t.1 + n) (t.2.1 + n) t.2.2.1
      B := setSym M.B (t.1 + n) (t.2.1 + n) t.2.2.2
      Sigma := if t.1 = t.2.1 then set2 M.Sigma (t.1 + n) (t.2.1 + n) 1 else M.Sigma })
    (fun X t => if t.1 = t.2.1 then set2 X (t.1 + n) (t.2.1 + n) 1 else X) (fun _ _ => rfl) L M
  have S1 := foldl_diag n L M.Sigma i j
  rw [← pS] at S1
  rw [vis] at A1 B1
  rw [diag_visited (m := G.length) le_rfl (fun i j => (pairs i j).trans (by omega))] at S1
  refine ⟨fun hh => ⟨A1.1 hh, B1.1 hh, ?_⟩, fun hh => ⟨A1.2 hh, B1.2 hh, S1.2 (by omega)⟩⟩
  split
  · rename_i e
    exact S1.1 ⟨e, by omega, by omega⟩
  · rename_i e
    exact S1.2 fun k => e k.1

/-- The loop over pairs with entries for `A` and ones on the diagonal of `Sigma`; the inner loop may go on over
further operators. -/
theorem ast_loop {β κ : Type} {Q : List β} (G : List β) (n : ℕ) {pre : β → Res κ}
    {entry : κ → β × ℕ → β × ℕ → Res ℝ} {fA : ℕ → ℕ → ℝ} (hA : ∀ r c, fA r c = fA c r)
    (h : ∀ x ∈ Q.zipIdx, ∃ k, pre x.1 = .ok k ∧ ∀ y ∈ ((Q ++ G).drop x.2).zipIdx x.2, 
      entry k x y = .ok (fA (y.2 + n) (x.2 + n))) (M : LRMats) :
    ∃ M', lrLoop Q.zipIdx (fun j => ((Q ++ G).drop j).zipIdx j) pre entry
        (fun M i j v => { M with
          A := setSym M.A (i + n) (j + n) v
          Sigma := if i = j then set2 M.Sigma (i + n) (j + n) 1 else M.Sigma }) M
        = .ok M' ∧ M'.B = M.B ∧ M'.Delta = M.Delta ∧ ∀ i j,
      (n ≤ i ∧ n ≤ j ∧ i < n + (Q.length + G.length) ∧ j < n + (Q.length + G.length) ∧
          (i < n + Q.length ∨ j < n + Q.length) →
        M'.A i j = fA i j ∧ M'.Sigma i j = if i = j then 1 else M.Sigma i j) ∧
      (¬ (n ≤ i ∧ n ≤ j ∧ i < n + (Q.length + G.length) ∧ j < n + (Q.length + G.length) ∧
          (i < n + Q.length ∨ j < n + Q.length)) →
        M'.A i j = M.A i j ∧ M'.Sigma i j = M.Sigma i j) := by
  obtain ⟨L, a1, a2, a3⟩ := lrLoop_ok (js := Q.zipIdx) (is := fun j => ((Q ++ G).drop j).zipIdx j) (pre := pre)
    (entry := entry) (fun M i j v => { M with
          A := setSym M.A (i + n) (j + n) v
          Sigma := if i = j then set2 M.Sigma (i + n) (j + n) 1 else M.Sigma })
    (fun i j v => v = fA (i + n) (j + n)) (fun x hx => by
      obtain ⟨k, k1, k2⟩ := h x hx
      exact ⟨k, k1, fun y hy => ⟨_, k2 y hy, rfl⟩⟩)
  have pairs : ∀ i j, (∃ t ∈ L, t.1 = i ∧ t.2.1 = j) ↔ j ≤ i ∧ j < Q.length ∧ i < Q.length + G.length := by
    intro i j
    rw [a2 i j]
    have h1 := mem_zipIdx_snd (l := Q) (k := 0) (i := j)
    have h2 := mem_zipIdx_snd (l := (Q ++ G).drop j) (k := j) (i := i)
    rw [List.length_drop, List.length_append] at h2
    constructor
    · rintro ⟨x, hx, rfl, hy⟩
      have a := h1.1 ⟨x, hx, rfl⟩
      have b := h2.1 hy
      omega
    · rintro ⟨a, b, c⟩
      obtain ⟨x, hx, rfl⟩ := h1.2 ⟨by omega, by omega⟩
      exact ⟨x, hx, rfl, h2.2 ⟨by omega, by omega⟩⟩
  refine ⟨_, a3 M, foldl_same LRMats.B _ (by intro _ _; rfl) _ _, foldl_same LRMats.Delta _ (by intro _ _; rfl) _ _,
    fun i j => ?_⟩
  have vis : (∃ t ∈ L, (t.1 + n = i ∧ t.2.1 + n = j) ∨ (t.1 + n = j ∧ t.2.1 + n = i)) ↔
      n ≤ i ∧ n ≤ j ∧ i < n + (Q.length + G.length) ∧ j < n + (Q.length + G.length) ∧
          (i < n + Q.length ∨ j < n + Q.length) := by
    constructor
    · rintro ⟨t, ht, h1⟩
      have := (pairs t.1 t.2.1).1 ⟨t, ht, rfl, rfl⟩
      omega
    · rintro ⟨h1, h2, h3, h4, h5⟩
      rcases le_total j i with hcr | hcr
      · obtain ⟨t, ht, e1, e2⟩ := (pairs (i - n) (j - n)).2 (by omega)
        exact ⟨t, ht, by omega⟩
      · obtain ⟨t, ht, e1, e2⟩ := (pairs (j - n) (i - n)).2 (by omega)
        exact ⟨t, ht, by omega⟩
  have A1 := loop_field LRMats.A (fun M i j v => { M with
          A := setSym M.A (i + n) (j + n) v
          Sigma := if i = j then set2 M.Sigma (i + n) (j + n) 1 else M.Sigma }) (fun v : ℝ => v) n n
      (by intro _ _ _ _; rfl) fA hA L (fun t h => a1 t h) M i j
  have pS := foldl_proj LRMats.Sigma (fun (M : LRMats) (t : ℕ × ℕ × ℝ) => { M with
      A := setSym M.A (t.1 + n) (t.2.1 + n) t.2.2
      Sigma := if t.1 = t.2.1 then set2 M.Sigma (t.1 + n) (t.2.1 + n) 1 else M.Sigma })
    (fun X t => if t.1 = t.2.1 then set2 X (t.1 + n) (t.2.1 + n) 1 else X) (fun _ _ => rfl) L M
  have S1 := foldl_diag n L M.Sigma i j
  rw [← pS] at S1
  rw [vis] at A1
  rw [diag_visited (m := Q.length) (m' := Q.length + G.length) (by omega) pairs] at S1
  refine ⟨fun hh => ⟨A1.1 hh, ?_⟩, fun hh => ⟨A1.2 hh, S1.2 (by omega)⟩⟩
  split
  · rename_i e
    exact S1.1 ⟨e, by omega, by omega⟩
  · rename_i e
    exact S1.2 fun k => e k.1

theorem foldlM_congr_mem {α σ : Type} {f g : σ → α → Res σ} {l : List α} {s : σ} (h : ∀ s, ∀ x ∈ l, f s x = g s x) :
    l.foldlM f s = l.foldlM g s := by
  induction l generalizing s with
  | nil => rfl
  | cons x l ih =>
    rw [List.foldlM_cons, List.foldlM_cons, h s x (by simp)]
    congr 1
    funext s'
    exact ih fun s y hy => h s y (by simp [hy])

/-- The interleaved loops of allstatetransfer.py as one loop. -/
theorem astOrbStep_loop {tiny : ℝ → Bool} {th : Threads} (W : ExtWf) (I : ExtInfo) (H2 : Dict ℝ) (Q G : List (Dict ℝ))
    (M : LRMats) :
    Q.zipIdx.foldlM (astOrbStep tiny th W I H2 Q G Q.length) M
      = lrLoop Q.zipIdx (fun j => ((Q ++ G).drop j).zipIdx j)
        (fun qJ => I.prop tiny th true [.name "Ud", .op H2, .name "U", .op qJ] I.csf)
        (fun k x y => if y.2 < Q.length then astOrb tiny th W I k (y.2 == x.2) y.1 else astMixed tiny th I k y.1)
        (fun M i j v => { M with
          A := setSym M.A (i + 0) (j + 0) v
          Sigma := if i = j then set2 M.Sigma (i + 0) (j + 0) 1 else M.Sigma }) M := by
  unfold lrLoop
  refine foldlM_congr_mem ?_
  intro M x hx
  have lx := (mem_zipIdx_snd (l := Q) (k := 0) (i := x.2)).1 ⟨x, hx, rfl⟩
  unfold astOrbStep
  congr 1
  funext k
  beta_reduce
  rw [List.drop_append_of_le_length (by omega), List.zipIdx_append, List.foldlM_append, List.length_drop,
    show x.2 + (Q.length - x.2) = Q.length by omega]
  congr 1
  · refine foldlM_congr_mem ?_
    intro M y hy
    have ly := (mem_zipIdx_snd (l := Q.drop x.2) (k := x.2) (i := y.2)).1 ⟨y, hy, rfl⟩
    rw [List.length_drop] at ly
    rw [if_pos (show y.2 < Q.length by omega)]
    congr 1
    funext v
    congr 2
    split
    · rename_i e
      rw [e, setSym_diag]
      rfl
    · rfl
  · funext M
    rw [show G.zipIdx Q.length = G.zipIdx.map fun y => (y.1, y.2 + Q.length) by
      rw [List.zipIdx_eq_map_add]
      simp [Nat.add_comm], List.foldlM_map]
    refine foldlM_congr_mem ?_
    intro M y hy
    dsimp only
    rw [if_neg (by omega)]
    congr 1
    funext v
    rw [if_neg (by omega), setSym_comm]
    rfl

end SQ
