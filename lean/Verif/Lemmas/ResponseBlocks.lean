import Verif.Lemmas.ResponseMats
import Verif.Model.ResponseProjected
import Verif.Model.ResponseTransfer

/-!
# Lemmas: the blocks of the metric the response classes leave empty
-/

namespace SQ

theorem Res.of_bind {α β : Type} {x : Res α} {f : α → Res β} {b : β} (h : (x >>= f) = .ok b) :
    ∃ a, x = .ok a ∧ f a = .ok b := by
  cases x with
  | error e => cases h
  | ok a => exact ⟨a, rfl, h⟩

theorem foldlM_keep {α σ : Type} (P : σ → Prop) {f : σ → α → Res σ} (l : List α)
    (h : ∀ x ∈ l, ∀ s s', P s → f s x = .ok s' → P s') {s s' : σ} (hs : P s) (e : l.foldlM f s = .ok s') : P s' := by
  induction l generalizing s with
  | nil => obtain rfl := Except.ok.inj e; exact hs
  | cons x l ih =>
    rw [List.foldlM_cons] at e
    obtain ⟨a, h1, h2⟩ := Res.of_bind e
    exact ih (fun y hy => h y (by simp [hy])) (h x (by simp) _ _ hs h1) h2

theorem lrLoop_inv {α β κ ν : Type} (P : LRMats → Prop) {js : List (α × ℕ)} {is : ℕ → List (β × ℕ)}
    {pre : α → Res κ} {entry : κ → α × ℕ → β × ℕ → Res ν} {put : LRMats → ℕ → ℕ → ν → LRMats}
    (h : ∀ x ∈ js, ∀ y ∈ is x.2, ∀ M v, P M → P (put M y.2 x.2 v)) {M M' : LRMats} (hM : P M)
    (e : lrLoop js is pre entry put M = .ok M') : P M' := by
  refine foldlM_keep P js (fun x hx M M' hM e => ?_) hM e
  obtain ⟨k, -, e⟩ := Res.of_bind e
  refine foldlM_keep P (is x.2) (fun y hy M M' hM e => ?_) hM e
  obtain ⟨v, -, e⟩ := Res.of_bind e
  obtain rfl := Except.ok.inj e
  exact h x hx y hy M v hM

/-- `Delta` is empty and `Sigma` has no block between orbital rotations and active excitations. -/
def BlockMetric (n : ℕ) (M : LRMats) : Prop :=
  (∀ i j, M.Delta i j = 0) ∧ ∀ i j, (i < n ∧ n ≤ j) ∨ (n ≤ i ∧ j < n) → M.Sigma i j = 0

theorem blockMetric_zero (n : ℕ) : BlockMetric n LRMats.zero := ⟨fun _ _ => rfl, fun _ _ _ => rfl⟩

theorem setSym_other {X : Mat ℝ} {a b i j : ℕ} {v : ℝ} (h1 : ¬ (i = a ∧ j = b)) (h2 : ¬ (i = b ∧ j = a)) :
    setSym X a b v i j = X i j := by
  unfold setSym set2
  rw [if_neg h2, if_neg h1]

theorem blockMetric_sigma {n a b : ℕ} (h : (a < n ↔ b < n)) {M : LRMats} (hM : BlockMetric n M) {A B : Mat ℝ} {v : ℝ} :
    BlockMetric n ⟨A, B, setSym M.Sigma a b v, M.Delta⟩ :=
  ⟨hM.1, fun i j hij => by
    dsimp only
    rw [setSym_other (by omega) (by omega)]; exact hM.2 i j hij⟩

theorem idx_zipIdx {α : Type} {l : List α} {x : α × ℕ} (h : x ∈ l.zipIdx) : x.2 < l.length := by
  obtain ⟨a, i⟩ := x
  have := List.mem_zipIdx h
  dsimp only
  omega

theorem idx_drop {α : Type} {l : List α} {n : ℕ} {x : α × ℕ} (h : x ∈ (l.drop n).zipIdx n) (hn : n < l.length) :
    x.2 < l.length := by
  obtain ⟨a, i⟩ := x
  have := List.mem_zipIdx h
  rw [List.length_drop] at this
  dsimp only
  omega

section
variable {tiny big : ℝ → Bool} {th : Threads} {W : RespWf}

theorem blockMetric_orb (hW : W.Proper) {n q : ℕ} (hn : n = W.kappa.length) :
    BlockMetric n (lrOrbBlocks W q LRMats.zero) :=
  ⟨fun i j => by rw [lrOrbBlocks_delta]; rfl, fun i j h => by
    rw [lrOrbBlocks_sigma hW (by omega)]; rfl⟩

theorem stActLoop_block {H0 : Dict ℝ} {G : List (Dict ℝ)} {n : ℕ} {M M' : LRMats} (hM : BlockMetric n M)
    (e : stActLoop tiny th W H0 G n M = .ok M') : BlockMetric n M' := by
  refine lrLoop_inv (BlockMetric n) (fun x _ y _ M v hM => ?_) hM e
  refine ⟨hM.1, fun i j hij => ?_⟩
  dsimp only
  split
  · unfold set2
    rw [if_neg (by omega)]; exact hM.2 i j hij
  · exact hM.2 i j hij

theorem naiveInit_block (hW : W.Proper) {excitations : String} {Q : List (Dict ℝ)} {M : LRMats}
    (hQ : lrQ tiny W = .ok Q) (hn : Q.length = W.kappa.length) (h : naiveInit tiny big th W excitations = .ok M) :
    BlockMetric Q.length M := by
  unfold naiveInit at h
  obtain ⟨G, -, h⟩ := Res.of_bind h
  obtain ⟨Q', hQ', h⟩ := Res.of_bind h
  rw [hQ] at hQ'
  obtain rfl := Except.ok.inj hQ'
  obtain ⟨_, -, h⟩ := Res.of_bind h
  obtain ⟨_, -, h⟩ := Res.of_bind h
  obtain ⟨_, -, h⟩ := Res.of_bind h
  obtain ⟨_, -, h⟩ := Res.of_bind h
  obtain ⟨_, -, h⟩ := Res.of_bind h
  obtain ⟨_, -, h⟩ := Res.of_bind h
  obtain ⟨M1, h1, h⟩ := Res.of_bind h
  refine lrLoop_inv (BlockMetric Q.length) (fun x _ y _ M v hM => blockMetric_sigma (by omega) hM) ?_ h
  exact lrLoop_inv (BlockMetric Q.length) (fun x _ y _ M v hM => hM) (blockMetric_orb hW hn) h1

theorem projInit_block (hW : W.Proper) {excitations : String} {Q : List (Dict ℝ)} {M : LRMats}
    (hQ : lrQ tiny W = .ok Q) (hn : Q.length = W.kappa.length) (h : projInit tiny big th W excitations = .ok M) :
    BlockMetric Q.length M := by
  unfold projInit at h
  obtain ⟨G, -, h⟩ := Res.of_bind h
  obtain ⟨Q', hQ', h⟩ := Res.of_bind h
  rw [hQ] at hQ'
  obtain rfl := Except.ok.inj hQ'
  obtain ⟨_, -, h⟩ := Res.of_bind h
  obtain ⟨_, -, h⟩ := Res.of_bind h
  obtain ⟨_, -, h⟩ := Res.of_bind h
  obtain ⟨_, -, h⟩ := Res.of_bind h
  obtain ⟨_, -, h⟩ := Res.of_bind h
  obtain ⟨_, -, h⟩ := Res.of_bind h
  obtain ⟨M1, h1, h⟩ := Res.of_bind h
  refine lrLoop_inv (BlockMetric Q.length) (fun x _ y _ M v hM => blockMetric_sigma (by omega) hM) ?_ h
  exact lrLoop_inv (BlockMetric Q.length) (fun x _ y _ M v hM => hM) (blockMetric_orb hW hn) h1

theorem stInit_block (hW : W.Proper) {excitations : String} {Q : List (Dict ℝ)} {M : LRMats}
    (hQ : lrQ tiny W = .ok Q) (hn : Q.length = W.kappa.length) (h : stInit tiny big th W excitations = .ok M) :
    BlockMetric Q.length M := by
  unfold stInit at h
  obtain ⟨G, -, h⟩ := Res.of_bind h
  obtain ⟨Q', hQ', h⟩ := Res.of_bind h
  rw [hQ] at hQ'
  obtain rfl := Except.ok.inj hQ'
  obtain ⟨_, -, h⟩ := Res.of_bind h
  obtain ⟨_, -, h⟩ := Res.of_bind h
  obtain ⟨_, -, h⟩ := Res.of_bind h
  obtain ⟨_, -, h⟩ := Res.of_bind h
  obtain ⟨_, -, h⟩ := Res.of_bind h
  obtain ⟨_, -, h⟩ := Res.of_bind h
  obtain ⟨M1, h1, h⟩ := Res.of_bind h
  refine stActLoop_block ?_ h
  exact lrLoop_inv (BlockMetric Q.length) (fun x _ y _ M v hM => hM) (blockMetric_orb hW hn) h1

theorem pstInit_block {excitations : String} {Q : List (Dict ℝ)} {M : LRMats}
    (hQ : lrQ tiny W = .ok Q) (h : pstInit tiny big th W excitations = .ok M) :
    BlockMetric Q.length M := by
  unfold pstInit at h
  obtain ⟨G, -, h⟩ := Res.of_bind h
  obtain ⟨Q', hQ', h⟩ := Res.of_bind h
  rw [hQ] at hQ'
  obtain rfl := Except.ok.inj hQ'
  obtain ⟨_, -, h⟩ := Res.of_bind h
  obtain ⟨_, -, h⟩ := Res.of_bind h
  obtain ⟨_, -, h⟩ := Res.of_bind h
  obtain ⟨_, -, h⟩ := Res.of_bind h
  obtain ⟨_, -, h⟩ := Res.of_bind h
  obtain ⟨_, -, h⟩ := Res.of_bind h
  obtain ⟨_, -, h⟩ := Res.of_bind h
  obtain ⟨M1, h1, h⟩ := Res.of_bind h
  obtain ⟨M2, h2, h⟩ := Res.of_bind h
  refine stActLoop_block ?_ h
  refine lrLoop_inv (BlockMetric Q.length) (fun x _ y _ M v hM => hM) ?_ h2
  refine lrLoop_inv (BlockMetric Q.length) (fun x hx y hy M v hM => blockMetric_sigma ?_ hM) (blockMetric_zero _) h1
  have a := idx_zipIdx hx
  have b := idx_drop hy a
  omega

theorem aprojInit_block {excitations : String} {Q : List (Dict ℝ)} {M : LRMats}
    (hQ : lrQ tiny W = .ok Q) (h : aprojInit tiny big th W excitations = .ok M) :
    BlockMetric Q.length M := by
  unfold aprojInit at h
  obtain ⟨G, -, h⟩ := Res.of_bind h
  obtain ⟨Q', hQ', h⟩ := Res.of_bind h
  rw [hQ] at hQ'
  obtain rfl := Except.ok.inj hQ'
  obtain ⟨_, -, h⟩ := Res.of_bind h
  obtain ⟨_, -, h⟩ := Res.of_bind h
  obtain ⟨_, -, h⟩ := Res.of_bind h
  obtain ⟨_, -, h⟩ := Res.of_bind h
  obtain ⟨_, -, h⟩ := Res.of_bind h
  obtain ⟨_, -, h⟩ := Res.of_bind h
  obtain ⟨_, -, h⟩ := Res.of_bind h
  obtain ⟨M1, h1, h⟩ := Res.of_bind h
  obtain ⟨M2, h2, h⟩ := Res.of_bind h
  refine lrLoop_inv (BlockMetric Q.length) (fun x _ y _ M v hM => blockMetric_sigma (by omega) hM) ?_ h
  refine lrLoop_inv (BlockMetric Q.length) (fun x _ y _ M v hM => hM) ?_ h2
  refine lrLoop_inv (BlockMetric Q.length) (fun x hx y hy M v hM => blockMetric_sigma ?_ hM) (blockMetric_zero _) h1
  have a := idx_zipIdx hx
  have b := idx_drop hy a
  omega

end

end SQ
