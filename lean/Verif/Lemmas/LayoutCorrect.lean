import Verif.Lemmas.SwapBits
import Verif.Lemmas.Cliques

/-!
# Readout correction
-/

namespace SQ

/-- The number stored for an outcome, zero if it is absent. -/
def distAt (dist : Distr) (b : ℕ) : ℝ := (dist.lookup b).getD 0

theorem set_map_range (f : ℕ → ℝ) {N k : ℕ} (x : ℝ) :
    ((List.range N).map f).set k x = (List.range N).map (Function.update f k x) := by
  apply List.ext_getElem?
  intro v
  by_cases hvk : v = k
  · subst hvk
    by_cases hv : v < N
    · rw [List.getElem?_set_self (by simpa using hv), List.getElem?_map, List.getElem?_range hv]
      simp
    · rw [List.getElem?_eq_none (by simp; omega), List.getElem?_eq_none (by simp; omega)]
  · rw [List.getElem?_set_ne (Ne.symm hvk), List.getElem?_map, List.getElem?_map]
    cases hr : (List.range N)[v]? with
    | none => rfl
    | some w =>
      have : w = v := by
        obtain ⟨h1, h2⟩ := List.getElem?_eq_some_iff.1 hr
        simpa using h2.symm
      subst this
      simp [Function.update_of_ne hvk]

theorem distVector_loop {N : ℕ} : ∀ (dist : Distr), (dist.map Prod.fst).Nodup → (∀ kv ∈ dist, kv.1 < N) → ∀ f : ℕ → ℝ,
    dist.foldlM (fun (C : List ℝ) kv => if kv.1 < C.length then (Except.ok (C.set kv.1 kv.2) : Res (List ℝ))
      else .error .indexError) ((List.range N).map f) = .ok ((List.range N).map fun v => (dist.lookup v).getD (f v)) := by
  intro dist
  induction dist with
  | nil => intro _ _ f; rfl
  | cons kv dist ih =>
    intro hnd hlt f
    obtain ⟨k, x⟩ := kv
    have hnd' : k ∉ dist.map Prod.fst ∧ (dist.map Prod.fst).Nodup := List.nodup_cons.1 hnd
    rw [List.foldlM_cons, if_pos (by simpa using hlt (k, x) (by simp)), set_map_range]
    show List.foldlM _ _ dist = _
    rw [ih hnd'.2 (fun y hy => hlt y (by simp [hy]))]
    congr 1
    refine List.map_congr_left fun v _ => ?_
    rw [List.lookup_cons]
    by_cases hv : v = k
    · subst hv
      have : dist.lookup v = none := by
        rw [List.lookup_eq_none_iff]
        intro y hy
        have : v ≠ y.1 := fun e => hnd'.1 (List.mem_map.2 ⟨y, hy, e.symm⟩)
        simpa using this
      simp [this]
    · have : (v == k) = false := by simpa using hv
      rw [this, Function.update_of_ne hv]

theorem distVector_eq {N : ℕ} {dist : Distr} (hnd : (dist.map Prod.fst).Nodup) (hlt : ∀ kv ∈ dist, kv.1 < N) :
    distVector N dist = .ok ((List.range N).map (distAt dist)) := by
  unfold distVector
  have : List.replicate N (0 : ℝ) = (List.range N).map fun _ => 0 := by simp
  rw [this]
  exact distVector_loop dist hnd hlt _

theorem getD_map_range (f : ℕ → ℝ) {N : ℕ} {v : ℕ} (hv : v < N) : ((List.range N).map f).getD v 0 = f v := by
  rw [List.getD_eq_getElem?_getD, List.getElem?_map, List.getElem?_range hv]
  rfl

theorem matVec_eq {N : ℕ} (M : Matrix (Fin N) (Fin N) ℝ) (f g : ℕ → ℝ) (hg : ∀ a : Fin N, g a = ∑ c : Fin N, M a c * f c) :
    matVec M ((List.range N).map f) = .ok ((List.range N).map g) := by
  unfold matVec
  rw [if_pos (by simp)]
  congr 1
  apply List.ext_getElem
  · simp
  · intro i h1 h2
    have hi : i < N := by simpa using h1
    rw [List.getElem_ofFn, List.getElem_map, List.getElem_range, hg ⟨i, hi⟩]
    exact Finset.sum_congr rfl fun c _ => by rw [getD_map_range f c.2]

theorem writeAll_lookup (dist : Distr) (C : List ℝ) : ∀ b : ℕ,
    (writeAll dist C).lookup b = if h : b < C.length then some C[b] else dist.lookup b := by
  induction C using List.reverseRecOn with
  | nil => intro b; simp [writeAll]
  | append_singleton C x ih =>
    intro b
    have e : writeAll dist (C ++ [x]) = dictPut (writeAll dist C) C.length x := by
      unfold writeAll
      rw [List.zipIdx_append, List.foldl_append]
      simp
    rw [e, lookup_dictPut]
    by_cases hb : b = C.length
    · subst hb
      simp
    · rw [if_neg hb, ih]
      by_cases h2 : b < C.length
      · rw [dif_pos h2, dif_pos (by simp; omega), List.getElem_append_left h2]
      · rw [dif_neg h2, dif_neg (by simp; omega)]

theorem writeAll_range (dist : Distr) {N : ℕ} (f : ℕ → ℝ) {b : ℕ} (hb : b < N) :
    (writeAll dist ((List.range N).map f)).lookup b = some (f b) := by
  rw [writeAll_lookup, dif_pos (by simpa using hb)]
  simp

/-- The relabelling as a function of basis indices. -/
def relabelFin (n : ℕ) (swaps : List (ℕ × ℕ)) (v : Fin (2 ^ n)) : Fin (2 ^ n) :=
  ⟨relabelBits n swaps v, relabelBits_lt swaps v.2⟩

theorem relabelFin_reverse {n : ℕ} {swaps : List (ℕ × ℕ)} (h : SwapsLt n swaps) (v : Fin (2 ^ n)) :
    relabelFin n swaps.reverse (relabelFin n swaps v) = v := Fin.ext (relabelBits_reverse swaps h v v.2)

theorem relabelFin_reverse' {n : ℕ} {swaps : List (ℕ × ℕ)} (h : SwapsLt n swaps) (v : Fin (2 ^ n)) :
    relabelFin n swaps (relabelFin n swaps.reverse v) = v := by
  have := relabelFin_reverse h.reverse v
  rw [List.reverse_reverse] at this
  exact this

def relabelEquiv {n : ℕ} {swaps : List (ℕ × ℕ)} (h : SwapsLt n swaps) : Fin (2 ^ n) ≃ Fin (2 ^ n) where
  toFun := relabelFin n swaps
  invFun := relabelFin n swaps.reverse
  left_inv := relabelFin_reverse h
  right_inv := relabelFin_reverse' h

theorem same_relabel {new ref : List ℤ} {n : ℕ} (hnew : new.length = n) (href : ref.length = n) (hnd : new.Nodup)
    {swaps : List (ℕ × ℕ)} (hsw : SwapsLt n swaps) (ha : applySwaps new.reverse swaps = .ok ref.reverse) (v : ℕ) :
    SameOutcome new ref (relabelBits n swaps v) v := by
  intro q' q hq' hq he
  rw [hnew] at hq'
  rw [href] at hq
  obtain ⟨τ, hτ⟩ := relabel_outcome swaps hsw new.reverse ref.reverse (by simpa using hnew) ha
  obtain ⟨h1, h2, h3⟩ := hτ (n - 1 - q) (by omega)
  rw [List.getElem?_reverse (by omega), List.getElem?_reverse (by omega), href, hnew] at h2
  have e1 : n - 1 - (n - 1 - q) = q := by omega
  rw [e1] at h2
  have : q' = n - 1 - τ (n - 1 - q) := by
    refine (List.getElem?_inj (by omega) hnd).1 ?_
    rw [he, h2]
  rw [this, h3, e1]

theorem same_unique {new ref : List ℤ} {n : ℕ} (hnew : new.length = n) (hp : new.Perm ref) {b' c' b : ℕ} (hb' : b' < 2 ^ n)
    (hc' : c' < 2 ^ n) (h1 : SameOutcome new ref b' b) (h2 : SameOutcome new ref c' b) : b' = c' := by
  refine eq_of_bits hb' hc' fun q' hq' => ?_
  have hmem : new[q'] ∈ ref := hp.mem_iff.1 (List.getElem_mem _)
  obtain ⟨q, hq, he⟩ := List.getElem_of_mem hmem
  have he' : new[q']? = ref[q]? := by
    rw [List.getElem?_eq_getElem (by omega), List.getElem?_eq_getElem hq, he]
  rw [h1 q' q (by omega) hq he', h2 q' q (by omega) hq he']

/-- The swaps between two layouts. -/
theorem layout_swaps {new ref : List ℤ} {n : ℕ} (hnew : new.length = n) (hp : new.Perm ref) :
    ∃ swaps, findSwaps new.reverse ref.reverse = .ok swaps ∧ SwapsLt n swaps ∧
      applySwaps new.reverse swaps = .ok ref.reverse := by
  have href : ref.length = n := by rw [← hp.length_eq, hnew]
  have ht : ref.reverse.take new.reverse.length = ref.reverse := List.take_of_length_le (by simp; omega)
  obtain ⟨r, hr⟩ := findSwapsLoop_exists (ref := ref.reverse) new.reverse.length 0 new.reverse [] (by simp) (by simp)
    (by simp; omega) (by rw [ht]; exact ((List.reverse_perm _).trans hp).trans (List.reverse_perm _).symm)
  obtain ⟨s, h1, h2, -, h4⟩ := findSwapsLoop_ok _ _ _ _ _ (by simp) (by simp) hr
  rw [List.nil_append] at h1
  subst h1
  refine ⟨r, hr, fun x hx => ?_, by rw [h2, ht]⟩
  have := h4 x hx
  rw [List.length_reverse] at this
  omega

theorem v2_form {n : ℕ} {new ref : List ℤ} (href : ref.length = n) {swaps : List (ℕ × ℕ)}
    (hs : findSwaps new.reverse ref.reverse = .ok swaps) (hsw : SwapsLt n swaps) (M : Matrix (Fin (2 ^ n)) (Fin (2 ^ n)) ℝ)
    {dist : Distr} (hnd : (dist.map Prod.fst).Nodup) (hlt : ∀ kv ∈ dist, kv.1 < 2 ^ n) :
    ∃ g : ℕ → ℝ, correctWithLayoutV2 dist M ref new = .ok (writeAll dist ((List.range (2 ^ n)).map g)) ∧
      ∀ a : Fin (2 ^ n), g a = ∑ c : Fin (2 ^ n), M (relabelFin n swaps.reverse a) c * distAt dist (relabelFin n swaps c) := by
  let h : ℕ → ℝ := fun v => if hv : v < 2 ^ n then ∑ c : Fin (2 ^ n), M ⟨v, hv⟩ c * distAt dist (relabelBits n swaps c) else 0
  refine ⟨fun v => h (relabelBits n swaps.reverse v), ?_, ?_⟩
  · unfold correctWithLayoutV2
    rw [hs]
    show (do
      let C ← distVector (2 ^ n) dist
      let C ← relabel ref.length swaps C
      let Cnew ← matVec M C
      let Cnew ← relabel ref.length swaps.reverse Cnew
      return writeAll dist Cnew) = _
    rw [distVector_eq hnd hlt, href]
    show (do
      let C ← relabel n swaps ((List.range (2 ^ n)).map (distAt dist))
      let Cnew ← matVec M C
      let Cnew ← relabel n swaps.reverse Cnew
      return writeAll dist Cnew) = _
    rw [relabel_eq swaps hsw]
    show (do
      let Cnew ← matVec M ((List.range (2 ^ n)).map fun v => distAt dist (relabelBits n swaps v))
      let Cnew ← relabel n swaps.reverse Cnew
      return writeAll dist Cnew) = _
    rw [matVec_eq M _ h (fun a => by simp only [h]; rw [dif_pos a.2])]
    show (do
      let Cnew ← relabel n swaps.reverse ((List.range (2 ^ n)).map h)
      return writeAll dist Cnew) = _
    rw [relabel_eq _ hsw.reverse]
    rfl
  · intro a
    simp only [h]
    rw [dif_pos (relabelBits_lt _ a.2)]
    rfl

theorem takeMat_eq {N : ℕ} (M : Matrix (Fin N) (Fin N) ℝ) {σ : ℕ → ℕ} (hσ : ∀ v < N, σ v < N) :
    takeMat M ((List.range N).map σ) = .ok (M.submatrix (fun v => ⟨σ v, hσ v v.2⟩) (fun v => ⟨σ v, hσ v v.2⟩)) := by
  unfold takeMat
  rw [dif_pos ⟨by simp, fun i hi => by
    obtain ⟨v, hv, rfl⟩ := List.mem_map.1 hi
    exact hσ v (List.mem_range.1 hv)⟩]
  congr 1
  funext a b
  simp [Matrix.submatrix_apply]

theorem relabelMat_eq {n : ℕ} : ∀ (swaps : List (ℕ × ℕ)), SwapsLt n swaps → ∀ M : Matrix (Fin (2 ^ n)) (Fin (2 ^ n)) ℝ,
    relabelMat n swaps M = .ok (M.submatrix (relabelFin n swaps) (relabelFin n swaps)) := by
  intro swaps
  induction swaps with
  | nil => intro _ M; rfl
  | cons s ss ih =>
    intro h M
    unfold relabelMat
    rw [List.foldlM_cons]
    obtain ⟨i, j⟩ := s
    rw [swapIndices_eq (h (i, j) (by simp)).1 (h (i, j) (by simp)).2]
    show (do let C ← takeMat M ((List.range (2 ^ n)).map (bswap n i j)); _) = _
    rw [takeMat_eq M (fun v _ => bswap_lt n i j v)]
    exact ih (fun x hx => h x (by simp [hx])) _

theorem v1_form {n : ℕ} {new ref : List ℤ} (href : ref.length = n) {swaps : List (ℕ × ℕ)}
    (hs : findSwaps new.reverse ref.reverse = .ok swaps) (hsw : SwapsLt n swaps) (M : Matrix (Fin (2 ^ n)) (Fin (2 ^ n)) ℝ)
    (hM : M.det ≠ 0) {dist : Distr} (hnd : (dist.map Prod.fst).Nodup) (hlt : ∀ kv ∈ dist, kv.1 < 2 ^ n) :
    ∃ g : ℕ → ℝ, correctWithLayout dist M ref new = .ok (writeAll dist ((List.range (2 ^ n)).map g)) ∧
      ∀ a : Fin (2 ^ n), g a = ∑ c : Fin (2 ^ n), M⁻¹ (relabelFin n swaps a) (relabelFin n swaps c) * distAt dist c := by
  have hsub : M.submatrix (relabelFin n swaps) (relabelFin n swaps) = M.submatrix (relabelEquiv hsw) (relabelEquiv hsw) := rfl
  let h : ℕ → ℝ := fun v => if hv : v < 2 ^ n then ∑ c : Fin (2 ^ n),
    M⁻¹ (relabelFin n swaps ⟨v, hv⟩) (relabelFin n swaps c) * distAt dist c else 0
  refine ⟨h, ?_, fun a => by simp only [h]; rw [dif_pos a.2]⟩
  unfold correctWithLayout
  rw [hs]
  show (do
    let M ← relabelMat ref.length swaps M
    if M.det = 0 then .error .runtimeError
    else
      let C ← distVector (2 ^ n) dist
      let Cnew ← matVec M⁻¹ C
      return writeAll dist Cnew) = _
  rw [href, relabelMat_eq swaps hsw M, hsub]
  show (if (M.submatrix (relabelEquiv hsw) (relabelEquiv hsw)).det = 0 then Except.error PyErr.runtimeError
    else do
      let C ← distVector (2 ^ n) dist
      let Cnew ← matVec (M.submatrix (relabelEquiv hsw) (relabelEquiv hsw))⁻¹ C
      return writeAll dist Cnew) = _
  rw [if_neg (by rw [Matrix.det_submatrix_equiv_self]; exact hM), distVector_eq hnd hlt, Matrix.inv_submatrix_equiv]
  show (do
    let Cnew ← matVec (M⁻¹.submatrix (relabelEquiv hsw) (relabelEquiv hsw)) ((List.range (2 ^ n)).map (distAt dist))
    return writeAll dist Cnew) = _
  rw [matVec_eq _ _ h (fun a => by simp only [h]; rw [dif_pos a.2]; rfl)]
  rfl

end SQ
