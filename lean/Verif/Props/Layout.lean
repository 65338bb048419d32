import Verif.Lemmas.LayoutCorrect

/-!
# C49-C53, C74: qubit layouts, readout correction, routing

`Coupled`, `IsRoute`, `IsForest`, `Connected`, `Within`, `SameOutcome`: Spec/Layout.lean.
-/

namespace SQ

/-! ## C49 -/

/-- C49: `swap_indices(n, (i, j))` lists, for 0, 1, ..., 2^n - 1, the number with the bits `i` and `j`
(counted from the most significant of `n`) exchanged; indexing an array with it twice changes nothing. -/
theorem C49_swap_indices {n i j : ℕ} (hi : i < n) (hj : j < n) :
    ∃ idx, swapIndices n (i, j) = .ok idx ∧ idx.length = 2 ^ n ∧
      (∀ v w : ℕ, idx[v]? = some w → w < 2 ^ n ∧
        w.testBit (n - 1 - i) = v.testBit (n - 1 - j) ∧ w.testBit (n - 1 - j) = v.testBit (n - 1 - i) ∧
        ∀ p < n, p ≠ i → p ≠ j → w.testBit (n - 1 - p) = v.testBit (n - 1 - p)) ∧
      ∀ C : List ℝ, C.length = 2 ^ n → ∃ C', takeIdx C idx = .ok C' ∧ takeIdx C' idx = .ok C := by
  refine ⟨_, swapIndices_eq hi hj, by simp, fun v w h => ?_, fun C hC => ?_⟩
  · rw [List.getElem?_map] at h
    obtain ⟨u, hu, rfl⟩ := Option.map_eq_some_iff.1 h
    have : u = v := by
      obtain ⟨h1, h2⟩ := List.getElem?_eq_some_iff.1 hu
      simpa using h2.symm
    subst this
    refine ⟨bswap_lt _ _ _ _, ?_, ?_, fun p hp h1 h2 => ?_⟩
    · rw [bswap_msb hi hj hi, Equiv.swap_apply_left]
    · rw [bswap_msb hi hj hj, Equiv.swap_apply_right]
    · rw [bswap_msb hi hj hp, Equiv.swap_apply_of_ne_of_ne h1 h2]
  · have e : C = (List.range (2 ^ n)).map fun v => C.getD v 0 := by
      apply List.ext_getElem
      · simpa using hC
      · intro k h1 h2
        simp [List.getD_eq_getElem?_getD, h1]
    refine ⟨(List.range (2 ^ n)).map fun v => C.getD (bswap n i j v) 0, ?_, ?_⟩
    · conv_lhs => rw [e]
      exact takeIdx_eq _ fun v _ => bswap_lt _ _ _ _
    · rw [takeIdx_eq (fun v => C.getD (bswap n i j v) 0) fun v _ => bswap_lt _ _ _ _]
      conv_rhs => rw [e]
      congr 1
      exact List.map_congr_left fun v hv => by rw [bswap_bswap hi hj (List.mem_range.1 hv)]

/-- C49: positions outside of the register raise. -/
theorem C49_out_of_range {n i j : ℕ} (h : n ≤ i ∨ n ≤ j) : swapIndices n (i, j) = .error .indexError := swapIndices_error h

example : ∃ idx, swapIndices 3 (0, 2) = .ok idx ∧ idx[1]? = some 4 :=
  ⟨_, swapIndices_eq (by decide) (by decide), by decide⟩

/-! ## C50 -/

/-- C50: for lists of one length `find_swaps` returns iff `new` is a rearrangement of `ref`, and the
exchanges it returns turn `new` into `ref`. -/
theorem C50_find_swaps (new ref : List ℤ) (hl : new.length = ref.length) :
    ((∃ swaps, findSwaps new ref = .ok swaps) ↔ new.Perm ref) ∧
    ∀ swaps, findSwaps new ref = .ok swaps → applySwaps new swaps = .ok ref ∧ ∀ s ∈ swaps, s.1 < s.2 ∧ s.2 < new.length := by
  have ht : ref.take new.length = ref := List.take_of_length_le (by omega)
  have key : ∀ swaps, findSwaps new ref = .ok swaps →
      applySwaps new swaps = .ok ref ∧ ∀ s ∈ swaps, s.1 < s.2 ∧ s.2 < new.length := by
    intro swaps h
    obtain ⟨s, h1, h2, -, h4⟩ := findSwapsLoop_ok _ _ _ _ _ (by simp) (by simp) h
    rw [List.nil_append] at h1
    subst h1
    exact ⟨by rw [h2, ht], h4⟩
  refine ⟨⟨fun ⟨s, h⟩ => (applySwaps_perm _ _ _ (key s h).1).symm, fun h => ?_⟩, key⟩
  exact findSwapsLoop_exists _ _ _ _ (by simp) (by simp) (by omega) (by rw [ht]; exact h)

/-- C50: a shorter reference raises. -/
theorem C50_short (new ref : List ℤ) (hl : ref.length < new.length) : ∀ swaps, findSwaps new ref ≠ .ok swaps := by
  intro swaps h
  obtain ⟨s, -, -, h3, -⟩ := findSwapsLoop_ok _ _ _ _ _ (by simp) (by simp) h
  have := h3 (by omega)
  omega

/-- Disagreement: a longer reference does not raise although no rearrangement is possible. -/
theorem C50_longer_disagree : findSwaps [1] [1, 2] = .ok [] := rfl

example : findSwaps [2, 0, 1] [0, 1, 2] = .ok [(0, 1), (1, 2)] := rfl

/-! ## C51 -/

/-- C51: the correction with layout. For layouts that are rearrangements of each other, the number stored
for the outcome `b'` is entry `b` of the product of the matrix with the distribution, both read in the
reference layout. -/
theorem C51_v2 {n : ℕ} {new ref : List ℤ} (hnew : new.length = n) (hp : new.Perm ref) (hnd : new.Nodup)
    (M : Matrix (Fin (2 ^ n)) (Fin (2 ^ n)) ℝ) {dist : Distr} (hd : (dist.map Prod.fst).Nodup)
    (hlt : ∀ kv ∈ dist, kv.1 < 2 ^ n) :
    ∃ dist', correctWithLayoutV2 dist M ref new = .ok dist' ∧
      ∀ x : Fin (2 ^ n) → ℝ, (∀ (c : Fin (2 ^ n)) (c' : ℕ), c' < 2 ^ n → SameOutcome new ref c' c → x c = distAt dist c') →
      ∀ (b : Fin (2 ^ n)) (b' : ℕ), b' < 2 ^ n → SameOutcome new ref b' b →
        dist'.lookup b' = some (∑ c, M b c * x c) := by
  have href : ref.length = n := by rw [← hp.length_eq, hnew]
  obtain ⟨swaps, hs, hsw, ha⟩ := layout_swaps hnew hp
  obtain ⟨g, h1, h2⟩ := v2_form href hs hsw M hd hlt
  refine ⟨_, h1, fun x hx b b' hb' hbb => ?_⟩
  have hsame := fun v => same_relabel hnew href hnd hsw ha v
  have e : b' = relabelFin n swaps b := same_unique hnew hp hb' (relabelBits_lt _ b.2) hbb (hsame b)
  rw [writeAll_range dist g hb', e, h2, relabelFin_reverse hsw]
  congr 1
  refine Finset.sum_congr rfl fun c _ => ?_
  rw [hx c (relabelFin n swaps c) (relabelFin n swaps c).2 (hsame c)]

/-- C51: every outcome has exactly one counterpart in the other layout. -/
theorem C51_outcomes {n : ℕ} {new ref : List ℤ} (hnew : new.length = n) (hp : new.Perm ref) (hnd : new.Nodup) {b : ℕ}
    (hb : b < 2 ^ n) : ∃! b' : ℕ, b' < 2 ^ n ∧ SameOutcome new ref b' b := by
  have href : ref.length = n := by rw [← hp.length_eq, hnew]
  obtain ⟨swaps, hs, hsw, ha⟩ := layout_swaps hnew hp
  exact ⟨relabelBits n swaps b, ⟨relabelBits_lt _ hb, same_relabel hnew href hnd hsw ha b⟩,
    fun c hc => same_unique hnew hp hc.1 (relabelBits_lt _ hb) hc.2 (same_relabel hnew href hnd hsw ha b)⟩

/-- C51, second half, partial: the variant that relabels the matrix agrees with the correction in the
reference layout if the layouts are related by an involution (any two that are exchanged are exchanged
back). Missing: all other layouts, where it is wrong, see `C51_v1_disagree`. -/
theorem C51_v1_partial {n : ℕ} {new ref : List ℤ} (hnew : new.length = n) (hp : new.Perm ref) (hnd : new.Nodup)
    (hinv : ∀ q q' : ℕ, q < n → q' < n → new[q']? = ref[q]? → new[q]? = ref[q']?)
    (M : Matrix (Fin (2 ^ n)) (Fin (2 ^ n)) ℝ) (hM : M.det ≠ 0) {dist : Distr} (hd : (dist.map Prod.fst).Nodup)
    (hlt : ∀ kv ∈ dist, kv.1 < 2 ^ n) :
    ∃ d1 d2, correctWithLayout dist M ref new = .ok d1 ∧ correctWithLayoutV2 dist M⁻¹ ref new = .ok d2 ∧
      ∀ b < 2 ^ n, d1.lookup b = d2.lookup b := by
  have href : ref.length = n := by rw [← hp.length_eq, hnew]
  obtain ⟨swaps, hs, hsw, ha⟩ := layout_swaps hnew hp
  obtain ⟨g1, h1, h1'⟩ := v1_form href hs hsw M hM hd hlt
  obtain ⟨g2, h2, h2'⟩ := v2_form href hs hsw M⁻¹ hd hlt
  refine ⟨_, _, h1, h2, fun b hb => ?_⟩
  rw [writeAll_range dist g1 hb, writeAll_range dist g2 hb]
  congr 1
  have hsame := fun v => same_relabel hnew href hnd hsw ha v
  have hself : ∀ v : Fin (2 ^ n), relabelFin n swaps (relabelFin n swaps v) = v := by
    intro v
    refine Fin.ext (eq_of_bits (relabelBits_lt _ (relabelBits_lt _ v.2)) v.2 fun q hq => ?_)
    have hmem : ref[q] ∈ new := hp.mem_iff.2 (List.getElem_mem _)
    obtain ⟨q', hq', he⟩ := List.getElem_of_mem hmem
    have he' : new[q']? = ref[q]? := by
      rw [List.getElem?_eq_getElem hq', List.getElem?_eq_getElem (by omega), he]
    show (relabelBits n swaps (relabelBits n swaps v)).testBit q = (v : ℕ).testBit q
    rw [hsame _ q q' (by omega) (by omega) (hinv q q' hq (by omega) he'), hsame _ q' q (by omega) (by omega) he']
  have hrev : ∀ v : Fin (2 ^ n), relabelFin n swaps.reverse v = relabelFin n swaps v := by
    intro v
    conv_lhs => rw [← hself v]
    rw [relabelFin_reverse hsw]
  have e1 := h1' ⟨b, hb⟩
  have e2 := h2' ⟨b, hb⟩
  rw [hrev] at e2
  simp only at e1 e2
  rw [e1, e2, ← Equiv.sum_comp (relabelEquiv hsw) fun c => M⁻¹ (relabelFin n swaps ⟨b, hb⟩) c * distAt dist (relabelFin n swaps c)]
  refine Finset.sum_congr rfl fun c _ => ?_
  show _ = _ * distAt dist (relabelFin n swaps (relabelFin n swaps c))
  rw [hself c]
  rfl

/-- Disagreement: for three qubits in cyclic order the two variants correct with different entries of the
readout matrix; the first is wrong (see `C51_v2`). -/
theorem C51_v1_disagree :
    let M : Matrix (Fin (2 ^ 3)) (Fin (2 ^ 3)) ℝ := Matrix.diagonal fun v => (v : ℝ) + 1
    ∃ d1 d2, correctWithLayout [(1, 1)] M [0, 1, 2] [1, 2, 0] = .ok d1 ∧
      correctWithLayoutV2 [(1, 1)] M⁻¹ [0, 1, 2] [1, 2, 0] = .ok d2 ∧
      d1.lookup 1 = some (1 / 5) ∧ d2.lookup 1 = some (1 / 3) := by
  intro M
  have hinv : M⁻¹ = Matrix.diagonal fun v : Fin (2 ^ 3) => ((v : ℝ) + 1)⁻¹ := by
    refine Matrix.inv_eq_right_inv ?_
    simp only [M]
    rw [Matrix.diagonal_mul_diagonal]
    convert Matrix.diagonal_one using 2
    funext v
    exact mul_inv_cancel₀ (by positivity)
  have hM : M.det ≠ 0 := by
    simp only [M]
    rw [Matrix.det_diagonal]
    exact Finset.prod_ne_zero_iff.2 fun v _ => by positivity
  have hs : findSwaps ([1, 2, 0] : List ℤ).reverse ([0, 1, 2] : List ℤ).reverse = .ok [(0, 1), (1, 2)] := rfl
  have hsw : SwapsLt 3 [(0, 1), (1, 2)] := by
    intro s hs
    rcases List.mem_cons.1 hs with rfl | hs
    · exact ⟨by decide, by decide⟩
    · rw [List.mem_singleton] at hs
      subst hs
      exact ⟨by decide, by decide⟩
  obtain ⟨g1, h1, h1'⟩ := v1_form (n := 3) (ref := [0, 1, 2]) rfl hs hsw M hM (dist := [(1, 1)]) (by simp) (by simp)
  obtain ⟨g2, h2, h2'⟩ := v2_form (n := 3) (ref := [0, 1, 2]) rfl hs hsw M⁻¹ (dist := [(1, 1)]) (by simp) (by simp)
  refine ⟨_, _, h1, h2, ?_, ?_⟩
  · rw [writeAll_range _ g1 (by decide)]
    have e := h1' ⟨1, by decide⟩
    simp only at e
    rw [e, hinv, Finset.sum_eq_single (⟨1, by decide⟩ : Fin (2 ^ 3))]
    · have r : relabelFin 3 [(0, 1), (1, 2)] ⟨1, by decide⟩ = ⟨4, by decide⟩ := by decide
      rw [r, Matrix.diagonal_apply_eq]
      simp [distAt]
      norm_num
    · intro c _ hc
      have : (c : ℕ) ≠ 1 := fun h => hc (Fin.ext h)
      have h0 : distAt [(1, 1)] (c : ℕ) = 0 := by
        unfold distAt
        rw [List.lookup_cons]
        have : ((c : ℕ) == 1) = false := by simpa using this
        rw [this]; rfl
      rw [h0, mul_zero]
    · simp
  · rw [writeAll_range _ g2 (by decide)]
    have e := h2' ⟨1, by decide⟩
    simp only at e
    have r : relabelFin 3 [(0, 1), (1, 2)].reverse ⟨1, by decide⟩ = ⟨2, by decide⟩ := by decide
    rw [e, hinv, r, Finset.sum_eq_single (⟨2, by decide⟩ : Fin (2 ^ 3))]
    · have r2 : relabelFin 3 [(0, 1), (1, 2)] ⟨2, by decide⟩ = ⟨1, by decide⟩ := by decide
      rw [r2, Matrix.diagonal_apply_eq]
      simp [distAt]
      norm_num
    · intro c _ hc
      rw [Matrix.diagonal_apply_ne _ (Ne.symm hc), zero_mul]
    · simp

/-- Hypotheses of `C51_v1_partial`: one exchange. -/
example : ([1, 0] : List ℤ).Perm [0, 1] ∧ ([1, 0] : List ℤ).Nodup ∧
    ∀ q < 2, ∀ q' < 2, ([1, 0] : List ℤ)[q']? = ([0, 1] : List ℤ)[q]? → ([1, 0] : List ℤ)[q]? = ([0, 1] : List ℤ)[q']? := by
  decide

/-! ## C74 -/

theorem lookup_rewrite (g : ℕ → ℝ) (dist : Distr) (b : ℕ) :
    (dist.map fun kv => (kv.1, g kv.1)).lookup b = if b ∈ dist.map Prod.fst then some (g b) else none := by
  induction dist with
  | nil => simp
  | cons kv dist ih =>
    rw [List.map_cons, List.lookup_cons]
    by_cases h : b = kv.1
    · rw [if_pos (by simp [h])]; simp [h]
    · have : (b == kv.1) = false := by simpa using h
      simp only [this]
      rw [ih]
      refine if_congr ?_ rfl rfl
      simp [h]

/-- C74, partial: `correct_distribution` stores for every outcome that was measured the corresponding entry
of the matrix-vector product. Missing: outcomes that were not measured, see `C74_disagree`. -/
theorem C74_measured_partial {N : ℕ} (M : Matrix (Fin N) (Fin N) ℝ) {dist : Distr} (hd : (dist.map Prod.fst).Nodup)
    (hlt : ∀ kv ∈ dist, kv.1 < N) : ∃ dist' : Distr, correctDistribution dist M = .ok dist' ∧
      ∀ b : Fin N, dist'.lookup (b : ℕ) =
        if (b : ℕ) ∈ dist.map Prod.fst then some (∑ c : Fin N, M b c * distAt dist c) else none := by
  let g : ℕ → ℝ := fun v => if hv : v < N then ∑ c : Fin N, M ⟨v, hv⟩ c * distAt dist c else 0
  refine ⟨dist.map fun kv => (kv.1, g kv.1), ?_, fun b => ?_⟩
  · unfold correctDistribution
    rw [distVector_eq hd hlt]
    show (do
      let Cnew ← matVec M ((List.range N).map (distAt dist))
      dist.mapM fun kv : ℕ × ℝ => match Cnew[kv.1]? with
        | some x => .ok (kv.1, x)
        | none => .error .indexError) = _
    rw [matVec_eq M _ g (fun a => by simp only [g]; rw [dif_pos a.2])]
    refine mapM_ok fun kv hkv => ?_
    rw [List.getElem?_map, List.getElem?_range (hlt kv hkv)]
    rfl
  · rw [lookup_rewrite]
    have hg : g b = ∑ c : Fin N, M b c * distAt dist c := by simp only [g]; rw [dif_pos b.2]
    rw [hg]

/-- Disagreement: probability moved to an outcome that was not measured is lost. Here the readout always
flips the qubit; the corrected distribution should be 1 with certainty, but contains no probability. -/
theorem C74_disagree :
    let M : Matrix (Fin 2) (Fin 2) ℝ := !![0, 1; 1, 0]
    ∃ dist' : Distr, correctDistribution [(0, 1)] M = .ok dist' ∧ dist'.lookup 0 = some 0 ∧ dist'.lookup 1 = none := by
  intro M
  obtain ⟨d, h1, h2⟩ := C74_measured_partial M (dist := [(0, 1)]) (by simp) (by simp)
  have e0 := h2 0
  have e1 := h2 1
  refine ⟨d, h1, ?_, ?_⟩
  · simpa [M, distAt, Fin.sum_univ_two, List.lookup] using e0
  · simpa using e1

/-! ## C52 -/

/-- C52: `find_best_path` returns a shortest route along couplings, and raises `ValueError` exactly if
there is none. -/
theorem C52_best_path (edges : List (ℕ × ℕ)) (a b : ℕ) :
    ((∃ l, IsRoute edges l a b) → ∃ l, findBestPath edges a b = .ok l ∧ IsRoute edges l a b ∧
      ∀ l', IsRoute edges l' a b → l.length ≤ l'.length) ∧
    ((¬ ∃ l, IsRoute edges l a b) → findBestPath edges a b = .error .valueError) := by
  rcases findBestPath_spec edges a b with ⟨l, k, h1, h2, h3, h4⟩ | ⟨h1, h2⟩
  · refine ⟨fun _ => ⟨l, h1, h2, fun l' hl' => ?_⟩, fun h => absurd ⟨l, h2⟩ h⟩
    have := steps_ge h3 (steps_of_route hl')
    have hpos : 0 < l'.length := by
      rcases l' with _ | ⟨x, l'⟩
      · simp [IsRoute] at hl'
      · simp
    omega
  · exact ⟨fun ⟨l, hl⟩ => absurd (steps_of_route hl) (h2 _), fun _ => h1⟩

example : findBestPath [(0, 1), (1, 2), (2, 3), (3, 0), (3, 4)] 0 4 = .ok [0, 3, 4] := rfl
example : findBestPath [(0, 1), (2, 3)] 0 3 = .error .valueError := rfl

/-! ## C53 -/

/-- C53: whenever `add_permutation_gate` returns, it has added swaps of coupled qubits only, after which
position `p` holds what qubit `permutation[p]` held before: amplitudes are those of the labels `l'`
with `l'(permutation[p]) = l(p)`. -/
theorem C53_on_return {n : ℕ} {permutation : List ℕ} {edges : List (ℕ × ℕ)} {fuel : ℕ} {gates : List (Gate n)}
    (h : addPermutationGate n permutation edges fuel = .ok gates) :
    (∀ g ∈ gates, ∃ a b : Fin n, g = .swap a b ∧ Coupled edges a b) ∧
    ∀ (ψ : QState n) (l l' : Fin n → Bool),
      (∀ p q : Fin n, permutation[(p : ℕ)]? = some (q : ℕ) → l' q = l p) → runCircuit gates ψ l = ψ l' := by
  unfold addPermutationGate at h
  split_ifs at h with hn
  have hn' : permutation.length = n := by simpa using hn
  rw [hn'] at h
  have := permutationLoop_inv fuel _ gates (swapInv_init n edges) h
  exact ⟨this.coupled, this.sem⟩

/-- C53: a permutation of another size raises. -/
theorem C53_size {n : ℕ} {permutation : List ℕ} (h : permutation.length ≠ n) (edges : List (ℕ × ℕ)) (fuel : ℕ) :
    addPermutationGate n permutation edges fuel = .error .valueError := by
  unfold addPermutationGate
  rw [if_pos h]

/-- C53, partial: for a connected device without cycles the loop ends, for every permutation. Missing:
devices with cycles, see `C53_ring_disagree`. -/
theorem C53_tree_partial {n : ℕ} {permutation : List ℕ} (hperm : permutation.Perm (List.range n)) {edges : List (ℕ × ℕ)}
    (hw : Within edges n) (hcon : Connected edges n) (hf : IsForest edges) :
    ∃ sweeps, ∀ fuel ≥ sweeps, ∃ gates, addPermutationGate n permutation edges fuel = .ok gates := by
  obtain ⟨r, K, hr, hK⟩ := forest_ranked hw hf
  refine ⟨K, fun fuel hfu => ?_⟩
  have hpl : permutation.length = n := by rw [hperm.length_eq, List.length_range]
  obtain ⟨g, hg⟩ := loop_terminates hperm hw hcon hr hK fuel 0 (by omega) (List.range n, []) (swapInv_init n edges)
    (fun p hp => absurd hp (by omega))
  refine ⟨g, ?_⟩
  unfold addPermutationGate
  rw [if_neg (by simpa using hpl), hpl]
  exact hg

/-- A chain of three qubits is a connected forest. -/
example : IsForest [(0, 1), (1, 2)] ∧ Within [(0, 1), (1, 2)] 3 := by
  refine ⟨⟨id, ?_, ?_⟩, by unfold Within; decide⟩
  · rintro u v (h | h) <;> simp at h <;> simp only [id] <;> omega
  · rintro v u w (h | h) (h' | h') <;> simp at h h' <;> simp only [id] <;> omega

/-- One sweep on the ring of five qubits started from a certain arrangement leaves it as it is. -/
theorem ring_stuck (gates : List (Gate 5)) :
    ∃ gates', permutationSweep [(0, 1), (1, 2), (2, 3), (3, 4), (4, 0)] [0, 4, 1, 2, 3] ([4, 1, 2, 0, 3], gates) =
      .ok ([4, 1, 2, 0, 3], gates') := ⟨_, rfl⟩

/-- Disagreement: on the ring of five qubits, which is connected, the loop for the permutation
0, 4, 1, 2, 3 never ends. -/
theorem C53_ring_disagree :
    Connected [(0, 1), (1, 2), (2, 3), (3, 4), (4, 0)] 5 ∧ ([0, 4, 1, 2, 3] : List ℕ).Perm (List.range 5) ∧
    ∀ fuel, addPermutationGate 5 [0, 4, 1, 2, 3] [(0, 1), (1, 2), (2, 3), (3, 4), (4, 0)] fuel = .error .outOfFuel := by
  refine ⟨fun a ha b hb => ?_, by decide, ?_⟩
  · have hok : ∀ a < 5, ∀ b < 5, (match findBestPath [(0, 1), (1, 2), (2, 3), (3, 4), (4, 0)] a b with
        | .ok _ => true | .error _ => false) = true := by decide
    rcases findBestPath_spec [(0, 1), (1, 2), (2, 3), (3, 4), (4, 0)] a b with ⟨l, k, -, h2, -⟩ | ⟨h1, -⟩
    · exact ⟨l, h2⟩
    · have := hok a ha b hb
      rw [h1] at this
      cases this
  have loop : ∀ f gates, permutationLoop (n := 5) [(0, 1), (1, 2), (2, 3), (3, 4), (4, 0)] [0, 4, 1, 2, 3] f
      ([4, 1, 2, 0, 3], gates) = .error .outOfFuel := by
    intro f
    induction f with
    | zero => intro gates; rfl
    | succ f ih =>
      intro gates
      obtain ⟨g', hg⟩ := ring_stuck gates
      unfold permutationLoop
      rw [if_pos (show ([4, 1, 2, 0, 3] : List ℕ) ≠ [0, 4, 1, 2, 3] by decide), hg]
      exact ih g'
  have first : ∃ g', permutationSweep (n := 5) [(0, 1), (1, 2), (2, 3), (3, 4), (4, 0)] [0, 4, 1, 2, 3] ([0, 1, 2, 3, 4], []) =
      .ok ([4, 1, 2, 0, 3], g') := ⟨_, rfl⟩
  obtain ⟨g', hg⟩ := first
  intro fuel
  cases fuel with
  | zero => rfl
  | succ f =>
    show permutationLoop (n := 5) [(0, 1), (1, 2), (2, 3), (3, 4), (4, 0)] [0, 4, 1, 2, 3] (f + 1) ([0, 1, 2, 3, 4], []) = _
    unfold permutationLoop
    rw [if_pos (by decide), hg]
    exact loop f g'

/-- Disagreement with the docstring, which says that [2, 0, 1] moves qubit 0 to 2: what was on qubit 0 ends
on qubit 1. -/
theorem C53_docstring_disagree : ∃ gates, addPermutationGate 3 [2, 0, 1] [(0, 1), (1, 2)] 1 = .ok gates ∧
    ∀ (ψ : QState 3) (x y z : Bool), runCircuit gates ψ ![x, y, z] = ψ ![y, z, x] := by
  refine ⟨_, rfl, fun ψ x y z => (C53_on_return (fuel := 1) (permutation := [2, 0, 1]) (edges := [(0, 1), (1, 2)]) rfl).2 ψ _ _ ?_⟩
  decide +revert

end SQ
