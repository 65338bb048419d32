import Verif.Lemmas.HigherDensity
import Verif.Props.CircuitWave
import Verif.Props.Rdm

/-!
# C108: the three- and four-electron density matrices

`core (2 nI) (stateOf ci c)` is the wave function (Spec/Embed.lean); `IsRdmN`, `traceN`: Spec/HigherDensity.lean.
-/

namespace SQ

variable {tiny big : ℝ → Bool} {ci : CIInfo} {th : Threads} {qev : Dict ℝ → Res ℝ}

theorem evList3_sem (ht : ExactTiny tiny) (hs : AnsatzSpace ci ci.nA) (hth : th.Fair ci.idx2det.length)
    (c : Vec ℝ) {p q r s t u : ℕ} (hp : p < ci.nA) (hq : q < ci.nA) (hr : r < ci.nA) (hs' : s < ci.nA)
    (ht' : t < ci.nA) (hu : u < ci.nA) :
    evList tiny th ci c [(ci.nI + p, ci.nI + q), (ci.nI + r, ci.nI + s), (ci.nI + t, ci.nI + u)]
      = .ok (mean [core (2 * ci.nI) (stateOf ci c)] (E (ci.nI + p) (ci.nI + q) *
        (E (ci.nI + r) (ci.nI + s) * E (ci.nI + t) (ci.nI + u)))) := by
  obtain ⟨A, a1, a2⟩ := E_step_folded (tiny := tiny) ht hs hth hp hq
  obtain ⟨B, b1, b2⟩ := E_step_folded (tiny := tiny) ht hs hth hr hs'
  obtain ⟨C, c1, c2⟩ := E_step_folded (tiny := tiny) ht hs hth ht' hu
  obtain ⟨v, v1, v2⟩ := c2 c
  obtain ⟨w, w1, w2⟩ := b2 v
  obtain ⟨x, x1, x2⟩ := a2 w
  unfold evList expectationValue
  simp only [List.mapM_cons, List.mapM_nil, a1, b1, c1, ok_bind, pure_bind, List.map_cons, List.map_nil]
  have hrev : ([.op A, .op B, .op C] : List (StateOp ℝ)).reverse = [.op C, .op B, .op A] := rfl
  simp only [propagateState, hrev, List.length_cons, List.length_nil, Nat.add_one_ne_zero,
    if_false, propStep, List.foldlM_cons, List.foldlM_nil, if_true, v1, w1, x1, ok_bind, pure_bind]
  rw [mean_single, Module.End.mul_apply, Module.End.mul_apply, E_core, E_core, E_core, inner_core, ← v2, ← w2, ← x2,
    ← dot_eq_inner hs.valid]
  rfl

theorem evList4_sem (ht : ExactTiny tiny) (hs : AnsatzSpace ci ci.nA) (hth : th.Fair ci.idx2det.length)
    (c : Vec ℝ) {p q r s t u m n : ℕ} (hp : p < ci.nA) (hq : q < ci.nA) (hr : r < ci.nA) (hs' : s < ci.nA)
    (ht' : t < ci.nA) (hu : u < ci.nA) (hm : m < ci.nA) (hn : n < ci.nA) :
    evList tiny th ci c [(ci.nI + p, ci.nI + q), (ci.nI + r, ci.nI + s), (ci.nI + t, ci.nI + u), (ci.nI + m, ci.nI + n)]
      = .ok (mean [core (2 * ci.nI) (stateOf ci c)] (E (ci.nI + p) (ci.nI + q) *
        (E (ci.nI + r) (ci.nI + s) * (E (ci.nI + t) (ci.nI + u) * E (ci.nI + m) (ci.nI + n))))) := by
  obtain ⟨A, a1, a2⟩ := E_step_folded (tiny := tiny) ht hs hth hp hq
  obtain ⟨B, b1, b2⟩ := E_step_folded (tiny := tiny) ht hs hth hr hs'
  obtain ⟨C, c1, c2⟩ := E_step_folded (tiny := tiny) ht hs hth ht' hu
  obtain ⟨D, d1, d2⟩ := E_step_folded (tiny := tiny) ht hs hth hm hn
  obtain ⟨y, y1, y2⟩ := d2 c
  obtain ⟨v, v1, v2⟩ := c2 y
  obtain ⟨w, w1, w2⟩ := b2 v
  obtain ⟨x, x1, x2⟩ := a2 w
  unfold evList expectationValue
  simp only [List.mapM_cons, List.mapM_nil, a1, b1, c1, d1, ok_bind, pure_bind, List.map_cons, List.map_nil]
  have hrev : ([.op A, .op B, .op C, .op D] : List (StateOp ℝ)).reverse = [.op D, .op C, .op B, .op A] := rfl
  simp only [propagateState, hrev, List.length_cons, List.length_nil, Nat.add_one_ne_zero,
    if_false, propStep, List.foldlM_cons, List.foldlM_nil, if_true, v1, w1, x1, y1, ok_bind, pure_bind]
  rw [mean_single, Module.End.mul_apply, Module.End.mul_apply, Module.End.mul_apply, E_core, E_core, E_core, E_core,
    inner_core, ← y2, ← v2, ← w2, ← x2, ← dot_eq_inner hs.valid]
  rfl

theorem circList3_sem {c : Vec ℝ} (ht : ExactTiny tiny) (hx : ExactQuantum ci c qev) {p q r s t u : ℕ} (hp : p < ci.nA)
    (hq : q < ci.nA) (hr : r < ci.nA) (hs : s < ci.nA) (ht' : t < ci.nA) (hu : u < ci.nA) :
    circList tiny qev ci [(ci.nI + p, ci.nI + q), (ci.nI + r, ci.nI + s), (ci.nI + t, ci.nI + u)]
      = .ok (mean [core (2 * ci.nI) (stateOf ci c)] (E (ci.nI + p) (ci.nI + q) *
        (E (ci.nI + r) (ci.nI + s) * E (ci.nI + t) (ci.nI + u)))) := by
  obtain ⟨A, a1, a2, a3⟩ := gen_Epq (tiny := tiny) ht hp hq
  obtain ⟨B, b1, b2, b3⟩ := gen_Epq (tiny := tiny) ht hr hs
  obtain ⟨C, c1, c2, c3⟩ := gen_Epq (tiny := tiny) ht ht' hu
  obtain ⟨AB, x1, x2, x3⟩ := a2.mul ht b2
  obtain ⟨P, y1, y2, y3⟩ := x2.mul ht c2
  unfold circList
  simp only [List.foldlM_cons, List.foldlM_nil, a1, b1, c1, x1, y1, ok_bind, pure_bind]
  rw [qexp_emb hx y2, mean_single, y3, x3, a3, b3, c3, mul_assoc]
  rfl

theorem circList4_sem {c : Vec ℝ} (ht : ExactTiny tiny) (hx : ExactQuantum ci c qev) {p q r s t u m n : ℕ}
    (hp : p < ci.nA) (hq : q < ci.nA) (hr : r < ci.nA) (hs : s < ci.nA) (ht' : t < ci.nA) (hu : u < ci.nA)
    (hm : m < ci.nA) (hn : n < ci.nA) :
    circList tiny qev ci [(ci.nI + p, ci.nI + q), (ci.nI + r, ci.nI + s), (ci.nI + t, ci.nI + u), (ci.nI + m, ci.nI + n)]
      = .ok (mean [core (2 * ci.nI) (stateOf ci c)] (E (ci.nI + p) (ci.nI + q) *
        (E (ci.nI + r) (ci.nI + s) * (E (ci.nI + t) (ci.nI + u) * E (ci.nI + m) (ci.nI + n))))) := by
  obtain ⟨A, a1, a2, a3⟩ := gen_Epq (tiny := tiny) ht hp hq
  obtain ⟨B, b1, b2, b3⟩ := gen_Epq (tiny := tiny) ht hr hs
  obtain ⟨C, c1, c2, c3⟩ := gen_Epq (tiny := tiny) ht ht' hu
  obtain ⟨D, d1, d2, d3⟩ := gen_Epq (tiny := tiny) ht hm hn
  obtain ⟨AB, x1, x2, x3⟩ := a2.mul ht b2
  obtain ⟨P, y1, y2, y3⟩ := x2.mul ht c2
  obtain ⟨Q, z1, z2, z3⟩ := y2.mul ht d2
  unfold circList
  simp only [List.foldlM_cons, List.foldlM_nil, a1, b1, c1, d1, x1, y1, z1, ok_bind, pure_bind]
  rw [qexp_emb hx z2, mean_single, z3, y3, x3, a3, b3, c3, d3, mul_assoc, mul_assoc]
  rfl

/-! ## C108 -/

/-- C108: `rdm3` and `rdm4` of `WaveFunctionUPS` are the density matrices of the wave function, all elements filled. -/
theorem C108_ups (ht : ExactTiny tiny) (hs : AnsatzSpace ci ci.nA) (hth : th.Fair ci.idx2det.length) (c : Vec ℝ) :
    ∃ D3 D4, upsRdm3 tiny th ci c = .ok D3 ∧ upsRdm4 tiny th ci c = .ok D4 ∧
      IsRdmN ci.nI ci.nA [core (2 * ci.nI) (stateOf ci c)] 3 D3 ∧
      IsRdmN ci.nI ci.nA [core (2 * ci.nI) (stateOf ci c)] 4 D4 := by
  obtain ⟨R1, R2, r1, r2, hR⟩ := C29_ups (tiny := tiny) ht hs hth c
  obtain ⟨D3, h1, h2⟩ := rdm3Loop_sem (ev := evList tiny th ci c) hR fun p q r s t u hp hq hr hs' ht' hu =>
    evList3_sem ht hs hth c hp hq hr hs' ht' hu
  obtain ⟨D4, h3, h4⟩ := rdm4Loop_sem (ev := evList tiny th ci c) hR h2 fun p q r s t u m n hp hq hr hs' ht' hu hm hn =>
    evList4_sem ht hs hth c hp hq hr hs' ht' hu hm hn
  have e3 : upsRdm3 tiny th ci c = .ok D3 := by
    unfold upsRdm3
    rw [r1, ok_bind, r2, ok_bind, h1]
  refine ⟨D3, D4, e3, ?_, h2, h4⟩
  unfold upsRdm4
  rw [r1, ok_bind, r2, ok_bind, e3, ok_bind, h3]

/-- C108: the same for `WaveFunctionUCC`. -/
theorem C108_ucc (ht : ExactTiny tiny) (hs : AnsatzSpace ci ci.nA) (hth : th.Fair ci.idx2det.length) (c : Vec ℝ) :
    ∃ D3 D4, uccRdm3 tiny th ci c = .ok D3 ∧ uccRdm4 tiny th ci c = .ok D4 ∧
      IsRdmN ci.nI ci.nA [core (2 * ci.nI) (stateOf ci c)] 3 D3 ∧
      IsRdmN ci.nI ci.nA [core (2 * ci.nI) (stateOf ci c)] 4 D4 := by
  obtain ⟨R1, R2, r1, r2, hR⟩ := C29_ucc (tiny := tiny) ht hs hth c
  obtain ⟨D3, h1, h2⟩ := rdm3Loop_sem (ev := evList tiny th ci c) hR fun p q r s t u hp hq hr hs' ht' hu =>
    evList3_sem ht hs hth c hp hq hr hs' ht' hu
  obtain ⟨D4, h3, h4⟩ := rdm4Loop_sem (ev := evList tiny th ci c) hR h2 fun p q r s t u m n hp hq hr hs' ht' hu hm hn =>
    evList4_sem ht hs hth c hp hq hr hs' ht' hu hm hn
  have e3 : uccRdm3 tiny th ci c = .ok D3 := by
    unfold uccRdm3
    rw [r1, ok_bind, r2, ok_bind, h1]
  refine ⟨D3, D4, e3, ?_, h2, h4⟩
  unfold uccRdm4
  rw [r1, ok_bind, r2, ok_bind, e3, ok_bind, h3]

/-- C108: the same for `WaveFunctionCircuit` on an interface that measures exactly. -/
theorem C108_circuit {c : Vec ℝ} (ht : ExactTiny tiny) (hb : ExactBig big) (hx : ExactQuantum ci c qev) :
    ∃ D3 D4, circRdm3 tiny qev ci = .ok D3 ∧ circRdm4 tiny qev ci = .ok D4 ∧
      IsRdmN ci.nI ci.nA [core (2 * ci.nI) (stateOf ci c)] 3 D3 ∧
      IsRdmN ci.nI ci.nA [core (2 * ci.nI) (stateOf ci c)] 4 D4 := by
  obtain ⟨⟨R1, R2, r1, r2, hR⟩, -⟩ := C107_circuit (big := big) ht hb hx
  obtain ⟨D3, h1, h2⟩ := rdm3Loop_sem (ev := circList tiny qev ci) hR fun p q r s t u hp hq hr hs' ht' hu =>
    circList3_sem ht hx hp hq hr hs' ht' hu
  obtain ⟨D4, h3, h4⟩ := rdm4Loop_sem (ev := circList tiny qev ci) hR h2 fun p q r s t u m n hp hq hr hs' ht' hu hm hn =>
    circList4_sem ht hx hp hq hr hs' ht' hu hm hn
  have e3 : circRdm3 tiny qev ci = .ok D3 := by
    unfold circRdm3
    rw [r1, ok_bind, r2, ok_bind, h1]
  refine ⟨D3, D4, e3, ?_, h2, h4⟩
  unfold circRdm4
  rw [r1, ok_bind, r2, ok_bind, e3, ok_bind, h3]

/-! ### The trace condition -/

theorem contr_trace (nI nA : ℕ) (l : List (ℕ × ℕ)) (hl : ∀ x ∈ l, nI ≤ x.1 ∧ x.1 < nI + nA) :
    (∑ i ∈ Finset.range nA, contr (nI + i) (nI + i) l : FOp ℝ) = (l.length : ℝ) • excN l := by
  induction l with
  | nil => simp [contr]
  | cons x l ih =>
    have hw : ∀ f : ℕ → FOp ℝ, ∑ i ∈ Finset.range nA, wrap x (f i) = wrap x (∑ i ∈ Finset.range nA, f i) := by
      intro f
      unfold wrap
      rw [Finset.sum_add_distrib, Finset.mul_sum, Finset.mul_sum, Finset.sum_mul, Finset.sum_mul]
    have h1 : ∀ i, (contr (nI + i) (nI + i) (x :: l) : FOp ℝ)
        = (delta (nI + i) x.1 : ℝ) • excN ((nI + i, x.2) :: l) + wrap x (contr (nI + i) (nI + i) l) := fun _ => rfl
    simp only [h1]
    rw [Finset.sum_add_distrib, hw, ih fun y hy => hl y (by simp [hy]), wrap_smul, ← excN_cons]
    have h2 := hl x (by simp)
    rw [Finset.sum_eq_single (x.1 - nI)]
    · rw [Nat.add_sub_cancel' h2.1]
      simp only [delta, if_true, one_smul, List.length_cons]
      push_cast
      rw [add_smul, one_smul, add_comm]
    · intro i _ hi
      have : nI + i ≠ x.1 := by omega
      simp only [delta, if_neg this, zero_smul]
    · intro h
      exact absurd (Finset.mem_range.2 (by omega)) h

theorem num_sgl (p : ℕ) (S : Finset ℕ) (a : ℝ) :
    (cr p * an p : FOp ℝ) (sgl S a) = ((if p ∈ S then 1 else 0 : ℝ)) • sgl S a := by
  rw [Module.End.mul_apply, an_single]
  by_cases h : p ∈ S
  · rw [if_pos h, if_pos h, cr_single, if_neg (by simp), Finset.insert_erase h, one_smul, phase_erase_ge S p p (by omega),
      mul_assoc, phase_sq, mul_one]
  · rw [if_neg h, if_neg h, map_zero, zero_smul]

/-- The number operator of the active orbitals. -/
theorem number_state {na nb : ℕ} (hA : 0 < ci.nA) (hci : getIndexing ci.nI ci.nA ci.nV na nb = .ok ci) (c : Vec ℝ) :
    (∑ i ∈ Finset.range ci.nA, E (ci.nI + i) (ci.nI + i) : FOp ℝ) (emb ci c) = ((na + nb : ℕ) : ℝ) • emb ci c := by
  obtain ⟨ci', h1, -, -, -, -, -, -, h2⟩ := C17_space hA ci.nI ci.nV na nb
  rw [hci] at h1
  cases h1
  unfold emb
  rw [LinearMap.sum_apply]
  simp only [E_core]
  rw [← map_sum, ← map_smul, stateOf_eq]
  congr 1
  simp only [map_sum]
  rw [Finset.sum_comm, Finset.smul_sum]
  refine Finset.sum_congr rfl fun k hk => ?_
  have hm : InCAS ci.nA na nb (ci.D k) := (h2 _).1 ((CIInfo.Valid.mem_iff _).2 ⟨k, Finset.mem_range.1 hk, rfl⟩)
  have : ∀ i, (E i i : FOp ℝ) (sgl (ci.D k) (c k)) = ((if 2 * i + 0 ∈ ci.D k then 1 else 0 : ℝ)
      + (if 2 * i + 1 ∈ ci.D k then 1 else 0 : ℝ)) • sgl (ci.D k) (c k) := fun i => by
    unfold E
    rw [LinearMap.add_apply, num_sgl, num_sgl, add_smul]
    rfl
  simp only [this]
  rw [← Finset.sum_smul, Finset.sum_add_distrib]
  congr 1
  have hσ : ∀ σ, ∑ i ∈ Finset.range ci.nA, (if 2 * i + σ ∈ ci.D k then 1 else 0 : ℝ) = (spatOf ci.nA σ (ci.D k)).card := by
    intro σ
    unfold spatOf
    rw [Finset.card_filter]
    push_cast
    rfl
  rw [hσ, hσ]
  have e1 := hm.2.1
  have e2 := hm.2.2
  have e1' : (spatOf ci.nA 0 (ci.D k)).card = na := by exact_mod_cast e1
  have e2' : (spatOf ci.nA 1 (ci.D k)).card = nb := by exact_mod_cast e2
  rw [e1', e2']
  push_cast
  rfl

theorem trace_dens {Ψ : Fock ℝ} {nI nA n : ℕ} (hn : (∑ i ∈ Finset.range nA, E (nI + i) (nI + i) : FOp ℝ) Ψ = (n : ℝ) • Ψ)
    (l : List (ℕ × ℕ)) (hl : ∀ x ∈ l, nI ≤ x.1 ∧ x.1 < nI + nA) :
    ∑ i ∈ Finset.range nA, dens [Ψ] ((nI + i, nI + i) :: l) = ((n : ℝ) - l.length) * dens [Ψ] l := by
  have h1 : mean [Ψ] ((∑ i ∈ Finset.range nA, E (nI + i) (nI + i) : FOp ℝ) * excN l) = n * dens [Ψ] l := by
    rw [mean_single]
    have hadj : IsAdjoint (∑ i ∈ Finset.range nA, E (nI + i) (nI + i) : FOp ℝ)
        (∑ i ∈ Finset.range nA, E (nI + i) (nI + i)) := by
      intro x y
      rw [LinearMap.sum_apply, LinearMap.sum_apply]
      rw [inner_sum_left, inner_comm x, inner_sum_left]
      exact Finset.sum_congr rfl fun i _ => by rw [adjoint_E, inner_comm]
    rw [Module.End.mul_apply, ← hadj, hn, inner_smul_left]
    unfold dens
    rw [mean_single]
  rw [Finset.sum_mul] at h1
  have h2 : ∀ i, (E (nI + i) (nI + i) * excN l : FOp ℝ) = excN ((nI + i, nI + i) :: l) + contr (nI + i) (nI + i) l :=
    fun i => E_excN _ _ _
  simp only [h2] at h1
  rw [Finset.sum_add_distrib, contr_trace nI nA l hl, mean_add, mean_smul] at h1
  simp only [← meanL_apply, map_sum] at h1
  simp only [meanL_apply] at h1
  unfold dens at h1 ⊢
  linarith

/-- C108: the trace condition of the docstrings, for density matrices of any order `k` of a normalised wave function with
`na` alpha and `nb` beta active electrons: `Σ D_{i₁i₁…iₖiₖ} = N (N-1) … (N-k+1)`. -/
theorem C108_trace {na nb : ℕ} (hA : 0 < ci.nA) (hci : getIndexing ci.nI ci.nA ci.nV na nb = .ok ci) {c : Vec ℝ}
    (hc : dot ci.idx2det.length c c = 1) {k : ℕ} {D : List (ℕ × ℕ) → ℝ}
    (hD : IsRdmN ci.nI ci.nA [core (2 * ci.nI) (stateOf ci c)] k D) :
    traceN ci.nA D k [] = ∏ j ∈ Finset.range k, (((na + nb : ℕ) : ℝ) - j) := by
  have hn := number_state hA hci c
  obtain ⟨_, h1, -, -, -, -, hv, -, -⟩ := C17_space hA ci.nI ci.nV na nb
  rw [hci] at h1
  cases h1
  have gen : ∀ m l, l.length + m = k → (∀ x ∈ l, x.1 < ci.nA ∧ x.2 < ci.nA) →
      traceN ci.nA D m l = (∏ j ∈ Finset.Ico l.length k, (((na + nb : ℕ) : ℝ) - j)) * dens [emb ci c] (shiftN ci.nI l) := by
    intro m
    induction m with
    | zero =>
      intro l hl hb
      rw [show l.length = k by omega, Finset.Ico_self, Finset.prod_empty, one_mul]
      exact hD l (by omega) hb
    | succ m ih =>
      intro l hl hb
      have h1 : traceN ci.nA D (m + 1) l = ∑ i ∈ Finset.range ci.nA, traceN ci.nA D m ((i, i) :: l) := rfl
      rw [h1, Finset.sum_congr rfl fun i hi => ih ((i, i) :: l) (by rw [List.length_cons]; omega) (by
        intro x hx
        rcases List.mem_cons.1 hx with rfl | hx
        · exact ⟨Finset.mem_range.1 hi, Finset.mem_range.1 hi⟩
        · exact hb x hx)]
      simp only [List.length_cons]
      rw [← Finset.mul_sum]
      have h2 : ∀ i, shiftN ci.nI ((i, i) :: l) = (ci.nI + i, ci.nI + i) :: shiftN ci.nI l := fun _ => rfl
      simp only [h2]
      rw [trace_dens hn (shiftN ci.nI l) (by
        intro x hx
        obtain ⟨y, hy, rfl⟩ := List.mem_map.1 hx
        have := hb y hy
        dsimp only
        omega), Finset.prod_eq_prod_Ico_succ_bot (show l.length < k by omega)]
      unfold shiftN
      rw [List.length_map]
      ring
  rw [gen k [] (by simp) (by simp)]
  have hd : dens [emb ci c] (shiftN ci.nI []) = 1 := by
    unfold dens
    rw [mean_single]
    show inner (emb ci c) ((1 : FOp ℝ) (emb ci c)) = 1
    unfold emb
    rw [Module.End.one_apply, inner_core, ← dot_eq_inner hv, hc]
  rw [hd, mul_one, List.length_nil, Finset.range_eq_Ico]

/-- Four electrons in three active orbitals, one inactive orbital: the first determinant has three- and four-electron
density matrices with the traces 24 and 24. -/
example : ∃ (ci : CIInfo) (D3 D4 : List (ℕ × ℕ) → ℝ), getIndexing 1 3 0 2 2 = .ok ci ∧ AnsatzSpace ci ci.nA ∧
    upsRdm3 (fun x => decide (x = 0)) .one ci (fun i => if i = 0 then 1 else 0) = .ok D3 ∧
    upsRdm4 (fun x => decide (x = 0)) .one ci (fun i => if i = 0 then 1 else 0) = .ok D4 ∧
    traceN ci.nA D3 3 [] = 24 ∧ traceN ci.nA D4 4 [] = 24 := by
  classical
  obtain ⟨ci, h1, h2, h3⟩ := (C26_spaces 1 3 0 2 2 0).1 (by decide)
  have hl : ci.idx2det.length = 9 := by
    have : (match getIndexing 1 3 0 2 2 with | .ok c => decide (c.idx2det.length = 9) | .error _ => false)
        = true := by decide +kernel
    rw [h1] at this
    simpa using this
  have hd : dot ci.idx2det.length (fun i => if i = 0 then (1 : ℝ) else 0) (fun i => if i = 0 then 1 else 0)
      = 1 := by
    unfold dot
    rw [list_sum_range, hl]
    simp
  obtain ⟨D3, D4, e3, e4, k3, k4⟩ := C108_ups (tiny := fun x : ℝ => decide (x = 0)) (th := .one)
    (fun x hx => by simpa using hx) h2 trivial (fun i => if i = 0 then 1 else 0)
  obtain ⟨ci', g1, g2, g3, g4, -⟩ := C17_space (nA := 3) (by decide) 1 0 2 2
  rw [h1] at g1
  cases g1
  have hci : getIndexing ci.nI ci.nA ci.nV (2 : ℕ) (2 : ℕ) = .ok ci := by rw [g2, g3, g4]; exact h1
  refine ⟨ci, D3, D4, h1, h2, e3, e4, ?_, ?_⟩
  · rw [C108_trace (by omega) hci hd k3]
    norm_num [Finset.prod_range_succ]
  · rw [C108_trace (by omega) hci hd k4]
    norm_num [Finset.prod_range_succ]

end SQ
