import Verif.Lemmas.DensityFill
import Verif.Props.Density
import Verif.Props.Ansatz

/-!
# C29: the density matrices of the wave functions

`core (2 nI) (stateOf ci c)` is the wave function with the CI vector `c`: the active part, with the
inactive orbitals filled (Spec/Embed.lean). `IsRdm`: Spec/Density.lean.
-/

namespace SQ

variable {tiny big : ℝ → Bool} {ci : CIInfo} {th : Threads}

/-- The wave functions of the rows of `M`. -/
noncomputable def rowStates (ci : CIInfo) (nS : ℕ) (M : Mat ℝ) : List (Fock ℝ) :=
  (List.range nS).map fun a => core (2 * ci.nI) (stateOf ci (M a))

theorem mean_rowStates (nS : ℕ) (M : Mat ℝ) (T : FOp ℝ) :
    mean (rowStates ci nS M) T = (∑ a ∈ Finset.range nS,
      inner (core (2 * ci.nI) (stateOf ci (M a))) (T (core (2 * ci.nI) (stateOf ci (M a))))) / nS := by
  unfold mean rowStates
  rw [List.map_map, list_sum_range]
  simp

theorem evE_sem (ht : ExactTiny tiny) (hs : AnsatzSpace ci ci.nA) (hth : th.Fair ci.idx2det.length)
    (c : Vec ℝ) {p q : ℕ} (hp : p < ci.nA) (hq : q < ci.nA) :
    evE tiny th ci c (ci.nI + p) (ci.nI + q)
      = .ok (mean [core (2 * ci.nI) (stateOf ci c)] (E (ci.nI + p) (ci.nI + q))) := by
  obtain ⟨A, h1, h2⟩ := E_step_folded (tiny := tiny) ht hs hth hp hq
  obtain ⟨w, h3, h4⟩ := h2 c
  unfold evE expectationValue
  rw [h1, ok_bind]
  simp only [propagateState, propStep, List.length_singleton, Nat.one_ne_zero, if_false,
    List.reverse_singleton, List.foldlM_cons, List.foldlM_nil, if_true, h3, ok_bind]
  rw [mean_single, E_core, inner_core, ← h4, ← dot_eq_inner hs.valid]
  rfl

theorem evEElist_sem (ht : ExactTiny tiny) (hs : AnsatzSpace ci ci.nA) (hth : th.Fair ci.idx2det.length)
    (c : Vec ℝ) {p q r s : ℕ} (hp : p < ci.nA) (hq : q < ci.nA) (hr : r < ci.nA) (hs' : s < ci.nA) :
    evEElist tiny th ci c (ci.nI + p) (ci.nI + q) (ci.nI + r) (ci.nI + s)
      = .ok (mean [core (2 * ci.nI) (stateOf ci c)]
        (E (ci.nI + p) (ci.nI + q) * E (ci.nI + r) (ci.nI + s))) := by
  obtain ⟨A, h1, h2⟩ := E_step_folded (tiny := tiny) ht hs hth hp hq
  obtain ⟨B, g1, g2⟩ := E_step_folded (tiny := tiny) ht hs hth hr hs'
  obtain ⟨v, g3, g4⟩ := g2 c
  obtain ⟨w, h3, h4⟩ := h2 v
  unfold evEElist expectationValue
  rw [h1, ok_bind, g1, ok_bind]
  have hrev : ([.op A, .op B] : List (StateOp ℝ)).reverse = [.op B, .op A] := rfl
  simp only [propagateState, hrev, List.length_cons, List.length_nil, Nat.add_one_ne_zero,
    if_false, propStep, List.foldlM_cons, List.foldlM_nil, if_true, g3, h3, ok_bind]
  rw [mean_single, Module.End.mul_apply, E_core, E_core, inner_core, ← g4, ← h4, ← dot_eq_inner hs.valid]
  rfl

theorem evEEprod_sem (ht : ExactTiny tiny) (hs : AnsatzSpace ci ci.nA) (hth : th.Fair ci.idx2det.length)
    (c : Vec ℝ) {p q r s : ℕ} (hp : p < ci.nA) (hq : q < ci.nA) (hr : r < ci.nA) (hs' : s < ci.nA) :
    evEEprod tiny th ci c (ci.nI + p) (ci.nI + q) (ci.nI + r) (ci.nI + s)
      = .ok (mean [core (2 * ci.nI) (stateOf ci c)]
        (E (ci.nI + p) (ci.nI + q) * E (ci.nI + r) (ci.nI + s))) := by
  obtain ⟨A, h1, h2, h3⟩ := den_Epq (tiny := tiny) ht (ci.nI + p) (ci.nI + q)
  obtain ⟨B, g1, g2, g3⟩ := den_Epq (tiny := tiny) ht (ci.nI + r) (ci.nI + s)
  obtain ⟨C, k1, k2, k3⟩ := den_mul ht h2 g2
  have hA := keys_Epq (P := (· < 2 * (ci.nI + ci.nA + ci.nV))) (both_lt (by omega)) (both_lt (by omega)) A h1
  have hB := keys_Epq (P := (· < 2 * (ci.nI + ci.nA + ci.nV))) (both_lt (by omega)) (both_lt (by omega)) B g1
  obtain ⟨w, hw, ew⟩ := applyFold ht hs hth (fun _ _ => .error .valueError) k2 (Keys.mul0 hA hB C k1) c
  unfold evEEprod expectationValue
  rw [h1, ok_bind, g1, ok_bind, k1, ok_bind, hw, mean_single, ← h3, ← g3, ← k3, ← ew c]
  rfl

theorem evESA_sem (ht : ExactTiny tiny) (hb : ∀ x, big x = false ↔ x = 0) (hs : AnsatzSpace ci ci.nA)
    (hth : th.Fair ci.idx2det.length) {nS : ℕ} (hn : 0 < nS) (M : Mat ℝ) {p q : ℕ} (hp : p < ci.nA)
    (hq : q < ci.nA) :
    evESA tiny big th ci nS M (ci.nI + p) (ci.nI + q)
      = .ok (mean (rowStates ci nS M) (E (ci.nI + p) (ci.nI + q))) := by
  classical
  obtain ⟨A, h1, -⟩ := E_step (tiny := tiny) ht hs hth hp hq
  have h1' : Epq tiny (ci.nI + p - ci.nI) (ci.nI + q - ci.nI) = .ok A := by
    rw [Nat.add_sub_cancel_left, Nat.add_sub_cancel_left, h1]
  have ht' : ExactTiny (R := ℝ) fun x => decide (x = 0) := fun x hx => by simpa using hx
  have hd := den_Epq (tiny := tiny) ht p q
  have step : ∀ v, ∃ w, applyOp (fun x => decide (x = 0)) th ci false v A = .ok w ∧
      stateOf ci w = E p q (stateOf ci v) := by
    intro v
    obtain ⟨A', e1, e2, e3⟩ := hd
    rw [h1] at e1
    cases e1
    have h0 : ci.offset = 0 := by have := hs.fits; omega
    have hc : ci.ClosedOn (· < 2 * ci.nA) := by
      intro S S' h1 h2 h3 h4
      refine hs.closed S S' h1 (fun p hp => h2 p fun h => hp ?_) h3 h4
      dsimp only at h
      omega
    obtain ⟨w, hw, ew⟩ := applyOp_closed ht' hs.valid hc (fun _ h => h) hth v e2
      (keys_Epq (P := (· < 2 * ci.nA)) (both_lt hp) (both_lt hq) A h1)
    exact ⟨w, hw, by rw [ew, e3]⟩
  have row : ∀ v, expectationValue (fun x => decide (x = 0)) th ci (fun _ _ => .error .valueError) false false
      v [.op A] v = .ok (inner (core (2 * ci.nI) (stateOf ci v))
        ((E (ci.nI + p) (ci.nI + q) : FOp ℝ) (core (2 * ci.nI) (stateOf ci v)))) := by
    intro v
    obtain ⟨w, h3, h4⟩ := step v
    unfold expectationValue
    simp only [propagateState, propStep, List.length_singleton, Nat.one_ne_zero, if_false,
      List.reverse_singleton, List.foldlM_cons, List.foldlM_nil, Bool.false_eq_true, h3, ok_bind]
    rw [E_core, inner_core, ← h4, ← dot_eq_inner hs.valid]
    rfl
  unfold evESA
  rw [h1', ok_bind]
  rcases C24_mean (tiny := fun x : ℝ => decide (x = 0)) (by simp) hb th ci (fun _ _ => .error .valueError)
    (fun _ _ => .error .valueError) false hn (fun b M => Or.inr ⟨_, rfl, 0, hn, rfl⟩) M M [.op A] with
    ⟨val, k1, k2⟩ | ⟨e, k1, a, ha, k2⟩
  · rw [k2, mean_rowStates]
    congr 2
    refine Finset.sum_congr rfl fun a ha => ?_
    have := k1 a (Finset.mem_range.1 ha)
    rw [row] at this
    exact (Except.ok.inj this).symm
  · rw [row] at k2; cases k2

theorem evEESA_sem (ht : ExactTiny tiny) (hb : ∀ x, big x = false ↔ x = 0) (hs : AnsatzSpace ci ci.nA)
    (hth : th.Fair ci.idx2det.length) {nS : ℕ} (hn : 0 < nS) (M : Mat ℝ) {p q r s : ℕ} (hp : p < ci.nA)
    (hq : q < ci.nA) (hr : r < ci.nA) (hs' : s < ci.nA) :
    evEESA tiny big th ci nS M (ci.nI + p) (ci.nI + q) (ci.nI + r) (ci.nI + s)
      = .ok (mean (rowStates ci nS M) (E (ci.nI + p) (ci.nI + q) * E (ci.nI + r) (ci.nI + s))) := by
  classical
  have ht' : ExactTiny (R := ℝ) fun x => decide (x = 0) := fun x hx => by simpa using hx
  have hc : ci.ClosedOn (· < 2 * ci.nA) := by
    intro S S' h1 h2 h3 h4
    refine hs.closed S S' h1 (fun p hp => h2 p fun h => hp ?_) h3 h4
    have := hs.fits
    dsimp only at h
    omega
  have step : ∀ {p q : ℕ}, p < ci.nA → q < ci.nA → ∃ A, Epq tiny p q = .ok A ∧ ∀ v, ∃ w,
      applyOp (fun x => decide (x = 0)) th ci false v A = .ok w ∧ stateOf ci w = E p q (stateOf ci v) := by
    intro p q hp hq
    obtain ⟨A, e1, e2, e3⟩ := den_Epq (tiny := tiny) ht p q
    refine ⟨A, e1, fun v => ?_⟩
    obtain ⟨w, hw, ew⟩ := applyOp_closed ht' hs.valid hc (fun _ h => h) hth v e2
      (keys_Epq (P := (· < 2 * ci.nA)) (both_lt hp) (both_lt hq) A e1)
    exact ⟨w, hw, by rw [ew, e3]⟩
  obtain ⟨A, h1, h2⟩ := step hp hq
  obtain ⟨B, g1, g2⟩ := step hr hs'
  have row : ∀ v, expectationValue (fun x => decide (x = 0)) th ci (fun _ _ => .error .valueError) false false
      v [.op A, .op B] v = .ok (inner (core (2 * ci.nI) (stateOf ci v))
        ((E (ci.nI + p) (ci.nI + q) * E (ci.nI + r) (ci.nI + s) : FOp ℝ)
          (core (2 * ci.nI) (stateOf ci v)))) := by
    intro v
    obtain ⟨u, g3, g4⟩ := g2 v
    obtain ⟨w, h3, h4⟩ := h2 u
    unfold expectationValue
    have hrev : ([.op A, .op B] : List (StateOp ℝ)).reverse = [.op B, .op A] := rfl
    simp only [propagateState, hrev, List.length_cons, List.length_nil, Nat.add_one_ne_zero,
      if_false, propStep, List.foldlM_cons, List.foldlM_nil, Bool.false_eq_true, g3, h3, ok_bind]
    rw [Module.End.mul_apply, E_core, E_core, inner_core, ← g4, ← h4, ← dot_eq_inner hs.valid]
    rfl
  unfold evEESA
  simp only [Nat.add_sub_cancel_left]
  rw [h1, ok_bind, g1, ok_bind]
  rcases C24_mean (tiny := fun x : ℝ => decide (x = 0)) (by simp) hb th ci (fun _ _ => .error .valueError)
    (fun _ _ => .error .valueError) false hn (fun b M => Or.inr ⟨_, rfl, 0, hn, rfl⟩) M M
    [.op A, .op B] with ⟨val, k1, k2⟩ | ⟨e, k1, a, ha, k2⟩
  · rw [k2, mean_rowStates]
    congr 2
    refine Finset.sum_congr rfl fun a ha => ?_
    have := k1 a (Finset.mem_range.1 ha)
    rw [row] at this
    exact (Except.ok.inj this).symm
  · rw [row] at k2; cases k2

/-! ## C29 -/

/-- C29, `WaveFunctionUPS`: `rdm1` and `rdm2` are the one- and two-electron density matrices of the wave
function; every entry is filled although the loops visit only some index tuples. -/
theorem C29_ups (ht : ExactTiny tiny) (hs : AnsatzSpace ci ci.nA) (hth : th.Fair ci.idx2det.length)
    (c : Vec ℝ) : ∃ R1 R2, upsRdm1 tiny th ci c = .ok R1 ∧ upsRdm2 tiny th ci c = .ok R2 ∧
      IsRdm ci.nI ci.nA [core (2 * ci.nI) (stateOf ci c)] R1 R2 := by
  obtain ⟨R1, h1, h2⟩ := rdm1Loop_sem (ev := evE tiny th ci c) fun p q hp hq => evE_sem ht hs hth c hp hq
  obtain ⟨R2, h3, h4⟩ := rdm2Loop_sem (ev := evEEprod tiny th ci c) h2 fun p q r s hp hq hr hs' =>
    evEEprod_sem ht hs hth c hp hq hr hs'
  refine ⟨R1, R2, h1, ?_, h2, h4⟩
  unfold upsRdm2 upsRdm1
  rw [h1]
  exact h3

/-- C29, `WaveFunctionUCC`. -/
theorem C29_ucc (ht : ExactTiny tiny) (hs : AnsatzSpace ci ci.nA) (hth : th.Fair ci.idx2det.length)
    (c : Vec ℝ) : ∃ R1 R2, upsRdm1 tiny th ci c = .ok R1 ∧ uccRdm2 tiny th ci c = .ok R2 ∧
      IsRdm ci.nI ci.nA [core (2 * ci.nI) (stateOf ci c)] R1 R2 := by
  obtain ⟨R1, h1, h2⟩ := rdm1Loop_sem (ev := evE tiny th ci c) fun p q hp hq => evE_sem ht hs hth c hp hq
  obtain ⟨R2, h3, h4⟩ := rdm2Loop_sem (ev := evEElist tiny th ci c) h2 fun p q r s hp hq hr hs' =>
    evEElist_sem ht hs hth c hp hq hr hs'
  refine ⟨R1, R2, h1, ?_, h2, h4⟩
  unfold uccRdm2 upsRdm1
  rw [h1]
  exact h3

/-- C29, `WaveFunctionSAUPS`: the matrices of the ensemble are the means over the states. -/
theorem C29_sa (ht : ExactTiny tiny) (hb : ∀ x, big x = false ↔ x = 0) (hs : AnsatzSpace ci ci.nA)
    (hth : th.Fair ci.idx2det.length) {nS : ℕ} (hn : 0 < nS) (M : Mat ℝ) :
    ∃ R1 R2, saRdm1 tiny big th ci nS M = .ok R1 ∧ saRdm2 tiny big th ci nS M = .ok R2 ∧
      IsRdm ci.nI ci.nA (rowStates ci nS M) R1 R2 := by
  obtain ⟨R1, h1, h2⟩ := rdm1Loop_sem (ev := evESA tiny big th ci nS M) fun p q hp hq =>
    evESA_sem ht hb hs hth hn M hp hq
  obtain ⟨R2, h3, h4⟩ := rdm2Loop_sem (ev := evEESA tiny big th ci nS M) h2 fun p q r s hp hq hr hs' =>
    evEESA_sem ht hb hs hth hn M hp hq hr hs'
  refine ⟨R1, R2, h1, ?_, h2, h4⟩
  unfold saRdm2 saRdm1
  unfold rdm1Loop at h1 ⊢
  rw [h1]
  exact h3

/-- The states of C29 meet the hypothesis of C30-C34 when the coefficient vectors are normalised. -/
theorem C30_reference (hs : AnsatzSpace ci ci.nA) {nS : ℕ} (hn : 0 < nS) (M : Mat ℝ)
    (hM : ∀ a < nS, dot ci.idx2det.length (M a) (M a) = 1) :
    Reference ci.nI ci.nA (rowStates ci nS M) := by
  refine ⟨fun Ψ hΨ => ?_, ?_⟩
  · obtain ⟨a, -, rfl⟩ := List.mem_map.1 hΨ
    exact activeState_core (below_stateOf _ _)
  · rw [mean_rowStates]
    have : ∀ a ∈ Finset.range nS, inner (core (2 * ci.nI) (stateOf ci (M a)))
        ((1 : FOp ℝ) (core (2 * ci.nI) (stateOf ci (M a)))) = 1 := by
      intro a ha
      rw [Module.End.one_apply, inner_core, ← dot_eq_inner hs.valid, hM a (Finset.mem_range.1 ha)]
    rw [Finset.sum_congr rfl this]
    rw [Finset.sum_const, Finset.card_range, nsmul_eq_mul, mul_one, div_self (by exact_mod_cast hn.ne')]

/-- Energy, orbital gradient etc. from the density matrices of the code: `get_electronic_energy` of the
computed density matrices is the expectation value of the Hamiltonian in the wave function. -/
theorem C31_ups (ht : ExactTiny tiny) (hs : AnsatzSpace ci ci.nA) (hth : th.Fair ci.idx2det.length)
    (c : Vec ℝ) (hc : dot ci.idx2det.length c c = 1) (h : Mat ℝ) (g : Arr4) :
    ∃ R1 R2, upsRdm1 tiny th ci c = .ok R1 ∧ upsRdm2 tiny th ci c = .ok R2 ∧
      getElectronicEnergy h g ci.nI ci.nA R1 R2 = inner (core (2 * ci.nI) (stateOf ci c))
        (electronic h g (ci.nI + ci.nA + ci.nV) (core (2 * ci.nI) (stateOf ci c))) := by
  obtain ⟨R1, R2, h1, h2, h3⟩ := C29_ups ht hs hth c
  have hR := C30_reference hs (nS := 1) one_pos (fun _ => c) fun _ _ => hc
  have e : rowStates ci 1 (fun _ => c) = [core (2 * ci.nI) (stateOf ci c)] := rfl
  rw [e] at hR
  exact ⟨R1, R2, h1, h2, by rw [C31_energy (nV := ci.nV) hR h3, mean_single]⟩

/-! ### A case meeting the hypotheses -/

/-- Two electrons in two active orbitals, one inactive and one virtual orbital: the first determinant is
a normalised reference; its density matrices exist. -/
example : ∃ ci : CIInfo, getIndexing 1 2 1 1 1 = .ok ci ∧ AnsatzSpace ci ci.nA ∧
    Threads.Fair .one ci.idx2det.length ∧
    dot ci.idx2det.length (fun i => if i = 0 then (1 : ℝ) else 0) (fun i => if i = 0 then 1 else 0) = 1 ∧
    ∃ R1 R2, Reference ci.nI ci.nA (rowStates ci 1 fun _ i => if i = 0 then 1 else 0) ∧
      IsRdm ci.nI ci.nA (rowStates ci 1 fun _ i => if i = 0 then 1 else 0) R1 R2 := by
  classical
  obtain ⟨ci, h1, h2, h3⟩ := (C26_spaces 1 2 1 1 1 0).1 (by decide)
  have hl : 0 < ci.idx2det.length := by
    have : (match getIndexing 1 2 1 1 1 with | .ok c => decide (0 < c.idx2det.length) | .error _ => false)
        = true := by decide +kernel
    rw [h1] at this
    simpa using this
  have hd : dot ci.idx2det.length (fun i => if i = 0 then (1 : ℝ) else 0) (fun i => if i = 0 then 1 else 0)
      = 1 := by
    unfold dot
    rw [list_sum_range]
    simp [hl.ne']
  obtain ⟨R1, R2, -, -, h⟩ := C29_sa (tiny := fun x : ℝ => decide (x = 0)) (big := fun x => decide (x ≠ 0))
    (th := .one) (fun x hx => by simpa using hx) (fun x => by simp) h2 trivial (nS := 1) one_pos
    (fun _ i => if i = 0 then 1 else 0)
  exact ⟨ci, h1, h2, trivial, hd, R1, R2, C30_reference h2 one_pos _ fun _ _ => hd, h⟩

/-- Nonzero integrals with the symmetries. -/
example : RealIntegrals (fun p q => p + q + 1) (fun p q r s => (p + q) * (r + s) + 1) :=
  ⟨fun p q => by ring, fun p q r s => by ring, fun p q r s => by ring⟩

/-- Non-redundant pairs of the same space. -/
example : NonRedundant 1 2 (0, 1) ∧ NonRedundant 1 2 (0, 3) ∧ NonRedundant 1 2 (2, 3) := by
  simp [NonRedundant]

end SQ
