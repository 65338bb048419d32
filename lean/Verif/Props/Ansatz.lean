import Verif.Lemmas.EnergySem
import Verif.Props.CISpaces
import Verif.Props.StateAlgebra
import Mathlib.Topology.Order.OrderClosed

/-!
# C26-C28, C70, C71: the unitary product ansatz, its energy and its gradient

`Excitation`, `Layout`, `ExpTo`, `ExpChain`, `AnsatzSpace`, `effAngle`: Spec/Ansatz.lean.
Shared hypotheses: the cut-offs of the operator and state algebra only drop zeros, the space is one
the program builds (`C26_spaces`), and with several threads every loop iteration is run once.
-/

namespace SQ

section
variable {tiny big : ℝ → Bool} {ci : CIInfo} {n : ℕ} {th : Threads}

/-! ## C26 -/

/-- C26: the spaces the program builds are as required: for `get_indexing` all orbitals of the space
are active, for `get_indexing_extended` the middle `nA`. -/
theorem C26_spaces (nI nA nV : ℕ) (na nb order : ℤ) :
    (0 < nA → ∃ ci, getIndexing nI nA nV na nb = .ok ci ∧ AnsatzSpace ci ci.nA ∧ ci.nA = nA) ∧
    (0 < nI + nA + nV → order ≤ 2 → ∃ ci, getIndexingExtended nI nA nV na nb order = .ok ci ∧
      AnsatzSpace ci nA ∧ ci.offset = nI) := by
  constructor
  · intro hA
    obtain ⟨ci, h1, h2, h3, h4, h5, h6, -, h7⟩ := C17_space hA nI nV na nb
    refine ⟨ci, h1, ⟨h6, by omega, ?_⟩, h3⟩
    intro S S' hS hP ha hb
    refine closedOn_cas h7 S S' hS (fun p hp => hP p ?_) ha hb
    dsimp only at hp
    omega
  · intro hN ho
    obtain ⟨ci, h1, h2, h3, h4, h5, h6, -, h7⟩ := C18_space hN na nb order ho
    refine ⟨ci, h1, ⟨h6, by omega, ?_⟩, h5⟩
    rw [h5]
    exact closedOn_extended h7

/-- C26: for every excitation and every angle, applying the factor to a CI vector gives the CI vector
of `exp(θ T)` applied to the state. -/
theorem C26_factor (ht : ExactTiny tiny) (hs : AnsatzSpace ci n) (hth : th.Fair ci.idx2det.length)
    {ty : String} {idx : List ℕ} {T : FOp ℝ} (h : Excitation ci.offset n ty idx T) (θ : ℝ) (v : Vec ℝ) :
    ∃ w, applyExc (propVec tiny th ci) tiny ci.offset ty idx θ v = .ok w ∧
      ExpTo T θ (stateOf ci v) (stateOf ci w) := by
  obtain ⟨m, s, Q, h1, h2, h3, h4⟩ := exc_acts ht hs hth h
  obtain ⟨w, hw, ew⟩ := h4 θ v
  refine ⟨w, hw, fun S => ?_⟩
  rw [ew]
  exact h1.isExp θ _ S

/-- C26: `construct_ups_state` applies the exponentials one after the other, the first entry of the
layout first; with `dagger` the inverse exponentials in opposite order. -/
theorem C26_state (ht : ExactTiny tiny) (hs : AnsatzSpace ci n) (hth : th.Fair ci.idx2det.length)
    {st : AnsatzStruct} {Ts : List (FOp ℝ)} (h : Layout ci.offset n st.types st.indices Ts)
    (thetas : List ℝ) (v : Vec ℝ) :
    (∃ w, constructUps (propVec tiny th ci) tiny ci.offset st thetas false v = .ok w ∧
      ExpChain (Ts.zip (thetas.map effAngle)) (stateOf ci v) (stateOf ci w)) ∧
    (∃ w, constructUps (propVec tiny th ci) tiny ci.offset st thetas true v = .ok w ∧
      ExpChain (Ts.reverse.zip (thetas.reverse.map fun θ => -effAngle θ)) (stateOf ci v) (stateOf ci w)) := by
  constructor
  · obtain ⟨gs, g1, g2⟩ := layout_facs ht hs hth h thetas
    obtain ⟨w, hw, ew⟩ := fold_acts g1 false v
    refine ⟨w, hw, ?_⟩
    have := opOf_chain (good_of_real g1) (stateOf ci v)
    rw [g2] at this
    rw [ew]
    convert this using 2
    congr 1
    exact (List.map_congr_left fun g _ => by simp).trans (List.map_id _)
  · obtain ⟨gs, g1, g2⟩ := layout_facs ht hs hth h.reverse thetas.reverse
    obtain ⟨w, hw, ew⟩ := fold_acts g1 true v
    refine ⟨w, hw, ?_⟩
    have hgood : GoodFacs (gs.map fun g => ((if true = true then -g.1 else g.1), g.2)) := by
      intro g hg
      obtain ⟨g', hg', rfl⟩ := List.mem_map.1 hg
      exact good_of_real g1 g' hg'
    have := opOf_chain hgood (stateOf ci v)
    rw [List.map_map] at this
    rw [ew]
    convert this using 1
    have e : (gs.map ((fun g : Fac => (g.2.1, g.1)) ∘ fun g => ((if true = true then -g.1 else g.1), g.2)))
        = (gs.map fun g => (g.2.1, g.1)).map (fun p => (p.1, -p.2)) := by
      rw [List.map_map]; rfl
    rw [e, g2, List.map_zip_eq_zipWith, List.zip_eq_zipWith, List.zipWith_map_right, List.zipWith_map_right]
    simp [Function.comp_def]

/-- C26: the result of a chain of exponentials is determined by the chain. -/
theorem C26_unique {l : List (FOp ℝ × ℝ)} {x y z : Fock ℝ} (h : ExpChain l x y) (k : ExpChain l x z) :
    y = z := expChain_unique h k

/-- C26: an unknown excitation name, or the wrong number of indices, raises `ValueError` (for a
non-negligible angle), whatever the state. -/
theorem C26_errors {V : Type} [AddCommGroup V] [Module ℝ V] (prop : List (Dict ℝ) → V → Res V)
    (tiny : ℝ → Bool) (offset : ℕ) (ty : String) (idx : List ℕ) (θ : ℝ) (v : V)
    (h : arity ty ≠ some idx.length) :
    applyExc prop tiny offset ty idx θ v = .error .valueError := by
  have single : arity ty = some 2 → ∀ off, ∀ i a, idx.map (· + off) ≠ [i, a] := by
    intro h2 off i a hc
    apply h
    rw [h2, ← List.length_map (f := (· + off)), hc]; rfl
  have quad : arity ty = some 4 → ∀ off, ∀ i j a b, idx.map (· + off) ≠ [i, j, a, b] := by
    intro h2 off i j a b hc
    apply h
    rw [h2, ← List.length_map (f := (· + off)), hc]; rfl
  have six : arity ty = some 6 → ∀ off, ∀ i j k a b c, idx.map (· + off) ≠ [i, j, k, a, b, c] := by
    intro h2 off i j k a b c hc
    apply h
    rw [h2, ← List.length_map (f := (· + off)), hc]; rfl
  have eight : arity ty = some 8 → ∀ off, ∀ i j k l a b c d,
      idx.map (· + off) ≠ [i, j, k, l, a, b, c, d] := by
    intro h2 off i j k l a b c d hc
    apply h
    rw [h2, ← List.length_map (f := (· + off)), hc]; rfl
  have ten : arity ty = some 10 → ∀ off, ∀ i j k l m a b c d e,
      idx.map (· + off) ≠ [i, j, k, l, m, a, b, c, d, e] := by
    intro h2 off i j k l m a b c d e hc
    apply h
    rw [h2, ← List.length_map (f := (· + off)), hc]; rfl
  have twelve : arity ty = some 12 → ∀ off, ∀ i j k l m n a b c d e f,
      idx.map (· + off) ≠ [i, j, k, l, m, n, a, b, c, d, e, f] := by
    intro h2 off i j k l m n a b c d e f hc
    apply h
    rw [h2, ← List.length_map (f := (· + off)), hc]; rfl
  have sad : ∀ c, arity ty = some 4 → saDouble tiny offset c idx = .error .valueError := by
    intro c h4
    unfold saDouble
    split
    · rename_i heq; exact absurd heq (quad h4 _ _ _ _ _)
    · rfl
  have hT : ty ≠ "sa_single" → excT tiny offset ty idx = .error .valueError := by
    intro _
    unfold excT
    by_cases h0 : ty = "single"
    · rw [if_pos h0]; subst h0; split
      · rename_i heq; exact absurd heq (single rfl _ _ _)
      · rfl
    rw [if_neg h0]
    by_cases h1 : ty = "double"
    · rw [if_pos h1]; subst h1; split
      · rename_i heq; exact absurd heq (quad rfl _ _ _ _ _)
      · rfl
    rw [if_neg h1]
    by_cases h2 : ty = "triple"
    · rw [if_pos h2]; subst h2; split
      · rename_i heq; exact absurd heq (six rfl _ _ _ _ _ _ _)
      · rfl
    rw [if_neg h2]
    by_cases h3 : ty = "quadruple"
    · rw [if_pos h3]; subst h3; split
      · rename_i heq; exact absurd heq (eight rfl _ _ _ _ _ _ _ _ _)
      · rfl
    rw [if_neg h3]
    by_cases h4 : ty = "quintuple"
    · rw [if_pos h4]; subst h4; split
      · rename_i heq; exact absurd heq (ten rfl _ _ _ _ _ _ _ _ _ _ _)
      · rfl
    rw [if_neg h4]
    by_cases h5 : ty = "sextuple"
    · rw [if_pos h5]; subst h5; split
      · rename_i heq; exact absurd heq (twelve rfl _ _ _ _ _ _ _ _ _ _ _ _ _)
      · rfl
    rw [if_neg h5]
    by_cases k1 : ty = "sa_double_1"
    · rw [if_pos k1]; subst k1; exact sad _ rfl
    rw [if_neg k1]
    by_cases k2 : ty = "sa_double_2"
    · rw [if_pos k2]; subst k2; exact sad _ rfl
    rw [if_neg k2]
    by_cases k3 : ty = "sa_double_3"
    · rw [if_pos k3]; subst k3; exact sad _ rfl
    rw [if_neg k3]
    by_cases k4 : ty = "sa_double_4"
    · rw [if_pos k4]; subst k4; exact sad _ rfl
    rw [if_neg k4]
    by_cases k5 : ty = "sa_double_5"
    · rw [if_pos k5]; subst k5; exact sad _ rfl
    rw [if_neg k5]
  unfold applyExc
  split_ifs with h1 h2 h3 h4 h5
  · subst h1
    have : saSingle tiny offset idx = .error .valueError := by
      unfold saSingle
      split
      · rename_i heq; exact absurd heq (single rfl _ _ _)
      · rfl
    rw [this]
  · rw [hT h1]
  · rw [hT h1]
  · rw [hT h1]
  · rw [hT h1]
  · rfl

/-- C26/C24: the ensemble version of the ansatz does to every row what the single-state version does
(so the hypothesis about `U` in C24 holds for the ansatz). -/
theorem C26_ensemble (ht : ∀ x, tiny x = true ↔ x = 0) (hb : ∀ x, big x = false ↔ x = 0) (th : Threads)
    (ci : CIInfo) {nS : ℕ} (hn : 0 < nS) (st : AnsatzStruct) (thetas : List ℝ) (dagger : Bool) (M : Mat ℝ) :
    (∃ M', constructUps (propMat big th ci nS) tiny ci.offset st thetas dagger M = .ok M' ∧
      ∀ a < nS, constructUps (propVec tiny th ci) tiny ci.offset st thetas dagger (M a) = .ok (M' a)) ∨
    ∃ e, constructUps (propMat big th ci nS) tiny ci.offset st thetas dagger M = .error e ∧
      ∃ a < nS, constructUps (propVec tiny th ci) tiny ci.offset st thetas dagger (M a) = .error e :=
  constructUps_rows hn (propMat_rows ht hb th ci hn) tiny ci.offset st thetas dagger M

/-- C26/C24: so an ensemble expectation value with `'U'` and `'Ud'` among the operators is the mean of
the single-state ones. -/
theorem C24_with_ansatz (ht : ∀ x, tiny x = true ↔ x = 0) (hb : ∀ x, big x = false ↔ x = 0) (th : Threads)
    (ci : CIInfo) {nS : ℕ} (hn : 0 < nS) (st : AnsatzStruct) (thetas : List ℝ) (doFolding : Bool)
    (bra kt : Mat ℝ) (ops : List (StateOp ℝ)) :
    let USA := fun b => constructUps (propMat big th ci nS) tiny ci.offset st thetas b
    let U := fun b => constructUps (propVec tiny th ci) tiny ci.offset st thetas b
    (∃ val : ℕ → ℝ, (∀ a < nS, expectationValue tiny th ci U doFolding false (bra a) ops (kt a)
        = .ok (val a)) ∧
      expectationValueSA big th ci USA doFolding nS bra ops kt
        = .ok ((∑ a ∈ Finset.range nS, val a) / nS)) ∨
    ∃ e, expectationValueSA big th ci USA doFolding nS bra ops kt = .error e ∧
      ∃ a < nS, expectationValue tiny th ci U doFolding false (bra a) ops (kt a) = .error e :=
  C24_mean ht hb th ci _ _ doFolding hn (C26_ensemble ht hb th ci hn st thetas) bra kt ops

/-! ## C27 -/

/-- C27: `construct_ups_state`, with and without `dagger`, always succeeds and preserves the dot
product of any two vectors, in particular norms. -/
theorem C27_norm (ht : ExactTiny tiny) (hs : AnsatzSpace ci n) (hth : th.Fair ci.idx2det.length)
    {st : AnsatzStruct} {Ts : List (FOp ℝ)} (h : Layout ci.offset n st.types st.indices Ts)
    (thetas : List ℝ) (dagger : Bool) (v w : Vec ℝ) :
    ∃ v' w', constructUps (propVec tiny th ci) tiny ci.offset st thetas dagger v = .ok v' ∧
      constructUps (propVec tiny th ci) tiny ci.offset st thetas dagger w = .ok w' ∧
      dot ci.idx2det.length v' w' = dot ci.idx2det.length v w := by
  have key : ∀ {types indices Ts}, Layout ci.offset n types indices Ts → ∀ thetas : List ℝ,
      ∃ U : FOp ℝ, (∀ x y, inner (U x) (U y) = inner x y) ∧ ActsAs ci (fun v =>
        (types.zip (indices.zip thetas)).foldlM (upsStep (propVec tiny th ci) tiny ci.offset dagger) v) U := by
    intro types indices Ts h thetas
    obtain ⟨gs, g1, -⟩ := layout_facs ht hs hth h thetas
    refine ⟨_, fun x y => opOf_inner ?_ x y, fold_acts g1 dagger⟩
    intro g hg
    obtain ⟨g', hg', rfl⟩ := List.mem_map.1 hg
    exact good_of_real g1 g' hg'
  obtain ⟨U, hU, hact⟩ : ∃ U : FOp ℝ, (∀ x y, inner (U x) (U y) = inner x y) ∧
      ActsAs ci (constructUps (propVec tiny th ci) tiny ci.offset st thetas dagger) U := by
    cases dagger with
    | false => exact key h thetas
    | true => exact key h.reverse thetas.reverse
  obtain ⟨v', h1, e1⟩ := hact v
  obtain ⟨w', h2, e2⟩ := hact w
  exact ⟨v', w', h1, h2, by rw [dot_eq_inner hs.valid, dot_eq_inner hs.valid, e1, e2, hU]⟩

/-- C27: with one angle per excitation, `dagger=True` undoes `dagger=False` and conversely. -/
theorem C27_inverse (ht : ExactTiny tiny) (hs : AnsatzSpace ci n) (hth : th.Fair ci.idx2det.length)
    {st : AnsatzStruct} {Ts : List (FOp ℝ)} (h : Layout ci.offset n st.types st.indices Ts)
    {thetas : List ℝ} (hl : st.types.length = thetas.length) (b : Bool) (v : Vec ℝ) :
    ∃ w v', constructUps (propVec tiny th ci) tiny ci.offset st thetas b v = .ok w ∧
      constructUps (propVec tiny th ci) tiny ci.offset st thetas (!b) w = .ok v' ∧
      ∀ i < ci.idx2det.length, v' i = v i := by
  obtain ⟨gs, g1, -⟩ := layout_facs ht hs hth h thetas
  obtain ⟨a1, a2⟩ := ups_acts g1 hl (by rw [h.length.2, ← h.length.1, hl])
  obtain ⟨i1, i2⟩ := opOf_inv (good_of_real g1)
  cases b with
  | false =>
    obtain ⟨w, hw, ew⟩ := a1 v
    obtain ⟨v', hv', ev'⟩ := a2 w
    refine ⟨w, v', hw, hv', stateOf_inj hs.valid ?_⟩
    rw [ev', ew, ← Module.End.mul_apply, i1]; rfl
  | true =>
    obtain ⟨w, hw, ew⟩ := a2 v
    obtain ⟨v', hv', ev'⟩ := a1 w
    refine ⟨w, v', hw, hv', stateOf_inj hs.valid ?_⟩
    rw [ev', ew, ← Module.End.mul_apply, i2]; rfl

/-! ## C28 -/

/-- C28: `propagate_unitary` for `idx = 0, 1, ..., len-1` is `construct_ups_state`, for any kind of
state (single or ensemble), including the exceptions. -/
theorem C28_stepwise {V : Type} [AddCommGroup V] [Module ℝ V] (prop : List (Dict ℝ) → V → Res V)
    (tiny : ℝ → Bool) (offset : ℕ) (st : AnsatzStruct) (thetas : List ℝ)
    (h1 : st.types.length = thetas.length) (h2 : st.indices.length = thetas.length) (v : V) :
    (List.range thetas.length).foldlM (fun s i => propagateUnitary prop tiny offset st thetas i s) v
      = constructUps prop tiny offset st thetas false v := by
  have hlen : (st.types.zip (st.indices.zip thetas)).length = thetas.length := by
    simp [h1, h2]
  have := foldlM_range (upsStep prop tiny offset false)
    (fun s i => propagateUnitary prop tiny offset st thetas i s) (st.types.zip (st.indices.zip thetas)) 0
    (fun i x hx v => by rw [Nat.add_zero, propagateUnitary_eq, hx]) v
  rw [hlen] at this
  have e : (List.range thetas.length).map (· + 0) = List.range thetas.length := by simp
  rw [e] at this
  exact this

/-- C28: the other way round, an index beyond the layout raises `IndexError`. -/
theorem C28_range {V : Type} [AddCommGroup V] [Module ℝ V] (prop : List (Dict ℝ) → V → Res V)
    (tiny : ℝ → Bool) (offset : ℕ) (st : AnsatzStruct) (thetas : List ℝ) (i : ℕ)
    (h : st.types.length ≤ i) (v : V) :
    propagateUnitary prop tiny offset st thetas i v = .error .indexError ∧
      gradAction prop tiny offset st i v = .error .indexError := by
  have : st.types[i]? = none := List.getElem?_eq_none h
  unfold propagateUnitary gradAction
  rw [this]
  exact ⟨rfl, rfl⟩

/-! ## C70 -/

theorem keys_of_balanced {P : ℕ → Prop} {A : Dict ℝ} (hb : ∀ kv ∈ A, SpinBalanced kv.1)
    (hr : ∀ kv ∈ A, ∀ o ∈ kv.1, P o.1) : Keys P (fun _ => 0) A := by
  intro kv hkv
  refine ⟨hr kv hkv, fun w hw => ?_⟩
  obtain ⟨h1, h2⟩ := hb kv hkv
  have key : ∀ s : Str, strWeight w s
      = w 0 * ((s.countP (fun o => o.2 && o.1 % 2 == 0) : ℤ) - s.countP (fun o => !o.2 && o.1 % 2 == 0))
      + w 1 * ((s.countP (fun o => o.2 && o.1 % 2 == 1) : ℤ) - s.countP (fun o => !o.2 && o.1 % 2 == 1)) := by
    intro s
    induction s with
    | nil => simp [strWeight]
    | cons o s ih =>
      rw [strWeight_cons, ih]
      obtain ⟨p, b⟩ := o
      simp only [List.countP_cons]
      have h0 := hw (p / 2)
      rcases Nat.mod_two_eq_zero_or_one p with hp | hp
      · have : w p = w 0 := by rw [← h0.1]; congr 1; omega
        cases b <;> simp [hp, this] <;> ring
      · have : w p = w 1 := by rw [← h0.2]; congr 1; omega
        cases b <;> simp [hp, this] <;> ring
  rw [key, h1, h2]; ring

/-- C70: on a complete active space (`C26_spaces`), `propagate_state([A], v)` with folding succeeds for
every operator whose strings conserve the electrons of each spin, and the result has the right overlap
with every vector: the matrix element of `A` between the states with filled inactive orbitals. -/
theorem C70_folded (ht : ExactTiny tiny) (hs : AnsatzSpace ci ci.nA) (hth : th.Fair ci.idx2det.length)
    (U : Bool → Vec ℝ → Res (Vec ℝ)) {A : Dict ℝ} (hA : NumCons A) (hb : ∀ kv ∈ A, SpinBalanced kv.1)
    (hr : ∀ kv ∈ A, ∀ o ∈ kv.1, o.1 < 2 * (ci.nI + ci.nA + ci.nV)) (v : Vec ℝ) :
    ∃ w, propagateState tiny th ci U true false [.op A] v = .ok w ∧
      ∀ bra, dot ci.idx2det.length bra w
        = inner (core (2 * ci.nI) (stateOf ci bra)) (sumOp A (core (2 * ci.nI) (stateOf ci v))) :=
  applyFold ht hs hth U hA (keys_of_balanced hb hr) v

/-- C70: applied to `hamiltonian_0i_0a`: the overlaps are the matrix elements of the full Hamiltonian. -/
theorem C70_hamiltonian (ht : ExactTiny tiny) (hb : ExactBig big) (hs : AnsatzSpace ci ci.nA)
    (hth : th.Fair ci.idx2det.length) (h : ℕ → ℕ → ℝ) (g : ℕ → ℕ → ℕ → ℕ → ℝ) (v : Vec ℝ) :
    ∃ w, applyHam tiny big th ci h g v = .ok w ∧ ∀ bra, dot ci.idx2det.length bra w
        = inner (core (2 * ci.nI) (stateOf ci bra))
          ((oneOp h (ci.nI + ci.nA + ci.nV) + (1 / 2 : ℝ) • twoOp g (ci.nI + ci.nA + ci.nV))
            (core (2 * ci.nI) (stateOf ci v))) :=
  applyHam_sem ht hb hs hth h g v

/-- C70: the electronic energy of the wave function is the expectation value of the full Hamiltonian in
the state built by the chain of exponentials, with the inactive orbitals filled. -/
theorem C70_energy (ht : ExactTiny tiny) (hb : ExactBig big) (hs : AnsatzSpace ci ci.nA)
    (hth : th.Fair ci.idx2det.length) (h : ℕ → ℕ → ℝ) (g : ℕ → ℕ → ℕ → ℕ → ℝ)
    {st : AnsatzStruct} {Ts : List (FOp ℝ)} (hL : Layout ci.offset ci.nA st.types st.indices Ts)
    (csf : Vec ℝ) (thetas : List ℝ) :
    ∃ val ψ, upsEnergy tiny big th ci h g st csf thetas = .ok val ∧
      ExpChain (Ts.zip (thetas.map effAngle)) (stateOf ci csf) ψ ∧
      val = inner (core (2 * ci.nI) ψ)
        ((oneOp h (ci.nI + ci.nA + ci.nV) + (1 / 2 : ℝ) • twoOp g (ci.nI + ci.nA + ci.nV))
          (core (2 * ci.nI) ψ)) := by
  obtain ⟨c, hc, ec⟩ := (C26_state ht hs hth hL thetas csf).1
  obtain ⟨w, hw, ew⟩ := applyHam_sem (tiny := tiny) ht hb hs hth h g c
  refine ⟨dot ci.idx2det.length c w, stateOf ci c, ?_, ec, ew c⟩
  unfold upsEnergy upsVec
  rw [hc]
  show (applyHam tiny big th ci h g c >>= fun w => pure (dot ci.idx2det.length c w)) = _
  rw [hw]; rfl

/-! ## C71 -/

/-- C71: the analytic gradient: entry `i` is the derivative of the energy with respect to angle `i`.
The energy as a function of the `i`-th angle `t` is the expectation value of the full Hamiltonian (real
symmetric integrals) in the state `ψ t` built by the chain of exponentials in which the `i`-th angle is
replaced by `t`. -/
theorem C71_gradient (ht : ExactTiny tiny) (hb : ExactBig big) (hs : AnsatzSpace ci ci.nA)
    (hth : th.Fair ci.idx2det.length) {h : ℕ → ℕ → ℝ} {g : ℕ → ℕ → ℕ → ℕ → ℝ}
    (hh : ∀ p q, h p q = h q p) (hg : ∀ p q r s, g p q r s = g q p s r)
    {st : AnsatzStruct} {Ts : List (FOp ℝ)} (hL : Layout ci.offset ci.nA st.types st.indices Ts)
    (csf : Vec ℝ) {thetas : List ℝ} (hl : st.types.length = thetas.length) :
    ∃ grad, thetaGradient tiny big th ci h g st csf thetas = .ok grad ∧ grad.length = thetas.length ∧
      ∀ i θ d, thetas[i]? = some θ → grad[i]? = some d → ∃ ψ : ℝ → Fock ℝ,
        (∀ t, ExpChain (Ts.zip ((thetas.map effAngle).set i t)) (stateOf ci csf) (ψ t)) ∧
        HasDerivAt (fun t => inner (core (2 * ci.nI) (ψ t))
          ((oneOp h (ci.nI + ci.nA + ci.nV) + (1 / 2 : ℝ) • twoOp g (ci.nI + ci.nA + ci.nV))
            (core (2 * ci.nI) (ψ t)))) d (effAngle θ) := by
  obtain ⟨gs, g1, g2⟩ := layout_facs ht hs hth hL thetas
  have hl2 : st.indices.length = thetas.length := by rw [hL.length.2, ← hL.length.1, hl]
  have hgood := good_of_real g1
  have hlen : gs.length = thetas.length := by
    rw [← g1.length_eq]; simp [hl, hl2]
  obtain ⟨a1, a2⟩ := ups_acts g1 hl hl2
  obtain ⟨c, hc, ec⟩ := a1 csf
  obtain ⟨w, hw, ew⟩ := applyHam_sem (tiny := tiny) ht hb hs hth h g c
  obtain ⟨bra, hbra, ebra⟩ := a2 w
  -- every factor acts as it should
  have hzip : ∀ i : ℕ, i < thetas.length → ∃ ty ix θ T, st.types[i]? = some ty ∧ st.indices[i]? = some ix ∧
      thetas[i]? = some θ ∧ Ts[i]? = some T ∧ Excitation ci.offset ci.nA ty ix T := by
    have aux : ∀ {types indices Ts}, Layout ci.offset ci.nA types indices Ts → ∀ i < types.length,
        ∃ ty ix T, types[i]? = some ty ∧ indices[i]? = some ix ∧ Ts[i]? = some T ∧
          Excitation ci.offset ci.nA ty ix T := by
      intro types indices Ts hL
      induction hL with
      | nil => intro i hi; simp at hi
      | cons h1 _ ih =>
        intro i hi
        cases i with
        | zero => exact ⟨_, _, _, rfl, rfl, rfl, h1⟩
        | succ i => simpa using ih i (by simpa using hi)
    intro i hi
    obtain ⟨ty, ix, T, b1, b2, b3, b4⟩ := aux hL i (by omega)
    exact ⟨ty, ix, _, T, b1, b2, List.getElem?_eq_getElem hi, b3, b4⟩
  have hfac : ∀ i g', gs[i]? = some g' →
      ActsAs ci (gradAction (propVec tiny th ci) tiny ci.offset st i) g'.2.1 ∧
      ActsAs ci (propagateUnitary (propVec tiny th ci) tiny ci.offset st thetas i) (g'.2.2 g'.1) := by
    intro i g' hg'
    have hi := (List.getElem?_eq_some_iff.1 hg').1
    obtain ⟨ty, ix, θ, T, b1, b2, b3, b4, b5⟩ := hzip i (by omega)
    have eT : g'.2.1 = T := by
      have := congrArg (·[i]?) g2
      rw [List.getElem?_map, hg', List.zip_eq_zipWith, List.getElem?_zipWith, b4, List.getElem?_map, b3] at this
      simpa using congrArg (Option.map Prod.fst) this
    have hx : (st.types.zip (st.indices.zip thetas))[i]? = some (ty, ix, θ) := by
      rw [List.zip_eq_zipWith, List.zip_eq_zipWith, List.getElem?_zipWith, List.getElem?_zipWith, b1, b2, b3]
    have hR : Realises tiny th ci (ty, ix, θ) g' := by
      have hi1 := (List.getElem?_eq_some_iff.1 hx).1
      have := g1.get hi1 hi
      rw [List.get_eq_getElem, List.get_eq_getElem] at this
      rwa [(List.getElem?_eq_some_iff.1 hx).2, (List.getElem?_eq_some_iff.1 hg').2] at this
    refine ⟨eT ▸ gradAction_acts ht hs hth b1 b2 b5, ?_⟩
    refine (step_acts hR false).congr (fun v => ?_) rfl
    rw [propagateUnitary_eq, hx]
  obtain ⟨grad, r1, r2, r3⟩ := gradLoop_sem hs.valid hfac (stateOf ci bra) (stateOf ci csf) thetas.length 0
    (by omega) bra csf (by simp [opOf]) (by simp [opOf])
  refine ⟨grad, ?_, r2, ?_⟩
  · unfold thetaGradient upsVec
    simp only [hc, ok_bind, hw, hbra]
    rw [List.range_eq_range']
    exact r1
  intro i θ d hθ hd
  have hi : i < gs.length := by rw [hlen]; exact (List.getElem?_eq_some_iff.1 hθ).1
  obtain ⟨g', hg'⟩ : ∃ g', gs[i]? = some g' := ⟨_, List.getElem?_eq_getElem hi⟩
  have hr3 := r3 i g' (by rwa [Nat.zero_add])
  rw [hd, Nat.zero_add] at hr3
  have hd' := Option.some.inj hr3
  have eθ : g'.1 = effAngle θ := by
    have := congrArg (·[i]?) g2
    obtain ⟨ty, ix, θ', T, b1, b2, b3, b4, b5⟩ := hzip i (by omega)
    rw [List.getElem?_map, hg', List.zip_eq_zipWith, List.getElem?_zipWith, b4, List.getElem?_map, hθ] at this
    simpa using congrArg (Option.map Prod.snd) this
  refine ⟨fun t => opOf (gs.set i (t, g'.2)) (stateOf ci csf), fun t => ?_, ?_⟩
  · have hgood' : GoodFacs (gs.set i (t, g'.2)) := by
      intro x hx
      rcases List.mem_or_eq_of_mem_set hx with hx | rfl
      · exact hgood x hx
      · exact hgood g' (List.mem_of_getElem? hg')
    have := opOf_chain hgood' (stateOf ci csf)
    convert this using 1
    rw [List.map_set, g2]
    apply List.ext_getElem?
    intro j
    rw [List.zip_eq_zipWith, List.zip_eq_zipWith, List.getElem?_zipWith, List.getElem?_set, List.getElem?_set,
      List.getElem?_zipWith]
    by_cases hj : i = j
    · subst hj
      obtain ⟨ty, ix, θ', T, b1, b2, b3, b4, b5⟩ := hzip i (by omega)
      have eT : g'.2.1 = T := by
        have := congrArg (·[i]?) g2
        rw [List.getElem?_map, hg', List.zip_eq_zipWith, List.getElem?_zipWith, b4, List.getElem?_map, b3] at this
        simpa using congrArg (Option.map Prod.fst) this
      have hTl : i < Ts.length := (List.getElem?_eq_some_iff.1 b4).1
      have : i < thetas.length := by omega
      rw [b4, if_pos rfl, if_pos rfl]
      simp [this, hTl, eT]
    · rw [if_neg hj, if_neg hj]
  · have hder := opOf_der hgood hg' (stateOf ci csf)
    set H : FOp ℝ := oneOp h (ci.nI + ci.nA + ci.nV) + (1 / 2 : ℝ) • twoOp g (ci.nI + ci.nA + ci.nV) with hH
    have hsym : IsAdjoint H H := C11_hermitian h g _ (fun p q _ _ => hh p q) (fun p q r s _ _ _ _ => hg p q r s)
    have hE := (hder.map (core (2 * ci.nI))).inner ((hder.map (core (2 * ci.nI))).map H)
    rw [eθ] at hE
    refine hE.congr_deriv ?_
    have eset : opOf (gs.set i (effAngle θ, g'.2)) (stateOf ci csf) = stateOf ci c := by
      rw [ec]
      congr 2
      rw [← eθ]
      apply List.ext_getElem?
      intro j
      rw [List.getElem?_set]
      by_cases hj : i = j
      · subst hj; rw [if_pos rfl, if_pos hi, hg']
      · rw [if_neg hj]
    -- the derivative of the state is a vector of the space
    set z := opOf (gs.drop (i + 1)) (g'.2.2 (effAngle θ) (g'.2.1 (opOf (gs.take i) (stateOf ci csf)))) with hz
    have hzv : ∃ u, stateOf ci u = z := by
      have hacts : ∀ (l : List Fac), (∀ x ∈ l, ∃ f, ActsAs ci f (x.2.2 x.1)) → ∃ f, ActsAs ci f (opOf l) := by
        intro l
        induction l with
        | nil => exact fun _ => ⟨_, ActsAs.id⟩
        | cons x l ih =>
          intro hx
          obtain ⟨f, hf⟩ := hx x (by simp)
          obtain ⟨f', hf'⟩ := ih fun y hy => hx y (by simp [hy])
          exact ⟨_, hf.comp hf'⟩
      have hall : ∀ x ∈ gs, ∃ f, ActsAs ci f (x.2.2 x.1) := by
        intro x hx
        obtain ⟨j, hj⟩ := List.getElem?_of_mem hx
        exact ⟨_, (hfac j x hj).2⟩
      obtain ⟨f1, hf1⟩ := hacts (gs.take i) fun x hx => hall x (List.mem_of_mem_take hx)
      obtain ⟨f2, hf2⟩ := hacts (gs.drop (i + 1)) fun x hx => hall x (List.mem_of_mem_drop hx)
      obtain ⟨u1, -, e1⟩ := hf1 csf
      obtain ⟨u2, -, e2⟩ := (hfac i g' hg').1 u1
      obtain ⟨u3, -, e3⟩ := (hfac i g' hg').2 u2
      obtain ⟨u4, -, e4⟩ := hf2 u3
      exact ⟨u4, by rw [e4, e3, e2, e1, hz, eθ]⟩
    obtain ⟨u, hu⟩ := hzv
    rw [eset, ← hu]
    have s1 : inner (core (2 * ci.nI) (stateOf ci c)) (H (core (2 * ci.nI) (stateOf ci u)))
        = inner (core (2 * ci.nI) (stateOf ci u)) (H (core (2 * ci.nI) (stateOf ci c))) := by
      rw [← hsym, inner_comm]
    rw [s1]
    have s2 := ew u
    rw [dot_eq_inner hs.valid] at s2
    have s3 : inner (core (2 * ci.nI) (stateOf ci u)) (H (core (2 * ci.nI) (stateOf ci c)))
        = inner (stateOf ci u) (stateOf ci w) := s2.symm
    have s4 : opOf (gs.take i) (stateOf ci bra) = opOf (invFacs (gs.drop i)) (stateOf ci w) := by
      rw [ebra, ← Module.End.mul_apply, opOf_take_inv hgood]
    rw [s3, hd', hu, hz, s4]
    have hdrop : gs.drop i = g' :: gs.drop (i + 1) := by
      rw [List.drop_eq_getElem_cons hi, (List.getElem?_eq_some_iff.1 hg').2]
    have hgd : GoodFacs (gs.drop i) := fun x hx => hgood x (List.mem_of_mem_drop hx)
    have hadj := opOf_adj hgd
    have : opOf (gs.drop (i + 1)) (g'.2.2 (effAngle θ) (g'.2.1 (opOf (gs.take i) (stateOf ci csf))))
        = opOf (gs.drop i) (g'.2.1 (opOf (gs.take i) (stateOf ci csf))) := by
      rw [hdrop, opOf, eθ]; rfl
    rw [this, hadj, inner_comm (opOf (invFacs (gs.drop i)) (stateOf ci w))]
    ring

/-- C71: in terms of the program alone: away from the cut-off, entry `i` of the gradient is the
derivative of `energy_elec` as a function of `thetas[i]`. -/
theorem C71_program (ht : ExactTiny tiny) (hb : ExactBig big) (hs : AnsatzSpace ci ci.nA)
    (hth : th.Fair ci.idx2det.length) {h : ℕ → ℕ → ℝ} {g : ℕ → ℕ → ℕ → ℕ → ℝ}
    (hh : ∀ p q, h p q = h q p) (hg : ∀ p q r s, g p q r s = g q p s r)
    {st : AnsatzStruct} {Ts : List (FOp ℝ)} (hL : Layout ci.offset ci.nA st.types st.indices Ts)
    (csf : Vec ℝ) {thetas : List ℝ} (hl : st.types.length = thetas.length) :
    ∃ grad, thetaGradient tiny big th ci h g st csf thetas = .ok grad ∧ grad.length = thetas.length ∧
      ∀ i θ d, thetas[i]? = some θ → grad[i]? = some d → (10 : ℝ)⁻¹ ^ 28 < |θ| → ∃ En : ℝ → ℝ,
        (∀ t, upsEnergy tiny big th ci h g st csf (thetas.set i t) = .ok (En t)) ∧
        HasDerivAt En d θ := by
  obtain ⟨grad, k1, k2, k3⟩ := C71_gradient ht hb hs hth hh hg hL csf hl
  refine ⟨grad, k1, k2, fun i θ d hθ hd hbig => ?_⟩
  obtain ⟨ψ, p1, p2⟩ := k3 i θ d hθ hd
  choose En φ e1 e2 e3 using fun t => C70_energy (tiny := tiny) ht hb hs hth h g hL csf (thetas.set i t)
  refine ⟨En, e1, ?_⟩
  have heff : ∀ t : ℝ, (10 : ℝ)⁻¹ ^ 28 < |t| → effAngle t = t := fun t h' => if_neg (not_lt.2 h'.le)
  rw [heff θ hbig] at p2
  refine p2.congr_of_eventuallyEq ?_
  have hopen : IsOpen {t : ℝ | (10 : ℝ)⁻¹ ^ 28 < |t|} := isOpen_lt continuous_const continuous_abs
  filter_upwards [hopen.mem_nhds hbig] with t ht'
  rw [e3 t]
  have : ψ t = φ t := by
    refine expChain_unique (p1 t) ?_
    have := e2 t
    rwa [List.map_set, heff t ht'] at this
  rw [this]

end

/-! ### A case meeting the hypotheses -/

/-- A layout with a spin-orbital double, a spin-adapted single and a spin-adapted double excitation of
two orbitals. -/
def exampleLayout : AnsatzStruct where
  types := ["double", "sa_single", "sa_double_1"]
  indices := [[0, 1, 2, 3], [0, 1], [0, 0, 1, 1]]

theorem exampleLayout_ok (off : ℕ) : ∃ Ts, Layout off 2 exampleLayout.types exampleLayout.indices Ts :=
  ⟨_, .cons (.spin 2 (by decide) [0, 1] [2, 3] rfl rfl (by decide) (by decide))
    (.cons (.saSingle 0 1 (by decide)) (.cons (.saDouble1 0 1 (by decide) (by decide)) .nil))⟩

/-- Two electrons in two active orbitals, one inactive and one virtual orbital; on one thread. -/
example : ∃ ci Ts, getIndexing 1 2 1 1 1 = .ok ci ∧ AnsatzSpace ci ci.nA ∧
    Layout ci.offset ci.nA exampleLayout.types exampleLayout.indices Ts ∧
    Threads.Fair .one ci.idx2det.length ∧ exampleLayout.types.length = [(1 : ℝ), 2, 3].length := by
  obtain ⟨ci, h1, h2, h3⟩ := (C26_spaces 1 2 1 1 1 0).1 (by decide)
  obtain ⟨Ts, hT⟩ := exampleLayout_ok ci.offset
  exact ⟨ci, Ts, h1, h2, by rw [h3]; exact hT, trivial, rfl⟩

/-- The exact tests are possible choices of `tiny` and `big`. -/
example : ∃ tiny big : ℝ → Bool, (∀ x, tiny x = true ↔ x = 0) ∧ (∀ x, big x = false ↔ x = 0) ∧
    ExactTiny tiny ∧ ExactBig big := by
  classical
  refine ⟨fun x => decide (x = 0), fun x => decide (x ≠ 0), ?_, ?_, ?_, ?_⟩ <;> intro x <;> simp

/-- The generators are not zero: `T = a†_2 a_0 - h.c.` has `T|0⟩ = |2⟩`. -/
example : (excite [2] [0] - excite [0] [2] : FOp ℝ) (ket {0}) = ket {2} := by
  simp only [excite, List.map_cons, List.map_nil, List.prod_cons, List.prod_nil, mul_one,
    LinearMap.sub_apply, Module.End.mul_apply]
  rw [an_single, if_pos (by decide), an_single, if_neg (by decide), map_zero, sub_zero, cr_single,
    if_neg (by decide)]
  have e1 : insert 2 (({0} : Finset ℕ).erase 0) = {2} := by decide
  have e2 : phase ({0} : Finset ℕ) 0 = (1 : ℝ) := by simp [phase]
  have e3 : phase (({0} : Finset ℕ).erase 0) 2 = (1 : ℝ) := by simp [phase]
  rw [e1, e2, e3]
  simp [ket]

end SQ
