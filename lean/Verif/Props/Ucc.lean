import Verif.Lemmas.UccSem
import Verif.Props.Ansatz

/-!
# C72: the UCC state is one exponential of the sum of all excitation operators

Read with `Spec/Ansatz.lean` (`uccOp`, `Layout`, `ExpTo`).
-/

namespace SQ

section
variable {tiny : ℝ → Bool} {ci : CIInfo} {n : ℕ}

theorem numCons_nil : NumCons ([] : Dict ℝ) where
  wf := List.nodup_nil
  ord kv h := by cases h
  bal kv h := by cases h

/-- The matrix built for the UCC operator represents it and is antisymmetric. -/
theorem ucc_built (ht : ExactTiny tiny) (hs : AnsatzSpace ci n) {st : AnsatzStruct} {Ts : List (FOp ℝ)}
    (h : Layout ci.offset n st.types st.indices Ts) (thetas : List ℝ) :
    ∃ (T : Dict ℝ) (M : Mat ℝ), uccT tiny ci.offset st thetas = .ok T ∧ buildMatrix ci false T = .ok M ∧
      Repr ci (matOf ci.idx2det.length M) (uccOp st.types Ts thetas) ∧
      (matOf ci.idx2det.length M).transpose = -matOf ci.idx2det.length M := by
  obtain ⟨T, h1, h2, h3, h4⟩ := dk_uccT ht h thetas (d := []) numCons_nil keys_nil
  have h3' : sumOp T = uccOp st.types Ts thetas := by rw [h3]; simp [sumOp]
  have hc : ci.ClosedOn (InBlock ci.offset n) := hs.closed
  have hP : ∀ p, InBlock ci.offset n p → p < 2 * ci.nA := fun p hp => by
    have := hs.fits; have := hp.2; omega
  have ht0 : ExactTiny (fun _ : ℝ => false) := fun x h => by cases h
  have happ := fun v => applyOp_closed ht0 hs.valid hc hP (th := .one) trivial v h2 h4
  obtain ⟨M, hM⟩ := buildMatrix_of_apply (happ 0).choose_spec.1
  have hrep : Repr ci (matOf ci.idx2det.length M) (uccOp st.types Ts thetas) := by
    intro v
    obtain ⟨w, hw, ew⟩ := happ v
    obtain ⟨w', hw', ew'⟩ := buildMatrix_apply ht0 hs.valid false T v hM
    rw [hw] at hw'
    obtain rfl : w = w' := Except.ok.inj hw'
    refine ⟨w, fun i => ?_, by rw [ew, h3']⟩
    rw [ew' i i.2, Finset.sum_range]
    rfl
  refine ⟨T, M, h1, hM, hrep, ?_⟩
  · have hskew := skew_uccOp ht hs h thetas
    ext i j
    have unit : ∀ k : Fin ci.idx2det.length, ∀ l : Fin ci.idx2det.length,
        inner (stateOf ci (Pi.single (k : ℕ) (1 : ℝ))) (uccOp st.types Ts thetas
          (stateOf ci (Pi.single (l : ℕ) (1 : ℝ)))) = matOf ci.idx2det.length M k l := by
      intro k l
      obtain ⟨w, hw, ew⟩ := hrep (Pi.single (l : ℕ) 1)
      rw [← ew, ← dot_eq_inner hs.valid]
      unfold dot
      rw [list_sum_range, Finset.sum_eq_single (k : ℕ)]
      · rw [Pi.single_eq_same, one_mul, hw, Matrix.mulVec, dotProduct, Finset.sum_eq_single l]
        · simp
        · intro b _ hb
          rw [Pi.single_eq_of_ne (fun h => hb (Fin.ext h)), mul_zero]
        · simp
      · intro b _ hb; rw [Pi.single_eq_of_ne hb, zero_mul]
      · intro hk; exact absurd (Finset.mem_range.2 k.2) hk
    rw [Matrix.transpose_apply, Matrix.neg_apply, ← unit, ← unit]
    have := hskew (stateOf ci (Pi.single (i : ℕ) (1 : ℝ))) (stateOf ci (Pi.single (j : ℕ) (1 : ℝ)))
    rw [inner_comm, this, LinearMap.neg_apply]
    exact inner_neg_right _ _

/-- `construct_ucc_state` as one real matrix that represents the UCC operator and is antisymmetric. -/
theorem ucc_matrix (ht : ExactTiny tiny) (hs : AnsatzSpace ci n) {st : AnsatzStruct} {Ts : List (FOp ℝ)}
    (h : Layout ci.offset n st.types st.indices Ts) (thetas : List ℝ) :
    ∃ A : Matrix (Fin ci.idx2det.length) (Fin ci.idx2det.length) ℝ,
      Repr ci A (uccOp st.types Ts thetas) ∧ A.transpose = -A ∧
      ∀ dagger v, constructUcc tiny ci st thetas dagger v
        = .ok (expmMultiply ci.idx2det.length (if dagger then -A else A) v) := by
  obtain ⟨T, M, h1, h2, h3, h4⟩ := ucc_built ht hs h thetas
  refine ⟨_, h3, h4, fun dagger v => ?_⟩
  unfold constructUcc
  simp only [h1, h2, ok_bind]
  cases dagger <;> rfl

/-- C72: `construct_ucc_state` never raises on a valid layout and gives `exp(±∑ θᵢ cᵢ Tᵢ)` applied to the
state. -/
theorem C72_exponential (ht : ExactTiny tiny) (hs : AnsatzSpace ci n) {st : AnsatzStruct}
    {Ts : List (FOp ℝ)} (h : Layout ci.offset n st.types st.indices Ts) (thetas : List ℝ) (dagger : Bool)
    (v : Vec ℝ) :
    ∃ w, constructUcc tiny ci st thetas dagger v = .ok w ∧
      ExpTo ((if dagger then -1 else 1 : ℝ) • uccOp st.types Ts thetas) 1 (stateOf ci v) (stateOf ci w) := by
  obtain ⟨A, h1, -, h3⟩ := ucc_matrix ht hs h thetas
  refine ⟨_, h3 dagger v, ?_⟩
  cases dagger
  · simpa using h1.exp hs.valid v
  · simpa using h1.neg.exp hs.valid v

/-- C72: norms and overlaps are preserved. -/
theorem C72_norm (ht : ExactTiny tiny) (hs : AnsatzSpace ci n) {st : AnsatzStruct} {Ts : List (FOp ℝ)}
    (h : Layout ci.offset n st.types st.indices Ts) (thetas : List ℝ) (dagger : Bool) (v w : Vec ℝ) :
    ∃ v' w', constructUcc tiny ci st thetas dagger v = .ok v' ∧
      constructUcc tiny ci st thetas dagger w = .ok w' ∧
      dot ci.idx2det.length v' w' = dot ci.idx2det.length v w := by
  obtain ⟨A, -, h2, h3⟩ := ucc_matrix ht hs h thetas
  refine ⟨_, _, h3 dagger v, h3 dagger w, ?_⟩
  set B := (if dagger then -A else A) with hB
  have hBt : B.transpose = -B := by rw [hB]; cases dagger <;> simp [h2]
  exact expm_dot hBt v w

/-- C72: the dagger undoes the state construction. -/
theorem C72_inverse (ht : ExactTiny tiny) (hs : AnsatzSpace ci n) {st : AnsatzStruct} {Ts : List (FOp ℝ)}
    (h : Layout ci.offset n st.types st.indices Ts) (thetas : List ℝ) (b : Bool) (v : Vec ℝ) :
    ∃ w v', constructUcc tiny ci st thetas b v = .ok w ∧ constructUcc tiny ci st thetas (!b) w = .ok v' ∧
      ∀ i < ci.idx2det.length, v' i = v i := by
  obtain ⟨A, -, -, h3⟩ := ucc_matrix ht hs h thetas
  refine ⟨_, _, h3 b v, h3 (!b) _, ?_⟩
  cases b
  · exact expm_inv A v
  · have := expm_inv (-A) v
    simpa using this

theorem saDouble_errors (tiny : ℝ → Bool) (off case : ℕ) {idx : List ℕ} (h : idx.length ≠ 4) :
    saDouble tiny off case idx = .error .valueError := by
  unfold saDouble
  split
  · next heq =>
    have := congrArg List.length heq
    rw [List.length_map] at this
    exact absurd this h
  · rfl

theorem excT_errors (tiny : ℝ → Bool) (off : ℕ) {ty : String} {idx : List ℕ} (h : arity ty ≠ some idx.length)
    (h0 : ty ≠ "sa_single") : excT tiny off ty idx = .error .valueError := by
  unfold excT
  iterate 6
    split
    · next hty =>
      subst hty
      split
      · next heq =>
        have := congrArg List.length heq
        rw [List.length_map] at this
        exact absurd (by rw [this]; rfl) h
      · rfl
  iterate 5
    split
    · next hty =>
      subst hty
      exact saDouble_errors tiny off _ fun h4 => h (by rw [h4]; rfl)
  rfl

/-- C72: unknown names and wrong numbers of indices raise `ValueError` (for a non-negligible angle). -/
theorem C72_errors (tiny : ℝ → Bool) (ci : CIInfo) (ty : String) (idx : List ℕ) (types : List String)
    (indices : List (List ℕ)) (θ : ℝ) (thetas : List ℝ) (hθ : (10 : ℝ)⁻¹ ^ 28 ≤ |θ|)
    (h : arity ty ≠ some idx.length) (dagger : Bool) (v : Vec ℝ) :
    constructUcc tiny ci ⟨ty :: types, idx :: indices⟩ (θ :: thetas) dagger v = .error .valueError := by
  have : uccStep tiny ci.offset [] (ty, idx, θ) = .error .valueError := by
    unfold uccStep
    rw [if_neg (not_lt.2 hθ)]
    dsimp only
    by_cases h0 : ty = "sa_single"
    · rw [if_pos h0]
      subst h0
      split
      · next heq =>
        have := congrArg List.length heq
        rw [List.length_map] at this
        exact absurd (by rw [this]; rfl) h
      · rfl
    · rw [if_neg h0, excT_errors tiny ci.offset h h0]; rfl
  unfold constructUcc uccT
  simp only [List.zip_cons_cons, List.foldlM_cons, this]
  rfl

end

/-! ### A case meeting the hypotheses, and one for the error branch -/

example : ∃ ci Ts, getIndexing 1 2 1 1 1 = .ok ci ∧ AnsatzSpace ci ci.nA ∧
    Layout ci.offset ci.nA exampleLayout.types exampleLayout.indices Ts := by
  obtain ⟨ci, h1, h2, h3⟩ := (C26_spaces 1 2 1 1 1 0).1 (by decide)
  obtain ⟨Ts, hT⟩ := exampleLayout_ok ci.offset
  exact ⟨ci, Ts, h1, h2, by rw [h3]; exact hT⟩

example : arity "septuple" ≠ some 14 ∧ arity "double" ≠ some 3 := by decide

/-- The UCC operator of a double and a spin-adapted single, angles 1 and 2: the single has the factor
`1/√2`. -/
example (A B : FOp ℝ) :
    uccOp ["double", "sa_single"] [A, B] [1, 2] = A + (2 * (Real.sqrt 2)⁻¹) • B := by
  have h1 : effAngle 1 = 1 := by unfold effAngle; rw [if_neg]; norm_num
  have h2 : effAngle 2 = 2 := by unfold effAngle; rw [if_neg]; norm_num
  simp [uccOp, uccFactor, h1, h2]

end SQ
