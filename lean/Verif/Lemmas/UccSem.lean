import Verif.Model.UccState
import Verif.Lemmas.AnsatzLayout

/-! # The UCC operator, its matrix and its exponential -/

namespace SQ

variable {tiny : ℝ → Bool}

/-! ### Building the matrix never fails where applying the operator does not -/

theorem matrixStep_of_serial {R : Type*} [CommRing R] {ci : CIInfo} {par l : List ℕ} {doUnsafe : Bool}
    {v : Vec R} {cm am : ℕ} {factor : R} {tmp tmp' : Vec R} (M : Mat R) {p : ℕ × ℕ}
    (h : serialStep (fun _ => false) ci par doUnsafe v l cm am factor tmp p = .ok tmp') :
    ∃ M', matrixStep ci par doUnsafe l cm am factor M p = .ok M' := by
  unfold serialStep at h
  unfold matrixStep
  split at h
  · next h1 => rw [if_pos h1]; exact ⟨_, rfl⟩
  · next h1 =>
    rw [if_neg h1]
    split at h
    · next h2 => rw [if_pos h2]; exact ⟨_, rfl⟩
    · next h2 =>
      rw [if_neg h2]
      rw [if_neg (by simp)] at h
      unfold deliver at h ⊢
      dsimp only at h ⊢
      split at h
      · exact ⟨_, rfl⟩
      · cases doUnsafe
        · cases h
        · exact ⟨_, rfl⟩

theorem buildMatrix_of_apply {R : Type*} [CommRing R] {ci : CIInfo} {doUnsafe : Bool} {A : Dict R}
    {v w : Vec R} (h : applyOp (fun _ => false) .one ci doUnsafe v A = .ok w) :
    ∃ M, buildMatrix ci doUnsafe A = .ok M := by
  obtain ⟨M, hM, -⟩ := foldlM_lockstep
    (fun tmp (kv : Str × R) => applySerial (fun _ => false) ci doUnsafe v kv.1 kv.2 tmp)
    (fun (M : Mat R) (kv : Str × R) => ci.idx2det.zipIdx.foldlM (matrixStep ci (parityCheck ci.nA) doUnsafe
      (anniIdx kv.1 ++ createIdx kv.1)
      (maskOf (2 * ci.nA - 1) ((createIdx kv.1).filter fun i => !(anniIdx kv.1).contains i))
      (maskOf (2 * ci.nA - 1) (anniIdx kv.1)) kv.2) M) (fun _ _ => True) A
    (fun kv _ tmp M tmp' _ hs => by
      obtain ⟨M', hM', -⟩ := foldlM_lockstep _ (matrixStep ci (parityCheck ci.nA) doUnsafe
          (anniIdx kv.1 ++ createIdx kv.1)
          (maskOf (2 * ci.nA - 1) ((createIdx kv.1).filter fun i => !(anniIdx kv.1).contains i))
          (maskOf (2 * ci.nA - 1) (anniIdx kv.1)) kv.2) (fun _ _ => True) _
        (fun p _ tmp M tmp' _ hp => by
          obtain ⟨M', h'⟩ := matrixStep_of_serial M hp
          exact ⟨M', h', trivial⟩) tmp M tmp' trivial hs
      exact ⟨M', hM', trivial⟩) 0 (fun _ _ => 0) w trivial h
  exact ⟨M, hM⟩

/-! ### The UCC operator -/

theorem dk_uccStep (ht : ExactTiny tiny) {off n : ℕ} {ty : String} {ix : List ℕ} {T : FOp ℝ}
    (h : Excitation off n ty ix T) (θ : ℝ) {d : Dict ℝ} (hd : NumCons d)
    (hk : Keys (InBlock off n) (fun _ => 0) d) :
    DK (InBlock off n) (uccStep tiny off d (ty, ix, θ)) (sumOp d + (effAngle θ * uccFactor ty) • T) := by
  unfold uccStep effAngle
  dsimp only
  by_cases hθ : |θ| < (10 : ℝ)⁻¹ ^ 28
  · rw [if_pos hθ, if_pos hθ]
    exact ⟨d, rfl, hd, by simp, hk⟩
  · rw [if_neg hθ, if_neg hθ]
    by_cases hty : ty = "sa_single"
    · rw [if_pos hty, uccFactor, if_pos hty]
      cases h with
      | spin k hk' I A hI hA hr hs =>
        exfalso
        obtain ⟨h1, h6⟩ := hk'
        interval_cases k <;> revert hty <;> decide
      | saDouble1 | saDouble2 | saDouble3 | saDouble4 | saDouble5 => exact absurd hty (by decide)
      | saSingle i a hr =>
        have hi : Both (InBlock off n) (i + off) := both_block (hr i (by simp))
        have ha : Both (InBlock off n) (a + off) := both_block (hr a (by simp))
        obtain ⟨G, g1, g2, g3⟩ := den_G1sa ht (Real.sqrt 2)⁻¹ (i + off) (a + off) true
        have gk : Keys (InBlock off n) (fun _ => 0) G := by
          obtain ⟨e, e1, e2, -⟩ := den_Epq (R := ℝ) ht (a + off) (i + off)
          refine keys_antiH (tiny := tiny) (e2.rmul (Real.sqrt 2)⁻¹).wf
            ((keys_Epq ha hi e e1).frmul (Real.sqrt 2)⁻¹) true G ?_
          rw [← g1, G1sa, e1]; rfl
        rw [if_pos rfl] at g3
        refine ⟨fadd tiny d (frmul θ G), ?_, hd.add (g2.rmul θ), ?_, hk.fadd (gk.frmul θ)⟩
        · show (G1sa tiny (Real.sqrt 2)⁻¹ (i + off) (a + off) true >>= fun G => pure (fadd tiny d (frmul θ G))) = _
          rw [g1]; rfl
        · rw [sumOp_fadd ht, sumOp_frmul, g3, mul_smul, smul_sub (Real.sqrt 2)⁻¹]
    · rw [if_neg hty, uccFactor, if_neg hty, mul_one]
      obtain ⟨G, g1, g2, g3, g4⟩ := dk_exc ht h hty
      refine ⟨fadd tiny d (frmul θ G), ?_, hd.add (g2.rmul θ), ?_, hk.fadd (g4.frmul θ)⟩
      · rw [g1]; rfl
      · rw [sumOp_fadd ht, sumOp_frmul, g3]

theorem dk_uccT (ht : ExactTiny tiny) {off n : ℕ} {types : List String} {indices : List (List ℕ)}
    {Ts : List (FOp ℝ)} (h : Layout off n types indices Ts) (thetas : List ℝ) {d : Dict ℝ} (hd : NumCons d)
    (hk : Keys (InBlock off n) (fun _ => 0) d) :
    DK (InBlock off n) ((types.zip (indices.zip thetas)).foldlM (uccStep tiny off) d)
      (sumOp d + uccOp types Ts thetas) := by
  induction h generalizing thetas d with
  | nil => exact ⟨d, rfl, hd, by simp [uccOp], hk⟩
  | @cons ty ix T types indices Ts he hl ih =>
    cases thetas with
    | nil => exact ⟨d, rfl, hd, by simp [uccOp], hk⟩
    | cons θ thetas =>
      obtain ⟨d', h1, h2, h3, h4⟩ := dk_uccStep ht he θ hd hk
      have := ih thetas h2 h4
      rw [h3] at this
      rw [List.zip_cons_cons, List.zip_cons_cons, List.foldlM_cons, h1]
      exact this.congr (by rw [uccOp, add_assoc])

theorem skew_exc (ht : ExactTiny tiny) {ci : CIInfo} {n : ℕ} (hs : AnsatzSpace ci n) {ty : String}
    {idx : List ℕ} {T : FOp ℝ} (h : Excitation ci.offset n ty idx T) : Skew T := by
  obtain ⟨_, _, _, _, h2, _⟩ := exc_acts (th := .one) ht hs trivial h
  exact h2

theorem skew_uccOp (ht : ExactTiny tiny) {ci : CIInfo} {n : ℕ} (hs : AnsatzSpace ci n) {types : List String}
    {indices : List (List ℕ)} {Ts : List (FOp ℝ)} (h : Layout ci.offset n types indices Ts)
    (thetas : List ℝ) : Skew (uccOp types Ts thetas) := by
  have h0 : Skew (0 : FOp ℝ) := by
    have := Skew.of (T := 0) (Td := 0) (fun x y => by simp)
    simpa using this
  induction h generalizing thetas with
  | nil => simpa [uccOp] using h0
  | cons he hl ih =>
    cases thetas with
    | nil => simpa [uccOp] using h0
    | cons θ thetas => exact ((skew_exc ht hs he).smul _).add (ih thetas)

/-! ### The exponential -/

section
variable {ci : CIInfo}

/-- The matrix represents the operator on the space. -/
def Repr (ci : CIInfo) (A : Matrix (Fin ci.idx2det.length) (Fin ci.idx2det.length) ℝ) (T : FOp ℝ) : Prop :=
  ∀ v : Vec ℝ, ∃ w : Vec ℝ, (∀ i : Fin ci.idx2det.length, w i = A.mulVec (fun j => v j) i) ∧
    stateOf ci w = T (stateOf ci v)

theorem Repr.pow {A : Matrix (Fin ci.idx2det.length) (Fin ci.idx2det.length) ℝ} {T : FOp ℝ}
    (h : Repr ci A T) (k : ℕ) : Repr ci (A ^ k) (T ^ k) := by
  induction k with
  | zero => exact fun v => ⟨v, by simp, by simp⟩
  | succ k ih =>
    intro v
    obtain ⟨w, h1, h2⟩ := ih v
    obtain ⟨u, h3, h4⟩ := h w
    refine ⟨u, fun i => ?_, ?_⟩
    · rw [h3, pow_succ', ← Matrix.mulVec_mulVec]
      congr 1
      funext j; exact h1 j
    · rw [h4, h2, pow_succ']; rfl

theorem Repr.neg {A : Matrix (Fin ci.idx2det.length) (Fin ci.idx2det.length) ℝ} {T : FOp ℝ}
    (h : Repr ci A T) : Repr ci (-A) (-T) := by
  intro v
  obtain ⟨w, h1, h2⟩ := h v
  refine ⟨(-1 : ℝ) • w, fun i => ?_, ?_⟩
  · rw [Matrix.neg_mulVec, Pi.neg_apply, ← h1]; simp
  · rw [stateOf_smul, h2]; simp

theorem hasSum_congr_fun {f g : ℕ → ℝ} {a : ℝ} (h : ∀ k, f k = g k) : HasSum f a ↔ HasSum g a := by
  rw [funext h]

theorem exp_entries {n : ℕ} (A : Matrix (Fin n) (Fin n) ℝ) (v : Fin n → ℝ) (i : Fin n) :
    HasSum (fun k : ℕ => 1 / (k.factorial : ℝ) * (A ^ k).mulVec v i) ((NormedSpace.exp A).mulVec v i) := by
  have h : HasSum (fun k : ℕ => ((k.factorial : ℝ)⁻¹) • A ^ k) (NormedSpace.exp A) := by
    open scoped Matrix.Norms.Operator in
    exact NormedSpace.exp_series_hasSum_exp' (𝕂 := ℝ) A
  have h2 : ∀ j, HasSum (fun k : ℕ => ((k.factorial : ℝ)⁻¹) * (A ^ k) i j) ((NormedSpace.exp A) i j) := by
    intro j
    have := (Pi.hasSum.1 (Pi.hasSum.1 h i)) j
    simpa using this
  have h3 := hasSum_sum (s := Finset.univ) fun j _ => (h2 j).mul_right (v j)
  refine (hasSum_congr_fun ?_).1 h3
  intro k
  simp only [Matrix.mulVec, dotProduct, Finset.mul_sum]
  refine Finset.sum_congr rfl fun j _ => ?_
  rw [one_div, mul_assoc]

theorem Repr.exp (hv : ci.Valid) {A : Matrix (Fin ci.idx2det.length) (Fin ci.idx2det.length) ℝ} {T : FOp ℝ}
    (h : Repr ci A T) (v : Vec ℝ) :
    ExpTo T 1 (stateOf ci v) (stateOf ci (expmMultiply ci.idx2det.length A v)) := by
  intro S
  have key : ∀ k, ∃ w : Vec ℝ, (∀ i : Fin ci.idx2det.length, w i = (A ^ k).mulVec (fun j => v j) i) ∧
      stateOf ci w = (T ^ k) (stateOf ci v) := fun k => h.pow k v
  choose w h1 h2 using key
  by_cases hS : ci.Mem S
  · obtain ⟨d, hd, rfl⟩ := hS
    obtain ⟨i, hi, rfl⟩ := List.mem_iff_getElem.1 hd
    have hD : ci.D i = decode ci.nA (ci.idx2det[i]) := by
      unfold CIInfo.D; rw [List.getD_eq_getElem _ _ hi]
    rw [← hD, coeff_stateOf hv _ hi]
    have := exp_entries A (fun j => v j) ⟨i, hi⟩
    simp only [← h2, coeff_stateOf hv _ hi, one_pow]
    simp only [expmMultiply, hi, dif_pos]
    convert this using 2
    rw [← h1]
  · rw [coeff_stateOf_ne _ hS]
    simp only [← h2, coeff_stateOf_ne _ hS, mul_zero]
    exact hasSum_zero

theorem expm_dot {n : ℕ} {B : Matrix (Fin n) (Fin n) ℝ} (h : B.transpose = -B) (v w : Vec ℝ) :
    dot n (expmMultiply n B v) (expmMultiply n B w) = dot n v w := by
  have e : ∀ x y : Vec ℝ, dot n x y = (fun i : Fin n => x i) ⬝ᵥ (fun i : Fin n => y i) := by
    intro x y
    unfold dot
    rw [list_sum_range, Finset.sum_range]; rfl
  have ex : ∀ x : Vec ℝ, (fun i : Fin n => expmMultiply n B x i)
      = (NormedSpace.exp B).mulVec (fun j : Fin n => x j) := by
    intro x; funext i; simp [expmMultiply]
  rw [e, e, ex, ex, Matrix.dotProduct_mulVec, Matrix.vecMul_mulVec, ← Matrix.exp_transpose, h,
    ← Matrix.exp_add_of_commute _ _ (Commute.neg_left (Commute.refl B)), neg_add_cancel, NormedSpace.exp_zero,
    Matrix.vecMul_one]

theorem expm_inv {n : ℕ} (A : Matrix (Fin n) (Fin n) ℝ) (v : Vec ℝ) :
    ∀ i < n, expmMultiply n (-A) (expmMultiply n A v) i = v i := by
  intro i hi
  have ex : (fun i : Fin n => expmMultiply n A v i)
      = (NormedSpace.exp A).mulVec (fun j : Fin n => v j) := by
    funext i; simp [expmMultiply]
  rw [expmMultiply, dif_pos hi, ex, Matrix.mulVec_mulVec,
    ← Matrix.exp_add_of_commute _ _ (Commute.neg_left (Commute.refl A)), neg_add_cancel, NormedSpace.exp_zero,
    Matrix.one_mulVec]

end

end SQ
