import Verif.Lemmas.ExpPerturb
import Verif.Lemmas.AnsatzChain
import Verif.Lemmas.AnsatzAct
import Verif.Lemmas.FockNorm
import Verif.Props.Ucc

/-! # The UCC matrix as a function of one parameter -/

namespace SQ

section
variable {ci : CIInfo} {A B : Matrix (Fin ci.idx2det.length) (Fin ci.idx2det.length) ℝ} {S T : FOp ℝ}

theorem Repr.add (h : Repr ci A S) (k : Repr ci B T) : Repr ci (A + B) (S + T) := by
  intro v
  obtain ⟨w, h1, h2⟩ := h v
  obtain ⟨x, k1, k2⟩ := k v
  refine ⟨w + x, fun i => ?_, ?_⟩
  · rw [Matrix.add_mulVec, Pi.add_apply, Pi.add_apply, h1, k1]
  · rw [stateOf_add, h2, k2]; rfl

theorem Repr.smul (h : Repr ci A S) (c : ℝ) : Repr ci (c • A) (c • S) := by
  intro v
  obtain ⟨w, h1, h2⟩ := h v
  refine ⟨c • w, fun i => ?_, ?_⟩
  · rw [Matrix.smul_mulVec, Pi.smul_apply, Pi.smul_apply, h1]
  · rw [stateOf_smul, h2]; rfl

theorem Repr.unique (hv : ci.Valid) (h : Repr ci A S) (k : Repr ci B S) : A = B := by
  ext i j
  obtain ⟨w, h1, h2⟩ := h (Pi.single (j : ℕ) 1)
  obtain ⟨x, k1, k2⟩ := k (Pi.single (j : ℕ) 1)
  have := stateOf_inj hv (h2.trans k2.symm) i i.2
  rw [h1, k1] at this
  have e : (fun l : Fin ci.idx2det.length => (Pi.single (j : ℕ) (1 : ℝ) : Vec ℝ) l) = Pi.single j 1 := by
    funext l
    by_cases hl : l = j
    · subst hl; simp
    · rw [Pi.single_eq_of_ne hl, Pi.single_eq_of_ne fun h => hl (Fin.ext h)]
  rw [e, Matrix.mulVec_single_one, Matrix.mulVec_single_one] at this
  exact this

theorem effAngle_zero : effAngle 0 = 0 := by
  unfold effAngle
  split_ifs <;> rfl

theorem uccOp_set {types : List String} {Ts : List (FOp ℝ)} {θs : List ℝ} {i : ℕ} {ty : String} {T : FOp ℝ}
    (h1 : types[i]? = some ty) (h2 : Ts[i]? = some T) (h3 : i < θs.length) (t : ℝ) :
    uccOp types Ts (θs.set i t) = uccOp types Ts (θs.set i 0) + (effAngle t * uccFactor ty) • T := by
  induction types generalizing Ts θs i with
  | nil => simp at h1
  | cons ty' types ih =>
    cases Ts with
    | nil => simp at h2
    | cons T' Ts =>
      cases θs with
      | nil => simp at h3
      | cons θ θs =>
        cases i with
        | zero =>
          simp only [List.getElem?_cons_zero, Option.some.injEq] at h1 h2
          subst h1 h2
          simp only [List.set_cons_zero, uccOp, effAngle_zero, zero_mul, zero_smul, zero_add]
          rw [add_comm]
        | succ i =>
          simp only [List.getElem?_cons_succ] at h1 h2
          simp only [List.set_cons_succ, uccOp]
          rw [ih h1 h2 (by simpa using h3), add_assoc]

theorem uccOp_zero (types : List String) (Ts : List (FOp ℝ)) (m : ℕ) : uccOp types Ts (List.replicate m 0) = 0 := by
  induction types generalizing Ts m with
  | nil => unfold uccOp; rfl
  | cons ty types ih =>
    cases Ts with
    | nil => unfold uccOp; rfl
    | cons T Ts =>
      cases m with
      | zero => rfl
      | succ m =>
        rw [List.replicate_succ, uccOp, effAngle_zero, zero_mul, zero_smul, zero_add, ih]

theorem uccEps_eq : uccEps = 1 / 2 ^ 26 := by
  unfold uccEps
  rw [show (1 / 2 ^ 52 : ℝ) = (1 / 2 ^ 26) ^ 2 by norm_num]
  exact Real.sqrt_sq (by positivity)

theorem uccEps_pos : 0 < uccEps := by rw [uccEps_eq]; positivity

theorem effAngle_eps : effAngle uccEps = uccEps := by
  unfold effAngle
  rw [if_neg]
  rw [uccEps_eq, abs_of_pos (by positivity)]
  norm_num

theorem effAngle_one : effAngle 1 = 1 := by
  unfold effAngle
  rw [if_neg]
  norm_num

/-- A curve of states of the space. -/
theorem fder_stateOf {ψ : ℝ → Vec ℝ} {δ : Vec ℝ} {θ : ℝ} (h : ∀ i < ci.idx2det.length, HasDerivAt (fun t => ψ t i) (δ i) θ) :
    FDer (fun t => stateOf ci (ψ t)) (stateOf ci δ) θ := by
  simp only [stateOf_eq]
  refine FDer.sum _ fun i hi => ?_
  have e : ∀ c : ℝ, (sgl (ci.D i) c : Fock ℝ) = c • sgl (ci.D i) 1 := fun c => by
    rw [smul_sgl, mul_one]
  simp only [e (ψ _ i), e (δ i)]
  exact FDer.smul (h i (Finset.mem_range.1 hi)) _

theorem dot_fin (n : ℕ) (x y : Vec ℝ) : dot n x y = (fun i : Fin n => x i) ⬝ᵥ (fun i : Fin n => y i) := by
  unfold dot
  rw [list_sum_range, Finset.sum_range]
  rfl

theorem expm_fin {n : ℕ} (A : Matrix (Fin n) (Fin n) ℝ) (v : Vec ℝ) :
    (fun i : Fin n => expmMultiply n A v i) = (NormedSpace.exp A).mulVec (fun j : Fin n => v j) := by
  funext i
  unfold expmMultiply
  rw [dif_pos i.2]

end

section
variable {tiny : ℝ → Bool} {ci : CIInfo} {st : AnsatzStruct} {Ts : List (FOp ℝ)} {n : ℕ}

/-- The matrix of the UCC operator depends on one parameter along a line. -/
theorem ucc_line (ht : ExactTiny tiny) (hs : AnsatzSpace ci n) (h : Layout ci.offset n st.types st.indices Ts) (ho : ci.offset = 0)
    {θs : List ℝ} {i : ℕ} {ty : String} {T : FOp ℝ} (h1 : st.types[i]? = some ty) (h2 : Ts[i]? = some T) (h3 : i < θs.length) :
    ∃ A B : Matrix (Fin ci.idx2det.length) (Fin ci.idx2det.length) ℝ, A.transpose = -A ∧ B.transpose = -B ∧
      Repr ci B (uccFactor ty • T) ∧
      (∀ t, uccMat tiny ci st (θs.set i t) = .ok (A + effAngle t • B)) ∧
      (∀ t, uccMat tiny ci st ((List.replicate θs.length 0).set i t) = .ok (effAngle t • B)) ∧
      ∀ t v, constructUcc tiny ci st (θs.set i t) false v = .ok (expmMultiply ci.idx2det.length (A + effAngle t • B) v) := by
  have mat : ∀ θ, ∃ A : Matrix (Fin ci.idx2det.length) (Fin ci.idx2det.length) ℝ, uccMat tiny ci st θ = .ok A ∧
      Repr ci A (uccOp st.types Ts θ) ∧ A.transpose = -A ∧
      ∀ v, constructUcc tiny ci st θ false v = .ok (expmMultiply ci.idx2det.length A v) := by
    intro θ
    obtain ⟨T, M, a1, a2, a3, a4⟩ := ucc_built ht hs h θ
    refine ⟨_, ?_, a3, a4, fun v => ?_⟩
    · unfold uccMat
      rw [← ho, a1, ok_bind, a2, ok_bind]
      rfl
    · unfold constructUcc
      simp only [a1, a2, ok_bind]
      rfl
  obtain ⟨A, a1, a2, a3, a4⟩ := mat (θs.set i 0)
  obtain ⟨B, b1, b2, b3, b4⟩ := mat ((List.replicate θs.length 0).set i 1)
  have hB : Repr ci B (uccFactor ty • T) := by
    rw [uccOp_set h1 h2 (by simpa using h3), effAngle_one, one_mul] at b2
    have e : (List.replicate θs.length (0 : ℝ)).set i 0 = List.replicate θs.length 0 := by simp
    rw [e, uccOp_zero, zero_add] at b2
    exact b2
  have hset : ∀ t, ∀ C, Repr ci C (uccOp st.types Ts (θs.set i t)) → C = A + effAngle t • B := by
    intro t C hC
    rw [uccOp_set h1 h2 h3 t, mul_smul] at hC
    exact hC.unique hs.valid (a2.add (hB.smul _))
  refine ⟨A, B, a3, b3, hB, fun t => ?_, fun t => ?_, fun t v => ?_⟩
  · obtain ⟨C, c1, c2, -⟩ := mat (θs.set i t)
    rw [c1, hset t C c2]
  · obtain ⟨C, c1, c2, -⟩ := mat ((List.replicate θs.length 0).set i t)
    rw [uccOp_set h1 h2 (by simpa using h3), mul_smul,
      show (List.replicate θs.length (0 : ℝ)).set i 0 = List.replicate θs.length 0 by simp, uccOp_zero, zero_add] at c2
    rw [c1, c2.unique hs.valid (hB.smul _)]
  · obtain ⟨C, -, c2, -, c4⟩ := mat (θs.set i t)
    rw [c4, hset t C c2]

/-- The loop of the gradient: every entry is a difference quotient, the auxiliary parameters return to zero. -/
theorem uccGradLoop_ok {csf Hket : Vec ℝ} {Tmat : Matrix (Fin ci.idx2det.length) (Fin ci.idx2det.length) ℝ} {E : ℝ} {m : ℕ}
    {P : ℕ → Matrix (Fin ci.idx2det.length) (Fin ci.idx2det.length) ℝ}
    (hP : ∀ i < m, uccMat tiny ci st ((List.replicate m 0).set i uccEps) = .ok (P i)) (is : List ℕ) (his : ∀ i ∈ is, i < m) :
    uccGradLoop tiny ci st csf Tmat Hket E is (List.replicate m 0) = .ok (is.map fun i =>
      2 * (dot ci.idx2det.length (expmMultiply ci.idx2det.length (Tmat + P i) csf) Hket - E) / uccEps) := by
  induction is with
  | nil => rfl
  | cons i is ih =>
    have hi := his i List.mem_cons_self
    have h0 : (List.replicate m (0 : ℝ))[i]? = some 0 := by simp [hi]
    have hstep : uccEps * (if (0 : ℝ) ≤ 0 then 1 else -1) * max 1 |(0 : ℝ)| = uccEps := by simp
    unfold uccGradLoop
    simp only [h0]
    rw [hstep, zero_add, hP i hi, ok_bind, sub_self,
      show (List.replicate m (0 : ℝ)).set i 0 = List.replicate m 0 by simp, ih fun j hj => his j (List.mem_cons_of_mem _ hj), ok_bind]
    rfl

/-- The gradient loop: entry `i` is the derivative of the energy along parameter `i` up to an error of the order of the step. -/
theorem ucc_gradient {big : ℝ → Bool} {th : Threads} (ht : ExactTiny tiny) (hb : ExactBig big) (hs : AnsatzSpace ci ci.nA)
    (hth : th.Fair ci.idx2det.length) {h : ℕ → ℕ → ℝ} {g : ℕ → ℕ → ℕ → ℕ → ℝ}
    (hh : ∀ p q, h p q = h q p) (hg : ∀ p q r s, g p q r s = g q p s r)
    (hL : Layout ci.offset ci.nA st.types st.indices Ts) (ho : ci.offset = 0) {csf : Vec ℝ}
    (hn : dot ci.idx2det.length csf csf = 1) {thetas : List ℝ} (hl : st.types.length = thetas.length) {H : FOp ℝ}
    (hH : H = oneOp h (ci.nI + ci.nA + ci.nV) + (1 / 2 : ℝ) • twoOp g (ci.nI + ci.nA + ci.nV)) :
    ∃ c Hket Tmat grad, constructUcc tiny ci st thetas false csf = .ok c ∧ applyHam tiny big th ci h g c = .ok Hket ∧
      uccMat tiny ci st thetas = .ok Tmat ∧
      uccGradLoop tiny ci st csf Tmat Hket (dot ci.idx2det.length c Hket) (List.range thetas.length)
        (List.replicate thetas.length 0) = .ok grad ∧ grad.length = thetas.length ∧
      ∀ i x d, thetas[i]? = some x → grad[i]? = some d → ∃ (ψ : ℝ → Vec ℝ) (d' : ℝ),
        (∀ t, constructUcc tiny ci st (thetas.set i t) false csf = .ok (ψ (effAngle t))) ∧
        HasDerivAt (fun t => inner (core (2 * ci.nI) (stateOf ci (ψ t))) (H (core (2 * ci.nI) (stateOf ci (ψ t))))) d'
          (effAngle x) ∧
        |d - d'| ≤ 1 / 2 ^ 20 * fockNorm (H (core (2 * ci.nI) (stateOf ci c))) := by
  -- the layout, one entry at a time
  have aux : ∀ {types indices Ts}, Layout ci.offset ci.nA types indices Ts → ∀ i < types.length,
      ∃ ty ix T, types[i]? = some ty ∧ Ts[i]? = some T ∧ Excitation ci.offset ci.nA ty ix T := by
    intro types indices Ts hL
    induction hL with
    | nil => intro i hi; simp at hi
    | cons h1 _ ih =>
      intro i hi
      cases i with
      | zero => exact ⟨_, _, _, rfl, rfl, h1⟩
      | succ i => simpa using ih i (by simpa using hi)
  set N := ci.idx2det.length with hN
  have line : ∀ i < thetas.length, ∃ ty ix T, st.types[i]? = some ty ∧ Ts[i]? = some T ∧ Excitation ci.offset ci.nA ty ix T ∧
      ∃ A B : Matrix (Fin N) (Fin N) ℝ, A.transpose = -A ∧ B.transpose = -B ∧
      Repr ci B (uccFactor ty • T) ∧
      (∀ t, uccMat tiny ci st (thetas.set i t) = .ok (A + effAngle t • B)) ∧
      (∀ t, uccMat tiny ci st ((List.replicate thetas.length 0).set i t) = .ok (effAngle t • B)) ∧
      ∀ t v, constructUcc tiny ci st (thetas.set i t) false v = .ok (expmMultiply N (A + effAngle t • B) v) := by
    intro i hi
    obtain ⟨ty, ix, T, a1, a2, a3⟩ := aux hL i (by omega)
    exact ⟨ty, ix, T, a1, a2, a3, ucc_line ht hs hL ho a1 a2 hi⟩
  obtain ⟨T0, M0, u1, u2, -, -⟩ := ucc_built ht hs hL thetas
  have hT : uccMat tiny ci st thetas = .ok (matOf N M0) := by
    unfold uccMat
    rw [← ho, u1, ok_bind, u2, ok_bind]
    rfl
  have hc : constructUcc tiny ci st thetas false csf = .ok (expmMultiply N (matOf N M0) csf) := by
    unfold constructUcc
    simp only [u1, u2, ok_bind]
    rfl
  set c := expmMultiply N (matOf N M0) csf with hcdef
  obtain ⟨w, w1, w2'⟩ := C70_hamiltonian (tiny := tiny) ht hb hs hth h g c
  have w2 : ∀ bra, dot N bra w = inner (core (2 * ci.nI) (stateOf ci bra)) (H (core (2 * ci.nI) (stateOf ci c))) := by
    rw [hH]; exact w2'
  have hP : ∀ i, ∃ P : Matrix (Fin N) (Fin N) ℝ, i < thetas.length →
      uccMat tiny ci st ((List.replicate thetas.length 0).set i uccEps) = .ok P := by
    intro i
    by_cases hi : i < thetas.length
    · obtain ⟨ty, ix, T, a1, a2, a3, A, B, b1, b2, b3, b4, b5, b6⟩ := line i hi
      exact ⟨_, fun _ => b5 uccEps⟩
    · exact ⟨0, fun h => absurd h hi⟩
  choose P hP using hP
  refine ⟨c, w, _, _, hc, w1, hT, uccGradLoop_ok hP (List.range thetas.length) fun i hi => List.mem_range.1 hi, by simp, ?_⟩
  intro i x d hx hd
  have hi := (List.getElem?_eq_some_iff.1 hx).1
  have hset : thetas.set i x = thetas := by
    rw [← (List.getElem?_eq_some_iff.1 hx).2, List.set_getElem_self]
  obtain ⟨ty, ix, T, a1, a2, a3, A, B, b1, b2, b3, b4, b5, b6⟩ := line i hi
  have eT : matOf N M0 = A + effAngle x • B := by
    have := b4 x
    rw [hset, hT] at this
    exact Except.ok.inj this
  have eP : P i = uccEps • B := by
    have := b5 uccEps
    rw [hP i hi, effAngle_eps] at this
    exact Except.ok.inj this
  obtain ⟨u, k1, k2⟩ := exp_line b1 b2 (effAngle x) fun j : Fin N => csf j
  have hB : ∀ y : Fin N → ℝ, B.mulVec y ⬝ᵥ B.mulVec y ≤ 8 ^ 2 * (y ⬝ᵥ y) := by
    intro y
    set v : Vec ℝ := fun j => if hj : j < N then y ⟨j, hj⟩ else 0 with hv
    have ev : (fun j : Fin N => v j) = y := by
      funext j
      simp only [hv]
      rw [dif_pos j.2]
    obtain ⟨z, z1, z2⟩ := b3 v
    have ez : (fun j : Fin N => z j) = B.mulVec y := by
      funext j
      rw [z1, ev]
    have e1 : B.mulVec y ⬝ᵥ B.mulVec y = inner (stateOf ci z) (stateOf ci z) := by
      rw [← ez, ← dot_fin, dot_eq_inner hs.valid]
    have e2 : y ⬝ᵥ y = inner (stateOf ci v) (stateOf ci v) := by
      rw [← dot_eq_inner hs.valid, dot_fin, ev]
    have hb8 := (excitation_bound a3).2 (stateOf ci v)
    rw [e1, e2, z2, ← fockNorm_sq, ← fockNorm_sq, ← mul_pow]
    exact pow_le_pow_left₀ (fockNorm_nonneg _) hb8 2
  have hrem := k2 8 hB uccEps fun j : Fin N => w j
  set δ : Vec ℝ := fun j => if hj : j < N then u ⟨j, hj⟩ else 0 with hδ
  have eδ : (fun j : Fin N => δ j) = u := by
    funext j
    simp only [hδ]
    rw [dif_pos j.2]
  have hder : FDer (fun t => stateOf ci (expmMultiply N (A + t • B) csf)) (stateOf ci δ) (effAngle x) := by
    refine fder_stateOf fun j hj => ?_
    have := k1 ⟨j, hj⟩
    have e : ∀ t : ℝ, expmMultiply N (A + t • B) csf j = (NormedSpace.exp (A + t • B)).mulVec (fun j : Fin N => csf j) ⟨j, hj⟩ :=
      fun t => congrFun (expm_fin (A + t • B) csf) ⟨j, hj⟩
    have e2 : δ j = u ⟨j, hj⟩ := dif_pos hj
    rw [e2]
    exact this.congr_of_eventuallyEq (Filter.Eventually.of_forall fun t => e t)
  have hadj : IsAdjoint H H := by
    rw [hH]
    exact C11_hermitian h g _ (fun p q _ _ => hh p q) fun p q r s _ _ _ _ => hg p q r s
  have hder1 : FDer (fun t => core (2 * ci.nI) (stateOf ci (expmMultiply N (A + t • B) csf)))
      (core (2 * ci.nI) (stateOf ci δ)) (effAngle x) := hder.map (core (2 * ci.nI))
  have hE := hder1.inner (hder1.map H)
  have ec : expmMultiply N (A + effAngle x • B) csf = c := by rw [hcdef, eT]
  have esym : inner (core (2 * ci.nI) (stateOf ci c)) (H (core (2 * ci.nI) (stateOf ci δ))) = dot N δ w := by
    rw [← hadj, inner_comm, w2]
  rw [ec, esym, ← w2, ← two_mul] at hE
  refine ⟨fun t => expmMultiply N (A + t • B) csf, _, fun t => b6 t csf, hE, ?_⟩
  -- the error
  have ed : d = 2 * (dot N (expmMultiply N (A + (effAngle x + uccEps) • B) csf) w - dot N c w) / uccEps := by
    rw [List.getElem?_map, List.getElem?_range hi, Option.map_some] at hd
    rw [← Option.some.inj hd, eT, eP, add_smul, add_assoc]
  have hnorm : √((fun j : Fin N => csf j) ⬝ᵥ (fun j : Fin N => csf j)) = 1 := by
    rw [← dot_fin, hn, Real.sqrt_one]
  have hw : √((fun j : Fin N => w j) ⬝ᵥ (fun j : Fin N => w j)) ≤ fockNorm (H (core (2 * ci.nI) (stateOf ci c))) := by
    rw [← dot_fin]
    refine Real.sqrt_le_sqrt ?_
    have h1 : inner (core (2 * ci.nI) (stateOf ci w)) (core (2 * ci.nI) (stateOf ci w)) = dot N w w := by
      rw [inner_core, dot_eq_inner hs.valid]
    rw [← h1]
    exact inner_proj_le (by rw [h1, w2])
  rw [hnorm, mul_one, ← expm_fin, ← expm_fin, ← eδ, ← dot_fin, ← dot_fin, ← dot_fin, ec] at hrem
  have hp := uccEps_pos
  have e : d - 2 * dot N δ w = 2 / uccEps * (dot N (expmMultiply N (A + (effAngle x + uccEps) • B) csf) w - dot N c w
      - uccEps * dot N δ w) := by
    rw [ed]
    field_simp
  rw [e, abs_mul, abs_of_pos (by positivity : (0 : ℝ) < 2 / uccEps)]
  calc _ ≤ 2 / uccEps * (uccEps ^ 2 * 8 ^ 2 / 2 * √((fun j : Fin N => w j) ⬝ᵥ (fun j : Fin N => w j))) := by gcongr
    _ = uccEps * 64 * √((fun j : Fin N => w j) ⬝ᵥ (fun j : Fin N => w j)) := by field_simp; ring
    _ ≤ uccEps * 64 * fockNorm (H (core (2 * ci.nI) (stateOf ci c))) := by gcongr
    _ = _ := by rw [uccEps_eq]; ring

end

end SQ
