import Verif.Lemmas.AnsatzAct

/-! # Every excitation of the ansatz: frequencies, unitarity and action -/

namespace SQ

theorem sq2 : Real.sqrt 2 ^ 2 = 2 := Real.sq_sqrt (by norm_num)
theorem sq3 : Real.sqrt 3 ^ 2 = 3 := Real.sq_sqrt (by norm_num)

theorem poly1 {T X : FOp ℝ} (hX : (2 : ℝ) • T = X) (h : X * prodSq X [4] = 0) : T * (T * T) = -T := by
  subst hX
  have := exp_prodSq T 2 [4] h (by norm_num)
  simp only [List.map_cons, List.map_nil, List.prod_cons, List.prod_nil, mul_one, mul_add,
    mul_smul_comm] at this
  rw [eq_neg_iff_add_eq_zero]
  convert this using 2
  norm_num

theorem poly23 {T X : FOp ℝ} (hX : Real.sqrt 2 • T = X) (h : X * prodSq X [2, 1] = 0) :
    T ^ 5 + (3 / 2 : ℝ) • T ^ 3 + (1 / 2 : ℝ) • T ^ 1 = 0 := by
  subst hX
  have := exp_prodSq T (Real.sqrt 2) [2, 1] h (by positivity)
  simp only [List.map_cons, List.map_nil, List.prod_cons, List.prod_nil, mul_one, sq2, ← sq, mul_add,
    add_mul, smul_mul_assoc, mul_smul_comm, one_mul, ← pow_mul, ← pow_add, t_ev, Nat.reduceAdd,
    Nat.reduceMul, smul_add, smul_smul] at this
  push_cast at this
  linear_combination (norm := (rw [pow_one]; module)) this

theorem poly4 {T X : FOp ℝ} (hX : (2 : ℝ) • T = X) (h : X * prodSq X [4, 8, 2, 1] = 0) :
    T ^ 9 + (15 / 4 : ℝ) • T ^ 7 + (35 / 8 : ℝ) • T ^ 5 + (15 / 8 : ℝ) • T ^ 3 + (1 / 4 : ℝ) • T ^ 1 = 0 := by
  subst hX
  have := exp_prodSq T 2 [4, 8, 2, 1] h (by positivity)
  simp only [List.map_cons, List.map_nil, List.prod_cons, List.prod_nil, mul_one, ← sq, mul_add,
    add_mul, smul_mul_assoc, mul_smul_comm, one_mul, ← pow_mul, ← pow_add, t_ev, Nat.reduceAdd,
    Nat.reduceMul, smul_add, smul_smul] at this
  push_cast at this
  linear_combination (norm := (rw [pow_one]; module)) this

theorem poly5 {T X : FOp ℝ} (hX : (2 * Real.sqrt 3) • T = X) (h : X * prodSq X [24, 6, 4, 9, 1] = 0) :
    T ^ 11 + (11 / 3 : ℝ) • T ^ 9 + (613 / 144 : ℝ) • T ^ 7 + (587 / 288 : ℝ) • T ^ 5
      + (113 / 288 : ℝ) • T ^ 3 + (1 / 48 : ℝ) • T ^ 1 = 0 := by
  subst hX
  have := exp_prodSq T (2 * Real.sqrt 3) [24, 6, 4, 9, 1] h (by positivity)
  have e12 : (2 * Real.sqrt 3) ^ 2 = 12 := by rw [mul_pow, sq3]; norm_num
  simp only [List.map_cons, List.map_nil, List.prod_cons, List.prod_nil, mul_one, e12, ← sq, mul_add,
    add_mul, smul_mul_assoc, mul_smul_comm, one_mul, ← pow_mul, ← pow_add, t_ev, Nat.reduceAdd,
    Nat.reduceMul, smul_add, smul_smul] at this
  push_cast at this
  linear_combination (norm := (rw [pow_one]; module)) this

/-! ### Anti-Hermitian -/

/-- `T† = -T`. -/
def Skew (T : FOp ℝ) : Prop := IsAdjoint T (-T)

theorem Skew.of {T Td : FOp ℝ} (h : IsAdjoint T Td) : Skew (T - Td) := by
  unfold Skew
  rw [neg_sub]
  exact h.sub h.symm

theorem Skew.smul {T : FOp ℝ} (h : Skew T) (c : ℝ) : Skew (c • T) := by
  unfold Skew; rw [← smul_neg]; exact IsAdjoint.smul c h

theorem Skew.add {S T : FOp ℝ} (h : Skew S) (k : Skew T) : Skew (S + T) := by
  unfold Skew; rw [neg_add]; exact IsAdjoint.add h k

theorem Skew.pow {T : FOp ℝ} (h : Skew T) (j : ℕ) : Skew (T ^ (2 * j + 1)) := by
  induction j with
  | zero => simpa using h
  | succ j ih =>
    have := (IsAdjoint.mul h (IsAdjoint.mul ih h))
    unfold Skew
    have e : T ^ (2 * (j + 1) + 1) = T * (T ^ (2 * j + 1) * T) := by
      rw [← pow_succ, ← pow_succ']; congr 1
    rw [e]
    convert this using 1
    simp only [neg_mul, mul_neg, neg_neg, mul_assoc]

theorem Skew.tri {A B : FOp ℝ} (hA : Skew A) (hB : Skew B) (hc : B * A = A * B) : Skew (A * (A * B)) := by
  have := IsAdjoint.mul hA (IsAdjoint.mul hA hB)
  unfold Skew
  convert this using 1
  simp only [neg_mul, mul_neg, neg_neg]
  rw [hc, mul_assoc, hc]

theorem Skew.sum {ι : Type*} (t : Finset ι) {f : ι → FOp ℝ} (h : ∀ i ∈ t, Skew (f i)) : Skew (∑ i ∈ t, f i) := by
  unfold Skew
  rw [← Finset.sum_neg_distrib]
  exact isAdjoint_sum t _ _ h

/-! ### The spin-adapted single -/

section
variable {A B : FOp ℝ}

/-- Frequencies of the spin-adapted single. -/
noncomputable def s12 : Fin 2 → ℝ := ![1, 2]

/-- `A²B + AB²`. -/
noncomputable def wOp (A B : FOp ℝ) : FOp ℝ := A * (A * B) + A * (B * B)

theorem freq12 (hA : A * (A * A) = -A) (hB : B * (B * B) = -B) (hc : B * A = A * B) :
    Freq (A + B) s12 ![A + B + wOp A B, -wOp A B] := by
  have hc' : ∀ X, B * (A * X) = A * (B * X) := fun X => by rw [← mul_assoc, hc, mul_assoc]
  have hA' : ∀ X, A * (A * (A * X)) = -(A * X) := fun X => by
    rw [← neg_mul, ← hA]; simp only [mul_assoc]
  have hB' : ∀ X, B * (B * (B * X)) = -(B * X) := fun X => by
    rw [← neg_mul, ← hB]; simp only [mul_assoc]
  refine ⟨?_, ?_, ?_, ?_, ?_⟩
  · intro k; fin_cases k <;> simp [s12]
  · intro k l; fin_cases k <;> fin_cases l <;> simp [s12] <;> norm_num
  · rw [Fin.sum_univ_two]
    show A + B + wOp A B + -wOp A B = A + B
    abel
  · intro k
    fin_cases k
    · show (A + B) * ((A + B) * (A + B + wOp A B)) = -((1 : ℝ) ^ 2) • (A + B + wOp A B)
      simp only [wOp, mul_add, add_mul, mul_assoc, hc, hc', hA, hA', hB, hB', mul_neg, neg_mul]
      module
    · show (A + B) * ((A + B) * (-wOp A B)) = -((2 : ℝ) ^ 2) • (-wOp A B)
      simp only [wOp, mul_add, add_mul, mul_assoc, hc, hc', hA, hA', hB, hB', mul_neg, neg_mul]
      module
  · intro k
    fin_cases k
    · show (A + B + wOp A B) * (A + B) = (A + B) * (A + B + wOp A B)
      simp only [wOp, mul_add, add_mul, mul_assoc, hc, hc', hA, hA', hB, hB', mul_neg, neg_mul]
      module
    · show (-wOp A B) * (A + B) = (A + B) * (-wOp A B)
      simp only [wOp, mul_add, add_mul, mul_assoc, hc, hc', hA, hA', hB, hB', mul_neg, neg_mul]
      module

theorem u12 (hA : A * (A * A) = -A) (hB : B * (B * B) = -B) (hc : B * A = A * B) (θ : ℝ) :
    (1 + Real.sin θ • B + (1 - Real.cos θ) • (B * B)) * (1 + Real.sin θ • A + (1 - Real.cos θ) • (A * A))
      = uSpec (A + B) s12 ![A + B + wOp A B, -wOp A B] θ := by
  have hc' : ∀ X, B * (A * X) = A * (B * X) := fun X => by rw [← mul_assoc, hc, mul_assoc]
  have hA' : ∀ X, A * (A * (A * X)) = -(A * X) := fun X => by
    rw [← neg_mul, ← hA]; simp only [mul_assoc]
  have hB' : ∀ X, B * (B * (B * X)) = -(B * X) := fun X => by
    rw [← neg_mul, ← hB]; simp only [mul_assoc]
  rw [uSpec_inv _ s12 _ θ ![1, 1 / 2] ![1, 1 / 4] (by intro k; fin_cases k <;> simp [s12])
    (by intro k; fin_cases k <;> simp [s12] <;> norm_num), Fin.sum_univ_two]
  show _ = 1 + (((Real.sin (1 * θ) * 1) • (A + B + wOp A B)
      + ((1 - Real.cos (1 * θ)) * 1) • ((A + B) * (A + B + wOp A B)))
    + ((Real.sin (2 * θ) * (1 / 2)) • (-wOp A B)
      + ((1 - Real.cos (2 * θ)) * (1 / 4)) • ((A + B) * (-wOp A B))))
  rw [one_mul, Real.sin_two_mul, Real.cos_two_mul]
  have hs : Real.sin θ ^ 2 = 1 - Real.cos θ ^ 2 := by
    have := Real.sin_sq_add_cos_sq θ; linarith
  simp only [wOp, mul_add, add_mul, mul_assoc, hc, hc', hA, hA', hB, hB', mul_neg, neg_mul,
    smul_mul_assoc, mul_smul_comm, one_mul, mul_one]
  match_scalars <;> first | ring1 | linear_combination hs | linear_combination -hs

end

/-! ### Strings -/

theorem cube_excite (C A : List ℕ) (Y : FOp ℝ) (hY : IsAdjoint (excite C A : FOp ℝ) Y) :
    (excite C A - Y) * ((excite C A - Y) * (excite C A - Y)) = -(excite C A - Y) := by
  have h := adj_isAdjoint (R := ℝ) ((C.map fun p => (p, true)) ++ A.map fun p => (p, false))
  rw [← excite_eq] at h
  rw [hY.unique h, excite_eq]
  exact cube_string _

/-! ### All excitations -/

section
variable {tiny : ℝ → Bool} {ci : CIInfo} {n : ℕ} {th : Threads}

/-- `T` is anti-Hermitian with finitely many frequencies and `f θ` acts as `exp(θ T)`. -/
def ActsExp (ci : CIInfo) (f : ℝ → Vec ℝ → Res (Vec ℝ)) (T : FOp ℝ) : Prop :=
  ∃ (m : ℕ) (s : Fin m → ℝ) (Q : Fin m → FOp ℝ), Freq T s Q ∧ Skew T ∧ (∀ k, Skew (Q k)) ∧
    ∀ θ, ActsAs ci (f θ) (uSpec T s Q θ)

theorem ActsAs.congr {f g : Vec ℝ → Res (Vec ℝ)} {U W : FOp ℝ} (h : ActsAs ci f U) (hf : ∀ v, f v = g v)
    (hU : U = W) : ActsAs ci g W := by
  obtain rfl : f = g := funext hf
  exact hU ▸ h

variable {prop : List (Dict ℝ) → Vec ℝ → Res (Vec ℝ)} {d : Dict ℝ} {T : FOp ℝ} {ty : String}
  {idx : List ℕ} {off : ℕ}

theorem applyExc_one (hty : ty ∈ oneFreqTypes) (hT : excT tiny off ty idx = .ok d) (θ : ℝ) (v : Vec ℝ) :
    applyExc prop tiny off ty idx θ v = rotate prop d θ v := by
  have h1 : ty ≠ "sa_single" := by rintro rfl; exact absurd hty (by decide)
  unfold applyExc
  rw [if_neg h1, if_pos hty, hT]

theorem applyExc_23 (hty : ty = "sa_double_2" ∨ ty = "sa_double_3") (hT : excT tiny off ty idx = .ok d)
    (θ : ℝ) (v : Vec ℝ) : applyExc prop tiny off ty idx θ v = series prop d S23 θ k23 v v := by
  have h1 : ty ≠ "sa_single" := by rcases hty with rfl | rfl <;> decide
  have h2 : ty ∉ oneFreqTypes := by rcases hty with rfl | rfl <;> decide
  unfold applyExc
  rw [if_neg h1, if_neg h2, if_pos hty, hT]

theorem applyExc_4 (hT : excT tiny off "sa_double_4" idx = .ok d)
    (θ : ℝ) (v : Vec ℝ) : applyExc prop tiny off "sa_double_4" idx θ v = series prop d S4 θ k4 v v := by
  unfold applyExc
  rw [if_neg (by decide), if_neg (by decide), if_neg (by decide), if_pos rfl, hT]

theorem applyExc_5 (hT : excT tiny off "sa_double_5" idx = .ok d)
    (θ : ℝ) (v : Vec ℝ) : applyExc prop tiny off "sa_double_5" idx θ v = series prop d S5 θ k5 v v := by
  unfold applyExc
  rw [if_neg (by decide), if_neg (by decide), if_neg (by decide), if_neg (by decide), if_pos rfl, hT]

theorem spinName_mem {k : ℕ} (hk : 1 ≤ k ∧ k ≤ 6) : spinName k ∈ oneFreqTypes := by
  have hk6 : k = 1 ∨ k = 2 ∨ k = 3 ∨ k = 4 ∨ k = 5 ∨ k = 6 := by omega
  rcases hk6 with rfl | rfl | rfl | rfl | rfl | rfl <;> decide

theorem acts_one (ht : ExactTiny tiny) (hs : AnsatzSpace ci n) (hth : th.Fair ci.idx2det.length)
    (h : Excitation ci.offset n ty idx T) (hty : ty ∈ oneFreqTypes) (h3 : T * (T * T) = -T)
    (hsk : Skew T) : ActsExp ci (applyExc (propVec tiny th ci) tiny ci.offset ty idx) T := by
  have h1 : ty ≠ "sa_single" := by rintro rfl; exact absurd hty (by decide)
  obtain ⟨d, hd, a1, a2⟩ := dk_acts ht hs hth (dk_exc ht h h1)
  refine ⟨1, s1, ![T], freq1 T h3, hsk, fun k => by fin_cases k; exact hsk, fun θ => ?_⟩
  exact (rotate_acts a1 a2 θ).congr (fun v => (applyExc_one hty hd θ v).symm) (u1 T θ)

theorem skew_Q23 (h : Skew T) (k : Fin 2) : Skew (Q23 T k) := by
  have a := h.pow 0; have b := h.pow 1
  fin_cases k <;> exact (a.smul _).add (b.smul _)

theorem skew_Q4 (h : Skew T) (k : Fin 4) : Skew (Q4 T k) := by
  have a := h.pow 0; have b := h.pow 1; have c := h.pow 2; have d := h.pow 3
  fin_cases k <;> exact (((a.smul _).add (b.smul _)).add (c.smul _)).add (d.smul _)

theorem skew_Q5 (h : Skew T) (k : Fin 5) : Skew (Q5 T k) := by
  have a := h.pow 0; have b := h.pow 1; have c := h.pow 2; have d := h.pow 3; have e := h.pow 4
  fin_cases k <;> exact ((((a.smul _).add (b.smul _)).add (c.smul _)).add (d.smul _)).add (e.smul _)

theorem acts_23 (ht : ExactTiny tiny) (hs : AnsatzSpace ci n) (hth : th.Fair ci.idx2det.length)
    (h : Excitation ci.offset n ty idx T) (hty : ty = "sa_double_2" ∨ ty = "sa_double_3")
    (h3 : T ^ 5 + (3 / 2 : ℝ) • T ^ 3 + (1 / 2 : ℝ) • T ^ 1 = 0)
    (hsk : Skew T) : ActsExp ci (applyExc (propVec tiny th ci) tiny ci.offset ty idx) T := by
  have h1 : ty ≠ "sa_single" := by rcases hty with rfl | rfl <;> decide
  obtain ⟨d, hd, a1, -⟩ := dk_acts ht hs hth (dk_exc ht h h1)
  refine ⟨2, s23, Q23 T, freq23 T h3, hsk, skew_Q23 hsk, fun θ => ?_⟩
  exact (series_acts' a1 S23 θ k23).congr (fun v => (applyExc_23 hty hd θ v).symm) (u23 T θ)

theorem nodup_shift {l : List ℕ} (h : l.Nodup) (off : ℕ) : (l.map (· + off)).Nodup :=
  h.map (fun a b h => by simpa using h)

theorem sqrt2_inv {X : FOp ℝ} : Real.sqrt 2 • ((Real.sqrt 2)⁻¹ • X) = X := by
  rw [smul_smul, mul_inv_cancel₀ (by positivity), one_smul]

/-- Every excitation of the ansatz acts as the exponential of its generator. -/
theorem exc_acts (ht : ExactTiny tiny) (hs : AnsatzSpace ci n) (hth : th.Fair ci.idx2det.length)
    (h : Excitation ci.offset n ty idx T) :
    ActsExp ci (applyExc (propVec tiny th ci) tiny ci.offset ty idx) T := by
  cases h with
  | spin k hk I A hI hA hr hs' =>
    have hadj := adjoint_excite (R := ℝ) (A.map (· + 2 * ci.offset)) (I.map (· + 2 * ci.offset)).reverse
    rw [List.reverse_reverse] at hadj
    exact acts_one ht hs hth (.spin k hk I A hI hA hr hs') (spinName_mem hk) (cube_excite _ _ _ hadj)
      (.of hadj)
  | saDouble1 i a hd hr =>
    have hadj := (adjoint_E (R := ℝ) (a + ci.offset) (i + ci.offset)).mul
      (adjoint_E (a + ci.offset) (i + ci.offset))
    refine acts_one ht hs hth (.saDouble1 i a hd hr) (by decide) (poly1 ?_ (min1 (i := i + ci.offset)
      (a := a + ci.offset) (by omega) _ rfl)) ((Skew.of hadj).smul _)
    rw [smul_smul]; norm_num
  | saDouble2 i a b hd hr =>
    have hadj := (adjoint_E (R := ℝ) (a + ci.offset) (i + ci.offset)).mul
      (adjoint_E (b + ci.offset) (i + ci.offset))
    exact acts_23 ht hs hth (.saDouble2 i a b hd hr) (.inl rfl) (poly23 sqrt2_inv
      (min3 (nodup_shift hd ci.offset) _ rfl)) ((Skew.of hadj).smul _)
  | saDouble3 i j a hd hr =>
    have hadj := (adjoint_E (R := ℝ) (a + ci.offset) (i + ci.offset)).mul
      (adjoint_E (a + ci.offset) (j + ci.offset))
    exact acts_23 ht hs hth (.saDouble3 i j a hd hr) (.inr rfl) (poly23 sqrt2_inv
      (min2 (nodup_shift hd ci.offset) _ rfl)) ((Skew.of hadj).smul _)
  | saDouble4 i j a b hd hr =>
    have hadj := ((adjoint_E (R := ℝ) (a + ci.offset) (i + ci.offset)).mul
      (adjoint_E (b + ci.offset) (j + ci.offset))).add
      ((adjoint_E (R := ℝ) (a + ci.offset) (j + ci.offset)).mul
      (adjoint_E (b + ci.offset) (i + ci.offset)))
    have hsk := (Skew.of hadj).smul (1 / 2)
    obtain ⟨d, hd', a1, -⟩ := dk_acts ht hs hth (dk_exc ht (.saDouble4 i j a b hd hr) (by decide))
    refine ⟨4, s4, Q4 _, freq4 _ (poly4 ?_ (min4 (nodup_shift hd ci.offset) _ rfl)), hsk, skew_Q4 hsk,
      fun θ => (series_acts' a1 S4 θ k4).congr (fun v => (applyExc_4 hd' θ v).symm) (u4 _ θ)⟩
    rw [smul_smul]; norm_num
  | saDouble5 i j a b hd hr =>
    have hadj := ((adjoint_E (R := ℝ) (a + ci.offset) (i + ci.offset)).mul
      (adjoint_E (b + ci.offset) (j + ci.offset))).sub
      ((adjoint_E (R := ℝ) (a + ci.offset) (j + ci.offset)).mul
      (adjoint_E (b + ci.offset) (i + ci.offset)))
    have hsk := (Skew.of hadj).smul (1 / (2 * Real.sqrt 3))
    obtain ⟨d, hd', a1, -⟩ := dk_acts ht hs hth (dk_exc ht (.saDouble5 i j a b hd hr) (by decide))
    refine ⟨5, s5, Q5 _, freq5 _ (poly5 ?_ (min5 (nodup_shift hd ci.offset) _ rfl)), hsk, skew_Q5 hsk,
      fun θ => (series_acts' a1 S5 θ k5).congr (fun v => (applyExc_5 hd' θ v).symm) (u5 _ θ)⟩
    rw [smul_smul, mul_one_div_cancel (by positivity), one_smul]
  | saSingle i a hr =>
    have hi : i < n := hr i (by simp)
    have ha : a < n := hr a (by simp)
    have gen : ∀ σ, σ < 2 → DK (InBlock ci.offset n)
        (G1 tiny ((i + ci.offset) * 2 + σ) ((a + ci.offset) * 2 + σ) true)
        (cr (2 * (a + ci.offset) + σ) * an (2 * (i + ci.offset) + σ)
          - cr (2 * (i + ci.offset) + σ) * an (2 * (a + ci.offset) + σ)) := by
      intro σ hσ
      have := dk_spin ht ci.offset n 1 (by omega) [2 * i + σ] [2 * a + σ] rfl rfl
        (by simp; omega) (by simp)
      have e1 : (i + ci.offset) * 2 + σ = 2 * i + σ + 2 * ci.offset := by ring
      have e2 : (a + ci.offset) * 2 + σ = 2 * a + σ + 2 * ci.offset := by ring
      rw [e1, e2]
      refine DK.congr this ?_
      simp only [excite, List.map_cons, List.map_nil, List.reverse_singleton, List.prod_cons,
        List.prod_nil, mul_one]
      rw [← e1, ← e2]
      congr 1 <;> congr 2 <;> omega
    obtain ⟨dA, hA, aA1, aA2⟩ := dk_acts ht hs hth (gen 0 (by omega))
    obtain ⟨dB, hB, aB1, aB2⟩ := dk_acts ht hs hth (gen 1 (by omega))
    have cub : ∀ p q : ℕ, ((cr p * an q - cr q * an p : FOp ℝ)) *
        ((cr p * an q - cr q * an p) * (cr p * an q - cr q * an p)) = -(cr p * an q - cr q * an p) := by
      intro p q
      have := cube_excite [p] [q] (cr q * an p) (by
        simpa [excite] using (adjoint_cr (R := ℝ) p).mul (adjoint_an q))
      simpa [excite] using this
    have skw : ∀ p q : ℕ, Skew ((cr p * an q - cr q * an p : FOp ℝ)) := fun p q =>
      .of ((adjoint_cr (R := ℝ) p).mul (adjoint_an q))
    have hc : ∀ p q r s : ℕ, p ≠ r → p ≠ s → q ≠ r → q ≠ s →
        (cr p * an q - cr q * an p : FOp ℝ) * (cr r * an s - cr s * an r)
          = (cr r * an s - cr s * an r) * (cr p * an q - cr q * an p) := by
      intro p q r s h1 h2 h3 h4
      rw [sub_mul, mul_sub, mul_sub, sub_mul, mul_sub, mul_sub, pair_comm h3 h2, pair_comm h4 h1,
        pair_comm h1 h4, pair_comm h2 h3]
      abel
    set P := 2 * (a + ci.offset) with hP
    set O := 2 * (i + ci.offset) with hO
    set A : FOp ℝ := cr (P + 0) * an (O + 0) - cr (O + 0) * an (P + 0) with hAd
    set B : FOp ℝ := cr (P + 1) * an (O + 1) - cr (O + 1) * an (P + 1) with hBd
    have hcBA : B * A = A * B := hc _ _ _ _ (by omega) (by omega) (by omega) (by omega)
    have eT : (E (a + ci.offset) (i + ci.offset) - E (i + ci.offset) (a + ci.offset) : FOp ℝ) = A + B := by
      rw [hAd, hBd]; unfold E; rw [← hP, ← hO, add_zero, add_zero]; abel
    rw [eT]
    have skA : Skew A := skw _ _
    have skB : Skew B := skw _ _
    have skW : Skew (wOp A B) := by
      refine (skA.tri skB hcBA).add ?_
      have := skB.tri skA hcBA.symm
      rwa [hcBA, ← mul_assoc, hcBA, mul_assoc] at this
    have cA : A * (A * A) = -A := cub _ _
    have cB : B * (B * B) = -B := cub _ _
    refine ⟨2, s12, _, freq12 cA cB hcBA, skA.add skB, fun k => ?_, fun θ => ?_⟩
    · fin_cases k
      · exact (skA.add skB).add skW
      · have := skW.smul (-1); rwa [neg_one_smul] at this
    · refine ((rotate_acts aA1 aA2 (1 * θ)).comp (rotate_acts aB1 aB2 (1 * θ))).congr (fun v => ?_)
        (by rw [one_mul]; exact u12 cA cB hcBA θ)
      have hsS : saSingle tiny ci.offset [i, a] = .ok (dA, dB) := by
        show (do let Ta ← G1 tiny ((i + ci.offset) * 2 + 0) ((a + ci.offset) * 2 + 0) true
                 let Tb ← G1 tiny ((i + ci.offset) * 2 + 1) ((a + ci.offset) * 2 + 1) true
                 pure (Ta, Tb)) = _
        rw [hA, hB]; rfl
      unfold applyExc
      rw [if_pos rfl, hsS]

end

end SQ
