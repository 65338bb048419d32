import Verif.Lemmas.LinearResponse

/-!
# Property C67: the solutions of the linear response equations
-/

namespace SQ

open Matrix

variable {s : ℕ}

theorem flip_flip (j : Fin (s + s)) : (finAddFlip (finAddFlip j) : Fin (s + s)) = j := by
  refine Fin.addCases (fun j => ?_) (fun j => ?_) j <;>
    simp only [finAddFlip_apply_castAdd, finAddFlip_apply_natAdd]

/-- **C67, pairs.** If `(ω, (Z, Y))` solves the response equations then so does `(-ω, (Y, Z))`, whatever the
blocks are. -/
theorem C67_pairs (A B Sg Dl : RMat s) (w : ℂ) (v : Fin (s + s) → ℂ)
    (h : toC (lrHessian A B) *ᵥ v = w • (toC (lrMetric Sg Dl) *ᵥ v)) :
    toC (lrHessian A B) *ᵥ swapHalves v = (-w) • (toC (lrMetric Sg Dl) *ᵥ swapHalves v) := by
  funext i
  have hi := congrFun h (finAddFlip i)
  have reidx : ∀ M : RMat (s + s), (toC M *ᵥ swapHalves v) i =
      ∑ j, (M i (finAddFlip j) : ℂ) * v j := by
    intro M
    rw [swapHalves_eq]
    simp only [Matrix.mulVec, dotProduct, toC, Matrix.map_apply]
    rw [← Equiv.sum_comp (finAddFlip : Fin (s + s) ≃ Fin (s + s))]
    refine Finset.sum_congr rfl fun j _ => ?_
    congr 2
    exact flip_flip j
  have hflip : ∀ j : Fin (s + s), (finAddFlip (finAddFlip j) : Fin (s + s)) = j := flip_flip
  rw [reidx, Pi.smul_apply, reidx]
  simp only [Matrix.mulVec, dotProduct, toC, Matrix.map_apply, Pi.smul_apply] at hi
  have e1 : ∀ j, lrHessian A B i (finAddFlip j) = lrHessian A B (finAddFlip i) j := by
    intro j
    rw [← hessian_flip A B i, hflip]
  have e2 : ∀ j, lrMetric Sg Dl i (finAddFlip j) = -lrMetric Sg Dl (finAddFlip i) j := by
    intro j
    have := metric_flip Sg Dl i (finAddFlip j)
    rw [hflip] at this
    rw [this, neg_neg]
  simp only [e1, e2, Complex.ofReal_neg, neg_mul, Finset.sum_neg_distrib, smul_neg, neg_smul, neg_neg]
  exact hi

/-- The Hessian is symmetric when its blocks are. -/
theorem lrHessian_symm {A B : RMat s} (hA : A.IsSymm) (hB : B.IsSymm) : (lrHessian A B).IsSymm := by
  ext i j
  rw [Matrix.transpose_apply]
  unfold lrHessian
  refine Fin.addCases (fun i => ?_) (fun i => ?_) i <;> refine Fin.addCases (fun j => ?_) (fun j => ?_) j <;>
    simp only [blockMat_ll, blockMat_lr, blockMat_rl, blockMat_rr, hA.apply, hB.apply]

/-- The metric is symmetric when `Σ` is symmetric and `Δ` antisymmetric. -/
theorem lrMetric_symm {Sg Dl : RMat s} (hS : Sg.IsSymm) (hD : Dlᵀ = -Dl) : (lrMetric Sg Dl).IsSymm := by
  have hD' : ∀ i j, Dl j i = -Dl i j := fun i j => congrFun (congrFun hD i) j
  ext i j
  rw [Matrix.transpose_apply]
  unfold lrMetric
  refine Fin.addCases (fun i => ?_) (fun i => ?_) i <;> refine Fin.addCases (fun j => ?_) (fun j => ?_) j <;>
    simp only [blockMat_ll, blockMat_lr, blockMat_rl, blockMat_rr, hS.apply, Matrix.neg_apply]
  · exact (hD' j i).symm
  · exact hD' i j

/-- **C67, stability check.** If the (strict) calculation goes through without a warning, the Hessian is positive
definite. -/
theorem C67_check (lib : LRLib) (hl : LRLibOK lib) (q g : ℕ) (A B Sg Dl : RMat (q + g)) (hA : A.IsSymm)
    (hB : B.IsSymm) (out : LROut ((q + g) + (q + g)))
    (h : calcExcitations lib true q g A B Sg Dl = .ok out) (hw : out.warned = false) :
    (lrHessian A B).PosDef := by
  have hsym := lrHessian_symm hA hB
  have hherm : (lrHessian A B).IsHermitian := by
    rw [Matrix.IsHermitian, Matrix.conjTranspose_eq_transpose_of_trivial]; exact hsym
  rw [hherm.posDef_iff_eigenvalues_pos]
  intro i
  have hmem : hherm.eigenvalues i ∈ lib.eigvals _ (lrHessian A B) := by
    refine hl.complete _ _ hsym _ (hherm.eigenvectorBasis i : _) ?_ ?_
    · intro h0
      have := hherm.eigenvectorBasis.orthonormal.ne_zero i
      exact this (by ext k; exact congrFun h0 k)
    · exact hherm.mulVec_eigenvectorBasis i
  have hmin : ∀ (xs : List ℝ) (x : ℝ) (y : ℝ), (y = x ∨ y ∈ xs) → xs.foldl min x ≤ y := by
    intro xs
    induction xs with
    | nil => rintro x y (rfl | hy); exacts [le_rfl, by cases hy]
    | cons z xs ih =>
      rintro x y (rfl | hy)
      · exact (ih (min y z) (min y z) (Or.inl rfl)).trans (min_le_left _ _)
      · rcases List.mem_cons.1 hy with rfl | hy
        · exact (ih (min x y) (min x y) (Or.inl rfl)).trans (min_le_right _ _)
        · exact ih _ _ (Or.inr hy)
  unfold calcExcitations hessianCheck at h
  simp only [if_true] at h
  cases he : lib.eigvals _ (lrHessian A B) with
  | nil => rw [he] at hmem; cases hmem
  | cons x xs =>
    rw [he] at h hmem
    simp only [minEig, bind, Except.bind] at h
    have hle := hmin xs x _ (List.mem_cons.1 hmem)
    by_cases h1 : |xs.foldl min x| < 1e-8
    · rw [if_pos h1] at h
      cases h
      cases hw
    · rw [if_neg h1] at h
      by_cases h2 : xs.foldl min x < 0
      · rw [if_pos h2] at h; cases h
      · push Not at h1 h2
        rw [abs_of_nonneg h2] at h1
        have : (0 : ℝ) < 1e-8 := by norm_num
        linarith

/-- **C67, energies.** For a positive definite Hessian and a regular metric, the excitation energies are as many
as there are parameters, ascending and positive; together with their negatives they are all the roots, with
multiplicities; and every response vector solves the equations for its energy. -/
theorem C67_energies (lib : LRLib) (hl : LRLibOK lib) (strict : Bool) (q g : ℕ) (A B Sg Dl : RMat (q + g))
    (hSg : Sg.IsSymm) (hDl : Dlᵀ = -Dl) (hpos : (lrHessian A B).PosDef)
    (hdet : (lrMetric Sg Dl).det ≠ 0) (out : LROut ((q + g) + (q + g)))
    (h : calcExcitations lib strict q g A B Sg Dl = .ok out) :
    out.energies.length = q + g ∧ (∀ e ∈ out.energies, 0 < e) ∧ out.energies.Pairwise (· ≤ ·) ∧
    (((lib.eig _ (lrHessian A B) (lrMetric Sg Dl)).map Prod.fst : List ℂ) : Multiset ℂ) =
      ((out.energies.map Complex.ofReal : List ℂ) : Multiset ℂ) +
        ((out.energies.map fun e : ℝ => -(e : ℂ) : List ℂ) : Multiset ℂ) ∧
    ∀ p ∈ out.energies.zip out.vectors,
      lrHessian A B *ᵥ p.2 = p.1 • (lrMetric Sg Dl *ᵥ p.2) := by
  have hSsym := lrMetric_symm hSg hDl
  set E2 := lrHessian A B with hE2
  set S := lrMetric Sg Dl with hS
  set L := lib.eig _ E2 S with hL
  set l := sortedEig lib E2 S with hl'
  have hperm : l.Perm L := List.mergeSort_perm _ _
  have hroot : ∀ p ∈ l, p.1.im = 0 ∧ p.1.re ≠ 0 := by
    intro p hp
    obtain ⟨h1, h2⟩ := hl.solves _ E2 S hdet p (hperm.mem_iff.1 hp)
    exact root_real hpos hSsym h1 h2
  have hsorted : l.Pairwise fun a b => a.1.re ≤ b.1.re := by
    have := List.pairwise_mergeSort (le := fun (a b : ℂ × (Fin ((q + g) + (q + g)) → ℂ)) => complexLe a.1 b.1)
      (by
        intro a b c h1 h2
        simp only [complexLe, decide_eq_true_eq] at h1 h2 ⊢
        rcases h1 with h1 | ⟨h1, h1'⟩ <;> rcases h2 with h2 | ⟨h2, h2'⟩
        · exact Or.inl (h1.trans h2)
        · exact Or.inl (h2 ▸ h1)
        · exact Or.inl (h1 ▸ h2)
        · exact Or.inr ⟨h1.trans h2, h1'.trans h2'⟩)
      (by
        intro a b
        simp only [complexLe, Bool.or_eq_true, decide_eq_true_eq]
        rcases lt_trichotomy a.1.re b.1.re with h | h | h
        · exact Or.inl (Or.inl h)
        · rcases le_total a.1.im b.1.im with h' | h'
          · exact Or.inl (Or.inr ⟨h, h'⟩)
          · exact Or.inr (Or.inr ⟨h.symm, h'⟩)
        · exact Or.inr (Or.inl h)) L
    refine List.Pairwise.imp ?_ this
    intro a b hab
    simp only [complexLe, decide_eq_true_eq] at hab
    rcases hab with h | ⟨h, _⟩
    · exact h.le
    · exact h.le
  set M : Multiset ℂ := ((L.map Prod.fst : List ℂ) : Multiset ℂ) with hM
  have hMl : M = ((l.map Prod.fst : List ℂ) : Multiset ℂ) := by
    rw [hM]; exact Multiset.coe_eq_coe.2 (hperm.symm.map _)
  have hsymM : M.map (fun w => -w) = M := roots_symmetric hl A B Sg Dl hdet
  have hcount : l.countP (fun a => decide (a.1.re < 0)) = l.countP (fun a => decide (0 < a.1.re)) := by
    have h1 : M.countP (fun w => w.re < 0) = M.countP (fun w => 0 < w.re) := by
      conv_lhs => rw [← hsymM]
      rw [Multiset.countP_map, Multiset.countP_eq_card_filter]
      simp
    rw [hMl, Multiset.coe_countP, Multiset.coe_countP, List.countP_map, List.countP_map] at h1
    exact h1
  have hlen : l.length = (q + g) + (q + g) := by
    rw [hperm.length_eq]; exact hl.number _ _ _ hdet
  have htot : l.countP (fun a => decide (a.1.re < 0)) + l.countP (fun a => decide (0 < a.1.re)) = l.length := by
    rw [List.length_eq_countP_add_countP (fun a => decide (a.1.re < 0)) (l := l)]
    congr 1
    refine List.countP_congr fun a ha => ?_
    have := (hroot a ha).2
    simp only [decide_eq_true_eq]
    constructor
    · intro h; simp [h.le]
    · intro h; simp at h; exact lt_of_le_of_ne h (Ne.symm this)
  obtain ⟨hneg, hup⟩ := sorted_halves (fun a : ℂ × (Fin ((q + g) + (q + g)) → ℂ) => a.1.re) l (q + g) hsorted
    (by omega) (by omega) (fun a ha => (hroot a ha).2)
  have hout : out.energies = (l.drop (q + g)).map (fun p => p.1.re) ∧
      out.vectors = (l.drop (q + g)).map (fun p i => (p.2 i).re) := by
    unfold calcExcitations at h
    simp only [] at h
    cases hc : hessianCheck lib strict (lrHessian A B) with
    | error e => rw [hc] at h; cases h
    | ok b => rw [hc] at h; cases h; exact ⟨rfl, rfl⟩
  have hreal : ∀ p ∈ l, ((p.1.re : ℝ) : ℂ) = p.1 := fun p hp =>
    Complex.ext (by simp) (by simp [(hroot p hp).1])
  refine ⟨?_, ?_, ?_, ?_, ?_⟩
  · rw [hout.1, List.length_map, List.length_drop, hlen]; omega
  · intro e he
    rw [hout.1] at he
    obtain ⟨p, hp, rfl⟩ := List.mem_map.1 he
    exact hup p hp
  · rw [hout.1, List.pairwise_map]
    exact hsorted.sublist (List.drop_sublist _ _)
  · have hsplit : M = (((l.take (q + g)).map Prod.fst : List ℂ) : Multiset ℂ) +
        (((l.drop (q + g)).map Prod.fst : List ℂ) : Multiset ℂ) := by
      rw [hMl, Multiset.coe_add, ← List.map_append, List.take_append_drop]
    have hposf : M.filter (fun w => 0 < w.re) = (((l.drop (q + g)).map Prod.fst : List ℂ) : Multiset ℂ) := by
      rw [hsplit, Multiset.filter_add, Multiset.filter_eq_nil.2, Multiset.filter_eq_self.2, zero_add]
      · intro w hw
        obtain ⟨p, hp, rfl⟩ := List.mem_map.1 (Multiset.mem_coe.1 hw)
        exact hup p hp
      · intro w hw
        obtain ⟨p, hp, rfl⟩ := List.mem_map.1 (Multiset.mem_coe.1 hw)
        exact not_lt.2 (hneg p hp).le
    have hnegf : M.filter (fun w => w.re < 0) = (((l.take (q + g)).map Prod.fst : List ℂ) : Multiset ℂ) := by
      rw [hsplit, Multiset.filter_add, Multiset.filter_eq_self.2, Multiset.filter_eq_nil.2, add_zero]
      · intro w hw
        obtain ⟨p, hp, rfl⟩ := List.mem_map.1 (Multiset.mem_coe.1 hw)
        exact not_lt.2 (hup p hp).le
      · intro w hw
        obtain ⟨p, hp, rfl⟩ := List.mem_map.1 (Multiset.mem_coe.1 hw)
        exact hneg p hp
    have hmirror : M.filter (fun w => w.re < 0) = (M.filter (fun w => 0 < w.re)).map (fun w => -w) := by
      conv_lhs => rw [← hsymM]
      rw [Multiset.filter_map]
      congr 2
      funext w
      simp
    have e1 : (out.energies.map Complex.ofReal) = (l.drop (q + g)).map Prod.fst := by
      rw [hout.1, List.map_map]
      exact List.map_congr_left fun p hp => hreal p (List.mem_of_mem_drop hp)
    have e2 : (out.energies.map fun e : ℝ => -(e : ℂ)) = ((l.drop (q + g)).map Prod.fst).map (fun w => -w) := by
      rw [← e1, List.map_map]; rfl
    rw [e1, e2, hsplit, ← hnegf, hmirror, hposf, add_comm, Multiset.map_coe]
  · intro p hp
    rw [hout.1, hout.2, List.zip_map', List.mem_map] at hp
    obtain ⟨r, hr, rfl⟩ := hp
    have hrl := List.mem_of_mem_drop hr
    obtain ⟨_, h2⟩ := hl.solves _ E2 S hdet r (hperm.mem_iff.1 hrl)
    funext i
    have := congrArg Complex.re (congrFun h2 i)
    rw [toC_mulVec_re, Pi.smul_apply, smul_eq_mul, Complex.mul_re, toC_mulVec_re, (hroot r hrl).1, zero_mul,
      sub_zero] at this
    exact this

/-- The sum over both halves and both kinds of operators. -/
theorem sum_blocks {q g : ℕ} (f : Fin ((q + g) + (q + g)) → ℝ) :
    ∑ i, f i = ((∑ i : Fin q, f (Fin.castAdd _ (Fin.castAdd _ i)) + ∑ i : Fin g, f (Fin.castAdd _ (Fin.natAdd _ i))) +
      (∑ i : Fin q, f (Fin.natAdd _ (Fin.castAdd _ i)) + ∑ i : Fin g, f (Fin.natAdd _ (Fin.natAdd _ i)))) := by
  rw [Fin.sum_univ_add, Fin.sum_univ_add, Fin.sum_univ_add]

/-- **C67, norms.** With the metric blocks the response classes assemble (`Δ = 0`, no coupling between orbital
and active-space operators in `Σ`), the norm used is the metric norm `vᵀ S v`, a vector with norm at least
`1e-10` is scaled to unit metric norm, and any other is replaced by zeros. -/
theorem C67_norm {q g : ℕ} (Sg : RMat (q + g))
    (h1 : ∀ (i : Fin q) (j : Fin g), Sg (Fin.castAdd _ i) (Fin.natAdd _ j) = 0)
    (h2 : ∀ (i : Fin g) (j : Fin q), Sg (Fin.natAdd _ i) (Fin.castAdd _ j) = 0)
    (v : Fin ((q + g) + (q + g)) → ℝ) :
    stateNorm (lrMetric Sg 0) v = v ⬝ᵥ (lrMetric Sg 0 *ᵥ v) ∧
    (1e-10 ≤ v ⬝ᵥ (lrMetric Sg 0 *ᵥ v) → normedVector (lrMetric Sg 0) v ⬝ᵥ
      (lrMetric Sg 0 *ᵥ normedVector (lrMetric Sg 0) v) = 1) ∧
    (v ⬝ᵥ (lrMetric Sg 0 *ᵥ v) < 1e-10 → normedVector (lrMetric Sg 0) v = 0) := by
  have hn : stateNorm (lrMetric Sg 0) v = v ⬝ᵥ (lrMetric Sg 0 *ᵥ v) := by
    have hq : v ⬝ᵥ (lrMetric Sg 0 *ᵥ v) = ∑ i, ∑ j, lrMetric Sg 0 i j * (v i * v j) := by
      simp only [dotProduct, Matrix.mulVec, Finset.mul_sum]
      exact Finset.sum_congr rfl fun _ _ => Finset.sum_congr rfl fun _ _ => by ring
    rw [hq, sum_blocks]
    simp only [sum_blocks (fun j => lrMetric Sg 0 _ j * _)]
    unfold stateNorm lrMetric
    simp only [blockMat_ll, blockMat_lr, blockMat_rl, blockMat_rr, h1, h2, Matrix.neg_apply, Matrix.zero_apply,
      neg_zero, zero_mul, Finset.sum_const_zero, add_zero, zero_add, zq, zg, yq, yg, mul_sub,
      Finset.sum_sub_distrib, neg_mul, Finset.sum_neg_distrib]
    ring
  refine ⟨hn, fun hge => ?_, fun hlt => ?_⟩
  · have hpos : 0 < v ⬝ᵥ (lrMetric Sg 0 *ᵥ v) := lt_of_lt_of_le (by norm_num) hge
    have hu : normedVector (lrMetric Sg 0) v = (1 / stateNorm (lrMetric Sg 0) v) ^ (0.5 : ℝ) • v := by
      unfold normedVector
      rw [if_neg (by rw [hn]; exact not_lt.2 hge)]
      funext i
      rw [Pi.smul_apply, smul_eq_mul, mul_comm]
    rw [hu, Matrix.mulVec_smul, dotProduct_smul, smul_dotProduct, hn, smul_eq_mul, smul_eq_mul]
    have hsq : (1 / (v ⬝ᵥ (lrMetric Sg 0 *ᵥ v))) ^ (0.5 : ℝ) * (1 / (v ⬝ᵥ (lrMetric Sg 0 *ᵥ v))) ^ (0.5 : ℝ) =
        1 / (v ⬝ᵥ (lrMetric Sg 0 *ᵥ v)) := by
      rw [← Real.rpow_add (by positivity)]
      norm_num
    rw [← mul_assoc, hsq]
    field_simp
  · unfold normedVector
    rw [hn, if_pos hlt]

/-- **The norm is not the metric norm in general**: a coupling between orbital and active-space operators is left
out of the routine, and the "normalised" vector does not have unit metric norm. (None of the response classes
assembles such a block.) -/
theorem C67_norm_disagree : ∃ (Sg : RMat (1 + 1)) (v : Fin ((1 + 1) + (1 + 1)) → ℝ), Sg.IsSymm ∧
    1e-10 ≤ v ⬝ᵥ (lrMetric Sg 0 *ᵥ v) ∧ stateNorm (lrMetric Sg 0) v ≠ v ⬝ᵥ (lrMetric Sg 0 *ᵥ v) := by
  refine ⟨fun i j => if i = j then 1 else 1 / 2, fun i => if i.val < 2 then 1 else 0, ?_, ?_, ?_⟩
  · ext i j
    change (if j = i then (1 : ℝ) else 1 / 2) = if i = j then 1 else 1 / 2
    by_cases h : i = j
    · simp [h]
    · simp [h, Ne.symm h]
  all_goals
    simp [dotProduct, Matrix.mulVec, stateNorm, zq, zg, yq, yg, lrMetric, blockMat, Fin.sum_univ_succ,
      Fin.addCases, Fin.castAdd, Fin.natAdd, Fin.castLE, Fin.subNat, Fin.castLT]
  all_goals norm_num

/-- **C67, orthogonality.** Solutions of different energies are orthogonal in the metric. -/
theorem C67_orthogonal (A B Sg Dl : RMat s) (hA : A.IsSymm) (hB : B.IsSymm) (hSg : Sg.IsSymm) (hDl : Dlᵀ = -Dl)
    (w₁ w₂ : ℝ) (v₁ v₂ : Fin (s + s) → ℝ) (hne : w₁ ≠ w₂)
    (h₁ : lrHessian A B *ᵥ v₁ = w₁ • (lrMetric Sg Dl *ᵥ v₁))
    (h₂ : lrHessian A B *ᵥ v₂ = w₂ • (lrMetric Sg Dl *ᵥ v₂)) : v₁ ⬝ᵥ (lrMetric Sg Dl *ᵥ v₂) = 0 := by
  have e := symm_form (lrHessian_symm hA hB) v₁ v₂
  rw [h₁, h₂, dotProduct_smul, dotProduct_smul, symm_form (lrMetric_symm hSg hDl) v₂ v₁, smul_eq_mul,
    smul_eq_mul] at e
  have : (w₂ - w₁) * (v₁ ⬝ᵥ (lrMetric Sg Dl *ᵥ v₂)) = 0 := by linarith
  exact (mul_eq_zero.1 this).resolve_left (sub_ne_zero.2 (Ne.symm hne))

/-- **C67, strengths.** Oscillator strengths of positive energies are not negative, and there is one for every
transition dipole. -/
theorem C67_strengths (energies : List ℝ) (dipoles : List (Fin 3 → ℝ)) (h : ∀ e ∈ energies, 0 ≤ e) :
    (oscillatorStrengths energies dipoles).length = dipoles.length ∧
    (∀ f ∈ oscillatorStrengths energies dipoles, 0 ≤ f) ∧
    ∀ (i : ℕ) (h1 : i < energies.length) (h2 : i < dipoles.length),
      (oscillatorStrengths energies dipoles)[i]? =
        some (2 / 3 * energies[i] * (dipoles[i] 0 ^ 2 + dipoles[i] 1 ^ 2 + dipoles[i] 2 ^ 2)) := by
  refine ⟨?_, ?_, ?_⟩
  · simp [oscillatorStrengths]
  · intro f hf
    unfold oscillatorStrengths at hf
    simp only [List.mem_append] at hf
    rcases hf with hf | hf
    · obtain ⟨p, hp, rfl⟩ := List.mem_map.1 hf
      have := h _ (List.of_mem_zip hp).1
      positivity
    · rw [List.eq_of_mem_replicate hf]
  · intro i h1 h2
    unfold oscillatorStrengths
    simp only []
    rw [List.getElem?_append_left (by simp; omega)]
    simp [List.getElem?_eq_getElem, h1, h2]

/-- The hypotheses of `C67_energies` are met: `A = 3`, `B = 1`, `Σ = 1`, `Δ = 0` for one orbital operator and
none in the active space; without a warning the energies are `√8` (here only: exactly one, positive). -/
example : ∃ (lib : LRLib), LRLibOK lib ∧ ∀ out : LROut ((1 + 0) + (1 + 0)),
    calcExcitations lib false 1 0 (fun _ _ => 3) (fun _ _ => 1) 1 0 = .ok out →
    out.energies.length = 1 ∧ ∀ e ∈ out.energies, 0 < e := by
  obtain ⟨lib, hl⟩ := exists_lrLibOK
  refine ⟨lib, hl, fun out h => ?_⟩
  have hm : lrMetric (1 : RMat (1 + 0)) 0 = Matrix.diagonal (fun i => if i.val = 0 then 1 else -1) := by
    ext i j
    fin_cases i <;> fin_cases j <;> simp [lrMetric, blockMat, Fin.addCases, Fin.castLT, Fin.subNat]
  have hh : lrHessian (fun _ _ => 3 : RMat (1 + 0)) (fun _ _ => 1) = !![3, 1; 1, 3] := by
    ext i j
    fin_cases i <;> fin_cases j <;> simp [lrHessian, blockMat, Fin.addCases, Fin.castLT, Fin.subNat]
  have := C67_energies lib hl false 1 0 _ _ 1 0 (Matrix.isSymm_one) (by simp) (by
      rw [hh]
      refine Matrix.PosDef.of_dotProduct_mulVec_pos ?_ ?_
      · ext i j
        fin_cases i <;> fin_cases j <;> simp
      · intro x hx
        simp only [star_trivial, Matrix.mulVec, dotProduct, Fin.sum_univ_two]
        have : x 0 ≠ 0 ∨ x 1 ≠ 0 := by
          by_contra hc
          push Not at hc
          apply hx
          funext i
          fin_cases i
          · exact hc.1
          · exact hc.2
        simp
        rcases this with h0 | h0
        · nlinarith [sq_nonneg (x 0 + x 1), sq_pos_of_ne_zero h0, sq_nonneg (x 1)]
        · nlinarith [sq_nonneg (x 0 + x 1), sq_pos_of_ne_zero h0, sq_nonneg (x 0)])
    (by rw [hm, Matrix.det_diagonal]; simp [Fin.prod_univ_succ]) out h
  exact ⟨this.1, this.2.1⟩

end SQ
