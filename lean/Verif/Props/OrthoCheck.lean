import Verif.Spec.OrthoCheck
import Verif.Props.WaveFunctionOpt
import Verif.Lemmas.OrbitalsRotated
import Verif.Props.CircuitCache

/-! # C146: `check_orthonormality` -/

namespace SQ

theorem npMax_eq {l : List ℝ} (hl : l ≠ []) : ∃ x, npMax l = .ok x ∧ x ∈ l ∧ ∀ y ∈ l, y ≤ x := by
  have key : ∀ (l : List ℝ) (a : ℝ), l.foldl max a ∈ a :: l ∧ ∀ y ∈ a :: l, y ≤ l.foldl max a := by
    intro l
    induction l with
    | nil => intro a; simp
    | cons b l ih =>
      intro a
      obtain ⟨h1, h2⟩ := ih (max a b)
      rw [List.foldl_cons]
      constructor
      · rcases List.mem_cons.1 h1 with h | h
        · rw [h]
          rcases max_choice a b with h' | h' <;> rw [h'] <;> simp
        · exact List.mem_cons_of_mem _ (List.mem_cons_of_mem _ h)
      · have hm := h2 _ List.mem_cons_self
        intro y hy
        rcases List.mem_cons.1 hy with rfl | hy
        · exact (le_max_left _ _).trans hm
        · rcases List.mem_cons.1 hy with rfl | hy
          · exact (le_max_right _ _).trans hm
          · exact h2 _ (List.mem_cons_of_mem _ hy)
  cases l with
  | nil => exact absurd rfl hl
  | cons a l => exact ⟨_, rfl, (key l a).1, (key l a).2⟩

theorem oneTransform_sum {n : ℕ} (C S : Matrix (Fin n) (Fin n) ℝ) (i j : Fin n) :
    oneTransform C S i j = ∑ a, ∑ b, C a i * S a b * C b j :=
  Finset.sum_congr rfl fun _ _ => Finset.sum_congr rfl fun _ _ => by ring

theorem mem_orthoDiffs {n : ℕ} {C S : Matrix (Fin n) (Fin n) ℝ} {x : ℝ} :
    x ∈ orthoDiffs C S ↔ ∃ i j, x = |∑ a, ∑ b, C a i * S a b * C b j - (if i = j then 1 else 0)| := by
  simp only [orthoDiffs, List.mem_flatMap, List.mem_map, List.mem_finRange, true_and, oneTransform_sum, eq_comm]

theorem npMax_orthoDiffs {n : ℕ} (hn : 0 < n) (C S : Matrix (Fin n) (Fin n) ℝ) :
    ∃ x, npMax (orthoDiffs C S) = .ok x ∧ LargestDeviation C S x := by
  have hne : orthoDiffs C S ≠ [] := fun h => by
    have : |∑ a, ∑ b, C a ⟨0, hn⟩ * S a b * C b ⟨0, hn⟩ - (if (⟨0, hn⟩ : Fin n) = ⟨0, hn⟩ then 1 else 0)| ∈ orthoDiffs C S :=
      mem_orthoDiffs.2 ⟨_, _, rfl⟩
    rw [h] at this
    cases this
  obtain ⟨x, h1, h2, h3⟩ := npMax_eq hne
  exact ⟨x, h1, fun i j => h3 _ (mem_orthoDiffs.2 ⟨i, j, rfl⟩), mem_orthoDiffs.1 h2⟩

theorem LargestDeviation.eq_zero {n : ℕ} {C S : Matrix (Fin n) (Fin n) ℝ} {x : ℝ} (h : LargestDeviation C S x) :
    x = 0 ↔ OrthonormalOrbitals C S := by
  constructor
  · rintro rfl i j
    exact sub_eq_zero.1 (abs_nonpos_iff.1 (h.1 i j))
  · intro h'
    obtain ⟨i, j, rfl⟩ := h.2
    rw [h' i j, sub_self, abs_zero]

theorem orthonormal_iff {n : ℕ} {C S : Matrix (Fin n) (Fin n) ℝ} : OrthonormalOrbitals C S ↔ C.transpose * S * C = 1 := by
  have hs : ∀ i j, ∑ a, ∑ b, C a i * S a b * C b j = (C.transpose * S * C) i j := by
    intro i j
    simp only [Matrix.mul_apply, Matrix.transpose_apply, Finset.sum_mul]
    rw [Finset.sum_comm]
  constructor
  · intro h
    ext i j
    rw [← hs, h i j, Matrix.one_apply]
  · intro h i j
    rw [hs, h, Matrix.one_apply]

theorem orthonormal_rotate {n : ℕ} {C S U : Matrix (Fin n) (Fin n) ℝ} (hU : U.transpose * U = 1) :
    OrthonormalOrbitals (C * U) S ↔ OrthonormalOrbitals C S := by
  rw [orthonormal_iff, orthonormal_iff]
  have hU' : U * U.transpose = 1 := mul_eq_one_comm.1 hU
  have : (C * U).transpose * S * (C * U) = U.transpose * (C.transpose * S * C) * U := by
    simp only [Matrix.transpose_mul, Matrix.mul_assoc]
  rw [this]
  constructor
  · intro h
    calc C.transpose * S * C = U * (U.transpose * (C.transpose * S * C) * U) * U.transpose := by
          generalize C.transpose * S * C = A
          rw [← Matrix.mul_assoc, ← Matrix.mul_assoc, hU', Matrix.one_mul, Matrix.mul_assoc, hU', Matrix.mul_one]
      _ = 1 := by rw [h, Matrix.mul_one, hU']
  · intro h
    rw [h, Matrix.mul_one, hU]

theorem WFHistory.rotated {e : WFEnv} (hv : ValidKappa e.kappaIdx) {s : WFObj e} (hs : WFHistory e s) : Rotated s := by
  induction hs with
  | init => exact rotated_init
  | op o hf _ ih =>
    cases o with
    | setKappa k arr => exact keepsO_setKappa hv hf arr _ ih
    | setThetas t => exact keepsO_setThetas t _ ih
    | cMo => exact keepsO_readCMo _ ih
    | hMo => exact keepsO_readH _ ih
    | gMo => exact keepsO_readG _ ih
    | ci => exact keepsO_readCI _ ih
    | rdm1 => exact keepsO_readRdm1 _ ih
    | rdm2 => exact keepsO_readRdm2 _ ih
    | rdm3 => exact keepsO_readRdm3 _ ih
    | rdm4 => exact keepsO_readRdm4 _ ih
    | energy => exact keepsO_readEnergy _ ih
    | states => exact keepsO_readStates _ ih
  | run2 oo tol rs hf _ ih => exact keepsO_run2 hv oo tol hf _ ih
  | run1 oo m hm _ ih => exact keepsO_run1 hv oo hm _ ih

theorem wf_check_eq {e : WFEnv} {S C : Matrix (Fin e.n) (Fin e.n) ℝ} {s : WFObj e} (h : (WFObj.readCMo s).1 = .ok C) :
    WFObj.checkOrthonormality S s = (npMax (orthoDiffs C S), (WFObj.readCMo s).2) := by
  have : WFObj.readCMo s = (.ok C, (WFObj.readCMo s).2) := by rw [← h]
  change WFM.bind WFObj.readCMo _ s = _
  unfold WFM.bind
  rw [this]
  dsimp only
  cases npMax (orthoDiffs C S) <;> rfl

theorem circ_check_eq {e : CircEnv} {S C : Matrix (Fin e.n) (Fin e.n) ℝ} {s : CircObj e} (h : (CircObj.readCMo s).1 = .ok C) :
    CircObj.checkOrthonormality S s = (npMax (orthoDiffs C S), (CircObj.readCMo s).2) := by
  have : CircObj.readCMo s = (.ok C, (CircObj.readCMo s).2) := by rw [← h]
  change CircM.bind CircObj.readCMo _ s = _
  unfold CircM.bind
  rw [this]
  dsimp only
  cases npMax (orthoDiffs C S) <;> rfl

theorem circ_readCMo_snd {e : CircEnv} (s : CircObj e) : (CircObj.readCMo s).2 = s := by
  unfold CircObj.readCMo
  split_ifs
  · cases WFObj.arrSub s.kappa s.kappaOld with
    | error x => rfl
    | ok d => simp only; split_ifs <;> rfl
  · rfl

/-- C146, for the classical wave functions: whatever was assigned, read and optimized before, whatever the minimizers did
and whether they returned, the number printed is the largest deviation of an overlap of the present orbitals; it is zero
exactly if the orbitals that the object was made with are orthonormal in `S`. The object is not changed. -/
theorem C146_classical {e : WFEnv} (hv : ValidKappa e.kappaIdx) (hn : 0 < e.n) {s : WFObj e} (hs : WFHistory e s)
    (S : Matrix (Fin e.n) (Fin e.n) ℝ) :
    ∃ C x, (WFObj.readCMo s).1 = .ok C ∧ WFObj.checkOrthonormality S s = (.ok x, s) ∧
      LargestDeviation C S x ∧ (x = 0 ↔ OrthonormalOrbitals C S) ∧ (x = 0 ↔ OrthonormalOrbitals e.mo S) := by
  obtain ⟨C, hC, U, hU, ho⟩ := (hs.rotated hv).readCMo hv
  have hC1 : (WFObj.readCMo s).1 = .ok C := by rw [hC]
  obtain ⟨x, hx, hl⟩ := npMax_orthoDiffs hn C S
  refine ⟨_, x, hC1, ?_, hl, hl.eq_zero, ?_⟩
  · rw [wf_check_eq hC1, hx, hC]
  · rw [hl.eq_zero, ho, orthonormal_rotate hU]

/-- C146, for the wave functions on circuits, with optimizations. -/
theorem C146_circuit {e : CircEnv} (hv : ValidKappa e.kappaIdx) (hn : 0 < e.n) {s : CircObj e} (hs : CircHistory e s)
    (S : Matrix (Fin e.n) (Fin e.n) ℝ) :
    ∃ C x, (CircObj.readCMo s).1 = .ok C ∧ CircObj.checkOrthonormality S s = (.ok x, s) ∧
      LargestDeviation C S x ∧ (x = 0 ↔ OrthonormalOrbitals C S) ∧ (x = 0 ↔ OrthonormalOrbitals e.mo S) := by
  obtain ⟨r, hi, U, hU, ho⟩ := hs.followed hv
  have hC := (cfollows_readCMo hv r).fst hi
  obtain ⟨x, hx, hl⟩ := npMax_orthoDiffs hn r.orb S
  refine ⟨_, x, hC, ?_, hl, hl.eq_zero, ?_⟩
  · rw [circ_check_eq hC, hx, circ_readCMo_snd]
  · rw [hl.eq_zero, ho, orthonormal_rotate hU]

/-- C146: without orbitals NumPy has no maximum. -/
theorem C146_empty {e : WFEnv} (hn : e.n = 0) {S C : Matrix (Fin e.n) (Fin e.n) ℝ} {s : WFObj e}
    (h : (WFObj.readCMo s).1 = .ok C) : (WFObj.checkOrthonormality S s).1 = .error .valueError := by
  rw [wf_check_eq h]
  have : orthoDiffs C S = [] := by
    refine List.eq_nil_iff_forall_not_mem.2 fun x hx => ?_
    obtain ⟨i, -, -⟩ := mem_orthoDiffs.1 hx
    exact absurd i.isLt (by omega)
  rw [this]
  rfl

/-- The formula of the docstrings, `C S Cᵀ = 1`, is not what is checked: here the orbitals are orthonormal and zero is
printed, and `C S Cᵀ` is not the identity. -/
theorem C146_formula_disagree : ∃ C S : Matrix (Fin 2) (Fin 2) ℝ, S.transpose = S ∧ OrthonormalOrbitals C S ∧
    npMax (orthoDiffs C S) = .ok 0 ∧ C * S * C.transpose ≠ 1 := by
  have ho : OrthonormalOrbitals !![(1 : ℝ), 1; 0, 1] !![1, -1; -1, 2] := by
    rw [orthonormal_iff]
    ext i j
    fin_cases i <;> fin_cases j <;> simp [Matrix.mul_apply, Fin.sum_univ_two] <;> norm_num
  refine ⟨!![1, 1; 0, 1], !![1, -1; -1, 2], ?_, ho, ?_, fun h => ?_⟩
  · ext i j
    fin_cases i <;> fin_cases j <;> rfl
  · obtain ⟨x, hx, hl⟩ := npMax_orthoDiffs (by norm_num) !![(1 : ℝ), 1; 0, 1] !![1, -1; -1, 2]
    rw [hx, hl.eq_zero.2 ho]
  · have := congrFun (congrFun h 0) 1
    simp [Matrix.mul_apply, Fin.sum_univ_two] at this
    norm_num at this

/-- After a rotation by a right angle and an optimization zero is printed for the identity, another number for a second
overlap. -/
example (m : List ℝ → List WFObj.Call × List ℝ × ℝ) (hm : KeepsSize m) :
    let s := (CircObj.run1 "bfgs" true m
      ((CircOp.setKappa [Real.pi / 2] false).run (CircObj.init (twoStates false)))).2
    (CircObj.checkOrthonormality (e := twoStates false) (1 : Matrix (Fin 2) (Fin 2) ℝ) s).1 = .ok 0 ∧
    ∃ x ≠ 0, (CircObj.checkOrthonormality (e := twoStates false) (!![1, 0; 0, 2] : Matrix (Fin 2) (Fin 2) ℝ) s).1 = .ok x := by
  intro s
  have hs : CircHistory (twoStates false) s := .run1 _ _ _ hm (.op (.setKappa [Real.pi / 2] false) rfl .init)
  have key := C146_circuit (twoStates_valid false) (by decide) hs
  constructor
  · obtain ⟨C, x, -, h, -, -, h0⟩ := key (1 : Matrix (Fin 2) (Fin 2) ℝ)
    have h1 : OrthonormalOrbitals (1 : Matrix (Fin 2) (Fin 2) ℝ) 1 := orthonormal_iff.2 (by simp)
    have hx : x = 0 := h0.2 h1
    exact (congrArg Prod.fst h).trans (by rw [hx])
  · obtain ⟨C, x, -, h, -, -, h0⟩ := key (!![1, 0; 0, 2] : Matrix (Fin 2) (Fin 2) ℝ)
    refine ⟨x, fun hx => ?_, congrArg Prod.fst h⟩
    have h1 : OrthonormalOrbitals (1 : Matrix (Fin 2) (Fin 2) ℝ) !![1, 0; 0, 2] := h0.1 hx
    have h1 := congrFun (congrFun (orthonormal_iff.1 h1) 1) 1
    simp at h1

/-- The two-step optimization of the coupled-cluster class, which leaves orbital parameters behind, keeps orthonormal
orbitals. -/
example (tol : ℝ) (x f : ℝ) : (WFObj.checkOrthonormality (e := uccEnv) (1 : Matrix (Fin 2) (Fin 2) ℝ)
    (WFObj.run2 true tol [⟨[], [], 0, [.energy [x]], f⟩] (WFObj.init uccEnv)).2).1 = .ok 0 := by
  have hs : WFHistory uccEnv (WFObj.run2 true tol [⟨[], [], 0, [.energy [x]], f⟩] (WFObj.init uccEnv)).2 :=
    .run2 true tol _ (fun r hr => by
      obtain rfl := List.mem_singleton.1 hr
      intro c hc
      obtain rfl := List.mem_singleton.1 hc
      rfl) .init
  obtain ⟨C, y, -, h, -, -, h0⟩ := C146_classical (e := uccEnv) ⟨List.nodup_singleton _, fun x hx => by
    obtain rfl : x = ((0 : Fin 2), (1 : Fin 2)) := List.mem_singleton.1 hx
    decide⟩ (by decide) hs (1 : Matrix (Fin 2) (Fin 2) ℝ)
  have h1 : OrthonormalOrbitals (1 : Matrix (Fin 2) (Fin 2) ℝ) 1 := orthonormal_iff.2 (by simp)
  have hy : y = 0 := h0.2 h1
  exact (congrArg Prod.fst h).trans (by rw [hy])

end SQ
