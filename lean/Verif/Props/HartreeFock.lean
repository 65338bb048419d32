import Mathlib.Data.Real.StarOrdered
import Verif.Lemmas.HartreeFock
import Verif.Lemmas.Diis

/-!
# Properties C65, C66, C81, C82: DIIS, restricted and unrestricted Hartree-Fock
-/

namespace SQ

open Matrix

variable {n : ℕ}

/-! ## C65: DIIS -/

/-- A sequence of calls of `get_extrapolated_fock_matrix` with Fock and density matrices; it ends at the first
exception. -/
def diisRun (lib : HFLib n) (S : HFMat n) : List (HFMat n × HFMat n) → DIISState n → Res (DIISState n)
  | [], st => .ok st
  | c :: cs, st => do
    let r ← diisStep lib S c.1 c.2 st
    diisRun lib S cs r.2

theorem diisStep_state (lib : HFLib n) (hn : n ≠ 2) (S F D : HFMat n) (st : DIISState n) (G : HFMat n)
    (st' : DIISState n) (h : diisStep lib S F D st = .ok (G, st')) :
    st'.saved = st.saved ∧
    st'.focks = (st.focks ++ [F]).drop (if st.focks.length + 1 > max st.saved 1 then 1 else 0) ∧
    st'.densities = (st.densities ++ [D]).drop (if st.focks.length + 1 > max st.saved 1 then 1 else 0) := by
  unfold diisStep at h
  rw [if_neg hn] at h
  simp only [List.length_append, List.length_cons, List.length_nil, zero_add] at h
  by_cases h1 : st.focks.length + 1 = 1
  · rw [if_pos h1] at h
    cases h
    rw [if_neg (by omega)]
    simp
  · rw [if_neg h1] at h
    by_cases h2 : st.focks.length + 1 > st.saved
    · simp only [h2, if_true] at h
      rw [if_pos (by omega)]
      revert h
      generalize lib.solve _ _ _ = r
      cases r with
      | error e => intro h; cases h
      | ok c => intro h; cases h; exact ⟨rfl, rfl, rfl⟩
    · simp only [h2, if_false] at h
      rw [if_neg (by omega)]
      revert h
      generalize lib.solve _ _ _ = r
      cases r with
      | error e => intro h; cases h
      | ok c => intro h; cases h; exact ⟨rfl, rfl, rfl⟩

/-- **C65, history.** After any sequence of calls that did not raise, the object holds exactly the most recent
Fock matrices with their densities, never more than the limit (one, if the limit is zero). For two basis
functions nothing is ever stored. -/
theorem C65_history (lib : HFLib n) (S : HFMat n) (saved : ℕ) (calls : List (HFMat n × HFMat n)) (st : DIISState n)
    (h : diisRun lib S calls (DIISState.init n saved) = .ok st) :
    (n = 2 → st.focks = [] ∧ st.densities = []) ∧
    (n ≠ 2 → st.focks = (calls.map Prod.fst).drop (calls.length - max saved 1) ∧
      st.densities = (calls.map Prod.snd).drop (calls.length - max saved 1) ∧
      st.focks.length ≤ max saved 1) := by
  constructor
  · intro hn
    have : ∀ (calls : List (HFMat n × HFMat n)) (st₀ : DIISState n), diisRun lib S calls st₀ = .ok st → st = st₀ := by
      intro calls
      induction calls with
      | nil => intro st₀ h; cases h; rfl
      | cons c cs ih =>
        intro st₀ h
        simp only [diisRun, diisStep, if_pos hn, bind, Except.bind] at h
        exact ih st₀ h
    rw [this calls _ h]
    exact ⟨rfl, rfl⟩
  · intro hn
    have main : ∀ (calls before : List (HFMat n × HFMat n)) (st₀ : DIISState n), st₀.saved = saved →
        st₀.focks = (before.map Prod.fst).drop (before.length - max saved 1) →
        st₀.densities = (before.map Prod.snd).drop (before.length - max saved 1) →
        diisRun lib S calls st₀ = .ok st →
        st.focks = ((before ++ calls).map Prod.fst).drop ((before ++ calls).length - max saved 1) ∧
        st.densities = ((before ++ calls).map Prod.snd).drop ((before ++ calls).length - max saved 1) := by
      intro calls
      induction calls with
      | nil =>
        intro before st₀ _ h1 h2 h
        cases h
        simpa using ⟨h1, h2⟩
      | cons c cs ih =>
        intro before st₀ hs h1 h2 h
        simp only [diisRun] at h
        cases hstep : diisStep lib S c.1 c.2 st₀ with
        | error e => rw [hstep] at h; cases h
        | ok r =>
          rw [hstep] at h
          obtain ⟨G, st₁⟩ := r
          obtain ⟨e0, e1, e2⟩ := diisStep_state lib hn S c.1 c.2 st₀ G st₁ hstep
          have hlen : st₀.focks.length = before.length - (before.length - max saved 1) := by
            rw [h1]; simp
          have key : ∀ {α : Type} (f : HFMat n × HFMat n → α),
              ((before.map f).drop (before.length - max saved 1) ++ [f c]).drop
                (if st₀.focks.length + 1 > max saved 1 then 1 else 0) =
              ((before ++ [c]).map f).drop ((before ++ [c]).length - max saved 1) := by
            intro α f
            have hle : before.length - max saved 1 ≤ (before.map f).length := by simp
            rw [← List.drop_append_of_le_length hle, List.drop_drop, List.map_append]
            congr 1
            simp only [List.length_append, List.length_cons, List.length_nil]
            rw [hlen]
            split_ifs <;> omega
          have := ih (before ++ [c]) st₁ (e0.trans hs) (by rw [e1, hs, ← key Prod.fst, ← h1])
            (by rw [e2, hs, ← key Prod.snd, ← h2]) h
          simpa using this
    obtain ⟨h1, h2⟩ := main calls [] (DIISState.init n saved) rfl (by simp [DIISState.init])
      (by simp [DIISState.init]) h
    refine ⟨by simpa using h1, by simpa using h2, ?_⟩
    rw [h1]
    simp
    omega

/-- **C65, extrapolation.** When a call returns, the result is a combination of the stored Fock matrices (the new
one included) with weights summing to one; and if all matrices are symmetric, no other weights summing to one
give a smaller error `Σ w_i (F_i D_i S - S D_i F_i)` in the least-squares sense. For two basis functions the
input comes back unchanged. -/
theorem C65_weights (lib : HFLib n) (hl : LibOK lib) (S F D : HFMat n) (st st' : DIISState n) (G : HFMat n)
    (hlen : st.focks.length = st.densities.length) (h : diisStep lib S F D st = .ok (G, st')) :
    (n = 2 → G = F) ∧
    (n ≠ 2 → st'.focks.length = st'.densities.length ∧ F ∈ st'.focks ∧
      ∃ c : Fin st'.focks.length → ℝ, ∑ i, c i = 1 ∧ G = ∑ i, c i • st'.focks[i] ∧
        (S.IsSymm → (∀ F ∈ st'.focks, F.IsSymm) → (∀ D ∈ st'.densities, D.IsSymm) →
          ∀ (hl' : st'.focks.length = st'.densities.length) (y : Fin st'.focks.length → ℝ), ∑ i, y i = 1 →
          let err (w : Fin st'.focks.length → ℝ) : HFMat n :=
            ∑ i, w i • (st'.focks[i] * st'.densities[i.val]'(by omega) * S -
              S * st'.densities[i.val]'(by omega) * st'.focks[i])
          contract (err c) (err c) ≤ contract (err y) (err y))) := by
  constructor
  · intro hn
    simp only [diisStep, if_pos hn] at h
    cases h; rfl
  · intro hn
    obtain ⟨_, e1, e2⟩ := diisStep_state lib hn S F D st G st' h
    have hl1 : st'.focks.length = st'.densities.length := by
      rw [e1, e2]; simp [hlen]
    have hmem : F ∈ st'.focks := by
      rw [e1]
      have hle : (if st.focks.length + 1 > max st.saved 1 then 1 else 0) ≤ st.focks.length := by
        split_ifs <;> omega
      rw [List.drop_append_of_le_length hle]
      simp
    refine ⟨hl1, hmem, ?_⟩
    by_cases h1 : st.focks.length + 1 = 1
    · -- first call
      have hnil : st.focks = [] := List.length_eq_zero_iff.1 (by omega)
      have hf : st'.focks = [F] := by rw [e1, hnil]; simp
      have hG : G = F := by
        unfold diisStep at h
        rw [if_neg hn] at h
        simp only [List.length_append, List.length_cons, List.length_nil, zero_add, h1, if_true] at h
        cases h; rfl
      obtain ⟨focks', dens', saved'⟩ := st'
      simp only at hf hl1
      subst hf
      refine ⟨fun _ => 1, by simp, by simp [hG], ?_⟩
      intro _ _ _ hl' y hy err
      have hone : y = fun _ => 1 := by
        funext i
        have : ∑ i, y i = y i := by
          rw [Fintype.sum_eq_single i]
          intro j hj
          exact absurd (Fin.ext (by have := j.isLt; have := i.isLt; simp at *)) hj
        rw [← this, hy]
      rw [hone]
    · -- later calls
      have hsolve : ∃ x, diisMatrix (errorMatrices S st') *ᵥ x = diisRhs (errorMatrices S st').length ∧
          G = combineFocks (errorMatrices S st').length x st'.focks := by
        unfold diisStep at h
        rw [if_neg hn] at h
        dsimp only at h
        rw [if_neg (by simpa using h1)] at h
        revert h
        generalize (if (st.focks ++ [F]).length > st.saved then
            ({ focks := List.drop 1 (st.focks ++ [F]), densities := List.drop 1 (st.densities ++ [D]),
               saved := st.saved } : DIISState n)
          else { focks := st.focks ++ [F], densities := st.densities ++ [D], saved := st.saved }) = st2
        intro h
        cases hs : lib.solve _ (diisMatrix (errorMatrices S st2)) (diisRhs _) with
        | error e => rw [hs] at h; cases h
        | ok x => rw [hs] at h; cases h; exact ⟨x, hl.solves _ _ _ _ hs, rfl⟩
      obtain ⟨x, hx, hG⟩ := hsolve
      have hel : (errorMatrices S st').length = st'.focks.length := by
        simp [errorMatrices, hl1]
      have hsys := diis_system _ x hx
      rw [combineFocks_eq _ _ _ hel.symm] at hG
      refine ⟨fun i => x (Fin.castSucc ⟨i.val, by omega⟩), ?_, ?_, ?_⟩
      · rw [← hsys.1]
        exact Fintype.sum_equiv (finCongr hel.symm) _ _ (fun i => rfl)
      · rw [hG]
        exact (Fintype.sum_equiv (finCongr hel.symm) _ _ (fun i => rfl)).symm
      · intro hS hF hD hl' y hy err
        have hskew := errorMatrices_skew hS hF hD
        have hmin := diis_minimal _ hskew x hx (fun i => y (Fin.cast hel i)) (by
          rw [← hy]
          exact Fintype.sum_equiv (finCongr hel) _ _ (fun i => rfl))
        have hget : ∀ i : Fin st'.focks.length, (errorMatrices S st')[i.val]'(by omega) =
            st'.focks[i] * st'.densities[i.val]'(by omega) * S -
              S * st'.densities[i.val]'(by omega) * st'.focks[i] := by
          intro i
          simp [errorMatrices]
        have e1 : err (fun i => x (Fin.castSucc ⟨i.val, by omega⟩)) =
            ∑ i : Fin (errorMatrices S st').length, x i.castSucc • (errorMatrices S st')[i.val] :=
          Fintype.sum_equiv (finCongr hel.symm) _ _ (fun i => by rw [← hget i]; rfl)
        have e2 : err y = ∑ i : Fin (errorMatrices S st').length, y (Fin.cast hel i) •
            (errorMatrices S st')[i.val] :=
          Fintype.sum_equiv (finCongr hel.symm) _ _ (fun i => by rw [← hget i]; rfl)
        rw [e1, e2]
        exact hmin

/-- **C65 does not give a result when two stored errors agree**, in particular when the calculation is converged
exactly or for a single basis function: the linear system is singular and the call raises. -/
theorem C65_singular_disagree (lib : HFLib n) (hl : LibOK lib) (hn : n ≠ 2) (S F₁ F₂ D₁ D₂ : HFMat n)
    (st : DIISState n) (h1 : st.focks = [F₁]) (h2 : st.densities = [D₁]) (h3 : 2 ≤ st.saved)
    (he : F₁ * D₁ * S - S * D₁ * F₁ = F₂ * D₂ * S - S * D₂ * F₂) :
    diisStep lib S F₂ D₂ st = .error .valueError := by
  obtain ⟨fs, ds, sv⟩ := st
  simp only at h1 h2 h3
  subst h1 h2
  unfold diisStep
  rw [if_neg hn]
  simp only [List.cons_append, List.nil_append, List.length_cons, List.length_nil]
  rw [if_neg (by decide), if_neg (by omega)]
  rw [hl.singular _ _ _ (diisMatrix_singular _ 0 1 (by decide) (by simp [errorMatrices]) ?_)]
  · rfl
  · simpa [errorMatrices] using he

/-- The system with two different errors is solved: three basis functions, errors from one commutator. -/
example : ∃ lib : HFLib 3, LibOK lib := exists_libOK 3

/-! ## C66: restricted Hartree-Fock -/

/-- The orbitals belonging to a Fock matrix. -/
theorem scfOrbitals_orthonormal {lib : HFLib n} (hl : LibOK lib) {S : HFMat n} (hS : S.PosDef) (F : HFMat n) :
    (scfOrbitals lib S F)ᵀ * S * scfOrbitals lib S F = 1 := orbitals_orthonormal hl hS _

/-- What an iteration of the restricted calculation leaves. -/
structure RHFGood (lib : HFLib n) (inp : RHFIn n) (o : RHFOut n) : Prop where
  orbitals : o.C = scfOrbitals lib inp.S o.F
  density : o.D = (2 : ℝ) • occDensity o.C (sliceEnd n (halfTrunc inp.N))
  energy : o.E = 0.5 * contract o.D (inp.T + inp.V + o.F)

theorem rhfLoop_good (lib : HFLib n) (inp : RHFIn n) (left : ℕ) (D0 : HFMat n) (E0 : ℝ) (st : DIISState n)
    (prev : Option (RHFOut n)) (hprev : ∀ o, prev = some o → RHFGood lib inp o) (o : RHFOut n)
    (h : rhfLoop lib inp left D0 E0 st prev = .ok o) : RHFGood lib inp o := by
  induction left generalizing D0 E0 st prev with
  | zero =>
    cases prev with
    | none => simp only [rhfLoop] at h; cases h
    | some p =>
      simp only [rhfLoop] at h
      cases h
      obtain ⟨a, b, c⟩ := hprev p rfl
      exact ⟨a, b, c⟩
  | succ left ih =>
    simp only [rhfLoop] at h
    cases hF : nextFock lib inp.useDiis inp.S (rhfFock inp D0) D0 st with
    | error e => rw [hF] at h; cases h
    | ok r =>
      rw [hF] at h
      obtain ⟨F, st'⟩ := r
      simp only [bind, Except.bind] at h
      split_ifs at h with hc
      · cases h
        exact ⟨rfl, rfl, rfl⟩
      · refine ih _ _ _ _ ?_ h
        rintro o' ho'
        cases ho'
        exact ⟨rfl, rfl, rfl⟩

/-- **C66.** Whenever the restricted calculation returns, with a positive definite overlap matrix: the orbitals
are orthonormal, the density is symmetric with `D S D = 2 D`, and for an even number of electrons for which
there are enough orbitals it holds exactly that many electrons. The energy is `1/2 tr D (h + F)` with the
returned `F`. -/
theorem C66_density (lib : HFLib n) (hl : LibOK lib) (inp : RHFIn n) (hS : inp.S.PosDef) (o : RHFOut n)
    (h : runHartreeFock lib inp = .ok o) :
    o.Cᵀ * inp.S * o.C = 1 ∧
    o.D.IsSymm ∧ o.D * inp.S * o.D = (2 : ℝ) • o.D ∧
    (Even inp.N → 0 ≤ inp.N → inp.N ≤ 2 * n → Matrix.trace (o.D * inp.S) = inp.N) ∧
    o.E = 1 / 2 * ∑ i, ∑ j, o.D i j * ((inp.T + inp.V) i j + o.F i j) := by
  obtain ⟨h1, h2, h3⟩ := rhfLoop_good lib inp _ _ _ _ none (by simp) o h
  have hC : o.Cᵀ * inp.S * o.C = 1 := by rw [h1]; exact scfOrbitals_orthonormal hl hS _
  have hd := density_of_orthonormal hC (sliceEnd n (halfTrunc inp.N)) 2
  rw [← h2] at hd
  refine ⟨hC, hd.symm, hd.idem, ?_, ?_⟩
  · rintro ⟨m, hm⟩ h0 hmax
    rw [hd.count]
    have : (min (sliceEnd n (halfTrunc inp.N)) n : ℕ) = m.toNat := by
      have hh : halfTrunc inp.N = m := by unfold halfTrunc; rw [Int.tdiv_eq_ediv_of_nonneg (by omega)]; omega
      rw [hh]; unfold sliceEnd
      rw [if_neg (by omega)]; omega
    rw [this]
    have hc : ((m.toNat : ℕ) : ℝ) = (m : ℝ) := by
      have : ((m.toNat : ℕ) : ℤ) = m := Int.toNat_of_nonneg (by omega)
      exact_mod_cast congrArg (fun z : ℤ => (z : ℝ)) this
    rw [hc, hm]; push_cast; ring
  · rw [h3]
    unfold contract
    norm_num [Matrix.add_apply]

/-- **C66 fails silently for an odd number of electrons**: one electron is missing from the density. -/
theorem C66_odd_disagree (lib : HFLib n) (hl : LibOK lib) (inp : RHFIn n) (hS : inp.S.PosDef) (o : RHFOut n)
    (h : runHartreeFock lib inp = .ok o) (hodd : Odd inp.N) (h0 : 0 ≤ inp.N) (hmax : inp.N ≤ 2 * n) :
    Matrix.trace (o.D * inp.S) = inp.N - 1 := by
  obtain ⟨h1, h2, h3⟩ := rhfLoop_good lib inp _ _ _ _ none (by simp) o h
  have hC : o.Cᵀ * inp.S * o.C = 1 := by rw [h1]; exact scfOrbitals_orthonormal hl hS _
  have hd := density_of_orthonormal hC (sliceEnd n (halfTrunc inp.N)) 2
  rw [← h2] at hd
  rw [hd.count]
  obtain ⟨m, hm⟩ := hodd
  have : (min (sliceEnd n (halfTrunc inp.N)) n : ℕ) = m.toNat := by
    have hh : halfTrunc inp.N = m := by unfold halfTrunc; rw [Int.tdiv_eq_ediv_of_nonneg (by omega)]; omega
    rw [hh]; unfold sliceEnd
    rw [if_neg (by omega)]; omega
  rw [this]
  have hc : ((m.toNat : ℕ) : ℝ) = (m : ℝ) := by
    have : ((m.toNat : ℕ) : ℤ) = m := Int.toNat_of_nonneg (by omega)
    exact_mod_cast congrArg (fun z : ℤ => (z : ℝ)) this
  rw [hc, hm]; push_cast; ring

/-- **C66 fails silently when the basis is too small**: electrons without an orbital are dropped. -/
theorem C66_small_disagree (lib : HFLib n) (hl : LibOK lib) (inp : RHFIn n) (hS : inp.S.PosDef) (o : RHFOut n)
    (h : runHartreeFock lib inp = .ok o) (hmax : 2 * n ≤ inp.N) :
    Matrix.trace (o.D * inp.S) = 2 * n := by
  obtain ⟨h1, h2, h3⟩ := rhfLoop_good lib inp _ _ _ _ none (by simp) o h
  have hC : o.Cᵀ * inp.S * o.C = 1 := by rw [h1]; exact scfOrbitals_orthonormal hl hS _
  have hd := density_of_orthonormal hC (sliceEnd n (halfTrunc inp.N)) 2
  rw [← h2] at hd
  rw [hd.count]
  have : (min (sliceEnd n (halfTrunc inp.N)) n : ℕ) = n := by
    have hh : (n : ℤ) ≤ halfTrunc inp.N := by unfold halfTrunc; rw [Int.tdiv_eq_ediv_of_nonneg (by omega)]; omega
    unfold sliceEnd
    rw [if_neg (by omega)]; omega
  rw [this]

theorem occDensity_symm (w : ℝ) (C : HFMat n) (occ : ℕ) : (w • occDensity C occ).IsSymm := by
  ext a b
  simp only [Matrix.transpose_apply, Matrix.smul_apply, occDensity]
  congr 1
  refine Finset.sum_congr rfl fun k _ => ?_
  split_ifs <;> ring

/-- The Fock matrix for a symmetric density is symmetric. -/
theorem rhfFock_symm (inp : RHFIn n) (hT : inp.T.IsSymm) (hV : inp.V.IsSymm) (hg : EriSymm inp.eri) {D : HFMat n}
    (hD : D.IsSymm) : (rhfFock inp D).IsSymm := by
  have hJ : (coulomb inp.eri D).IsSymm := by
    ext p q
    simp only [Matrix.transpose_apply, coulomb]
    refine Finset.sum_congr rfl fun r _ => Finset.sum_congr rfl fun s _ => by rw [hg.swap12]
  have hK : (exchange inp.eri D).IsSymm := by
    ext p q
    simp only [Matrix.transpose_apply, exchange]
    rw [Finset.sum_comm]
    refine Finset.sum_congr rfl fun r _ => Finset.sum_congr rfl fun s _ => ?_
    rw [hg.swapPairs, hD.apply]
  unfold rhfFock
  exact ((hT.add hV).add hJ).sub (hK.smul _)

/-- Symmetric stored matrices give a symmetric extrapolated matrix. -/
theorem diisStep_symm {lib : HFLib n} (hl : LibOK lib) (S F D : HFMat n) (st st' : DIISState n) (G : HFMat n)
    (hlen : st.focks.length = st.densities.length) (hF : F.IsSymm) (hst : ∀ F ∈ st.focks, F.IsSymm)
    (h : diisStep lib S F D st = .ok (G, st')) :
    G.IsSymm ∧ (∀ F ∈ st'.focks, F.IsSymm) ∧ st'.focks.length = st'.densities.length := by
  obtain ⟨w1, w2⟩ := C65_weights lib hl S F D st st' G hlen h
  by_cases hn : n = 2
  · have hst' : st' = st := by
      simp only [diisStep, if_pos hn] at h
      cases h; rfl
    rw [w1 hn, hst']
    exact ⟨hF, hst, hlen⟩
  · obtain ⟨hl', hmem, c, hsum, hG, _⟩ := w2 hn
    have hall : ∀ F ∈ st'.focks, F.IsSymm := by
      obtain ⟨_, e1, _⟩ := diisStep_state lib hn S F D st G st' h
      intro F' hF'
      rw [e1] at hF'
      rcases List.mem_append.1 (List.mem_of_mem_drop hF') with hm | hm
      · exact hst F' hm
      · rw [List.mem_singleton.1 hm]; exact hF
    refine ⟨?_, hall, hl'⟩
    rw [hG, Matrix.IsSymm, Matrix.transpose_sum]
    refine Finset.sum_congr rfl fun i _ => ?_
    rw [Matrix.transpose_smul]
    congr 1
    exact (hall _ (List.getElem_mem i.isLt)).eq

theorem rhfLoop_fock (lib : HFLib n) (hl : LibOK lib) (inp : RHFIn n) (hT : inp.T.IsSymm) (hV : inp.V.IsSymm)
    (hg : EriSymm inp.eri) (left : ℕ) (D0 : HFMat n) (hD0 : D0.IsSymm) (E0 : ℝ) (st : DIISState n)
    (hlen : st.focks.length = st.densities.length) (hst : ∀ F ∈ st.focks, F.IsSymm)
    (prev : Option (RHFOut n)) (hprev : ∀ o, prev = some o → o.F.IsSymm) (o : RHFOut n)
    (h : rhfLoop lib inp left D0 E0 st prev = .ok o) : o.F.IsSymm := by
  induction left generalizing D0 E0 st prev with
  | zero =>
    cases prev with
    | none => simp only [rhfLoop] at h; cases h
    | some p =>
      simp only [rhfLoop] at h
      cases h
      exact hprev p rfl
  | succ left ih =>
    simp only [rhfLoop] at h
    have hFs := rhfFock_symm inp hT hV hg hD0
    cases hF : nextFock lib inp.useDiis inp.S (rhfFock inp D0) D0 st with
    | error e => rw [hF] at h; cases h
    | ok r =>
      rw [hF] at h
      obtain ⟨F, st'⟩ := r
      have hr : F.IsSymm ∧ (∀ F ∈ st'.focks, F.IsSymm) ∧ st'.focks.length = st'.densities.length := by
        unfold nextFock at hF
        split_ifs at hF with hu
        · exact diisStep_symm hl _ _ _ _ _ _ hlen hFs hst hF
        · cases hF
          exact ⟨hFs, hst, hlen⟩
      simp only [bind, Except.bind] at h
      split_ifs at h with hc
      · cases h
        exact hr.1
      · refine ih _ ?_ _ _ hr.2.2 hr.2.1 _ ?_ h
        · exact occDensity_symm _ _ _
        · rintro o' ho'
          cases ho'
          exact hr.1

/-- **C66, orbitals.** With symmetric integrals, the returned orbitals diagonalise the returned Fock matrix,
with ascending orbital energies: the occupied orbitals are the ones lowest in energy. -/
theorem C66_orbitals (lib : HFLib n) (hl : LibOK lib) (inp : RHFIn n) (hT : inp.T.IsSymm)
    (hV : inp.V.IsSymm) (hg : EriSymm inp.eri) (o : RHFOut n) (h : runHartreeFock lib inp = .ok o) :
    ∃ ε : Fin n → ℝ, Monotone ε ∧ o.Cᵀ * o.F * o.C = Matrix.diagonal ε := by
  obtain ⟨h1, h2, h3⟩ := rhfLoop_good lib inp _ _ _ _ none (by simp) o h
  have hF : o.F.IsSymm := by
    refine rhfLoop_fock lib hl inp hT hV hg _ _ ?_ _ (DIISState.init n) rfl (by simp [DIISState.init]) none
      (by simp) o h
    exact occDensity_symm _ _ _
  set X := invSqrt lib inp.S with hX
  have hXT : Xᵀ = X := invSqrt_symm lib inp.S
  have hsym : (Xᵀ * o.F * X).IsSymm := by
    rw [Matrix.IsSymm, Matrix.transpose_mul, Matrix.transpose_mul, Matrix.transpose_transpose, hF.eq,
      Matrix.mul_assoc]
  refine ⟨(lib.eigh (Xᵀ * o.F * X)).1, hl.ascending _ hsym, ?_⟩
  have hC : o.C = X * (lib.eigh (Xᵀ * o.F * X)).2 := h1
  rw [hC, Matrix.transpose_mul]
  calc (lib.eigh (Xᵀ * o.F * X)).2ᵀ * Xᵀ * o.F * (X * (lib.eigh (Xᵀ * o.F * X)).2)
      = (lib.eigh (Xᵀ * o.F * X)).2ᵀ * ((Xᵀ * o.F * X) * (lib.eigh (Xᵀ * o.F * X)).2) := by
        simp only [Matrix.mul_assoc]
    _ = _ := by
        rw [hl.diagonalises _ hsym, ← Matrix.mul_assoc, hl.orthonormal, Matrix.one_mul]

/-- What convergence means: without acceleration, the returned Fock matrix belongs to a density that differs from
the returned one by less than the threshold. -/
theorem C66_converged (lib : HFLib n) (inp : RHFIn n) (hd : inp.useDiis = false) (o : RHFOut n)
    (h : runHartreeFock lib inp = .ok o) :
    ∃ D0 : HFMat n, o.F = rhfFock inp D0 ∧
      (o.warned = false → Real.sqrt (∑ i, ∑ j, (o.D i j - D0 i j) ^ 2) < inp.rmsd) := by
  have main : ∀ (left : ℕ) (D0 : HFMat n) (E0 : ℝ) (st : DIISState n) (prev : Option (RHFOut n)),
      (∀ o, prev = some o → ∃ D0, o.F = rhfFock inp D0) →
      rhfLoop lib inp left D0 E0 st prev = .ok o → ∃ D0 : HFMat n, o.F = rhfFock inp D0 ∧
      (o.warned = false → Real.sqrt (∑ i, ∑ j, (o.D i j - D0 i j) ^ 2) < inp.rmsd) := by
    intro left
    induction left with
    | zero =>
      intro D0 E0 st prev hprev h
      cases prev with
      | none => simp only [rhfLoop] at h; cases h
      | some p =>
        simp only [rhfLoop] at h
        cases h
        obtain ⟨D1, h1⟩ := hprev p rfl
        exact ⟨D1, h1, fun h => (nomatch h)⟩
    | succ left ih =>
      intro D0 E0 st prev hprev h
      simp only [rhfLoop, nextFock, hd, Bool.false_eq_true, if_false, bind, Except.bind] at h
      split_ifs at h with hc
      · cases h
        exact ⟨D0, rfl, fun _ => hc.2⟩
      · refine ih _ _ _ _ ?_ h
        rintro o' ho'
        cases ho'
        exact ⟨D0, rfl⟩
  exact main _ _ _ _ none (by simp) h

/-- At self-consistency the returned energy is the Hartree-Fock energy of the returned density. -/
theorem C66_energy (lib : HFLib n) (inp : RHFIn n) (o : RHFOut n) (h : runHartreeFock lib inp = .ok o)
    (hsc : o.F = rhfFock inp o.D) : o.E = rhfEnergy (inp.T + inp.V) inp.eri o.D := by
  obtain ⟨_, _, h3⟩ := rhfLoop_good lib inp _ _ _ _ none (by simp) o h
  rw [h3, hsc]
  unfold rhfEnergy contract rhfFock
  rw [Finset.mul_sum, Finset.mul_sum, ← Finset.sum_add_distrib]
  refine Finset.sum_congr rfl fun p _ => ?_
  rw [Finset.mul_sum, Finset.mul_sum, ← Finset.sum_add_distrib]
  refine Finset.sum_congr rfl fun q _ => ?_
  simp only [Matrix.add_apply, Matrix.sub_apply, Matrix.smul_apply, coulomb, exchange, smul_eq_mul]
  ring

/-- Without acceleration and with at least one iteration the calculation never raises. With no iteration at all
the result is unbound and the call raises. -/
theorem C66_total (lib : HFLib n) (inp : RHFIn n) :
    (inp.useDiis = false → 1 ≤ inp.maxIter → ∃ o, runHartreeFock lib inp = .ok o) ∧
    (inp.maxIter = 0 → ∃ e, runHartreeFock lib inp = .error e) := by
  constructor
  · intro hd h1
    have main : ∀ (left : ℕ) (D0 : HFMat n) (E0 : ℝ) (st : DIISState n) (prev : Option (RHFOut n)),
        1 ≤ left ∨ prev ≠ none → ∃ o, rhfLoop lib inp left D0 E0 st prev = .ok o := by
      intro left
      induction left with
      | zero =>
        intro D0 E0 st prev hprev
        cases prev with
        | none => simp at hprev
        | some p => exact ⟨_, rfl⟩
      | succ left ih =>
        intro D0 E0 st prev hprev
        simp only [rhfLoop, nextFock, hd, Bool.false_eq_true, if_false, bind, Except.bind]
        split_ifs
        · exact ⟨_, rfl⟩
        · exact ih _ _ _ _ (Or.inr (by simp))
    exact main _ _ _ _ none (Or.inl h1)
  · intro h0
    refine ⟨.runtimeError, ?_⟩
    simp only [runHartreeFock, h0, rhfLoop]

theorem rhfLoop_succ (lib : HFLib n) (inp : RHFIn n) (left : ℕ) (D0 : HFMat n) (E0 : ℝ) (st : DIISState n)
    (prev : Option (RHFOut n)) : rhfLoop lib inp (left + 1) D0 E0 st prev = (do
    let (F, st) ← nextFock lib inp.useDiis inp.S (rhfFock inp D0) D0 st
    let C := scfOrbitals lib inp.S F
    let D := (2 : ℝ) • occDensity C (sliceEnd n (halfTrunc inp.N))
    let E := 0.5 * contract D (inp.T + inp.V + F)
    let o : RHFOut n := ⟨E, C, F, D, false⟩
    if |E - E0| < inp.dE ∧ rmsDiff D D0 < inp.rmsd then .ok o
    else rhfLoop lib inp left D E st (some o)) := by
  simp only [rhfLoop]

/-- **With acceleration, one basis function is not handled** (helium in a minimal basis): unless the first
iteration already passes for converged, the second one meets a singular system and the calculation raises. -/
theorem C66_one_function_disagree (lib : HFLib 1) (hl : LibOK lib) (inp : RHFIn 1) (hS : inp.S.PosDef)
    (hN : 2 ≤ inp.N) (hd : inp.useDiis = true) (hm : 2 ≤ inp.maxIter)
    (hg : inp.dE ≤ |inp.eri 0 0 0 0 / inp.S 0 0 ^ 2|) :
    runHartreeFock lib inp = .error .valueError := by
  have hocc : sliceEnd 1 (halfTrunc inp.N) = 1 := by
    have hh : 1 ≤ halfTrunc inp.N := by
      unfold halfTrunc; rw [Int.tdiv_eq_ediv_of_nonneg (by omega)]; omega
    unfold sliceEnd
    rw [if_neg (by omega)]; omega
  have hspos : 0 < inp.S 0 0 := by
    have := hS.diag_pos (i := 0)
    exact this
  -- every density is 2 / S
  obtain ⟨D₂, hD₂⟩ : ∃ D₂ : HFMat 1, D₂ = fun _ _ => 2 / inp.S 0 0 := ⟨_, rfl⟩
  have hdens : ∀ C : HFMat 1, Cᵀ * inp.S * C = 1 → (2 : ℝ) • occDensity C 1 = D₂ := by
    intro C hC
    rw [hD₂]
    have h := congrFun (congrFun hC 0) 0
    simp only [Matrix.mul_apply, Matrix.transpose_apply, Fin.sum_univ_one, Matrix.one_apply_eq] at h
    funext a b
    have ha : a = 0 := Subsingleton.elim _ _
    have hb : b = 0 := Subsingleton.elim _ _
    subst ha hb
    simp only [Matrix.smul_apply, occDensity, Fin.sum_univ_one, smul_eq_mul, Fin.val_zero, Nat.lt_one_iff,
      if_true]
    field_simp
    linarith
  have hguess : rhfGuess lib inp = D₂ := by
    have := hdens _ (orbitals_orthonormal hl hS ((invSqrt lib inp.S)ᵀ * (inp.T + inp.V) * (invSqrt lib inp.S)ᵀ))
    unfold rhfGuess
    rw [hocc]
    exact this
  have hall : ∀ F, (2 : ℝ) • occDensity (scfOrbitals lib inp.S F) 1 = D₂ :=
    fun F => hdens _ (scfOrbitals_orthonormal hl hS F)
  have herr : ∀ F D : HFMat 1, F * D * inp.S - inp.S * D * F = 0 := by
    intro F D
    ext a b
    have ha : a = 0 := Subsingleton.elim _ _
    have hb : b = 0 := Subsingleton.elim _ _
    subst ha hb
    simp only [Matrix.sub_apply, Matrix.mul_apply, Fin.sum_univ_one, Matrix.zero_apply]
    ring
  obtain ⟨k, hk⟩ : ∃ k, inp.maxIter = k + 2 := ⟨inp.maxIter - 2, by omega⟩
  have hfirst : diisStep lib inp.S (rhfFock inp (rhfGuess lib inp)) (rhfGuess lib inp) (DIISState.init 1) =
      .ok (rhfFock inp (rhfGuess lib inp), ⟨[rhfFock inp (rhfGuess lib inp)], [rhfGuess lib inp], 6⟩) := by
    simp [diisStep, DIISState.init]
  unfold runHartreeFock
  simp only []
  rw [hk]
  rw [rhfLoop_succ]
  simp only [nextFock, hd, if_true, hfirst, bind, Except.bind, hocc, hall]
  rw [if_neg]
  · refine (rhfLoop_succ _ _ _ _ _ _ _).trans ?_
    simp only [nextFock, hd, if_true, bind, Except.bind]
    rw [C65_singular_disagree lib hl (by decide) _ _ _ _ _ _ rfl rfl (by simp) (by rw [herr, herr])]
  · rintro ⟨h, -⟩
    refine absurd h (not_lt.2 (le_of_le_of_eq hg ?_))
    congr 1
    rw [hguess, hD₂]
    simp only [contract, rhfFock, coulomb, exchange, Fin.sum_univ_one, Matrix.add_apply, Matrix.sub_apply,
      Matrix.smul_apply, smul_eq_mul]
    field_simp
    ring

/-- The hypotheses hold for the model of a helium atom with `h = -2`, `(11|11) = 1`, `S = 1`. -/
example : ∃ (lib : HFLib 1), LibOK lib ∧ runHartreeFock lib
    ⟨1, fun _ _ => 0, fun _ _ => -2, fun _ _ _ _ => 1, 2, 1e-6, 1e-6, 100, true⟩ = .error .valueError := by
  obtain ⟨lib, hl⟩ := exists_libOK 1
  refine ⟨lib, hl, C66_one_function_disagree lib hl _ Matrix.PosDef.one (by norm_num) rfl (by norm_num) ?_⟩
  norm_num

/-- Non-vacuity of `C66_density`: four electrons, three basis functions, no acceleration. -/
example : ∃ (lib : HFLib 3) (o : RHFOut 3), LibOK lib ∧ runHartreeFock lib
    ⟨1, fun i j => if i = j then 1 else 0, fun i j => if i = j then -(3 - i.val) else 0, fun p q r s => if p = q ∧ r = s then 1 else 0,
      4, 1e-6, 1e-6, 100, false⟩ = .ok o ∧ Matrix.trace (o.D * 1) = 4 := by
  obtain ⟨lib, hl⟩ := exists_libOK 3
  obtain ⟨o, ho⟩ := (C66_total lib
    ⟨1, fun i j => if i = j then 1 else 0, fun i j => if i = j then -(3 - i.val) else 0, fun p q r s => if p = q ∧ r = s then 1 else 0,
      4, 1e-6, 1e-6, 100, false⟩).1 rfl (by norm_num)
  refine ⟨lib, o, hl, ho, ?_⟩
  have := (C66_density lib hl _ Matrix.PosDef.one o ho).2.2.2.1 ⟨2, rfl⟩ (by norm_num) (by norm_num)
  simpa using this

/-! ## C81: unrestricted Hartree-Fock -/

/-- What an iteration of the unrestricted calculation leaves. -/
structure UHFGood (lib : HFLib n) (inp : UHFIn n) (o : UHFOut n) : Prop where
  orbA : o.Ca = scfOrbitals lib inp.S o.Fa
  orbB : o.Cb = scfOrbitals lib inp.S o.Fb
  densA : o.Da = occDensity o.Ca (sliceEnd n inp.Na)
  densB : o.Db = occDensity o.Cb (sliceEnd n inp.Nb)
  energy : o.E = 0.5 * contract o.Da (inp.T + inp.V + o.Fa) + 0.5 * contract o.Db (inp.T + inp.V + o.Fb)

theorem uhfLoop_good (lib : HFLib n) (inp : UHFIn n) (left : ℕ) (Da Db : HFMat n) (E0 : ℝ) (sa sb : DIISState n)
    (prev : Option (UHFOut n)) (hprev : ∀ o, prev = some o → UHFGood lib inp o) (o : UHFOut n)
    (h : uhfLoop lib inp left Da Db E0 sa sb prev = .ok o) : UHFGood lib inp o := by
  induction left generalizing Da Db E0 sa sb prev with
  | zero =>
    cases prev with
    | none => simp only [uhfLoop] at h; cases h
    | some p =>
      simp only [uhfLoop] at h
      cases h
      obtain ⟨a, b, c, d, e⟩ := hprev p rfl
      exact ⟨a, b, c, d, e⟩
  | succ left ih =>
    simp only [uhfLoop] at h
    cases hF : nextFock lib inp.useDiis inp.S (uhfFock inp Da Db) Da sa with
    | error e => rw [hF] at h; cases h
    | ok r =>
      cases hG : nextFock lib inp.useDiis inp.S (uhfFock inp Db Da) Db sb with
      | error e => rw [hF, hG] at h; cases h
      | ok r' =>
        rw [hF, hG] at h
        simp only [bind, Except.bind] at h
        split_ifs at h with hc
        · cases h
          exact ⟨rfl, rfl, rfl, rfl, rfl⟩
        · refine ih _ _ _ _ _ _ ?_ h
          rintro o' ho'
          cases ho'
          exact ⟨rfl, rfl, rfl, rfl, rfl⟩

theorem runUnrestricted_good (lib : HFLib n) (inp : UHFIn n) (o : UHFOut n)
    (h : runUnrestricted lib inp = .ok o) : UHFGood lib inp o := by
  unfold runUnrestricted at h
  simp only [] at h
  split_ifs at h with he
  · cases hm : mixRows inp.Na inp.mix (uhfGuessRows lib inp) with
    | error e => rw [hm] at h; cases h
    | ok Ra =>
      rw [hm] at h
      exact uhfLoop_good lib inp _ _ _ _ _ _ none (by simp) o h
  · exact uhfLoop_good lib inp _ _ _ _ _ _ none (by simp) o h

theorem sliceEnd_count {m : ℤ} (h0 : 0 ≤ m) (h1 : m ≤ n) : ((min (sliceEnd n m) n : ℕ) : ℝ) = m := by
  have : (min (sliceEnd n m) n : ℕ) = m.toNat := by
    unfold sliceEnd
    rw [if_neg (by omega)]; omega
  rw [this]
  have : ((m.toNat : ℕ) : ℤ) = m := Int.toNat_of_nonneg h0
  exact_mod_cast congrArg (fun z : ℤ => (z : ℝ)) this

/-- **C81.** Whenever the unrestricted calculation returns: both sets of orbitals are orthonormal, each spin
density is symmetric and idempotent with respect to the overlap, and the charge and spin densities of the object
hold exactly the requested electrons and excess spin. The energy is `1/2 tr Dα(h + Fα) + 1/2 tr Dβ(h + Fβ)`. -/
theorem C81_densities (lib : HFLib n) (hl : LibOK lib) (inp : UHFIn n) (hS : inp.S.PosDef) (o : UHFOut n)
    (h : runUnrestricted lib inp = .ok o) :
    (o.Caᵀ * inp.S * o.Ca = 1 ∧ o.Cbᵀ * inp.S * o.Cb = 1) ∧
    (o.Da.IsSymm ∧ o.Da * inp.S * o.Da = o.Da ∧ o.Db.IsSymm ∧ o.Db * inp.S * o.Db = o.Db) ∧
    (0 ≤ inp.Na → inp.Na ≤ n → 0 ≤ inp.Nb → inp.Nb ≤ n →
      Matrix.trace (rdm1Charge o * inp.S) = inp.Na + inp.Nb ∧
      Matrix.trace (rdm1Spin o * inp.S) = inp.Na - inp.Nb) ∧
    o.E = 1 / 2 * (∑ i, ∑ j, o.Da i j * ((inp.T + inp.V) i j + o.Fa i j) +
      ∑ i, ∑ j, o.Db i j * ((inp.T + inp.V) i j + o.Fb i j)) := by
  obtain ⟨a, b, c, d, e⟩ := runUnrestricted_good lib inp o h
  have hCa : o.Caᵀ * inp.S * o.Ca = 1 := by rw [a]; exact scfOrbitals_orthonormal hl hS _
  have hCb : o.Cbᵀ * inp.S * o.Cb = 1 := by rw [b]; exact scfOrbitals_orthonormal hl hS _
  have ha := density_of_orthonormal hCa (sliceEnd n inp.Na) 1
  have hb := density_of_orthonormal hCb (sliceEnd n inp.Nb) 1
  rw [one_smul, ← c] at ha
  rw [one_smul, ← d] at hb
  refine ⟨⟨hCa, hCb⟩, ⟨ha.symm, by simpa using ha.idem, hb.symm, by simpa using hb.idem⟩, ?_, ?_⟩
  · intro h0 h1 h2 h3
    have e1 := ha.count
    have e2 := hb.count
    rw [sliceEnd_count h0 h1, one_mul] at e1
    rw [sliceEnd_count h2 h3, one_mul] at e2
    constructor
    · rw [rdm1Charge, Matrix.add_mul, Matrix.trace_add, e1, e2]
    · rw [rdm1Spin, Matrix.sub_mul, Matrix.trace_sub, e1, e2]
  · rw [e]
    unfold contract
    simp only [Matrix.add_apply]
    norm_num
    ring

/-- **C81 fails when every orbital is doubly occupied** (neon in a minimal basis): the orbital to mix the highest
occupied one with does not exist, and the call raises `IndexError`. -/
theorem C81_full_disagree (lib : HFLib n) (inp : UHFIn n) (ha : inp.Na = n) (hb : inp.Nb = n) :
    runUnrestricted lib inp = .error .indexError := by
  unfold runUnrestricted
  simp only [ha, hb, if_true]
  have hm : mixRows (n : ℤ) inp.mix (uhfGuessRows lib inp) = .error .indexError := by
    unfold mixRows
    have hl : rowIndex n (n : ℤ) = .error .indexError := by
      unfold rowIndex
      simp only []
      rw [dif_neg (by split_ifs <;> omega)]
    by_cases hn : n = 0
    · subst hn
      have : rowIndex 0 ((0 : ℕ) - 1 : ℤ) = .error .indexError := by
        unfold rowIndex; simp
      rw [this]; rfl
    · have : ∃ k, rowIndex n ((n : ℤ) - 1) = .ok k := by
        unfold rowIndex
        simp only []
        rw [dif_pos (by split_ifs <;> omega)]
        exact ⟨_, rfl⟩
      obtain ⟨k, hk⟩ := this
      rw [hk, hl]; rfl
  rw [hm]; rfl

theorem uhfFock_eq (inp : UHFIn n) (D D' : HFMat n) : uhfFock inp D D' = spinFock (inp.T + inp.V) inp.eri D D' := by
  ext p q
  simp only [uhfFock, spinFock, coulomb, exchange, Matrix.add_apply, Matrix.sub_apply, mul_add,
    Finset.sum_add_distrib]
  ring

/-- C81: without acceleration the returned Fock matrices are those of a pair of spin densities, with exchange
between electrons of equal spin only, and if no warning is logged the returned densities differ from that pair by
less than the threshold. -/
theorem C81_fock (lib : HFLib n) (inp : UHFIn n) (hd : inp.useDiis = false) (o : UHFOut n)
    (h : runUnrestricted lib inp = .ok o) :
    ∃ Da0 Db0 : HFMat n, o.Fa = spinFock (inp.T + inp.V) inp.eri Da0 Db0 ∧
      o.Fb = spinFock (inp.T + inp.V) inp.eri Db0 Da0 ∧
      (o.warned = false → Real.sqrt (∑ i, ∑ j, (o.Da i j - Da0 i j) ^ 2) < inp.rmsd ∧
        Real.sqrt (∑ i, ∑ j, (o.Db i j - Db0 i j) ^ 2) < inp.rmsd) := by
  have main : ∀ (left : ℕ) (Da0 Db0 : HFMat n) (E0 : ℝ) (sa sb : DIISState n) (prev : Option (UHFOut n)),
      (∀ o, prev = some o → ∃ Da0 Db0, o.Fa = spinFock (inp.T + inp.V) inp.eri Da0 Db0 ∧
        o.Fb = spinFock (inp.T + inp.V) inp.eri Db0 Da0) →
      uhfLoop lib inp left Da0 Db0 E0 sa sb prev = .ok o →
      ∃ Da0 Db0 : HFMat n, o.Fa = spinFock (inp.T + inp.V) inp.eri Da0 Db0 ∧
      o.Fb = spinFock (inp.T + inp.V) inp.eri Db0 Da0 ∧
      (o.warned = false → Real.sqrt (∑ i, ∑ j, (o.Da i j - Da0 i j) ^ 2) < inp.rmsd ∧
        Real.sqrt (∑ i, ∑ j, (o.Db i j - Db0 i j) ^ 2) < inp.rmsd) := by
    intro left
    induction left with
    | zero =>
      intro Da0 Db0 E0 sa sb prev hprev h
      cases prev with
      | none => simp only [uhfLoop] at h; cases h
      | some p =>
        simp only [uhfLoop] at h
        cases h
        obtain ⟨D1, D2, h1, h2⟩ := hprev p rfl
        exact ⟨D1, D2, h1, h2, fun h => (nomatch h)⟩
    | succ left ih =>
      intro Da0 Db0 E0 sa sb prev hprev h
      simp only [uhfLoop, nextFock, hd, Bool.false_eq_true, if_false, bind, Except.bind] at h
      split_ifs at h with hc
      · cases h
        exact ⟨Da0, Db0, uhfFock_eq _ _ _, uhfFock_eq _ _ _, fun _ => hc.2⟩
      · refine ih _ _ _ _ _ _ ?_ h
        rintro o' ho'
        cases ho'
        exact ⟨Da0, Db0, uhfFock_eq _ _ _, uhfFock_eq _ _ _⟩
  unfold runUnrestricted at h
  simp only [] at h
  split_ifs at h with he
  · cases hm : mixRows inp.Na inp.mix (uhfGuessRows lib inp) with
    | error e => rw [hm] at h; cases h
    | ok Ra => rw [hm] at h; exact main _ _ _ _ _ _ none (by simp) h
  · exact main _ _ _ _ _ _ none (by simp) h

/-- C81: at self-consistency the returned energy is the unrestricted Hartree-Fock energy of the returned spin
densities. -/
theorem C81_energy (lib : HFLib n) (inp : UHFIn n) (o : UHFOut n) (h : runUnrestricted lib inp = .ok o)
    (ha : o.Fa = spinFock (inp.T + inp.V) inp.eri o.Da o.Db)
    (hb : o.Fb = spinFock (inp.T + inp.V) inp.eri o.Db o.Da) :
    o.E = uhfEnergy (inp.T + inp.V) inp.eri o.Da o.Db := by
  obtain ⟨_, _, _, _, e⟩ := runUnrestricted_good lib inp o h
  rw [e, ha, hb]
  unfold uhfEnergy contract spinFock
  rw [Finset.mul_sum, Finset.mul_sum, Finset.mul_sum, Finset.mul_sum, ← Finset.sum_add_distrib,
    ← Finset.sum_add_distrib, ← Finset.sum_sub_distrib]
  refine Finset.sum_congr rfl fun p _ => ?_
  rw [Finset.mul_sum, Finset.mul_sum, Finset.mul_sum, Finset.mul_sum, ← Finset.sum_add_distrib,
    ← Finset.sum_add_distrib, ← Finset.sum_sub_distrib]
  refine Finset.sum_congr rfl fun q _ => ?_
  have hsw : ∑ r, ∑ s, inp.eri p q r s * (o.Db s r + o.Da s r) = ∑ r, ∑ s, inp.eri p q r s * (o.Da s r + o.Db s r) :=
    Finset.sum_congr rfl fun _ _ => Finset.sum_congr rfl fun _ _ => by ring
  simp only [Matrix.add_apply]
  change 0.5 * (o.Da p q * (inp.T p q + inp.V p q + (inp.T p q + inp.V p q + _ - _))) +
    0.5 * (o.Db p q * (inp.T p q + inp.V p q + (inp.T p q + inp.V p q + _ - _))) = _
  rw [hsw]
  ring

theorem rowIndex_val {i : ℤ} (h0 : 0 ≤ i) {k : Fin n} (h : rowIndex n i = .ok k) : (k : ℤ) = i := by
  unfold rowIndex at h
  simp only [if_neg (not_lt.2 h0)] at h
  split_ifs at h with hc
  · omega
  · have := congrArg Fin.val (Except.ok.inj h)
    simp only [] at this
    omega

/-- The rows after a rotation of rows `h` and `l` by the mixing angle. -/
noncomputable def rotRows (h l : Fin n) (mix : ℝ) (R : HFMat n) : HFMat n := fun i a =>
  (if i = h ∨ i = l then 1 / Real.sqrt (1 + mix ^ 2) else 1) * R i a +
  (if i = h then 1 / Real.sqrt (1 + mix ^ 2) * mix else if i = l then -(1 / Real.sqrt (1 + mix ^ 2) * mix) else 0) *
    R (Equiv.swap h l i) a

theorem mix_norm (mix : ℝ) : (1 / Real.sqrt (1 + mix ^ 2)) ^ 2 * (1 + mix ^ 2) = 1 := by
  have h1 : 0 < 1 + mix ^ 2 := by positivity
  rw [div_pow, one_pow, Real.sq_sqrt h1.le]
  field_simp

theorem rows_entry (S R : HFMat n) (hR : R * S * Rᵀ = 1) (i j : Fin n) :
    ∑ b, (∑ a, R i a * S a b) * R j b = if i = j then 1 else 0 := by
  have := congrFun (congrFun hR i) j
  simpa only [Matrix.mul_apply, Matrix.transpose_apply, Matrix.one_apply] using this

theorem combo_entry (S R : HFMat n) (hR : R * S * Rᵀ = 1) (i i' j j' : Fin n) (a b c d : ℝ) :
    ∑ y, (∑ x, (a * R i x + b * R i' x) * S x y) * (c * R j y + d * R j' y) =
      a * c * (if i = j then 1 else 0) + a * d * (if i = j' then 1 else 0) + b * c * (if i' = j then 1 else 0) +
        b * d * (if i' = j' then 1 else 0) := by
  rw [← rows_entry S R hR i j, ← rows_entry S R hR i j', ← rows_entry S R hR i' j, ← rows_entry S R hR i' j',
    Finset.mul_sum, Finset.mul_sum, Finset.mul_sum, Finset.mul_sum, ← Finset.sum_add_distrib,
    ← Finset.sum_add_distrib, ← Finset.sum_add_distrib]
  refine Finset.sum_congr rfl fun y _ => ?_
  have : ∑ x, (a * R i x + b * R i' x) * S x y = a * ∑ x, R i x * S x y + b * ∑ x, R i' x * S x y := by
    rw [Finset.mul_sum, Finset.mul_sum, ← Finset.sum_add_distrib]
    exact Finset.sum_congr rfl fun _ _ => by ring
  rw [this]
  ring

theorem rotRows_orthonormal {S R : HFMat n} (hR : R * S * Rᵀ = 1) {h l : Fin n} (hne : h ≠ l) (mix : ℝ) :
    rotRows h l mix R * S * (rotRows h l mix R)ᵀ = 1 := by
  have hn := mix_norm mix
  set f := 1 / Real.sqrt (1 + mix ^ 2) with hf
  ext i j
  simp only [Matrix.mul_apply, Matrix.transpose_apply, Matrix.one_apply, rotRows, ← hf]
  rw [combo_entry S R hR]
  simp only [(Equiv.swap h l).injective.eq_iff]
  by_cases hi : i = h
  · subst hi
    by_cases hj : j = i
    · subst hj; simp [hne, hne.symm]; linarith
    · by_cases hj' : j = l
      · subst hj'; simp [hne, hne.symm]; ring
      · simp [hne, hne.symm, hj, hj', Ne.symm hj, Ne.symm hj', Equiv.swap_apply_of_ne_of_ne hj hj']
  · by_cases hi' : i = l
    · subst hi'
      by_cases hj : j = h
      · subst hj; simp [hne, hne.symm]; ring
      · by_cases hj' : j = i
        · subst hj'; simp [hne, hne.symm]; linarith
        · simp [hne, hne.symm, hj, hj', Ne.symm hj, Ne.symm hj', Equiv.swap_apply_of_ne_of_ne hj hj']
    · have hsi := Equiv.swap_apply_of_ne_of_ne hi hi'
      simp only [hi, hi', or_self, if_false, hsi, zero_mul, add_zero, one_mul]
      by_cases hj : j = h
      · subst hj; simp [hne, hne.symm, hi, hi']
      · by_cases hj' : j = l
        · subst hj'; simp [hne, hne.symm, hi, hi']
        · simp [hj, hj']

theorem mixRows_rows {Na : ℤ} (h0 : 1 ≤ Na) {mix : ℝ} {R Ra : HFMat n} (h : mixRows Na mix R = .ok Ra) :
    ∃ hm lm : Fin n, (hm : ℤ) = Na - 1 ∧ (lm : ℤ) = Na ∧ hm ≠ lm ∧ (∀ k a, k ≠ hm → k ≠ lm → Ra k a = R k a) ∧
      (∀ a, Ra hm a = 1 / Real.sqrt (1 + mix ^ 2) * (R hm a + mix * R lm a)) ∧
      ∀ a, Ra lm a = 1 / Real.sqrt (1 + mix ^ 2) * (-mix * Ra hm a + R lm a) := by
  unfold mixRows at h
  cases hh : rowIndex n (Na - 1) with
  | error e => rw [hh] at h; cases h
  | ok hm =>
    cases hlm : rowIndex n Na with
    | error e => rw [hh, hlm] at h; cases h
    | ok lm =>
      rw [hh, hlm] at h
      have e1 := rowIndex_val (by omega) hh
      have e2 := rowIndex_val (by omega) hlm
      have hne : hm ≠ lm := by intro e; rw [e] at e1; omega
      have hRa := (Except.ok.inj h).symm
      have key : Ra hm = fun a => 1 / Real.sqrt (1 + mix ^ 2) * (R hm a + mix * R lm a) := by
        rw [hRa]
        exact (Function.update_of_ne hne _ _).trans (Function.update_self _ _ _)
      refine ⟨hm, lm, e1, e2, hne, fun k a h1 h2 => ?_, fun a => congrFun key a, fun a => ?_⟩
      · rw [hRa]
        exact congrFun ((Function.update_of_ne h2 _ _).trans (Function.update_of_ne h1 _ _)) a
      · rw [key, hRa]
        refine (congrFun (Function.update_self lm _ _) a).trans ?_
        have h1 := congrFun (Function.update_self hm (fun a => 1 / √(1 + mix ^ 2) * (R hm a + mix * R lm a)) R) a
        have h2 := congrFun (Function.update_of_ne hne.symm (fun a => 1 / √(1 + mix ^ 2) * (R hm a + mix * R lm a)) R) a
        exact congrArg₂ (fun x y => 1 / √(1 + mix ^ 2) * (-mix * x + y)) h1 h2

/-- C81: for a closed shell, mixing the highest occupied and the lowest empty orbital leaves a proper starting
density: it is still that of `Na` orthonormal orbitals, whatever the mixing coefficient. -/
theorem C81_start (lib : HFLib n) (hl : LibOK lib) (inp : UHFIn n) (hS : inp.S.PosDef) (h0 : 1 ≤ inp.Na)
    (Ra : HFMat n) (h : mixRows inp.Na inp.mix (uhfGuessRows lib inp) = .ok Ra) :
    IsDensity inp.S (occDensity Raᵀ (sliceEnd n inp.Na)) 1 inp.Na := by
  have hR : uhfGuessRows lib inp * inp.S * (uhfGuessRows lib inp)ᵀ = 1 := by
    have := orbitals_orthonormal hl hS ((invSqrt lib inp.S)ᵀ * (inp.T + inp.V) * (invSqrt lib inp.S)ᵀ)
    unfold uhfGuessRows
    rw [Matrix.transpose_transpose]
    exact this
  obtain ⟨hm, lm, e1, e2, hne, r1, r2, r3⟩ := mixRows_rows h0 h
  set R := uhfGuessRows lib inp
  have hlt : inp.Na ≤ n := by have := lm.isLt; omega
  have hsl : (sliceEnd n inp.Na : ℤ) = inp.Na := by
    unfold sliceEnd; rw [if_neg (by omega)]; omega
  have hd := density_of_orthonormal (S := inp.S) (C := (rotRows hm lm inp.mix R)ᵀ)
    (by rw [Matrix.transpose_transpose]; exact rotRows_orthonormal hR hne inp.mix) (sliceEnd n inp.Na) 1
  rw [sliceEnd_count (by omega) hlt, one_smul] at hd
  convert hd using 1
  ext a b
  unfold occDensity
  refine Finset.sum_congr rfl fun k _ => ?_
  split_ifs with hk
  · have hkl : k ≠ lm := by intro e; subst e; omega
    simp only [Matrix.transpose_apply, rotRows]
    by_cases hkh : k = hm
    · subst hkh
      simp only [r2, true_or, if_true, Equiv.swap_apply_left]
      ring
    · simp only [r1 k _ hkh hkl, hkl, hkh, or_self, if_false]
      ring
  · rfl

/-- C81: the mixed empty orbital is not the one meant. The array rows are views, so the second assignment reads
the occupied orbital already mixed, and the rows are not orthonormal any more. Only the occupied rows enter the
starting density. -/
theorem C81_lumo_disagree (S R : HFMat n) (hR : R * S * Rᵀ = 1) (Na : ℤ) (h0 : 1 ≤ Na) (mix : ℝ) (hmix : mix ≠ 0)
    (Ra : HFMat n) (h : mixRows Na mix R = .ok Ra) : Ra * S * Raᵀ ≠ 1 := by
  intro hone
  obtain ⟨hm, lm, e1, e2, hne, r1, r2, r3⟩ := mixRows_rows h0 h
  have hn := mix_norm mix
  have key := congrFun (congrFun hone hm) lm
  simp only [Matrix.mul_apply, Matrix.transpose_apply, Matrix.one_apply_ne hne, r3, r2] at key
  have hpos : 0 < 1 / Real.sqrt (1 + mix ^ 2) := by positivity
  set f := 1 / Real.sqrt (1 + mix ^ 2) with hf
  have e3 : ∀ x, f * (R hm x + mix * R lm x) = f * R hm x + f * mix * R lm x := fun x => by ring
  have e4 : ∀ y, f * (-mix * (f * R hm y + f * mix * R lm y) + R lm y) =
      (-(f * mix * f)) * R hm y + (f - f * mix * f * mix) * R lm y := fun y => by ring
  simp only [e3, e4] at key
  rw [combo_entry S R hR] at key
  simp only [hne, hne.symm, if_true, if_false] at key
  clear_value f
  have h1 : f * mix * (f - 1) = 0 := by linear_combination key + (f * mix) * hn
  have h2 : f = 1 := by
    rcases mul_eq_zero.1 h1 with h2 | h2
    · exact absurd h2 (by positivity)
    · linarith
  rw [h2] at hn
  have : mix ^ 2 = 0 := by linarith
  exact hmix (pow_eq_zero_iff two_ne_zero |>.1 this)

/-- Two orthonormal rows can be mixed. -/
example : ∃ Ra, mixRows 1 0.15 (1 : HFMat 2) = .ok Ra ∧ Ra * 1 * Raᵀ ≠ 1 := by
  have h : ∃ Ra, mixRows 1 0.15 (1 : HFMat 2) = .ok Ra := ⟨_, rfl⟩
  obtain ⟨Ra, hRa⟩ := h
  exact ⟨Ra, hRa, C81_lumo_disagree 1 1 (by simp) 1 le_rfl 0.15 (by norm_num) Ra hRa⟩

/-! ## C82: spin contamination -/

/-- The overlap of the two sets of orbitals is an orthogonal matrix. -/
theorem overlap_orthogonal {S Ca Cb : HFMat n} (hS : S.IsSymm) (ha : Caᵀ * S * Ca = 1) (hb : Cbᵀ * S * Cb = 1) :
    (Caᵀ * S * Cb)ᵀ * (Caᵀ * S * Cb) = 1 := by
  have hcomp : Ca * (Caᵀ * S) = 1 := mul_eq_one_comm.1 ha
  rw [Matrix.transpose_mul, Matrix.transpose_mul, Matrix.transpose_transpose, hS.eq]
  calc Cbᵀ * (S * Ca) * (Caᵀ * S * Cb) = Cbᵀ * S * (Ca * (Caᵀ * S)) * Cb := by
        simp only [Matrix.mul_assoc]
    _ = 1 := by rw [hcomp, Matrix.mul_one, hb]

/-- **C82.** The reported spin contamination equals `N_β - tr(D_α S D_β S)`; it lies between zero and the number
of beta electrons, and it vanishes exactly when every occupied beta orbital lies in the space of the occupied
alpha orbitals. -/
theorem C82_contamination (lib : HFLib n) (hl : LibOK lib) (inp : UHFIn n) (hS : inp.S.PosDef) (o : UHFOut n)
    (h : runUnrestricted lib inp = .ok o) (h0 : 0 ≤ inp.Na) (h1 : inp.Na ≤ n) (h2 : 0 ≤ inp.Nb)
    (h3 : inp.Nb ≤ n) :
    ∃ x, spinContamination inp.S o inp.Na inp.Nb = .ok x ∧
      x = inp.Nb - Matrix.trace (o.Da * inp.S * o.Db * inp.S) ∧ 0 ≤ x ∧ x ≤ inp.Nb ∧
      (x = 0 ↔ o.Da * inp.S * o.Db = o.Db) := by
  obtain ⟨a, b, c, d, e⟩ := runUnrestricted_good lib inp o h
  have hsym : inp.S.IsSymm := by
    have := hS.isHermitian
    rwa [Matrix.IsHermitian, Matrix.conjTranspose_eq_transpose_of_trivial] at this
  have hCa : o.Caᵀ * inp.S * o.Ca = 1 := by rw [a]; exact scfOrbitals_orthonormal hl hS _
  have hCb : o.Cbᵀ * inp.S * o.Cb = 1 := by rw [b]; exact scfOrbitals_orthonormal hl hS _
  set M : HFMat n := o.Caᵀ * inp.S * o.Cb with hM
  have hMorth : Mᵀ * M = 1 := overlap_orthogonal hsym hCa hCb
  have hMeq : (fun i j => ∑ a, ∑ b, o.Ca a i * o.Cb b j * inp.S a b) = M := by
    funext i j
    rw [hM]
    simp only [Matrix.mul_apply, Matrix.transpose_apply, Finset.sum_mul]
    rw [Finset.sum_comm]
    exact Finset.sum_congr rfl fun _ _ => Finset.sum_congr rfl fun _ _ => by ring
  have hcol : ∀ j, ∑ i, M i j ^ 2 = 1 := by
    intro j
    have := congrFun (congrFun hMorth j) j
    simp only [Matrix.mul_apply, Matrix.transpose_apply, Matrix.one_apply_eq] at this
    rw [← this]
    exact Finset.sum_congr rfl fun _ _ => by ring
  have hsa : (sliceEnd n inp.Na : ℤ) = inp.Na := by
    unfold sliceEnd; rw [if_neg (by omega)]; omega
  have hsb : (sliceEnd n inp.Nb : ℤ) = inp.Nb := by
    unfold sliceEnd; rw [if_neg (by omega)]; omega
  set x : ℝ := inp.Nb - ∑ i : Fin n, ∑ j : Fin n,
    if (i.val : ℤ) < inp.Na ∧ (j.val : ℤ) < inp.Nb then M i j ^ 2 else 0 with hx
  have hNb : (inp.Nb : ℝ) = ∑ j : Fin n, if (j.val : ℤ) < inp.Nb then (1 : ℝ) else 0 := by
    have := occProj_trace n (sliceEnd n inp.Nb)
    rw [occProj, Matrix.trace_diagonal, sliceEnd_count h2 h3] at this
    rw [← this]
    refine Finset.sum_congr rfl fun j _ => ?_
    have : (j.val < sliceEnd n inp.Nb) ↔ (j.val : ℤ) < inp.Nb := by omega
    simp only [this]
  have hxsum : x = ∑ j : Fin n, ∑ i : Fin n,
      if inp.Na ≤ (i.val : ℤ) ∧ (j.val : ℤ) < inp.Nb then M i j ^ 2 else 0 := by
    rw [hx, hNb, Finset.sum_comm, ← Finset.sum_sub_distrib]
    refine Finset.sum_congr rfl fun j _ => ?_
    by_cases hj : (j.val : ℤ) < inp.Nb
    · simp only [hj, if_true, and_true]
      rw [← hcol j, ← Finset.sum_sub_distrib]
      refine Finset.sum_congr rfl fun i _ => ?_
      by_cases hi : (i.val : ℤ) < inp.Na
      · rw [if_pos hi, if_neg (not_le.2 hi), sub_self]
      · rw [if_neg hi, if_pos (not_lt.1 hi), sub_zero]
    · simp [hj]
  have hcompl : o.Ca * (o.Caᵀ * inp.S) = 1 := mul_eq_one_comm.1 hCa
  have hdiff : o.Db - o.Da * inp.S * o.Db =
      o.Ca * ((1 - occProj n (sliceEnd n inp.Na)) * M * occProj n (sliceEnd n inp.Nb)) * o.Cbᵀ := by
    rw [c, d, occDensity_eq, occDensity_eq, hM]
    have e1 : o.Cb * occProj n (sliceEnd n inp.Nb) * o.Cbᵀ =
        o.Ca * (o.Caᵀ * inp.S) * (o.Cb * occProj n (sliceEnd n inp.Nb) * o.Cbᵀ) := by
      rw [hcompl, Matrix.one_mul]
    calc o.Cb * occProj n (sliceEnd n inp.Nb) * o.Cbᵀ -
          o.Ca * occProj n (sliceEnd n inp.Na) * o.Caᵀ * inp.S * (o.Cb * occProj n (sliceEnd n inp.Nb) * o.Cbᵀ)
        = o.Ca * (o.Caᵀ * inp.S) * (o.Cb * occProj n (sliceEnd n inp.Nb) * o.Cbᵀ) -
          o.Ca * occProj n (sliceEnd n inp.Na) * o.Caᵀ * inp.S *
            (o.Cb * occProj n (sliceEnd n inp.Nb) * o.Cbᵀ) := by rw [← e1]
      _ = _ := by
        simp only [Matrix.sub_mul, Matrix.mul_sub, Matrix.one_mul, Matrix.mul_assoc]
  refine ⟨x, ?_, ?_, ?_, ?_, ?_⟩
  · unfold spinContamination
    simp only []
    rw [if_pos (Or.inl ⟨h1, h3⟩), hx]
    congr 3
    funext i
    congr 1
    funext j
    rw [← congrFun (congrFun hMeq i) j]
  · rw [hx]
    congr 1
    have : Matrix.trace (o.Da * inp.S * o.Db * inp.S) =
        Matrix.trace (occProj n (sliceEnd n inp.Na) * M * occProj n (sliceEnd n inp.Nb) * Mᵀ) := by
      rw [c, d, occDensity_eq, occDensity_eq]
      have e2 : o.Ca * occProj n (sliceEnd n inp.Na) * o.Caᵀ * inp.S *
          (o.Cb * occProj n (sliceEnd n inp.Nb) * o.Cbᵀ) * inp.S =
          o.Ca * (occProj n (sliceEnd n inp.Na) * M * occProj n (sliceEnd n inp.Nb) * (o.Cbᵀ * inp.S)) := by
        rw [hM]; simp only [Matrix.mul_assoc]
      rw [e2, Matrix.trace_mul_comm]
      congr 1
      rw [hM, Matrix.transpose_mul, Matrix.transpose_mul, Matrix.transpose_transpose, hsym.eq]
      simp only [Matrix.mul_assoc]
    rw [this]
    simp only [Matrix.trace, Matrix.diag_apply, Matrix.mul_apply, occProj, Matrix.diagonal_apply,
      Matrix.transpose_apply, ite_mul, zero_mul, one_mul, mul_ite, mul_zero, mul_one, Finset.sum_ite_eq,
      Finset.sum_ite_eq', Finset.mem_univ, if_true]
    refine Finset.sum_congr rfl fun i _ => Finset.sum_congr rfl fun j _ => ?_
    have hi : (i.val < sliceEnd n inp.Na) ↔ (i.val : ℤ) < inp.Na := by omega
    have hj : (j.val < sliceEnd n inp.Nb) ↔ (j.val : ℤ) < inp.Nb := by omega
    simp only [hi, hj]
    by_cases g1 : (i.val : ℤ) < inp.Na <;> by_cases g2 : (j.val : ℤ) < inp.Nb <;> simp [g1, g2, pow_two]
  · rw [hxsum]
    exact Finset.sum_nonneg fun j _ => Finset.sum_nonneg fun i _ => by split_ifs <;> positivity
  · rw [hx]
    have : 0 ≤ ∑ i : Fin n, ∑ j : Fin n,
        if (i.val : ℤ) < inp.Na ∧ (j.val : ℤ) < inp.Nb then M i j ^ 2 else 0 :=
      Finset.sum_nonneg fun j _ => Finset.sum_nonneg fun i _ => by split_ifs <;> positivity
    linarith
  · have hQ : x = 0 ↔ (1 - occProj n (sliceEnd n inp.Na)) * M * occProj n (sliceEnd n inp.Nb) = 0 := by
      have hentry : ∀ i j, ((1 - occProj n (sliceEnd n inp.Na)) * M * occProj n (sliceEnd n inp.Nb)) i j =
          if inp.Na ≤ (i.val : ℤ) ∧ (j.val : ℤ) < inp.Nb then M i j else 0 := by
        intro i j
        have hi : (i.val < sliceEnd n inp.Na) ↔ (i.val : ℤ) < inp.Na := by omega
        have hj : (j.val < sliceEnd n inp.Nb) ↔ (j.val : ℤ) < inp.Nb := by omega
        rw [Matrix.sub_mul, Matrix.one_mul, occProj, occProj, Matrix.mul_diagonal, Matrix.sub_apply,
          Matrix.diagonal_mul]
        simp only [hi, hj]
        by_cases g1 : (i.val : ℤ) < inp.Na <;> by_cases g2 : (j.val : ℤ) < inp.Nb <;>
          simp [g1, g2, not_le.2, not_lt.1, le_of_not_gt]
      constructor
      · intro hx0
        ext i j
        rw [hentry, Matrix.zero_apply]
        rw [hxsum] at hx0
        have z1 := (Finset.sum_eq_zero_iff_of_nonneg (fun j _ => Finset.sum_nonneg fun i _ => by
          split_ifs <;> positivity)).1 hx0 j (Finset.mem_univ _)
        have z2 := (Finset.sum_eq_zero_iff_of_nonneg (fun i _ => by split_ifs <;> positivity)).1 z1 i
          (Finset.mem_univ _)
        split_ifs with hc
        · rw [if_pos hc] at z2
          exact pow_eq_zero_iff (two_ne_zero) |>.1 z2
        · rfl
      · intro hz
        rw [hxsum]
        refine Finset.sum_eq_zero fun j _ => Finset.sum_eq_zero fun i _ => ?_
        have := congrFun (congrFun hz i) j
        rw [hentry, Matrix.zero_apply] at this
        split_ifs at this ⊢ with hc
        · rw [this]; norm_num
        · rfl
    rw [hQ]
    constructor
    · intro hz
      rw [hz, Matrix.mul_zero, Matrix.zero_mul] at hdiff
      exact (sub_eq_zero.1 hdiff).symm
    · intro hz
      rw [hz, sub_self] at hdiff
      have hcb : o.Cbᵀ * (inp.S * o.Cb) = 1 := by rw [← Matrix.mul_assoc]; exact hCb
      have := congrArg (fun X => o.Caᵀ * inp.S * X * (inp.S * o.Cb)) hdiff
      simp only [Matrix.mul_zero, Matrix.zero_mul] at this
      calc (1 - occProj n (sliceEnd n inp.Na)) * M * occProj n (sliceEnd n inp.Nb)
          = (o.Caᵀ * inp.S * o.Ca) * ((1 - occProj n (sliceEnd n inp.Na)) * M * occProj n (sliceEnd n inp.Nb)) *
            (o.Cbᵀ * (inp.S * o.Cb)) := by rw [hCa, hcb, Matrix.one_mul, Matrix.mul_one]
        _ = 0 := by
          rw [this]
          simp only [Matrix.mul_assoc]

/-- **With more beta than alpha electrons the value is not a contamination**: it is at least `N_β - N_α` even
when both spins use the same orbitals. -/
theorem C82_minority_disagree (lib : HFLib n) (hl : LibOK lib) (inp : UHFIn n) (hS : inp.S.PosDef)
    (o : UHFOut n) (h : runUnrestricted lib inp = .ok o) (h0 : 0 ≤ inp.Na) (h1 : inp.Na ≤ n) (h2 : 0 ≤ inp.Nb)
    (h3 : inp.Nb ≤ n) (x : ℝ) (hx : spinContamination inp.S o inp.Na inp.Nb = .ok x) :
    (inp.Nb : ℝ) - inp.Na ≤ x := by
  obtain ⟨y, hy, hyt, -⟩ := C82_contamination lib hl inp hS o h h0 h1 h2 h3
  rw [hy] at hx
  cases hx
  rw [hyt]
  -- exchange the roles of the spins
  have hsym : inp.S.IsSymm := by
    have := hS.isHermitian
    rwa [Matrix.IsHermitian, Matrix.conjTranspose_eq_transpose_of_trivial] at this
  obtain ⟨⟨hCa, hCb⟩, ⟨_, _, _, _⟩, _, _⟩ := C81_densities lib hl inp hS o h
  obtain ⟨a, b, c, d, e⟩ := runUnrestricted_good lib inp o h
  have hle : Matrix.trace (o.Da * inp.S * o.Db * inp.S) ≤ inp.Na := by
    set M : HFMat n := o.Cbᵀ * inp.S * o.Ca with hM
    have hMorth : Mᵀ * M = 1 := overlap_orthogonal hsym hCb hCa
    have hcol : ∀ j, ∑ i, M i j ^ 2 = 1 := by
      intro j
      have := congrFun (congrFun hMorth j) j
      simp only [Matrix.mul_apply, Matrix.transpose_apply, Matrix.one_apply_eq] at this
      rw [← this]
      exact Finset.sum_congr rfl fun _ _ => by ring
    have : Matrix.trace (o.Da * inp.S * o.Db * inp.S) =
        Matrix.trace (occProj n (sliceEnd n inp.Na) * (Mᵀ * occProj n (sliceEnd n inp.Nb) * M)) := by
      rw [c, d, occDensity_eq, occDensity_eq]
      have e2 : o.Ca * occProj n (sliceEnd n inp.Na) * o.Caᵀ * inp.S *
          (o.Cb * occProj n (sliceEnd n inp.Nb) * o.Cbᵀ) * inp.S =
          o.Ca * (occProj n (sliceEnd n inp.Na) * (o.Caᵀ * inp.S * o.Cb) * occProj n (sliceEnd n inp.Nb) *
            (o.Cbᵀ * inp.S)) := by
        simp only [Matrix.mul_assoc]
      rw [e2, Matrix.trace_mul_comm]
      congr 1
      rw [hM, Matrix.transpose_mul, Matrix.transpose_mul, Matrix.transpose_transpose, hsym.eq]
      simp only [Matrix.mul_assoc]
    rw [this, ← sliceEnd_count h0 h1, ← occProj_trace]
    simp only [Matrix.trace, Matrix.diag_apply]
    refine Finset.sum_le_sum fun i _ => ?_
    rw [occProj, Matrix.diagonal_mul, Matrix.diagonal_apply_eq]
    split_ifs with hi
    · rw [one_mul]
      calc (Mᵀ * occProj n (sliceEnd n inp.Nb) * M) i i
          = ∑ k, (if k.val < sliceEnd n inp.Nb then 1 else 0) * M k i ^ 2 := by
            simp only [occProj, Matrix.mul_apply, Matrix.transpose_apply, Matrix.diagonal_apply, mul_ite, mul_one,
              mul_zero, Finset.sum_ite_eq', Finset.mem_univ, if_true]
            refine Finset.sum_congr rfl fun k _ => ?_
            split_ifs <;> ring
        _ ≤ ∑ k, M k i ^ 2 := by
            refine Finset.sum_le_sum fun k _ => ?_
            split_ifs <;> nlinarith [sq_nonneg (M k i)]
        _ = 1 := hcol i
    · rw [zero_mul]
  linarith

end SQ
