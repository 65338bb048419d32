import Verif.Lemmas.RotoEvaluator
import Verif.Props.Optimizers
import Verif.Props.UpsBuilt
import Verif.Props.SaBuilt
import Mathlib.Analysis.Real.Pi.Bounds

/-! # C143: the evaluator that the wave functions hand to RotoSolve -/

namespace SQ

theorem dot_swap (n : ℕ) (x y : Vec ℝ) : dot n x y = dot n y x := by
  unfold dot
  congr 1
  exact List.map_congr_left fun i _ => mul_comm _ _

section
variable {D : UpsData} {Ts : List (FOp ℝ)}

theorem ups_roto (hD : D.Ready Ts) (ht : ∀ x, D.tiny x = true ↔ x = 0) (hb : ∀ x, D.big x = false ↔ x = 0)
    (h : Matrix (Fin D.n) (Fin D.n) ℝ) (g : Tensor4 (Fin D.n)) (ints : Bool) {θ diffs : List ℝ} {i : ℕ}
    (hl : θ.length = D.st.types.length) (hi : i < θ.length) (hd : diffs ≠ []) :
    D.rotoEnergies h g ints θ diffs i =
      .ok (diffs.map fun d => D.env.energy (D.env.state (θ.set i (storeIn ints d))) h g, diffs.length) := by
  have hl2 : D.st.indices.length = θ.length := by rw [hD.layout.length.2, ← hD.layout.length.1, hl]
  have hsplit : ∀ d, _ = Except.ok (D.env.state (θ.set i d)) := fun d =>
    (ups_split (propVec D.tiny D.th D.ci) D.tiny D.ci.offset D.st d hl.symm hl2 hi D.csf).symm.trans ((C127_total hD).1 (θ.set i d))
  unfold UpsData.rotoEnergies
  cases hv : (List.range i).foldlM
      (fun v k => propagateUnitary (propVec D.tiny D.th D.ci) D.tiny D.ci.offset D.st θ k v) D.csf with
  | error e =>
    have := hsplit 0
    rw [hv] at this
    cases this
  | ok v =>
    rw [hv] at hsplit
    have hx : ∀ d, ∃ x, propagateUnitary (propVec D.tiny D.th D.ci) D.tiny D.ci.offset D.st (θ.set i d) i v = .ok x ∧
        (rangeTo (i + 1) θ.length).foldlM
          (fun s k => propagateUnitary (propVec D.tiny D.th D.ci) D.tiny D.ci.offset D.st θ k s) x =
          .ok (D.env.state (θ.set i d)) := fun d => by
      have := hsplit d
      rw [ok_bind] at this
      cases hp : propagateUnitary (propVec D.tiny D.th D.ci) D.tiny D.ci.offset D.st (θ.set i d) i v with
      | error e => rw [hp] at this; cases this
      | ok x => rw [hp, ok_bind] at this; exact ⟨x, rfl, this⟩
    choose x x1 x2 using hx
    rw [ok_bind, mapM_ok (g := fun d => x (storeIn ints d)) fun d _ => x1 (storeIn ints d), ok_bind]
    have hn : 0 < diffs.length := List.length_pos_iff.2 hd
    have row : ∀ r < diffs.length, stackRows (diffs.map fun d => x (storeIn ints d)) r = x (storeIn ints (diffs.getD r 0)) := by
      intro r hr
      unfold stackRows
      simp [List.getD_eq_getElem?_getD, List.getElem?_eq_getElem hr]
    obtain ⟨B, K, k1, k2⟩ := rotoTail_ok (th := D.th) ht hb hD.space hD.threads hn (natMat h) (natTen g) D.st θ θ.length i
      (stackRows (diffs.map fun d => x (storeIn ints d))) (fun r => D.env.state (θ.set i (storeIn ints (diffs.getD r 0))))
      fun r hr => by rw [row r hr]; exact x2 _
    rw [k1, ok_bind]
    show Except.ok (_, _) = Except.ok (_, _)
    refine congrArg Except.ok (Prod.ext ?_ (by simp))
    refine List.ext_getElem (by simp) fun r r1 r2 => ?_
    have hr : r < diffs.length := by simpa using r1
    obtain ⟨a, b⟩ := k2 r hr
    simp only [List.getElem_map, List.getElem_range]
    refine (dot_swap _ _ _).trans ?_
    have e : diffs.getD r 0 = diffs[r] := by simp [List.getD_eq_getElem?_getD, List.getElem?_eq_getElem hr]
    rw [e] at a b
    rw [a]
    exact (congrArg (okOr 0) (runEnergy_ok b)).symm

/-- C143: for the single-state class, with the parameters given as floats, the evaluator does not raise, and its value for
each shift is the energy `⟨ψ|H|ψ⟩` of the state whose chain of exponentials has the shift in place of the parameter; one
evaluation is counted for each. -/
theorem C143_ups_partial (hD : D.Ready Ts) (ht : ∀ x, D.tiny x = true ↔ x = 0) (hb : ∀ x, D.big x = false ↔ x = 0)
    (C : Matrix (Fin D.n) (Fin D.n) ℝ) {θ diffs : List ℝ} {i : ℕ}
    (hl : θ.length = D.st.types.length) (hi : i < θ.length) (hd : diffs ≠ []) :
    ∃ E, D.rotoEnergies (oneTransform C D.hAo) (twoTransform C D.gAo) false θ diffs i = .ok (E, diffs.length) ∧
      E.length = diffs.length ∧ ∀ (j : ℕ) (d : ℝ), diffs[j]? = some d →
        ∃ ψ, ExpChain (Ts.zip ((θ.set i d).map effAngle)) (stateOf D.ci D.csf) ψ ∧ E[j]? = some (D.energyOf C ψ) := by
  refine ⟨_, ups_roto hD ht hb _ _ false hl hi hd, by simp, fun j d hj => ?_⟩
  refine ⟨_, ups_chain hD (θ.set i d), ?_⟩
  rw [List.getElem?_map, hj]
  exact congrArg some (((C127_physical hD).energy (θ.set i d) _ _).trans (mean_one _ _))

/-- The third of the six parameters of a perfect-pairing tUPS wave function, at the three shifts for `R = 1`. -/
example : ∃ (D : UpsData) (E : List ℝ), D.rotoEnergies (oneTransform D.mo D.hAo) (twoTransform D.mo D.gAo) false
    [1, 2, 3, 4, 5, 6] ((List.range 3).map (xMu 1)) 2 = .ok (E, 3) ∧ E.length = 3 := by
  obtain ⟨csf, ci, w, Ts, -, ⟨-, h1⟩, h2⟩ := ups_ready_case fun _ _ => 0
  obtain ⟨E, e1, e2, -⟩ := C143_ups_partial h2 (fun x => by simp [UpsObj.data]) (fun x => by simp [UpsObj.data]) _
    (θ := [1, 2, 3, 4, 5, 6]) (diffs := (List.range 3).map (xMu 1)) (i := 2) h1.symm (by simp) (by simp [List.range_succ])
  exact ⟨_, E, e1, by simpa using e2⟩

/-- C143: if all parameters are given as integers, the values are the energies at the shifts rounded towards zero. -/
theorem C143_integers (hD : D.Ready Ts) (ht : ∀ x, D.tiny x = true ↔ x = 0) (hb : ∀ x, D.big x = false ↔ x = 0)
    (C : Matrix (Fin D.n) (Fin D.n) ℝ) {θ diffs : List ℝ} {i : ℕ}
    (hl : θ.length = D.st.types.length) (hi : i < θ.length) (hd : diffs ≠ []) :
    ∃ E, D.rotoEnergies (oneTransform C D.hAo) (twoTransform C D.gAo) true θ diffs i = .ok (E, diffs.length) ∧
      ∀ (j : ℕ) (d : ℝ), diffs[j]? = some d →
        ∃ ψ, ExpChain (Ts.zip ((θ.set i (if 0 ≤ d then (⌊d⌋ : ℝ) else (⌈d⌉ : ℝ))).map effAngle)) (stateOf D.ci D.csf) ψ ∧
          E[j]? = some (D.energyOf C ψ) := by
  refine ⟨_, ups_roto hD ht hb _ _ true hl hi hd, fun j d hj => ?_⟩
  refine ⟨_, ups_chain hD (θ.set i (if 0 ≤ d then (⌊d⌋ : ℝ) else (⌈d⌉ : ℝ))), ?_⟩
  rw [List.getElem?_map, hj]
  exact congrArg some (((C127_physical hD).energy (θ.set i (storeIn true d)) _ _).trans (mean_one _ _))

end

/-- C143: the shift `2π/3` of RotoSolve for `R = 1` becomes `2` there, so the energy is not the one at the shift asked for. -/
theorem C143_rounds_disagree : (if 0 ≤ xMu 1 2 then (⌊xMu 1 2⌋ : ℝ) else (⌈xMu 1 2⌉ : ℝ)) = 2 ∧ xMu 1 2 ≠ 2 := by
  have e : xMu 1 2 = 2 / 3 * Real.pi := by unfold xMu; norm_num
  have h1 := Real.pi_gt_d2
  have h2 := Real.pi_lt_d2
  rw [e]
  refine ⟨?_, by intro h; linarith⟩
  rw [if_pos (by positivity)]
  have : ⌊2 / 3 * Real.pi⌋ = 2 := Int.floor_eq_iff.2 ⟨by push_cast; linarith, by push_cast; linarith⟩
  rw [this]; norm_num

section
variable {D : SaData} {Ts : List (FOp ℝ)}

theorem sa_row_energy (hD : D.Ready Ts) (C : Matrix (Fin D.n) (Fin D.n) ℝ) {v w : Vec ℝ}
    (h : applyHam D.tiny D.big D.th D.ci (natMat (oneTransform C D.hAo)) (natTen (twoTransform C D.gAo)) v = .ok w) :
    dot D.ci.idx2det.length v w = inner (core (2 * D.ci.nI) (stateOf D.ci v)) (D.ham C (core (2 * D.ci.nI) (stateOf D.ci v))) := by
  obtain ⟨w', h1, h2⟩ := C70_hamiltonian (tiny := D.tiny) hD.tinyE hD.bigE hD.space hD.threads
    (natMat (oneTransform C D.hAo)) (natTen (twoTransform C D.gAo)) v
  rw [Except.ok.inj (h.symm.trans h1), h2 v, ← hD.orbs]
  rfl

theorem sa_roto (hD : D.Ready Ts) (C : Matrix (Fin D.n) (Fin D.n) ℝ) (ints : Bool) {θ diffs : List ℝ} {i : ℕ}
    (hl : θ.length = D.st.types.length) (hi : i < θ.length) (hd : diffs ≠ []) :
    D.rotoEnergies (oneTransform C D.hAo) (twoTransform C D.gAo) ints θ diffs i =
      .ok (diffs.map fun d => D.nS * D.energyOf C
        fun a => stateOf D.ci ((show Mat ℝ from D.env.state (θ.set i (storeIn ints d))) a), D.nS) := by
  have hl2 : D.st.indices.length = θ.length := by rw [hD.layout.length.2, ← hD.layout.length.1, hl]
  have hsplit : ∀ d a, a < D.nS → _ = Except.ok ((show Mat ℝ from D.env.state (θ.set i d)) a) := fun d a ha =>
    (ups_split (propVec D.tiny D.th D.ci) D.tiny D.ci.offset D.st d hl.symm hl2 hi (D.csf a)).symm.trans
      ((sa_state hD (θ.set i d)).2 a ha)
  have hpre : ∀ a < D.nS, ∃ v, (List.range i).foldlM
      (fun v k => propagateUnitary (propVec D.tiny D.th D.ci) D.tiny D.ci.offset D.st θ k v) (D.csf a) = .ok v := fun a ha => by
    have := hsplit 0 a ha
    cases hv : (List.range i).foldlM
        (fun v k => propagateUnitary (propVec D.tiny D.th D.ci) D.tiny D.ci.offset D.st θ k v) (D.csf a) with
    | error e => rw [hv] at this; cases this
    | ok v => exact ⟨v, rfl⟩
  obtain ⟨V, v1, v2⟩ := rows_ok (RowsAgree.foldlM
    (fun V k => propagateUnitary (propMat D.big D.th D.ci D.nS) D.tiny D.ci.offset D.st θ k V)
    (fun _ v k => propagateUnitary (propVec D.tiny D.th D.ci) D.tiny D.ci.offset D.st θ k v) (List.range i)
    (fun k _ M => propagateUnitary_rows hD.some (propMat_rows hD.tiny hD.big D.th D.ci hD.some) D.tiny D.ci.offset D.st θ k M)
    D.csf) hpre
  have hx : ∀ d a, a < D.nS → ∃ x,
      propagateUnitary (propVec D.tiny D.th D.ci) D.tiny D.ci.offset D.st (θ.set i d) i (V a) = .ok x ∧
      (rangeTo (i + 1) θ.length).foldlM
        (fun s k => propagateUnitary (propVec D.tiny D.th D.ci) D.tiny D.ci.offset D.st θ k s) x =
        .ok ((show Mat ℝ from D.env.state (θ.set i d)) a) := fun d a ha => by
    have := hsplit d a ha
    rw [v2 a ha, ok_bind] at this
    cases hp : propagateUnitary (propVec D.tiny D.th D.ci) D.tiny D.ci.offset D.st (θ.set i d) i (V a) with
    | error e => rw [hp] at this; cases this
    | ok x => rw [hp, ok_bind] at this; exact ⟨x, rfl, this⟩
  have hX : ∀ d, ∃ X : Mat ℝ, propagateUnitary (propMat D.big D.th D.ci D.nS) D.tiny D.ci.offset D.st (θ.set i d) i V = .ok X ∧
      ∀ a < D.nS, (rangeTo (i + 1) θ.length).foldlM
        (fun s k => propagateUnitary (propVec D.tiny D.th D.ci) D.tiny D.ci.offset D.st θ k s) (X a) =
        .ok ((show Mat ℝ from D.env.state (θ.set i d)) a) := fun d => by
    obtain ⟨X, x1, x2⟩ := rows_ok (propagateUnitary_rows hD.some (propMat_rows hD.tiny hD.big D.th D.ci hD.some) D.tiny D.ci.offset D.st
      (θ.set i d) i V) fun a ha => by
        obtain ⟨x, h1, -⟩ := hx d a ha
        exact ⟨x, h1⟩
    refine ⟨X, x1, fun a ha => ?_⟩
    obtain ⟨x, h1, h2⟩ := hx d a ha
    rw [Except.ok.inj ((x2 a ha).symm.trans h1)]
    exact h2
  choose X x1 x2 using hX
  have hn : 0 < diffs.length * D.nS := Nat.mul_pos (List.length_pos_iff.2 hd) hD.some
  have row : ∀ j (hj : j < diffs.length), ∀ a < D.nS,
      stackBlocks D.nS (diffs.map fun d => X (storeIn ints d)) (j * D.nS + a) = X (storeIn ints diffs[j]) a := by
    intro j hj a ha
    unfold stackBlocks
    rw [Nat.mul_comm, Nat.mul_add_div hD.some, Nat.mul_add_mod, Nat.div_eq_of_lt ha, Nat.mod_eq_of_lt ha, Nat.add_zero]
    simp [List.getD_eq_getElem?_getD, List.getElem?_eq_getElem hj]
  obtain ⟨B, K, k1, k2⟩ := rotoTail_ok (th := D.th) hD.tiny hD.big hD.space hD.threads hn
    (natMat (oneTransform C D.hAo)) (natTen (twoTransform C D.gAo)) D.st θ D.st.types.length i
    (stackBlocks D.nS (diffs.map fun d => X (storeIn ints d)))
    (fun r => (show Mat ℝ from D.env.state (θ.set i (storeIn ints (diffs.getD (r / D.nS) 0)))) (r % D.nS))
    fun r hr => by
      have hj : r / D.nS < diffs.length := Nat.div_lt_of_lt_mul (by rw [Nat.mul_comm]; exact hr)
      have := row (r / D.nS) hj (r % D.nS) (Nat.mod_lt _ hD.some)
      rw [Nat.mul_comm, Nat.div_add_mod] at this
      rw [this, ← hl]
      have e : diffs.getD (r / D.nS) 0 = diffs[r / D.nS] := by simp [List.getD_eq_getElem?_getD, List.getElem?_eq_getElem hj]
      rw [e]
      exact x2 _ _ (Nat.mod_lt _ hD.some)
  unfold SaData.rotoEnergies
  rw [v1, ok_bind, mapM_ok (g := fun d => X (storeIn ints d)) fun d _ => x1 (storeIn ints d), ok_bind, k1, ok_bind]
  show Except.ok (_, _) = Except.ok (_, _)
  refine congrArg Except.ok (Prod.ext ?_ rfl)
  show (sumStates _ _ _ _).2 = _
  rw [sumStates_eq hD.some]
  refine List.ext_getElem (by simp) fun j j1 j2 => ?_
  have hj : j < diffs.length := by simpa using j1
  simp only [List.getElem_map, List.getElem_range]
  unfold SaData.energyOf
  rw [mul_div_cancel₀ _ (Nat.cast_ne_zero.2 hD.some.ne')]
  refine Finset.sum_congr rfl fun a ha => ?_
  have ha := Finset.mem_range.1 ha
  have hr : j * D.nS + a < diffs.length * D.nS := by
    calc j * D.nS + a < j * D.nS + D.nS := by omega
      _ = (j + 1) * D.nS := by ring
      _ ≤ _ := Nat.mul_le_mul_right _ hj
  obtain ⟨q1, q2⟩ := k2 _ hr
  have e1 : (j * D.nS + a) / D.nS = j := by
    rw [Nat.mul_comm, Nat.mul_add_div hD.some, Nat.div_eq_of_lt ha, Nat.add_zero]
  have e2 : (j * D.nS + a) % D.nS = a := by
    rw [Nat.mul_comm, Nat.mul_add_mod, Nat.mod_eq_of_lt ha]
  have e3 : diffs.getD j 0 = diffs[j] := by simp [List.getD_eq_getElem?_getD, List.getElem?_eq_getElem hj]
  simp only [e1, e2, e3] at q1 q2
  refine (dot_swap _ _ _).trans ?_
  rw [q1]
  exact sa_row_energy hD C q2

/-- C143: for the state-averaged class, with the parameters given as floats, the evaluator does not raise, and its value for
each shift is the energy averaged over the states, times their number, with the shift in place of the parameter. -/
theorem C143_sa_partial (hD : D.Ready Ts) (C : Matrix (Fin D.n) (Fin D.n) ℝ) {θ diffs : List ℝ} {i : ℕ}
    (hl : θ.length = D.st.types.length) (hi : i < θ.length) (hd : diffs ≠ []) :
    ∃ E c, D.rotoEnergies (oneTransform C D.hAo) (twoTransform C D.gAo) false θ diffs i = .ok (E, c) ∧
      E.length = diffs.length ∧ ∀ (j : ℕ) (d : ℝ), diffs[j]? = some d →
        ∃ ψ : ℕ → Fock ℝ, (∀ a < D.nS, ExpChain (Ts.zip ((θ.set i d).map effAngle)) (stateOf D.ci (D.csf a)) (ψ a)) ∧
          E[j]? = some (D.nS * D.energyOf C ψ) := by
  refine ⟨_, _, sa_roto hD C false hl hi hd, by simp, fun j d hj => ?_⟩
  refine ⟨_, fun a ha => sa_chain hD (θ.set i d) a ha, ?_⟩
  rw [List.getElem?_map, hj]
  rfl

/-- C143: the evaluator of the state-averaged class counts one evaluation per state, however many shifts it is asked for;
for three shifts, as RotoSolve has for `R = 1`, the energy was computed for three times as many. -/
theorem C143_sa_count_disagree (hD : D.Ready Ts) (C : Matrix (Fin D.n) (Fin D.n) ℝ) {θ : List ℝ} {i : ℕ}
    (hl : θ.length = D.st.types.length) (hi : i < θ.length) :
    ∃ E c, D.rotoEnergies (oneTransform C D.hAo) (twoTransform C D.gAo) false θ ((List.range 3).map (xMu 1)) i = .ok (E, c) ∧
      c = D.nS ∧ c ≠ E.length * D.nS := by
  refine ⟨_, _, sa_roto hD C false hl hi (by simp [List.range_succ]), rfl, ?_⟩
  have := hD.some
  simp only [List.length_map, List.length_range]
  omega

end

/-- The first parameter of a QNP wave function averaged over two states. -/
example {eig : EigLib} (he : EigOK eig) : ∃ (D : SaData) (Ts : List (FOp ℝ)) (θ : List ℝ), D.Ready Ts ∧ D.nS = 2 ∧
    θ.length = D.st.types.length ∧ 0 < θ.length := by
  obtain ⟨csf, ci, w, Ts, -, h1, h2⟩ := sa_ready_case (fun _ _ => 0) he
  exact ⟨_, Ts, List.replicate w.layout.types.length 1, h2, rfl, List.length_replicate, by rw [List.length_replicate]; exact h1⟩

/-! ## RotoSolve with the evaluator -/

theorem reconstructed_scale (c : ℝ) (evals : List ℝ) (R : ℕ) (t : ℝ) :
    reconstructedF (evals.map (c * ·)) R t = c * reconstructedF evals R t := by
  unfold reconstructedF
  rw [← List.sum_map_mul_left, List.zipIdx_map, List.map_map]
  congr 1
  refine List.map_congr_left fun x _ => ?_
  simp only [Function.comp_apply, Prod.map, id]
  ring

theorem roto_scale {s : Roto} {len : ℕ} {g : List ℝ → List ℝ → ℕ → List ℝ} {c : ℝ} (hs : s.fOpt = some g)
    (hg : ∀ x i diffs, x.length = len → i < len → diffs ≠ [] → g x diffs i = diffs.map fun d => c * s.f (x.set i d))
    (hn : s.names.length ≤ len) (fuel : ℕ) {x0 : List ℝ} (hx : x0.length = len) :
    s.minimize fuel x0 =
      Roto.minimize { s with fOpt := none, minimizer := fun evals R => s.minimizer (evals.map (c * ·)) R } fuel x0 := by
  set s' : Roto := { s with fOpt := none, minimizer := fun evals R => s.minimizer (evals.map (c * ·)) R } with hs'
  have upd : ∀ x i name R, s.R.lookup name = some R → s'.update fuel x i name =
      (getEnergyEvals s.f x i R >>= fun evals => wrapAngle fuel (s.minimizer (evals.map (c * ·)) R) >>= fun y =>
        if i < x.length then .ok (x.set i y) else .error .indexError) := by
    intro x i name R hR
    unfold Roto.update
    rw [show s'.R = s.R from rfl, hR]
    rfl
  have up : ∀ x i name, x.length = len → i < len → s.update fuel x i name = s'.update fuel x i name := by
    intro x i name h1 h2
    cases hR : s.R.lookup name with
    | none =>
      unfold Roto.update
      rw [show s'.R = s.R from rfl, hR]
      rfl
    | some R =>
      have e : getEnergyEvalsOptimized g x i R = ((List.range (2 * R + 1)).map fun j => s.f (x.set i (xMu R j))).map (c * ·) := by
        unfold getEnergyEvalsOptimized
        rw [hg x i _ h1 h2 (by simp), List.map_map, List.map_map]
        rfl
      rw [upd x i name R hR]
      unfold getEnergyEvals
      rw [if_pos (by omega), ok_bind, ← e]
      unfold Roto.update
      rw [hs, hR]
      rfl
  have len_up : ∀ x i name x', x.length = len → s'.update fuel x i name = .ok x' → x'.length = len := by
    intro x i name x' h1 h
    cases hR : s.R.lookup name with
    | none =>
      unfold Roto.update at h
      rw [show s'.R = s.R from rfl, hR] at h
      cases h
    | some R =>
      rw [upd x i name R hR] at h
      obtain ⟨ev, -, h⟩ := Res.of_bind h
      obtain ⟨y, -, h⟩ := Res.of_bind h
      split_ifs at h
      cases h
      simpa using h1
  have sw : ∀ (l : List (String × ℕ)), (∀ ni ∈ l, ni.2 < len) → ∀ x, x.length = len →
      l.foldlM (fun x ni => s.update fuel x ni.2 ni.1) x = l.foldlM (fun x ni => s'.update fuel x ni.2 ni.1) x ∧
      ∀ x', l.foldlM (fun x ni => s'.update fuel x ni.2 ni.1) x = .ok x' → x'.length = len := by
    intro l
    induction l with
    | nil => intro _ x h; exact ⟨rfl, fun x' h' => by cases h'; exact h⟩
    | cons ni l ih =>
      intro hl x h
      rw [List.foldlM_cons, List.foldlM_cons, up x _ _ h (hl ni List.mem_cons_self)]
      cases hu : s'.update fuel x ni.2 ni.1 with
      | error e => exact ⟨rfl, fun x' h' => by cases h'⟩
      | ok x1 =>
        rw [ok_bind, ok_bind]
        exact ih (fun q hq => hl q (List.mem_cons_of_mem _ hq)) x1 (len_up x _ _ x1 h hu)
  have hz : ∀ ni ∈ s.names.zipIdx, ni.2 < len := fun ni h => by
    have := (List.mem_zipIdx (x := ni.1) (i := ni.2) h).2.1
    omega
  have lp : ∀ (n : ℕ) (x : List ℝ) (fb : ℝ) (xb : List ℝ) (fails : ℕ), x.length = len →
      s.loop fuel n x fb xb fails = s'.loop fuel n x fb xb fails := by
    intro n
    induction n with
    | zero => intro x fb xb fails _; rfl
    | succ n ih =>
      intro x fb xb fails h
      obtain ⟨a, b⟩ := sw s.names.zipIdx hz x h
      unfold Roto.loop
      have a' : s.sweep fuel x = s'.sweep fuel x := a
      rw [a']
      cases hu : s'.sweep fuel x with
      | error e => rfl
      | ok x1 =>
        have h1 : x1.length = len := b x1 hu
        rw [ok_bind, ok_bind]
        simp only [ih x1 _ _ _ h1]
        rfl
  exact lp _ _ _ _ _ hx

theorem findsMinimum_scale {m : List ℝ → ℕ → ℝ} (hm : FindsMinimum m) {c : ℝ} (hc : 0 < c) :
    FindsMinimum fun evals R => m (evals.map (c * ·)) R := by
  intro evals R h
  obtain ⟨h1, h2⟩ := hm (evals.map (c * ·)) R (by simpa using h)
  refine ⟨h1, fun t ht => ?_⟩
  have := h2 t ht
  rw [reconstructed_scale, reconstructed_scale] at this
  exact le_of_mul_le_mul_left this hc

/-- C143: RotoSolve started by the single-state class gives with the evaluator exactly what it gives without it. -/
theorem C143_ups_roto_partial {D : UpsData} {Ts : List (FOp ℝ)} (hD : D.Ready Ts) (ht : ∀ x, D.tiny x = true ↔ x = 0)
    (hb : ∀ x, D.big x = false ↔ x = 0) (h : Matrix (Fin D.n) (Fin D.n) ℝ) (g : Tensor4 (Fin D.n)) (s : Roto)
    (hn : s.names.length = D.st.types.length) (fuel : ℕ) {θ : List ℝ} (hl : θ.length = D.st.types.length) :
    (D.roto h g s).minimize fuel θ =
      Roto.minimize { s with f := fun θ => D.env.energy (D.env.state θ) h g, fOpt := none } fuel θ := by
  have := roto_scale (s := D.roto h g s) (c := 1) (len := θ.length) rfl (fun x i diffs h1 h2 h3 => by
    rw [ups_roto hD ht hb h g false (h1.trans hl) (by omega) h3]
    show diffs.map _ = _
    simp only [one_mul]
    rfl) (by show s.names.length ≤ _; omega) fuel rfl
  rw [this]
  simp only [one_mul, List.map_id']
  rfl

/-- C143: RotoSolve started by the state-averaged class with the evaluator behaves as one without it whose minimization along
a parameter is done on the averaged energy times the number of states; so if that finds the lowest points and the averaged
energy is in each parameter a trigonometric polynomial of the degree in `R`, the averaged energy never rises from sweep to
sweep and the value returned is the smallest seen. -/
theorem C143_sa_roto_partial {D : SaData} {Ts : List (FOp ℝ)} (hD : D.Ready Ts) (C : Matrix (Fin D.n) (Fin D.n) ℝ) (s : Roto)
    (hn : s.names.length = D.st.types.length) (fuel : ℕ) {θ : List ℝ} (hl : θ.length = D.st.types.length) :
    let r := D.roto (oneTransform C D.hAo) (twoTransform C D.gAo) s
    r.minimize fuel θ =
        Roto.minimize { r with fOpt := none, minimizer := fun evals R => s.minimizer (evals.map (D.nS * ·)) R } fuel θ ∧
      (FindsMinimum s.minimizer → r.Trig θ.length → ∀ res, r.minimize fuel θ = .ok res →
        List.Pairwise (fun y z => r.f z ≤ r.f y) (θ :: res.calls) ∧ ∀ y ∈ res.calls, res.fn ≤ r.f y) := by
  intro r
  have key : r.minimize fuel θ =
      Roto.minimize { r with fOpt := none, minimizer := fun evals R => s.minimizer (evals.map (D.nS * ·)) R } fuel θ :=
    roto_scale (s := r) (c := D.nS) (len := θ.length) rfl (fun x i diffs h1 h2 h3 => by
      rw [sa_roto hD C false (h1.trans hl) (by omega) h3]
      refine List.map_congr_left fun d _ => ?_
      exact congrArg ((D.nS : ℝ) * ·) ((sa_energy D (x.set i d) C).symm.trans ((C128_physical hD).energy (x.set i d) _ _).symm)) (by show s.names.length ≤ _; omega) fuel rfl
  refine ⟨key, fun hm ht res hres => ?_⟩
  rw [key] at hres
  exact C42_descent (s := { r with fOpt := none, minimizer := fun evals R => s.minimizer (evals.map (D.nS * ·)) R })
    (findsMinimum_scale hm (Nat.cast_pos.2 hD.some)) rfl ht hres

end SQ
