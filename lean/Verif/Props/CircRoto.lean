import Verif.Model.CircRoto
import Verif.Props.CircBuilt
import Verif.Props.SaCircRoto
import Mathlib.Analysis.Calculus.LocalExtr.Basic

/-! # C145: RotoSolve as the circuit wave functions run it -/

namespace SQ

section generic

variable {s : Roto} {fuel : ℕ} {x0 : List ℝ} {res : RotoResult}

theorem Roto.update_length (ho : s.fOpt = none) {x x' : List ℝ} {i : ℕ} {name : String}
    (h : s.update fuel x i name = .ok x') : x'.length = x.length := by
  unfold Roto.update at h
  cases hR : s.R.lookup name with
  | none => rw [hR] at h; cases h
  | some R =>
    rw [hR, ho] at h
    simp only [bind, Except.bind] at h
    unfold getEnergyEvals at h
    by_cases hi : i < x.length
    · simp only [if_pos hi] at h
      split at h
      · cases h
      · cases h; simp
    · simp only [if_neg hi] at h
      cases h

theorem Roto.update_set (ho : s.fOpt = none) {x x' : List ℝ} {i : ℕ} {name : String}
    (h : s.update fuel x i name = .ok x') : ∃ y, x' = x.set i y := by
  unfold Roto.update at h
  cases hR : s.R.lookup name with
  | none => rw [hR] at h; cases h
  | some R =>
    rw [hR, ho] at h
    simp only [bind, Except.bind] at h
    unfold getEnergyEvals at h
    by_cases hi : i < x.length
    · simp only [if_pos hi] at h
      split at h
      · cases h
      · cases h; exact ⟨_, rfl⟩
    · simp only [if_neg hi] at h
      cases h

/-- If a sweep ends where it began, each of its steps did. -/
theorem Roto.fixed_steps (ho : s.fOpt = none) {x : List ℝ} (h : s.sweep fuel x = .ok x) :
    ∀ (i : ℕ) (name : String), s.names[i]? = some name → s.update fuel x i name = .ok x := by
  have keep : ∀ (l : List (String × ℕ)) (x x' : List ℝ), l.foldlM (fun x ni => s.update fuel x ni.2 ni.1) x = .ok x' →
      ∀ i, i ∉ l.map Prod.snd → x'[i]? = x[i]? := by
    intro l
    induction l with
    | nil => intro x x' h i _; cases h; rfl
    | cons ni l ih =>
      intro x x' h i hi
      rw [List.map_cons, List.mem_cons, not_or] at hi
      rw [List.foldlM_cons] at h
      cases hu : s.update fuel x ni.2 ni.1 with
      | error e => rw [hu] at h; cases h
      | ok x1 =>
        rw [hu] at h
        obtain ⟨y, rfl⟩ := Roto.update_set ho hu
        rw [ih _ _ h i hi.2, List.getElem?_set_ne (Ne.symm hi.1)]
  have gen : ∀ (l : List (String × ℕ)), (l.map Prod.snd).Nodup →
      l.foldlM (fun x ni => s.update fuel x ni.2 ni.1) x = .ok x → ∀ ni ∈ l, s.update fuel x ni.2 ni.1 = .ok x := by
    intro l
    induction l with
    | nil => simp
    | cons ni l ih =>
      intro hd h
      rw [List.map_cons, List.nodup_cons] at hd
      rw [List.foldlM_cons] at h
      cases hu : s.update fuel x ni.2 ni.1 with
      | error e => rw [hu] at h; cases h
      | ok x1 =>
        rw [hu] at h
        have h : l.foldlM (fun x ni => s.update fuel x ni.2 ni.1) x1 = .ok x := h
        have e : x1 = x := by
          have a := keep l x1 x h ni.2 hd.1
          obtain ⟨y, rfl⟩ := Roto.update_set ho hu
          refine List.ext_getElem? fun j => ?_
          by_cases hj : j = ni.2
          · rw [hj, a]
          · rw [List.getElem?_set_ne (Ne.symm hj)]
        rw [e] at h hu
        intro q hq
        rcases List.mem_cons.1 hq with rfl | hq
        · exact hu
        · exact ih hd.2 h q hq
  intro i name hn
  refine gen s.names.zipIdx ?_ h (name, i) ?_
  · rw [List.zipIdx_map_snd]
    exact List.nodup_range' ..
  · exact List.mk_mem_zipIdx_iff_getElem?.2 hn

theorem Roto.sweep_length (ho : s.fOpt = none) {x x' : List ℝ} (h : s.sweep fuel x = .ok x') : x'.length = x.length := by
  have gen : ∀ (l : List (String × ℕ)) (x : List ℝ), l.foldlM (fun x ni => s.update fuel x ni.2 ni.1) x = .ok x' →
      x'.length = x.length := by
    intro l
    induction l with
    | nil => intro x h; cases h; rfl
    | cons ni l ih =>
      intro x h
      rw [List.foldlM_cons] at h
      cases hu : s.update fuel x ni.2 ni.1 with
      | error e => rw [hu] at h; cases h
      | ok x1 =>
        rw [hu] at h
        exact (ih x1 h).trans (Roto.update_length ho hu)
  exact gen _ x h

theorem Roto.calls_length (ho : s.fOpt = none) (h : s.minimize fuel x0 = .ok res) : ∀ y ∈ res.calls, y.length = x0.length := by
  have gen : ∀ (n : ℕ) (x : List ℝ) (fb : ℝ) (xb : List ℝ) (fails : ℕ) (res : RotoResult), x.length = x0.length →
      s.loop fuel n x fb xb fails = .ok res → ∀ y ∈ res.calls, y.length = x0.length := by
    intro n
    induction n with
    | zero =>
      intro x fb xb fails res _ h
      cases h
      simp
    | succ n ih =>
      intro x fb xb fails res hx h
      unfold Roto.loop at h
      cases hs : s.sweep fuel x with
      | error e => rw [hs] at h; cases h
      | ok x1 =>
        rw [hs] at h
        have a := (Roto.sweep_length ho hs).trans hx
        simp only [bind, Except.bind, pure, Except.pure] at h
        split_ifs at h with h1 h2 h3 h4
        · cases h; simpa using a
        · cases h; simpa using a
        · cases hl : s.loop fuel n x1 fb xb (fails + 1) with
          | error e => rw [hl] at h; cases h
          | ok r =>
            rw [hl] at h
            cases h
            simpa [a] using ih _ _ _ _ _ a hl
        · cases h; simpa using a
        · cases hl : s.loop fuel n x1 (s.f x1) x1 fails with
          | error e => rw [hl] at h; cases h
          | ok r =>
            rw [hl] at h
            cases h
            simpa [a] using ih _ _ _ _ _ a hl
  exact gen _ _ _ _ _ _ rfl h

theorem Roto.calls_ne (hk : 0 < s.maxiter) (h : s.minimize fuel x0 = .ok res) : ∃ y, y ∈ res.calls := by
  unfold Roto.minimize at h
  obtain ⟨n, hn⟩ := Nat.exists_eq_succ_of_ne_zero hk.ne'
  rw [hn] at h
  unfold Roto.loop at h
  cases hs : s.sweep fuel x0 with
  | error e => rw [hs] at h; cases h
  | ok x1 =>
    rw [hs] at h
    simp only [bind, Except.bind, pure, Except.pure] at h
    refine ⟨x1, ?_⟩
    split_ifs at h
    all_goals first
      | (cases h; exact List.mem_cons_self)
      | (split at h
         · cases h
         · cases h; exact List.mem_cons_self)

theorem Roto.returns (ho : s.fOpt = none) (hm : FindsMinimum s.minimizer) (hn : s.names.length = x0.length)
    (hR : ∀ name ∈ s.names, ∃ R, s.R.lookup name = some R) (k : ℕ) : ∃ res, s.minimize (k + 2) x0 = .ok res := by
  have up : ∀ (x : List ℝ) (i : ℕ) (name : String), i < x.length → name ∈ s.names →
      ∃ x', s.update (k + 2) x i name = .ok x' := by
    intro x i name hi hname
    obtain ⟨R, hR⟩ := hR name hname
    unfold Roto.update getEnergyEvals
    rw [hR, ho]
    simp only [if_pos hi, bind, Except.bind]
    obtain ⟨y, hy⟩ := wrapAngle_near k (hm ((List.range (2 * R + 1)).map fun j => s.f (x.set i (xMu R j))) R (by simp)).1
    rw [hy]
    exact ⟨_, rfl⟩
  have sw : ∀ (l : List (String × ℕ)), (∀ ni ∈ l, ni.2 < x0.length ∧ ni.1 ∈ s.names) → ∀ x, x.length = x0.length →
      ∃ x', l.foldlM (fun x ni => s.update (k + 2) x ni.2 ni.1) x = .ok x' := by
    intro l
    induction l with
    | nil => intro _ x _; exact ⟨x, rfl⟩
    | cons ni l ih =>
      intro hl x hx
      obtain ⟨a, b⟩ := hl ni List.mem_cons_self
      obtain ⟨x1, h1⟩ := up x ni.2 ni.1 (hx ▸ a) b
      obtain ⟨x2, h2⟩ := ih (fun q hq => hl q (List.mem_cons_of_mem _ hq)) x1 ((Roto.update_length ho h1).trans hx)
      exact ⟨x2, by rw [List.foldlM_cons, h1]; exact h2⟩
  have hz : ∀ ni ∈ s.names.zipIdx, ni.2 < x0.length ∧ ni.1 ∈ s.names := fun ni h => by
    obtain ⟨-, h2, h3⟩ := List.mem_zipIdx (x := ni.1) (i := ni.2) h
    exact ⟨by omega, h3 ▸ List.getElem_mem _⟩
  have lp : ∀ (n : ℕ) (x : List ℝ) (fb : ℝ) (xb : List ℝ) (fails : ℕ), x.length = x0.length →
      ∃ res, s.loop (k + 2) n x fb xb fails = .ok res := by
    intro n
    induction n with
    | zero => intro x fb xb fails _; exact ⟨_, rfl⟩
    | succ n ih =>
      intro x fb xb fails hx
      obtain ⟨x1, h1⟩ := sw s.names.zipIdx hz x hx
      have h1 : s.sweep (k + 2) x = .ok x1 := h1
      have hx1 := (Roto.sweep_length ho h1).trans hx
      unfold Roto.loop
      rw [h1]
      simp only [bind, Except.bind, pure, Except.pure]
      obtain ⟨r1, e1⟩ := ih x1 fb xb (fails + 1) hx1
      obtain ⟨r2, e2⟩ := ih x1 (s.f x1) x1 fails hx1
      rw [e1, e2]
      split_ifs <;> exact ⟨_, rfl⟩
  exact lp _ _ _ _ _ rfl

end generic

theorem StatesRoto.update_set {s : StatesRoto} {fuel : ℕ} {x x' : List ℝ} {i : ℕ} {name : String}
    (h : s.update fuel x i name = .ok x') : ∃ y, x' = x.set i y := by
  obtain ⟨hi, -⟩ := StatesRoto.update_length h
  unfold StatesRoto.update getStateEvals at h
  cases hR : s.R.lookup name with
  | none => rw [hR] at h; cases h
  | some R =>
    rw [hR] at h
    simp only [if_pos hi, bind, Except.bind] at h
    split at h
    · cases h
    · cases h; exact ⟨_, rfl⟩

/-- If a sweep over several states ends where it began, each of its steps did. -/
theorem StatesRoto.fixed_steps {s : StatesRoto} {fuel : ℕ} {x : List ℝ} (h : s.sweep fuel x = .ok x) :
    ∀ (i : ℕ) (name : String), s.names[i]? = some name → s.update fuel x i name = .ok x := by
  have keep : ∀ (l : List (String × ℕ)) (x x' : List ℝ), l.foldlM (fun x ni => s.update fuel x ni.2 ni.1) x = .ok x' →
      ∀ i, i ∉ l.map Prod.snd → x'[i]? = x[i]? := by
    intro l
    induction l with
    | nil => intro x x' h i _; cases h; rfl
    | cons ni l ih =>
      intro x x' h i hi
      rw [List.map_cons, List.mem_cons, not_or] at hi
      rw [List.foldlM_cons] at h
      cases hu : s.update fuel x ni.2 ni.1 with
      | error e => rw [hu] at h; cases h
      | ok x1 =>
        rw [hu] at h
        obtain ⟨y, rfl⟩ := StatesRoto.update_set hu
        rw [ih _ _ h i hi.2, List.getElem?_set_ne (Ne.symm hi.1)]
  have gen : ∀ (l : List (String × ℕ)), (l.map Prod.snd).Nodup →
      l.foldlM (fun x ni => s.update fuel x ni.2 ni.1) x = .ok x → ∀ ni ∈ l, s.update fuel x ni.2 ni.1 = .ok x := by
    intro l
    induction l with
    | nil => simp
    | cons ni l ih =>
      intro hd h
      rw [List.map_cons, List.nodup_cons] at hd
      rw [List.foldlM_cons] at h
      cases hu : s.update fuel x ni.2 ni.1 with
      | error e => rw [hu] at h; cases h
      | ok x1 =>
        rw [hu] at h
        have h : l.foldlM (fun x ni => s.update fuel x ni.2 ni.1) x1 = .ok x := h
        have e : x1 = x := by
          have a := keep l x1 x h ni.2 hd.1
          obtain ⟨y, rfl⟩ := StatesRoto.update_set hu
          refine List.ext_getElem? fun j => ?_
          by_cases hj : j = ni.2
          · rw [hj, a]
          · rw [List.getElem?_set_ne (Ne.symm hj)]
        rw [e] at h hu
        intro q hq
        rcases List.mem_cons.1 hq with rfl | hq
        · exact hu
        · exact ih hd.2 h q hq
  intro i name hn
  refine gen s.names.zipIdx ?_ h (name, i) ?_
  · rw [List.zipIdx_map_snd]
    exact List.nodup_range' ..
  · exact List.mk_mem_zipIdx_iff_getElem?.2 hn

variable {D : CircData} {ansatz : List ℝ → List (PGate (2 * D.norb))} {d : List Char} {st : AnsatzStruct} {Ts : List (FOp ℝ)}

theorem circ_theta (hD : D.Ready ansatz d st Ts) (hU : D.InUse ansatz) {dev : Device (List (Gate (2 * D.norb)))}
    (hI : Ideal dev ansatz) (h : Matrix (Fin D.n) (Fin D.n) ℝ) (g : Tensor4 (Fin D.n)) :
    ∃ (c : List ℝ → Vec ℝ) (A : Dict ℝ),
      (∀ θ, θ.length = D.names.length → ExpChain (Ts.zip θ) (ket (detSet d)) (stateOf D.ci (c θ))) ∧
      ∀ θ, θ.length = D.names.length → D.runTheta dev θ h g = .ok (expv (stateOf D.ci (c θ)) (sumOp A)) := by
  obtain ⟨c, hc⟩ := circ_family hD hU
  obtain ⟨H, h1, h2, h3⟩ := ham0_gen hD.tiny hD.big (natMat h) (natTen g) D.ci
  obtain ⟨f1, f2⟩ := getFolded_inv h2.1 h2.2
  refine ⟨c, getFolded D.ci.nI D.ci.nA D.ci.nV H, fun θ hl => (hc θ hl).1, fun θ hl => ?_⟩
  unfold CircData.runTheta
  rw [h1, ok_bind]
  exact (hc θ hl).2.2.1 dev hI _ f1 fun kv hk o ho => (f2 kv hk).1 o ho

theorem circ_roto_trig (hD : D.Ready ansatz d st Ts) (hU : D.InUse ansatz) {dev : Device (List (Gate (2 * D.norb)))}
    (hI : Ideal dev ansatz) (h : Matrix (Fin D.n) (Fin D.n) ℝ) (g : Tensor4 (Fin D.n)) (m : List ℝ → ℕ → ℝ) (k : ℕ) (t : ℝ) :
    (D.roto dev h g m k t).Trig D.names.length := by
  obtain ⟨c, A, hc, ha⟩ := circ_theta hD hU hI h g
  have hf : ∀ θ : List ℝ, θ.length = D.names.length →
      (D.roto dev h g m k t).f θ = expv (stateOf D.ci (c θ)) (sumOp A) := fun θ hl => by
    show okOr 0 (D.runTheta dev θ h g) = _
    rw [ha θ hl]
    rfl
  intro i name hn R hR x hx
  have hn : D.names[i]? = some name := hn
  have hR : D.R.lookup name = some R := hR
  obtain ⟨l1, g1, g2⟩ := hD.circuits.gens
  have hty : i < st.types.length := by
    rw [← hD.count]
    exact (List.getElem?_eq_some_iff.1 hn).1
  obtain ⟨s, s1, s2⟩ := hD.shifts i _ (List.getElem?_eq_getElem hty)
  obtain ⟨r, T, hr, hT, hg⟩ := g2 i _ (List.getElem?_eq_getElem hty)
  have e : R = 2 * r := by
    rw [hn] at s1
    cases s1
    rw [hR, hr] at s2
    exact Option.some.inj s2
  obtain ⟨Y, hY, hch⟩ := chain_trig hg (Ts := Ts) (θs := x) (k := i) (by rw [hx, hD.count, l1]) g1 hT (ket (detSet d) : Fock ℝ)
  rw [e]
  refine (hY.bilin (innerForm (sumOp A))).congr fun u => ?_
  rw [hf _ (by simpa using hx), expChain_unique (hc (x.set i u) (by simpa using hx)) (hch u)]
  rfl

/-- C145: the objective exists for all parameters and is the energy of the object. -/
theorem C145_objective (hD : D.Ready ansatz d st Ts) (hU : D.InUse ansatz) {dev : Device (List (Gate (2 * D.norb)))}
    (hI : Ideal dev ansatz) (h : Matrix (Fin D.n) (Fin D.n) ℝ) (g : Tensor4 (Fin D.n)) {θ : List ℝ}
    (hl : θ.length = D.names.length) :
    ∃ e, D.runTheta dev θ h g = .ok e ∧ D.runEnergy dev θ h g = .ok e := by
  have : D.runTheta dev θ h g = D.runEnergy dev θ h g := rfl
  rw [this]
  exact ⟨_, ((C130_total hD hU hI hl).2 h g).1, ((C130_total hD hU hI hl).2 h g).1⟩

/-- C145: each step of RotoSolve on a circuit wave function, with an ideal device, ends in a global minimum of the energy along
its parameter: no value of the parameter gives a lower energy. -/
theorem C145_line (hD : D.Ready ansatz d st Ts) (hU : D.InUse ansatz) {dev : Device (List (Gate (2 * D.norb)))}
    (hI : Ideal dev ansatz) (h : Matrix (Fin D.n) (Fin D.n) ℝ) (g : Tensor4 (Fin D.n)) {m : List ℝ → ℕ → ℝ}
    (hm : FindsMinimum m) {maxiter fuel i : ℕ} {threshold : ℝ} {name : String} {θ θ' : List ℝ} (hl : θ.length = D.names.length)
    (hn : D.names[i]? = some name) (hu : (D.roto dev h g m maxiter threshold).update fuel θ i name = .ok θ') (t : ℝ) :
    ∃ e e', D.runEnergy dev θ' h g = .ok e ∧ D.runEnergy dev (θ.set i t) h g = .ok e' ∧ e ≤ e' := by
  obtain ⟨a, b⟩ := update_lowest hm rfl (circ_roto_trig hD hU hI h g m maxiter threshold) hl hn hu
  obtain ⟨e, e1, e2⟩ := C145_objective hD hU hI h g a
  obtain ⟨e', e3, e4⟩ := C145_objective hD hU hI h g (θ := θ.set i t) (by simpa using hl)
  refine ⟨e, e', e2, e4, ?_⟩
  have := b t
  simp only [CircData.roto, e1, e3, okOr] at this
  exact this

/-- C145: the same for a state-averaged circuit wave function and its averaged energy. -/
theorem C145_sa_line {D : SaCircData} {ansatz : List ℝ → List (PGate (2 * D.norb))} (hD : D.Ready ansatz st Ts)
    (hU : D.InUse ansatz) {dev : Device (List (Gate (2 * D.norb)))} (hI : Ideal dev ansatz)
    (h : Matrix (Fin D.n) (Fin D.n) ℝ) (g : Tensor4 (Fin D.n)) {m : List (List ℝ) → ℕ → ℝ}
    (hm : FindsLowest m) {maxiter fuel i : ℕ} {threshold : ℝ} {name : String} {θ θ' : List ℝ} (hl : θ.length = D.names.length)
    (hn : D.names[i]? = some name) (hu : (D.statesRoto dev h g m maxiter threshold).update fuel θ i name = .ok θ') (t : ℝ) :
    ∃ e e', D.runEnergy dev θ' h g = .ok e ∧ D.runEnergy dev (θ.set i t) h g = .ok e' ∧ e ≤ e' := by
  have b := states_update_lowest hm (sacirc_states_trig hD hU hI h g m maxiter threshold) hl hn hu t
  obtain ⟨es, e1, -, -, e2⟩ := C144_objective hD hU hI h g (θ := θ') ((StatesRoto.update_length hu).2.trans hl)
  obtain ⟨es', e3, -, -, e4⟩ := C144_objective hD hU hI h g (θ := θ.set i t) (by simpa using hl)
  refine ⟨_, _, e2, e4, ?_⟩
  simp only [SaCircData.statesRoto, e1, e3, okOr] at b
  exact b

/-- C145: run by a circuit wave function on an ideal device, RotoSolve returns; the energy never rises from one sweep to the
next; what it returns is, after at least one sweep, the point at the end of a sweep with its energy, and no energy at the start
or at the end of a sweep is lower. -/
theorem C145_circuit (hD : D.Ready ansatz d st Ts) (hU : D.InUse ansatz) {dev : Device (List (Gate (2 * D.norb)))}
    (hI : Ideal dev ansatz) (h : Matrix (Fin D.n) (Fin D.n) ℝ) (g : Tensor4 (Fin D.n)) {m : List ℝ → ℕ → ℝ}
    (hm : FindsMinimum m) {maxiter : ℕ} (hk : 0 < maxiter) (threshold : ℝ) (fuel : ℕ) {θ : List ℝ}
    (hl : θ.length = D.names.length) {e0 : ℝ} (h0 : D.runEnergy dev θ h g = .ok e0) (hb : e0 < 10 ^ 20) :
    ∃ res, (D.roto dev h g m maxiter threshold).minimize (fuel + 2) θ = .ok res ∧
      List.Pairwise (fun y z => ∃ e e', D.runEnergy dev y h g = .ok e ∧ D.runEnergy dev z h g = .ok e' ∧ e' ≤ e)
        (θ :: res.calls) ∧
      res.x ∈ res.calls ∧ D.runEnergy dev res.x h g = .ok res.fn ∧
      ∀ y ∈ θ :: res.calls, ∃ e, D.runEnergy dev y h g = .ok e ∧ res.fn ≤ e := by
  set s := D.roto dev h g m maxiter threshold with hs
  have known : ∀ name ∈ D.names, ∃ R, D.R.lookup name = some R := fun name hname => by
    obtain ⟨i, hi, rfl⟩ := List.getElem_of_mem hname
    have hty : i < st.types.length := hD.count ▸ hi
    obtain ⟨s, s1, s2⟩ := hD.shifts i _ (List.getElem?_eq_getElem hty)
    obtain ⟨r, T, hr, -⟩ := hD.circuits.gens.2.2 i _ (List.getElem?_eq_getElem hty)
    rw [List.getElem?_eq_getElem hi] at s1
    cases s1
    exact ⟨_, s2.trans hr⟩
  obtain ⟨res, hr⟩ := Roto.returns (s := s) rfl hm hl.symm known fuel
  obtain ⟨p1, p2⟩ := C42_descent (s := s) hm rfl (hl.symm ▸ circ_roto_trig hD hU hI h g m maxiter threshold) hr
  have hlen : ∀ y ∈ θ :: res.calls, y.length = D.names.length := fun y hy => by
    rcases List.mem_cons.1 hy with rfl | hy
    · exact hl
    · exact (Roto.calls_length (s := s) rfl hr y hy).trans hl
  have val : ∀ y ∈ θ :: res.calls, D.runEnergy dev y h g = .ok (s.f y) := fun y hy => by
    obtain ⟨e, e1, e2⟩ := C145_objective hD hU hI h g (hlen y hy)
    have : s.f y = e := by
      show okOr 0 (D.runTheta dev y h g) = e
      rw [e1]
      rfl
    rw [this, e2]
  have hθ : s.f θ = e0 := Except.ok.inj ((val θ List.mem_cons_self).symm.trans h0)
  have first := (List.pairwise_cons.1 p1).1
  obtain ⟨y0, hy0⟩ := Roto.calls_ne (s := s) hk hr
  obtain ⟨-, q, -⟩ := C42_best hr
  have q : res.x ∈ res.calls ∧ res.fn = s.f res.x := by
    rcases q with q | ⟨-, -, q⟩
    · exact q
    · exact absurd (q y0 hy0) (not_le.2 ((first y0 hy0).trans_lt (hθ ▸ hb)))
  refine ⟨res, hr, p1.imp_of_mem fun hy hz hle => ⟨_, _, val _ hy, val _ hz, hle⟩, q.1, ?_, fun y hy => ⟨_, val y hy, ?_⟩⟩
  · rw [q.2]
    exact val _ (List.mem_cons_of_mem _ q.1)
  · rcases List.mem_cons.1 hy with rfl | hy
    · exact (p2 y0 hy0).trans (first y0 hy0)
    · exact p2 y hy

/-- C145: a sweep that leaves the parameters as they are has found a stationary point: the gradient that the object gives to
the optimizers is zero there. -/
theorem C145_stationary (hD : D.Ready ansatz d st Ts) (hU : D.InUse ansatz) {dev : Device (List (Gate (2 * D.norb)))}
    (hI : Ideal dev ansatz) (h : Matrix (Fin D.n) (Fin D.n) ℝ) (g : Tensor4 (Fin D.n)) {m : List ℝ → ℕ → ℝ}
    (hm : FindsMinimum m) {maxiter fuel : ℕ} {threshold : ℝ} {θ : List ℝ} (hl : θ.length = D.names.length)
    (hs : (D.roto dev h g m maxiter threshold).sweep fuel θ = .ok θ) :
    D.runGrad dev θ h g = .ok (List.replicate θ.length 0) := by
  obtain ⟨c, hc⟩ := circ_family hD hU
  obtain ⟨G, g1, g2, g3⟩ := circ_grad hD (fun x hx => (hc x hx).1) hl (fun x hx => (hc x hx).2.2.2 dev θ hI hl) h g
  rw [g1]
  congr 1
  refine List.ext_getElem (by simp [g2]) fun j h1 h2 => ?_
  rw [List.getElem_replicate]
  have hj : j < θ.length := g2 ▸ h1
  have hd := g3 j _ _ (List.getElem?_eq_getElem hj) (List.getElem?_eq_getElem h1)
  have hn : D.names[j]? = some (D.names[j]'(hl ▸ hj)) := List.getElem?_eq_getElem _
  have hu := Roto.fixed_steps (s := D.roto dev h g m maxiter threshold) rfl hs j _ hn
  refine IsLocalMin.hasDerivAt_eq_zero (Filter.Eventually.of_forall fun t => ?_) hd
  obtain ⟨e, e', a, b, hle⟩ := C145_line hD hU hI h g hm hl hn hu t
  have v : ∀ x : List ℝ, x.length = D.names.length → _ := fun x hx => (circ_means hD ((hc x hx).2.2.1 dev hI)).energy h g
  rw [v θ hl] at a
  rw [v _ (by simpa using hl)] at b
  cases a
  cases b
  rw [List.set_getElem_self]
  exact hle

/-- C145: the same for a state-averaged circuit wave function. -/
theorem C145_sa_stationary {D : SaCircData} {ansatz : List ℝ → List (PGate (2 * D.norb))} (hD : D.Ready ansatz st Ts)
    (hU : D.InUse ansatz) {dev : Device (List (Gate (2 * D.norb)))} (hI : Ideal dev ansatz)
    (h : Matrix (Fin D.n) (Fin D.n) ℝ) (g : Tensor4 (Fin D.n)) {m : List (List ℝ) → ℕ → ℝ}
    (hm : FindsLowest m) {maxiter fuel : ℕ} {threshold : ℝ} {θ : List ℝ} (hl : θ.length = D.names.length)
    (hs : (D.statesRoto dev h g m maxiter threshold).sweep fuel θ = .ok θ) :
    D.runGrad dev θ h g = .ok (List.replicate θ.length 0) := by
  obtain ⟨c, hc⟩ := sacirc_family hD hU
  obtain ⟨G, g1, g2, g3⟩ := sacirc_grad hD (fun x hx => (hc x hx).1) hl (fun x hx => (hc x hx).2.2.2 dev θ hI hl) h g
  rw [g1]
  congr 1
  refine List.ext_getElem (by simp [g2]) fun j h1 h2 => ?_
  rw [List.getElem_replicate]
  have hj : j < θ.length := g2 ▸ h1
  have hd := g3 j _ _ (List.getElem?_eq_getElem hj) (List.getElem?_eq_getElem h1)
  have hn : D.names[j]? = some (D.names[j]'(hl ▸ hj)) := List.getElem?_eq_getElem _
  have hu := StatesRoto.fixed_steps (s := D.statesRoto dev h g m maxiter threshold) hs j _ hn
  refine IsLocalMin.hasDerivAt_eq_zero (Filter.Eventually.of_forall fun t => ?_) hd
  obtain ⟨e, e', a, b, hle⟩ := C145_sa_line hD hU hI h g hm hl hn hu t
  have v : ∀ x : List ℝ, x.length = D.names.length → _ := fun x hx => (sacirc_means hD ((hc x hx).2.2.1 dev hI)).energy h g
  rw [v θ hl] at a
  rw [v _ (by simpa using hl)] at b
  cases a
  cases b
  rw [List.set_getElem_self]
  exact hle

/-- A circuit wave function of four electrons in three orbitals with six parameters, an ideal device, an interface in use and a
minimization along one parameter: all the assumptions of the theorems hold, for an energy below `10 ^ 20`. -/
example (mo : ℕ → Fin 3 → ℝ) : ∃ (D : CircData) (ansatz : List ℝ → List (PGate (2 * D.norb))) (d : List Char)
    (st : AnsatzStruct) (Ts : List (FOp ℝ)) (m : List ℝ → ℕ → ℝ) (e0 : ℝ),
    D.Ready ansatz d st Ts ∧ D.InUse ansatz ∧ Ideal D.bench.dev ansatz ∧ D.names.length = 6 ∧ FindsMinimum m ∧
    D.runEnergy D.bench.dev (List.replicate 6 0) 0 0 = .ok e0 ∧ e0 < 10 ^ 20 := by
  obtain ⟨s, c, D, ansatz, d, Ts, -, n1, n2, hD, hU, hI⟩ := circ_ready_case mo
  obtain ⟨m, hm⟩ := findsMinimum_exists
  have hn : D.names.length = 6 := hD.count.trans n2
  obtain ⟨c, hc⟩ := circ_family hD hU
  have hl : (List.replicate 6 (0 : ℝ)).length = D.names.length := by simpa using hn.symm
  have he := (circ_means hD ((hc _ hl).2.2.1 _ hI)).energy 0 0
  refine ⟨D, ansatz, d, _, Ts, m, _, hD, hU, hI, hn, hm, he, ?_⟩
  have z : electronic (natMat (0 : Matrix (Fin D.n) (Fin D.n) ℝ)) (natTen (0 : Tensor4 (Fin D.n)))
      (D.ci.nI + D.ci.nA + D.ci.nV) = 0 := by
    simp [electronic, natMat, natTen, oneOp, twoOp]
  rw [z]
  norm_num [expv]

/-- A sweep that leaves the parameters as they are: without integrals the energy does not depend on them, and a minimization that
then stays at zero does not move from zero. -/
example (mo : ℕ → Fin 3 → ℝ) : ∃ (D : CircData) (ansatz : List ℝ → List (PGate (2 * D.norb))) (d : List Char)
    (st : AnsatzStruct) (Ts : List (FOp ℝ)) (m : List ℝ → ℕ → ℝ),
    D.Ready ansatz d st Ts ∧ D.InUse ansatz ∧ Ideal D.bench.dev ansatz ∧ D.names.length = 6 ∧ FindsMinimum m ∧
    (D.roto D.bench.dev 0 0 m 1 1).sweep 2 (List.replicate 6 0) = .ok (List.replicate 6 0) := by
  obtain ⟨s, c, D, ansatz, d, Ts, -, n1, n2, hD, hU, hI⟩ := circ_ready_case mo
  obtain ⟨m0, hm0⟩ := findsMinimum_exists
  have hn : D.names.length = 6 := hD.count.trans n2
  classical
  set m : List ℝ → ℕ → ℝ := fun evals R => if ∀ e ∈ evals, e = 0 then 0 else m0 evals R with hm
  have hm' : FindsMinimum m := by
    intro evals R hl
    by_cases h0 : ∀ e ∈ evals, e = 0
    · have z : ∀ t, reconstructedF evals R t = 0 := fun t => by
        unfold reconstructedF
        refine List.sum_eq_zero fun v hv => ?_
        obtain ⟨⟨e, j⟩, hq, rfl⟩ := List.mem_map.1 hv
        have : e ∈ evals := (List.mem_zipIdx hq).2.2 ▸ List.getElem_mem _
        rw [h0 e this, zero_mul]
      simp only [hm, if_pos h0, z, abs_zero, le_refl, implies_true, and_true]
      exact Real.pi_pos.le
    · simp only [hm, if_neg h0]
      exact hm0 evals R hl
  refine ⟨D, ansatz, d, _, Ts, m, hD, hU, hI, hn, hm', ?_⟩
  obtain ⟨c, hc⟩ := circ_family hD hU
  have z : electronic (natMat (0 : Matrix (Fin D.n) (Fin D.n) ℝ)) (natTen (0 : Tensor4 (Fin D.n)))
      (D.ci.nI + D.ci.nA + D.ci.nV) = 0 := by
    simp [electronic, natMat, natTen, oneOp, twoOp]
  have f0 : ∀ x : List ℝ, x.length = D.names.length → (D.roto D.bench.dev 0 0 m 1 1).f x = 0 := fun x hx => by
    have he := (circ_means hD ((hc _ hx).2.2.1 _ hI)).energy 0 0
    rw [z] at he
    have he : D.runTheta D.bench.dev x 0 0 = _ := he
    show okOr 0 (D.runTheta D.bench.dev x 0 0) = 0
    rw [he]
    simp [okOr, expv]
  have step : ∀ (i : ℕ) (name : String), D.names[i]? = some name →
      (D.roto D.bench.dev 0 0 m 1 1).update 2 (List.replicate 6 0) i name = .ok (List.replicate 6 0) := by
    intro i name hi
    have hi6 : i < 6 := hn ▸ (List.getElem?_eq_some_iff.1 hi).1
    obtain ⟨ty, hty⟩ : ∃ ty, s.types[i]? = some ty := ⟨_, List.getElem?_eq_getElem (n2 ▸ hi6)⟩
    obtain ⟨s', s1, s2⟩ := hD.shifts i ty hty
    obtain ⟨r, T, hr, -⟩ := hD.circuits.gens.2.2 i ty hty
    rw [hi] at s1
    cases s1
    rw [hr] at s2
    unfold Roto.update getEnergyEvals
    rw [show (D.roto D.bench.dev 0 0 m 1 1).R.lookup name = some (2 * r) from s2]
    have hlt : i < (List.replicate 6 (0 : ℝ)).length := by simpa using hi6
    have hw : wrapAngle 2 0 = .ok 0 := by
      have hp := Real.pi_pos
      unfold wrapAngle wrapUp
      rw [if_pos hp]
      unfold wrapUp
      rw [if_neg (by linarith), ok_bind]
      unfold wrapDown
      rw [if_pos (by linarith)]
      unfold wrapDown
      rw [if_neg (by linarith)]
      norm_num
    have h0 : ∀ e ∈ (List.range (2 * (2 * r) + 1)).map fun j =>
        (D.roto D.bench.dev 0 0 m 1 1).f ((List.replicate 6 0).set i (xMu (2 * r) j)), e = 0 := by
      intro e he
      obtain ⟨j, -, rfl⟩ := List.mem_map.1 he
      exact f0 _ (by simpa using hn.symm)
    have hmz : (D.roto D.bench.dev 0 0 m 1 1).minimizer ((List.range (2 * (2 * r) + 1)).map fun j =>
        (D.roto D.bench.dev 0 0 m 1 1).f ((List.replicate 6 0).set i (xMu (2 * r) j))) (2 * r) = 0 := if_pos h0
    show (do
      let evals ← (if i < (List.replicate 6 (0 : ℝ)).length then _ else _ : Res (List ℝ))
      let y ← wrapAngle 2 ((D.roto D.bench.dev 0 0 m 1 1).minimizer evals (2 * r))
      if i < (List.replicate 6 (0 : ℝ)).length then .ok ((List.replicate 6 0).set i y) else .error .indexError : Res (List ℝ)) = _
    rw [if_pos hlt, ok_bind, hmz, hw, ok_bind, if_pos hlt]
    congr 1
    refine List.ext_getElem (by simp) fun j h1 h2 => ?_
    rw [List.getElem_set, List.getElem_replicate, ite_self]
  have gen : ∀ l : List (String × ℕ), (∀ ni ∈ l, D.names[ni.2]? = some ni.1) →
      l.foldlM (fun x ni => (D.roto D.bench.dev 0 0 m 1 1).update 2 x ni.2 ni.1) (List.replicate 6 0) = .ok (List.replicate 6 0) := by
    intro l
    induction l with
    | nil => intro _; rfl
    | cons ni l ih =>
      intro hl
      rw [List.foldlM_cons, step _ _ (hl ni List.mem_cons_self)]
      exact ih fun q hq => hl q (List.mem_cons_of_mem _ hq)
  exact gen _ fun ni hq => List.mk_mem_zipIdx_iff_getElem?.1 hq

end SQ
