import Verif.Lemmas.Interface

/-! # C57, C58: shots, parameters and saved measurements of the interface -/

namespace SQ

variable {C : Type}

/-! ### C57 -/

/-- What the user sees of the shot settings: `t` shots in `k` runs of `s` shots, at most `m` per run. -/
def ShotsOK (q : QI) : Prop :=
  match q.shots with
  | none => False
  | some none => q.multipl = 1 ∧ q.perRun = none
  | some (some t) => ∃ s, q.perRun = some s ∧ s ≤ q.maxShots ∧ t = q.multipl * s ∧ 0 < q.multipl

/-- A call assigns no zero maximum. -/
def QIOp.PosMax : QIOp → Prop
  | .max m => 0 < m
  | _ => True

theorem setShots_ok (q : QI) (h : 0 < q.maxShots) (s : Option ℕ) :
    (q.setShots s).1 = .ok () ∧ (q.setShots s).2.maxShots = q.maxShots ∧ ShotsOK (q.setShots s).2 := by
  have key : ∀ n : ℕ, n > q.maxShots → 0 < n / q.maxShots := fun n hn => Nat.div_pos hn.le h
  have mul : ∀ n : ℕ, n % q.maxShots = 0 → n = n / q.maxShots * q.maxShots := fun n hn => by
    have := Nat.div_add_mod n q.maxShots
    rw [hn, add_zero, mul_comm] at this
    exact this.symm
  have main : ∀ n : ℕ, ∀ q' : QI, q'.maxShots = q.maxShots → q'.multipl = 1 → q'.shots = some (some n) →
      let r : Res Unit × QI := if n > q'.maxShots then
        if q'.maxShots = 0 then (.error .zeroDivision, q')
        else if n % q'.maxShots ≠ 0 then
          (.ok (), { q' with multipl := n / q'.maxShots, shots := some (some (n / q'.maxShots * q'.maxShots)) })
        else (.ok (), { q' with multipl := n / q'.maxShots })
      else (.ok (), q')
      r.1 = .ok () ∧ r.2.maxShots = q.maxShots ∧ ShotsOK r.2 := by
    intro n q' e1 e2 e3
    simp only
    rw [e1]
    split_ifs with h1 h2 h3
    · omega
    · refine ⟨rfl, rfl, ?_⟩
      unfold ShotsOK
      refine ⟨q.maxShots, ?_, le_refl _, rfl, key n h1⟩
      unfold QI.perRun
      simp only [e1]
      split_ifs with h4
      · rfl
      · have : n / q.maxShots = 1 := by have := key n h1; omega
        simp [this]
    · refine ⟨rfl, rfl, ?_⟩
      rw [ne_eq, not_not] at h3
      unfold ShotsOK
      simp only [e3]
      refine ⟨q.maxShots, ?_, le_refl _, mul n h3, key n h1⟩
      unfold QI.perRun
      simp only [e1, e3]
      split_ifs with h4
      · rfl
      · have h5 : n / q.maxShots = 1 := by have := key n h1; omega
        have := mul n h3
        rw [h5, one_mul] at this
        simp [this]
    · refine ⟨rfl, e1, ?_⟩
      unfold ShotsOK
      rw [e3]
      refine ⟨n, ?_, by rw [e1]; omega, by rw [e2, one_mul], by rw [e2]; exact one_pos⟩
      unfold QI.perRun
      rw [e2, e3]
      rfl
  unfold QI.setShots
  cases s with
  | some n => exact main n { q with multipl := 1, saver := [], minv := none, shots := some (some n) } rfl rfl rfl
  | none =>
    cases hv : q.samplerV2 with
    | true =>
      have := main 10000 { q with multipl := 1, saver := [], minv := none, shots := some (some 10000) } rfl rfl rfl
      simp only [hv, if_true] at this ⊢
      exact this
    | false =>
      simp only [hv, Bool.false_eq_true, if_false]
      exact ⟨trivial, trivial, rfl, rfl⟩

theorem evaluate_settings (dev : Device C) (circ : ℕ → ℕ → C) (q : QI) (key opt : ℕ) (obs : List (List Char × ℝ)) :
    (q.evaluate dev circ key opt obs).2.shots = q.shots ∧ (q.evaluate dev circ key opt obs).2.maxShots = q.maxShots ∧
    (q.evaluate dev circ key opt obs).2.multipl = q.multipl ∧ (q.evaluate dev circ key opt obs).2.params = q.params ∧
    (q.evaluate dev circ key opt obs).2.flags = q.flags ∧
    (q.evaluate dev circ key opt obs).2.numParams = q.numParams := by
  unfold QI.evaluate
  simp only
  split
  · exact ⟨rfl, rfl, rfl, rfl, rfl, rfl⟩
  · split_ifs <;> (try split) <;> exact ⟨rfl, rfl, rfl, rfl, rfl, rfl⟩

theorem init_inv {v2 : Bool} {mx : ℕ} {s : Option ℕ} {f : Flags} {np : ℕ} {q0 : QI} (h : QI.init v2 mx s f np = .ok q0) :
    q0.shots ≠ none ∧ q0.saver = [] ∧ q0.maxShots = mx ∧ (0 < mx → ShotsOK q0) := by
  unfold QI.init at h
  simp only at h
  split at h
  · cases h
  · next q e =>
    cases h
    have e1 := setShots_saver (QI.setMax ⟨v2, 0, none, 0, np, List.replicate np 0, [], none, f, 0⟩ mx).2 s
    rw [e] at e1
    have e2 : q.maxShots = mx := by
      have : (QI.setShots (QI.setMax ⟨v2, 0, none, 0, np, List.replicate np 0, [], none, f, 0⟩ mx).2 s).2.maxShots = mx := by
        unfold QI.setShots
        simp only
        split
        · rfl
        · split_ifs <;> rfl
      rw [e] at this
      exact this
    refine ⟨e1.2, rfl, e2, fun hm => ?_⟩
    have := (setShots_ok (QI.setMax ⟨v2, 0, none, 0, np, List.replicate np 0, [], none, f, 0⟩ mx).2 hm s).2.2
    rw [e] at this
    exact this

/-- C57: after any sequence of calls with positive maxima, a run has at most the maximal number of shots
and the shots are the number of runs times the shots of a run. -/
theorem C57_consistent (dev : Device C) (circ : ℕ → ℕ → C) {v2 : Bool} {mx : ℕ} {s : Option ℕ} {f : Flags} {np : ℕ}
    {q0 : QI} (h : QI.init v2 mx s f np = .ok q0) (hmx : 0 < mx) (ops : List QIOp) (hops : ∀ op ∈ ops, op.PosMax) :
    ShotsOK (ops.foldl (QIOp.run dev circ) q0) := by
  suffices ∀ ops : List QIOp, (∀ op ∈ ops, op.PosMax) → ∀ q : QI, 0 < q.maxShots → ShotsOK q →
      ShotsOK (ops.foldl (QIOp.run dev circ) q) by
    obtain ⟨-, -, h3, h4⟩ := init_inv h
    exact this ops hops q0 (by rw [h3]; exact hmx) (h4 hmx)
  intro ops
  induction ops with
  | nil => intro _ q _ h; exact h
  | cons op ops ih =>
    intro hops q hq hok
    have step : 0 < (QIOp.run dev circ q op).maxShots ∧ ShotsOK (QIOp.run dev circ q op) := by
      cases op with
      | shots s => obtain ⟨-, e2, e3⟩ := setShots_ok q hq s; exact ⟨by change 0 < (q.setShots s).2.maxShots; rw [e2]; exact hq, e3⟩
      | max m =>
        have hm : 0 < m := hops (.max m) (by simp)
        change 0 < (q.setMax m).2.maxShots ∧ ShotsOK (q.setMax m).2
        unfold QI.setMax
        cases hs : q.shots with
        | none => unfold ShotsOK at hok; rw [hs] at hok; exact hok.elim
        | some s =>
          obtain ⟨-, e2, e3⟩ := setShots_ok { q with maxShots := m } hm s
          simp only [hs] at e2 e3 ⊢
          exact ⟨by rw [e2]; exact hm, e3⟩
      | params p =>
        change 0 < (q.setParams p).2.maxShots ∧ ShotsOK (q.setParams p).2
        unfold QI.setParams
        split_ifs <;> exact ⟨hq, hok⟩
      | flags kw => exact ⟨hq, hok⟩
      | redoM => exact ⟨hq, hok⟩
      | evaluate key opt obs =>
        obtain ⟨e1, e2, e3, -⟩ := evaluate_settings dev circ q key opt obs
        change 0 < (q.evaluate dev circ key opt obs).2.maxShots ∧ ShotsOK (q.evaluate dev circ key opt obs).2
        refine ⟨by rw [e2]; exact hq, ?_⟩
        unfold ShotsOK QI.perRun at hok ⊢
        rw [e1, e2, e3]
        exact hok
    exact ih (fun o ho => hops o (by simp [ho])) _ step.1 step.2

/-- C57: a request within the maximum is kept; a larger one is rounded down to a multiple of the maximum,
and in both cases nothing measured before is kept. -/
theorem C57_request (q : QI) (h : 0 < q.maxShots) (n : ℕ) :
    (q.setShots (some n)).1 = .ok () ∧ (q.setShots (some n)).2.saver = [] ∧ (q.setShots (some n)).2.minv = none ∧
    (q.setShots (some n)).2.shots = some (some (if n ≤ q.maxShots then n else n - n % q.maxShots)) := by
  have e : n / q.maxShots * q.maxShots = n - n % q.maxShots := by
    have := Nat.div_add_mod n q.maxShots
    rw [mul_comm] at this
    omega
  unfold QI.setShots
  simp only
  by_cases h1 : n > q.maxShots
  · rw [if_pos h1, if_neg h.ne', if_neg (show ¬ n ≤ q.maxShots by omega), ← e]
    split_ifs with h3
    · exact ⟨rfl, rfl, rfl, rfl⟩
    · refine ⟨rfl, rfl, rfl, ?_⟩
      rw [ne_eq, not_not] at h3
      rw [e, h3]
      rfl
  · rw [if_neg h1, if_pos (show n ≤ q.maxShots by omega)]
    exact ⟨rfl, rfl, rfl, rfl⟩

/-- C57: assigning a maximum after construction discards what was measured, also when it raises. -/
theorem C57_max (q : QI) (h : q.shots ≠ none) (m : ℕ) :
    (q.setMax m).2.saver = [] ∧ (q.setMax m).2.minv = none ∧
    ((q.setMax m).1 = .error .zeroDivision ↔
      m = 0 ∧ ((∃ n, 0 < n ∧ q.shots = some (some n)) ∨ (q.shots = some none ∧ q.samplerV2 = true))) := by
  unfold QI.setMax
  cases hs : q.shots with
  | none => exact absurd hs h
  | some s =>
    simp only [hs]
    unfold QI.setShots
    cases s with
    | none =>
      cases hv : q.samplerV2 with
      | false => simp
      | true =>
        simp only [if_true]
        split_ifs with h1 h2 h3
        · subst h2; simp
        · simp [h2]
        · simp [h2]
        · have : m ≠ 0 := by omega
          simp [this]
    | some n =>
      simp only
      split_ifs with h1 h2 h3
      · subst h2
        refine ⟨rfl, rfl, fun _ => ?_, fun _ => rfl⟩
        exact ⟨rfl, Or.inl ⟨n, h1, rfl⟩⟩
      · simp [h2]
      · simp [h2]
      · by_cases hm : m = 0
        · subst hm
          have : n = 0 := by omega
          subst this
          simp
        · simp [hm]

/-- 25000 shots with at most 10000 per run: two runs of 10000. -/
example : ∃ q, QI.init true 10000 (some 25000) (Flags.init (.bool false) (.bool false) (.bool false) (.bool false)) 3 = .ok q ∧
    q.shots = some (some 20000) ∧ q.multipl = 2 ∧ q.perRun = some 10000 := ⟨_, rfl, rfl, rfl, rfl⟩

/-! ### C58 -/

/-- A call evaluates labels on `n` qubits only. -/
def QIOp.Labels (n : ℕ) : QIOp → Prop
  | .evaluate _ _ obs => ∀ pc ∈ obs, PauliLabel n pc.1
  | _ => True

/-- C58: a value returned after any sequence of calls is the sum over the labels of coefficient times
average sign, each average taken over a measurement with the present parameters, shots and circuit of a
label that covers it, mitigated with the present flags if any are set. -/
theorem C58_fresh (dev : Device C) (circ : ℕ → ℕ → C) {n : ℕ} (hn : 0 < n) {v2 : Bool} {mx : ℕ} {s : Option ℕ}
    {f : Flags} {np : ℕ} {q0 : QI} (h : QI.init v2 mx s f np = .ok q0) (ops : List QIOp)
    (hops : ∀ op ∈ ops, op.Labels n) (key opt : ℕ) (obs : List (List Char × ℝ)) (hobs : ∀ pc ∈ obs, PauliLabel n pc.1)
    (v : ℝ) :
    let q := ops.foldl (QIOp.run dev circ) q0
    (q.evaluate dev circ key opt obs).1 = .ok v →
    ∃ ds : List Distr, ds.length = obs.length ∧
      (∀ x ∈ obs.zip ds, ∃ head, Covers head x.1.1 ∧
        FromDevice dev ⟨q.params, q.perRun, q.multipl, circ key opt⟩ q.flags.toInt head x.2) ∧
      v = ((obs.zip ds).map fun x => x.1.2 * averageSign n x.1.1 x.2).sum := by
  suffices hinv : ∀ ops : List QIOp, (∀ op ∈ ops, op.Labels n) → ∀ q : QI, SaverInv n dev circ q →
      SaverInv n dev circ (ops.foldl (QIOp.run dev circ) q) by
    intro q hv
    obtain ⟨h1, h2, -, -⟩ := init_inv h
    have := hinv ops hops q0 ⟨h1, by rw [h2]; simp⟩
    exact (evaluate_spec hn this key opt obs hobs).2.2 v hv
  intro ops
  induction ops with
  | nil => intro _ q h; exact h
  | cons op ops ih =>
    intro hops q hq
    refine ih (fun o ho => hops o (by simp [ho])) _ ?_
    cases op with
    | shots s =>
      obtain ⟨e1, e2⟩ := setShots_saver q s
      exact ⟨e2, by change ∀ e ∈ (q.setShots s).2.saver, _; rw [e1]; simp⟩
    | max m =>
      obtain ⟨e1, e2⟩ := setMax_saver q hq.1 m
      exact ⟨e2, by change ∀ e ∈ (q.setMax m).2.saver, _; rw [e1]; simp⟩
    | params p =>
      change SaverInv n dev circ (q.setParams p).2
      unfold QI.setParams
      by_cases hl : p.length ≠ q.numParams
      · rw [if_pos hl]; exact hq
      · rw [if_neg hl]
        by_cases hp : q.params ≠ p
        · simp only [if_pos hp]
          exact ⟨hq.1, by simp⟩
        · rw [ne_eq, not_not] at hp
          subst hp
          simp only [ne_eq, not_true_eq_false, if_false]
          exact hq
    | flags kw => exact hq
    | redoM => exact hq
    | evaluate key opt obs => exact (evaluate_spec hn hq key opt obs (hops (.evaluate key opt obs) (by simp))).1

/-- C58: the parameters are those of the last accepted assignment. -/
theorem C58_parameters (dev : Device C) (circ : ℕ → ℕ → C) (q : QI) :
    (∀ p, p.length = q.numParams → (q.setParams p).1 = .ok () ∧ (q.setParams p).2.params = p) ∧
    (∀ p, p.length ≠ q.numParams → q.setParams p = (.error .valueError, q)) ∧
    ∀ op : QIOp, (∀ p, op ≠ .params p) → (op.run dev circ q).params = q.params ∧ (op.run dev circ q).numParams = q.numParams := by
  refine ⟨fun p hp => ?_, fun p hp => ?_, fun op ho => ?_⟩
  · unfold QI.setParams
    rw [if_neg (by simpa using hp)]
    exact ⟨rfl, rfl⟩
  · unfold QI.setParams
    rw [if_pos hp]
  · have hshots : ∀ (q : QI) s, (q.setShots s).2.params = q.params ∧ (q.setShots s).2.numParams = q.numParams := by
      intro q s
      unfold QI.setShots
      simp only
      split
      · exact ⟨rfl, rfl⟩
      · split_ifs <;> exact ⟨rfl, rfl⟩
    cases op with
    | shots s => exact hshots q s
    | max m =>
      change (q.setMax m).2.params = q.params ∧ (q.setMax m).2.numParams = q.numParams
      unfold QI.setMax
      simp only
      split
      · exact ⟨rfl, rfl⟩
      · exact hshots _ _
    | params p => exact absurd rfl (ho p)
    | flags kw => exact ⟨rfl, rfl⟩
    | redoM => exact ⟨rfl, rfl⟩
    | evaluate key opt obs =>
      obtain ⟨-, -, -, h1, -, h2⟩ := evaluate_settings dev circ q key opt obs
      exact ⟨h1, h2⟩

/-- A device whose outcome shows the parameters of the run, and a mitigation that shows its matrix. -/
def showDev : Device Unit where
  measure _ s _ := [(0, s.params.sum)]
  mitigate M _ _ _ _ := .ok [(0, (M.1 : ℝ))]

def showFlags (m : Bool) : Flags := Flags.init (.bool m) (.bool false) (.bool false) (.bool false)

def showQI (m : Bool) : QI := ⟨true, 100000, some (some 1000), 1, 1, [0], [], none, showFlags m, 0⟩

theorem showQI_init (m : Bool) : QI.init true 100000 (some 1000) (showFlags m) 1 = .ok (showQI m) := by
  cases m <;> rfl

theorem showAdd : addPaulis [] [['Z']] = (.ok [['Z']], [⟨['Z'], [(0, [])]⟩]) := by
  rw [addPaulis_eq _ _ (by simp)]
  unfold sortedReverse
  rw [List.mergeSort_singleton]
  rfl

theorem showAdd' (data : SaverData) (x : ℕ × ℝ) (h : data.lookup 0 = some [x]) :
    addPaulis [⟨['Z'], data⟩] [['Z']] = (.ok [], [⟨['Z'], data⟩]) := by
  rw [addPaulis_eq _ _ (by simp)]
  unfold sortedReverse
  rw [List.mergeSort_singleton]
  have e : addPauli ['Z'] [⟨['Z'], data⟩] = [⟨['Z'], data⟩] := rfl
  have e2 : newHeads [⟨['Z'], data⟩] = .ok [] := by
    have : data.isEmpty 0 = .ok false := isEmpty_false.2 ⟨_, h, by simp⟩
    simp only [newHeads]
    rw [this]
    rfl
  change (newHeads (addPauli ['Z'] [⟨['Z'], data⟩]), addPauli ['Z'] [⟨['Z'], data⟩]) = _
  rw [e, e2]

theorem showValue (x : ℝ) : valueFrom [⟨['Z'], [(0, [(0, x)])]⟩] 0 [(['Z'], 1)] = .ok x := by
  have hs : getBitstringSign ['Z'] 0 = .ok 1 := by
    rw [C48_sign (n := 1) ⟨rfl, by simp⟩ one_pos]
    simp
  have hg : getDistr ['Z'] 0 [⟨['Z'], [(0, [(0, x)])]⟩] = .ok [(0, x)] := by
    have : SaverData.isEmpty [(0, [(0, x)])] 0 = .ok false := isEmpty_false.2 ⟨[(0, x)], rfl, by simp⟩
    simp only [getDistr]
    rw [this]
    rfl
  unfold valueFrom
  rw [List.foldlM_cons, hg]
  change (do
    let s ← getBitstringSign ['Z'] 0
    let result : ℝ ← (pure (0 + x * (s : ℝ)) : Res ℝ)
    pure (0 + result * 1) : Res ℝ) = _
  rw [hs]
  change Except.ok _ = _
  norm_num

/-- C58 fails for writes through the list the getter returns: after `interface.parameters[0] = 1` the value
is still the one measured with the old parameter, while the same interface with nothing saved gives 1. -/
theorem C58_alias_disagree :
    let circ : ℕ → ℕ → Unit := fun _ _ => ()
    let obs : List (List Char × ℝ) := [(['Z'], 1)]
    let q := (QI.evaluate showDev circ (showQI false) 0 1 obs).2.writeParam 0 1
    q.params = [1] ∧ (q.evaluate showDev circ 0 1 obs).1 = .ok 0 ∧
    (({ q with saver := [] } : QI).evaluate showDev circ 0 1 obs).1 = .ok 1 := by
  intro circ obs q
  have run : ∀ (q : QI), q.flags = showFlags false → q.saver = [] →
      q.evaluate showDev circ 0 1 obs = (.ok q.params.sum,
        { q with saver := [(0, (1, [⟨['Z'], [(0, [(0, q.params.sum)])]⟩]))], run := q.run + 1 }) := by
    intro q hf hs
    have e0 : q.entry 0 1 = [] := by unfold QI.entry; rw [hs]; rfl
    have e1 : measureStep (showDev.measure q.run (q.setting (circ 0 1))) [] [['Z']] =
        (.ok (), [⟨['Z'], [(0, [(0, q.params.sum)])]⟩]) := by
      unfold measureStep
      rw [showAdd]
      rfl
    unfold QI.evaluate
    simp only [obs, List.map_cons, List.map_nil]
    rw [e0, e1, hf, hs]
    have : (showFlags false).isEnabled = false := by decide
    simp only [this, Bool.false_eq_true, if_false]
    rw [showValue]
    rfl
  have hq : q = { (showQI false) with params := [1], saver := [(0, (1, [⟨['Z'], [(0, [(0, 0)])]⟩]))], run := 1 } := by
    simp only [q]
    rw [run (showQI false) rfl rfl]
    have : (showQI false).params.sum = 0 := by simp [showQI]
    rw [this]
    rfl
  refine ⟨by rw [hq], ?_, ?_⟩
  · rw [hq]
    have e1 : measureStep (showDev.measure 1 (QI.setting
        { (showQI false) with params := [1], saver := [(0, (1, [⟨['Z'], [(0, [(0, 0)])]⟩]))], run := 1 } (circ 0 1)))
        [⟨['Z'], [(0, [(0, 0)])]⟩] [['Z']] = (.ok (), [⟨['Z'], [(0, [(0, 0)])]⟩]) := by
      unfold measureStep
      rw [showAdd' [(0, [(0, 0)])] (0, 0) rfl]
      rfl
    unfold QI.evaluate
    simp only [obs, List.map_cons, List.map_nil]
    have e0 : QI.entry { (showQI false) with params := [1], saver := [(0, (1, [⟨['Z'], [(0, [(0, 0)])]⟩]))], run := 1 } 0 1
        = [⟨['Z'], [(0, [(0, 0)])]⟩] := rfl
    rw [e0, e1]
    have : (showQI false).flags.isEnabled = false := by decide
    simp only [this, Bool.false_eq_true, if_false]
    exact showValue 0
  · rw [hq, run _ rfl rfl]
    simp

end SQ
