import Verif.Spec.Precalc
import Verif.Lemmas.ReadOutRun

/-! # Lemmas for C133 -/

namespace SQ

/-- Any data. -/
abbrev AnyHist (n : ℕ) := Hist n (fun _ _ _ => True)

/-- What an evaluation does with the saver. -/
theorem evaluate_any {C : Type} {n : ℕ} {dev : Device C} {circ : ℕ → ℕ → C} {q : QI} {key opt : ℕ}
    {ops : List CliqueOp} (h : AnyHist n (q.entry key opt) ops) {obs : List (List Char × ℝ)}
    (hlen : ∀ pc ∈ obs, pc.1.length = n) :
    ∃ cs ops', (q.evaluate dev circ key opt obs).2.saver = dictPut q.saver key (opt, cs) ∧
      (q.evaluate dev circ key opt obs).2.shots = q.shots ∧ (q.evaluate dev circ key opt obs).2.flags = q.flags ∧
      AnyHist n cs ops' ∧ CliqueOp.add (obs.map Prod.fst) ∈ ops' ∧
      ∀ v, (q.evaluate dev circ key opt obs).1 = .ok v → (∀ c ∈ cs, c.data.isEmpty 0 = .ok false) ∧
        (q.flags.isEnabled = true → (∀ c ∈ cs, c.data.isEmpty q.flags.toInt = .ok false) ∧
          valueFrom cs q.flags.toInt obs = .ok v) ∧
        (q.flags.isEnabled = false → valueFrom cs 0 obs = .ok v) := by
  have hl : ∀ p ∈ obs.map Prod.fst, p.length = n := by
    intro p hp
    obtain ⟨pc, h1, rfl⟩ := List.mem_map.1 hp
    exact hlen pc h1
  obtain ⟨⟨ops1, hh, hadd⟩, hfull⟩ := measureStep_hist h (dev.measure q.run (q.setting (circ key opt))) (fun _ => trivial) hl
  unfold QI.evaluate
  simp only
  rcases e : measureStep (dev.measure q.run (q.setting (circ key opt))) (q.entry key opt) (obs.map Prod.fst) with ⟨r, cs⟩
  rw [e] at hh hfull
  cases r with
  | error er => exact ⟨cs, ops1, rfl, rfl, rfl, hh, hadd, fun v hv => by cases hv⟩
  | ok u =>
    have hfull := hfull rfl
    by_cases hen : q.flags.isEnabled = true
    · simp only [hen, if_true]
      generalize hq1 : (if (q.flags.mMit.truthy && match emptyHeadsDistr q.flags.toInt cs with | .ok (_ :: _) => true | _ => false) = true
        then { q with minv := some (q.minv.getD (q.run, q.flags.toInt)) } else q : QI) = q1
      have hq : q1.saver = q.saver ∧ q1.shots = q.shots ∧ q1.flags = q.flags := by
        rw [← hq1]
        split_ifs <;> exact ⟨rfl, rfl, rfl⟩
      generalize dev.mitigate (q1.minv.getD (q1.run, q.flags.toInt)) q.flags.toInt (circ key opt) = mit
      obtain ⟨ops2, hh2, hsub⟩ := mitigateStep_hist hh hfull mit (m := q.flags.toInt) (fun _ _ _ _ _ => trivial)
      have hk := Tot.keeps hfull (mitigateStep_keeps mit q.flags.toInt cs)
      have hfm := mitigateStep_full (mit := mit) (m := q.flags.toInt) (cs := cs)
      rcases e5 : mitigateStep mit q.flags.toInt cs with ⟨r2, cs2⟩
      rw [e5] at hh2 hk hfm
      cases r2 with
      | error er =>
        exact ⟨cs2, ops2, by rw [← hq.1], hq.2.1, hq.2.2, hh2, hsub _ hadd, fun v hv => by cases hv⟩
      | ok u2 =>
        exact ⟨cs2, ops2, by rw [← hq.1], hq.2.1, hq.2.2, hh2, hsub _ hadd, fun v hv =>
          ⟨hk, fun _ => ⟨hfm rfl, hv⟩, fun h0 => by simp at h0⟩⟩
    · rw [Bool.not_eq_true] at hen
      simp only [hen, Bool.false_eq_true, if_false]
      exact ⟨cs, ops1, rfl, trivial, trivial, hh, hadd, fun v hv => ⟨hfull, fun h0 => by simp at h0, fun _ => hv⟩⟩

theorem entry_put {q : QI} {s : List (ℕ × (ℕ × List CliqueHead))} {key opt : ℕ} {cs : List CliqueHead}
    (h : q.saver = dictPut s key (opt, cs)) : q.entry key opt = cs := by
  unfold QI.entry
  rw [h, lookup_dictPut, if_pos rfl]
  simp

/-- After an evaluation, all operators with the same labels can be evaluated without measuring. -/
theorem evaluate_within {C : Type} {n : ℕ} (hn : 0 < n) {dev : Device C} {circ : ℕ → ℕ → C} {q : QI} {key opt : ℕ}
    {ops : List CliqueOp} (h : AnyHist n (q.entry key opt) ops) {obs : List (List Char × ℝ)}
    (hlab : ∀ pc ∈ obs, PauliLabel n pc.1) (hne0 : obs ≠ []) {v : ℝ}
    (hv : (q.evaluate dev circ key opt obs).1 = .ok v) :
    ∃ w : List (List Char × ℝ) → ℝ, ∀ (dev' : Device C) (circ' : ℕ → ℕ → C) (q2 : QI),
      q2.entry key opt = (q.evaluate dev circ key opt obs).2.entry key opt → q2.flags = q.flags →
      ∀ obs', (∀ pc ∈ obs', PauliLabel n pc.1) → (∀ pc ∈ obs', pc.1 ∈ obs.map Prod.fst) →
        (q2.evaluate dev' circ' key opt obs').1 = .ok (w obs') ∧
        (q2.evaluate dev' circ' key opt obs').2.entry key opt = q2.entry key opt ∧
        (q2.evaluate dev' circ' key opt obs').2.flags = q.flags := by
  obtain ⟨cs, ops', e1, -, e3, hh, hadd, hval⟩ := evaluate_any (dev := dev) (circ := circ) h fun pc hpc => (hlab pc hpc).1
  obtain ⟨hfull, hen, hdis⟩ := hval v hv
  set m := if q.flags.isEnabled = true then q.flags.toInt else 0 with hm
  have hv2 : valueFrom cs m obs = .ok v := by
    rw [hm]
    split_ifs with g
    · exact (hen g).2
    · exact hdis (by simpa using g)
  obtain ⟨ds, d1, d2, -⟩ := valueFrom_ok hn cs m obs hlab 0 v hv2
  have hget : ∀ pc ∈ obs, ∃ d, getDistr pc.1 m cs = .ok d := by
    intro pc hpc
    obtain ⟨i, hi, rfl⟩ := List.mem_iff_getElem.1 hpc
    exact ⟨ds[i], d2 (obs[i], ds[i]) (by rw [← List.getElem_zip (h := by rw [List.length_zip]; omega)]; exact List.getElem_mem _)⟩
  have hne : cs ≠ [] := by
    rintro rfl
    obtain ⟨pc, hpc⟩ := List.exists_mem_of_ne_nil _ hne0
    obtain ⟨l, g, r, he, -⟩ := hh.heads.found pc.1 (List.mem_flatMap.2 ⟨_, hadd, List.mem_map_of_mem hpc⟩)
    simp [headsOf] at he
  refine ⟨fun obs' => match valueFrom cs m obs' with | .ok x => x | .error _ => 0, fun dev' circ' q2 he hf2 obs' hp' hin => ?_⟩
  rw [entry_put e1] at he
  obtain ⟨x, hx⟩ : ∃ x, valueFrom cs m obs' = .ok x := valueFrom_total hn cs m obs' hp' (fun pc hpc => by
    obtain ⟨y, hy, e⟩ := List.mem_map.1 (hin pc hpc)
    rw [← e]; exact hget y hy) 0
  have hms : ∀ f, measureStep f cs (obs'.map Prod.fst) = (.ok (), cs) := fun f =>
    measure_within hh (fun p hp => by
      obtain ⟨pc, hpc, rfl⟩ := List.mem_map.1 hp
      exact List.mem_flatMap.2 ⟨_, hadd, hin pc hpc⟩) hne hfull f
  simp only [hx]
  unfold QI.evaluate
  simp only
  rw [he, hms]
  by_cases g : q.flags.isEnabled = true
  · have hmi : ∀ f, mitigateStep f q.flags.toInt cs = (.ok (), cs) := by
      intro f
      unfold mitigateStep
      rw [emptyHeads_none (hen g).1]
      rfl
    rw [if_pos g] at hm
    rw [hm] at hx
    simp only [hf2, g, if_true, hmi, emptyHeads_none (hen g).1, Bool.and_false, Bool.false_eq_true, if_false]
    exact ⟨hx, entry_put rfl, trivial⟩
  · rw [if_neg g] at hm
    rw [hm] at hx
    rw [Bool.not_eq_true] at g
    simp only [hf2, g, Bool.false_eq_true, if_false]
    exact ⟨hx, entry_put rfl, trivial⟩

/-! ### Histories on any device -/

variable {norb : ℕ} {B : Bench norb}

def KeptAny (n : ℕ) (q : QI) : Prop := q.shots ≠ none ∧ ∀ x ∈ q.saver, ∃ ops, AnyHist n x.2.2 ops

theorem keptAny_entry {n : ℕ} {q : QI} (h : KeptAny n q) (key opt : ℕ) : ∃ ops, AnyHist n (q.entry key opt) ops := by
  unfold QI.entry
  cases hl : q.saver.lookup key with
  | none => exact ⟨[], Hist.nil _ _⟩
  | some e =>
    obtain ⟨o, cs⟩ := e
    simp only
    split_ifs with ho
    · exact ⟨[], Hist.nil _ _⟩
    · have hm : (key, (o, cs)) ∈ q.saver := by
        obtain ⟨l1, l2, he, -⟩ := List.lookup_eq_some_iff.1 hl
        rw [he]; simp
      exact h.2 _ hm

theorem keptAny_evaluate {C : Type} {n : ℕ} {q : QI} (h : KeptAny n q) (dev : Device C) (circ : ℕ → ℕ → C) (key opt : ℕ)
    {obs : List (List Char × ℝ)} (hlen : ∀ pc ∈ obs, pc.1.length = n) : KeptAny n (q.evaluate dev circ key opt obs).2 := by
  obtain ⟨ops, ho⟩ := keptAny_entry h key opt
  obtain ⟨cs, ops', e1, e2, -, hh, -⟩ := evaluate_any (dev := dev) (circ := circ) ho hlen
  refine ⟨by rw [e2]; exact h.1, fun x hx => ?_⟩
  rw [e1] at hx
  rcases mem_dictPut hx with hx | rfl
  · exact h.2 x hx
  · exact ⟨ops', hh⟩

theorem keptAny_evOne (hM : JWMapper (2 * norb) B.map) (custom : Option (List ℝ)) (det : List Char)
    (c : List (Gate (2 * norb))) (opt : ℕ) (op : Dict ℝ) : KeepsIn (KeptAny (2 * norb)) (evOne B custom det c opt op) := by
  intro q hq
  have fresh : ∀ p, KeptAny (2 * norb) (evFresh B p c op q).2 := fun p => by
    obtain ⟨h1, h2, h3, h4⟩ := evFresh_state (B := B) p c op q
    exact ⟨by rw [h4]; exact hq.1, by rw [h1]; exact hq.2⟩
  unfold evOne
  cases custom with
  | some p => exact fresh p
  | none =>
    simp only
    split_ifs
    · unfold evSaved
      cases detInt det with
      | error e => exact hq
      | ok key =>
        simp only
        cases ho : opToQbit B.map norb op with
        | error e => exact hq
        | ok obs => exact keptAny_evaluate hq _ _ _ _ fun pc hpc => ((labels_ok hM ho).2 pc hpc).1
    · exact fresh q.params

theorem reached_any (hM : JWMapper (2 * norb) B.map) {q : QI} (h : B.Reached q) : KeptAny (2 * norb) q := by
  obtain ⟨v2, mx, s, f, np, q0, ops, hi, hops, rfl⟩ := h
  obtain ⟨h1, h2, -, -⟩ := init_inv hi
  suffices ∀ ops : List BenchOp, (∀ op ∈ ops, op.Full norb) → ∀ q, KeptAny (2 * norb) q →
      KeptAny (2 * norb) (ops.foldl (BenchOp.run B) q) from this ops hops q0 ⟨h1, by rw [h2]; simp⟩
  intro ops
  induction ops with
  | nil => intro _ q h; exact h
  | cons op ops ih =>
    intro hops q hq
    refine ih (fun o ho => hops o (by simp [ho])) _ ?_
    cases op with
    | shots s =>
      obtain ⟨e1, e2⟩ := setShots_saver q s
      exact ⟨e2, by change ∀ e ∈ (q.setShots s).2.saver, _; rw [e1]; simp⟩
    | max m =>
      obtain ⟨e1, e2⟩ := setMax_saver q hq.1 m
      exact ⟨e2, by change ∀ e ∈ (q.setMax m).2.saver, _; rw [e1]; simp⟩
    | params p =>
      change KeptAny (2 * norb) (q.setParams p).2
      unfold QI.setParams
      by_cases hl : p.length ≠ q.numParams
      · rw [if_pos hl]; exact hq
      · rw [if_neg hl]
        by_cases hp : q.params ≠ p
        · simp only [if_pos hp]
          exact ⟨hq.1, by simp⟩
        · rw [ne_eq, not_not] at hp
          subst hp
          simp only [ne_eq, not_true_eq_false, if_false]
          exact hq
    | flags kw => exact hq
    | redoM => exact hq
    | expectation custom op => exact keptAny_evOne hM custom _ _ 1 op q hq
    | labels obs =>
      obtain ⟨f1, f2⟩ : obs ≠ [] ∧ ∀ pc ∈ obs, PauliLabel (2 * norb) pc.1 := hops (.labels obs) (by simp)
      change KeptAny (2 * norb) (evLabels B (defaultDet norb B.numElec) B.state 1 obs q).2
      unfold evLabels
      cases detInt (defaultDet norb B.numElec) with
      | error e => exact hq
      | ok key => exact keptAny_evaluate hq _ _ _ _ fun pc hpc => (f2 pc hpc).1
    | csfs custom opt rev bra op ket =>
      exact keepsIn_csfs (P := fun _ => True) custom opt rev (fun _ _ => trivial) (fun _ _ => trivial) op
        (fun d c _ _ => keptAny_evOne hM custom _ _ 1 op) (fun d d' c o _ _ _ => keptAny_evOne hM custom _ _ o op) q hq

/-! ### The labels collected -/

variable {tiny : ℝ → Bool} {ci : CIInfo} {order : List (List Char) → List (List Char)} {k : ℕ}

theorem mapM_ok_mem {α β : Type} {f : α → Res β} {l : List α} {bs : List β} (h : l.mapM f = .ok bs) :
    (∀ a ∈ l, ∃ b ∈ bs, f a = .ok b) ∧ ∀ b ∈ bs, ∃ a ∈ l, f a = .ok b := by
  induction l generalizing bs with
  | nil => cases h; simp
  | cons a l ih =>
    rw [List.mapM_cons] at h
    cases e : f a with
    | error er => rw [e] at h; cases h
    | ok b =>
      rw [e, ok_bind] at h
      cases e2 : l.mapM f with
      | error er => rw [e2] at h; cases h
      | ok bs' =>
        rw [e2, ok_bind] at h
        cases h
        obtain ⟨i1, i2⟩ := ih e2
        constructor
        · intro x hx
          rcases List.mem_cons.1 hx with rfl | hx
          · exact ⟨b, by simp, e⟩
          · obtain ⟨y, h1, h2⟩ := i1 x hx
            exact ⟨y, by simp [h1], h2⟩
        · intro y hy
          rcases List.mem_cons.1 hy with rfl | hy
          · exact ⟨a, by simp, e⟩
          · obtain ⟨x, h1, h2⟩ := i2 y hy
            exact ⟨x, by simp [h1], h2⟩

theorem precalcLabels_ok {l : List (ℕ × ℕ)} {ps : List (List Char)} (h : precalcLabels B tiny ci l = .ok ps) :
    ∃ A obs, listOp tiny l = .ok A ∧ opToQbit B.map norb (getFolded ci.nI ci.nA ci.nV A) = .ok obs ∧ ps = obs.map Prod.fst := by
  unfold precalcLabels at h
  cases e1 : listOp tiny l with
  | error er => rw [e1] at h; cases h
  | ok A =>
    rw [e1, ok_bind] at h
    cases e2 : opToQbit B.map norb (getFolded ci.nI ci.nA ci.nV A) with
    | error er => rw [e2] at h; cases h
    | ok obs =>
      rw [e2, ok_bind] at h
      cases h
      exact ⟨A, obs, rfl, e2, rfl⟩

/-- The observable of `precalc_rdm_paulis`. -/
theorem precalc_labels (hM : JWMapper (2 * norb) B.map) (ho : SetOrder order) {ls : List (List (List Char))}
    (h : (precalcIter ci.nI ci.nA k).mapM (precalcLabels B tiny ci) = .ok ls) (hne : ls ≠ []) :
    (order ls.flatten).map (fun p => ((p, 1) : List Char × ℝ)) ≠ [] ∧
      ∀ pc ∈ (order ls.flatten).map (fun p => ((p, 1) : List Char × ℝ)), PauliLabel (2 * norb) pc.1 := by
  obtain ⟨m1, m2⟩ := mapM_ok_mem h
  constructor
  · obtain ⟨ps, hps⟩ := List.exists_mem_of_ne_nil _ hne
    obtain ⟨l, -, hl⟩ := m2 ps hps
    obtain ⟨A, obs, -, e2, rfl⟩ := precalcLabels_ok hl
    have h0 := (labels_ok hM e2).1
    have h0 : obs ≠ [] := by rintro rfl; exact h0 rfl
    obtain ⟨pc, hpc⟩ := List.exists_mem_of_ne_nil _ h0
    have : pc.1 ∈ order ls.flatten := ((ho _).2 _).2 (List.mem_flatten.2 ⟨_, hps, List.mem_map_of_mem hpc⟩)
    intro hn
    rw [List.map_eq_nil_iff] at hn
    rw [hn] at this
    simp at this
  · intro pc hpc
    obtain ⟨p, hp, rfl⟩ := List.mem_map.1 hpc
    obtain ⟨ps, h1, h2⟩ := List.mem_flatten.1 (((ho _).2 _).1 hp)
    obtain ⟨l, -, hl⟩ := m2 ps h1
    obtain ⟨A, obs, -, e2, rfl⟩ := precalcLabels_ok hl
    obtain ⟨x, hx, rfl⟩ := List.mem_map.1 h2
    exact (labels_ok hM e2).2 (x.1, x.2.re) (List.mem_map.2 ⟨x, hx, rfl⟩)

end SQ
