import Verif.Lemmas.Variance
import Verif.Props.Cliques

/-! # C75, C76: pooled runs and variances -/

namespace SQ

/-! ### C75 -/

/-- C75: the distribution returned for a circuit that was run several times averages the runs: for every
quantity `f` of the outcome. -/
theorem C75_average (length : ℕ) (runs : List (List Distr)) (hr : runs ≠ []) (hlen : ∀ run ∈ runs, run.length = length)
    (hn : ∀ run ∈ runs, ∀ d ∈ run, (d.map Prod.fst).Nodup) :
    (poolRuns runs.length length runs.flatten).length = length ∧
    ∀ (j : ℕ) (d : Distr), (poolRuns runs.length length runs.flatten)[j]? = some d → (d.map Prod.fst).Nodup ∧
      ∀ f, expect d f = (runs.map fun run => expect ((run[j]?).getD []) f).sum / runs.length := by
  cases runs with
  | nil => exact absurd rfl hr
  | cons run runs =>
    have hrun := hlen run (by simp)
    unfold poolRuns
    by_cases h1 : (run :: runs).length = 1
    · rw [if_pos h1]
      have : runs = [] := by simpa using h1
      subst this
      rw [List.flatten_cons, List.flatten_nil, List.append_nil]
      refine ⟨hrun, fun j d hd => ⟨hn run (by simp) d (List.mem_of_getElem? hd), fun f => ?_⟩⟩
      simp [hd]
    · rw [if_neg h1]
      have e1 : (run :: runs).flatten.take length = run := by rw [List.flatten_cons, ← hrun, List.take_left]
      have e2 : (run :: runs).flatten.drop length = runs.flatten := by rw [List.flatten_cons, ← hrun, List.drop_left]
      have e3 := pool_chunks length runs run 0 hrun fun x hx => hlen x (by simp [hx])
      rw [zero_mul] at e3
      simp only
      rw [e1, e2, e3]
      obtain ⟨p1, p2⟩ := pool_fold length runs run hrun (fun x hx => hlen x (by simp [hx])) fun d hd => hn run (by simp) d hd
      refine ⟨by rw [List.length_map]; exact p1, fun j d hd => ?_⟩
      rw [List.getElem?_map] at hd
      obtain ⟨d', h2, rfl⟩ := Option.map_eq_some_iff.1 hd
      obtain ⟨q1, q2⟩ := p2 j d' h2
      refine ⟨by rw [List.map_map]; exact q1, fun f => ?_⟩
      rw [expect_div, q2 f, List.map_cons, List.sum_cons]

/-- C75: with counts from a sampler, the pooled distribution has the relative frequencies of all shots
together. -/
theorem C75_counts (length shots : ℕ) (runs : List (List (List (ℕ × ℕ)))) (hr : runs ≠ [])
    (hlen : ∀ run ∈ runs, run.length = length) (hn : ∀ run ∈ runs, ∀ c ∈ run, (c.map Prod.fst).Nodup) (j : ℕ) (d : Distr)
    (hd : (poolRuns runs.length length ((runs.map fun run => run.map (countsToDistr shots)).flatten))[j]? = some d)
    (f : ℕ → ℝ) :
    expect d f = (runs.map fun run => (((run[j]?).getD []).map fun kc : ℕ × ℕ => (kc.2 : ℝ) * f kc.1).sum).sum /
      (runs.length * shots : ℕ) := by
  have := (C75_average length (runs.map fun run => run.map (countsToDistr shots)) (by simpa using hr)
    (by intro run h; obtain ⟨r, h', rfl⟩ := List.mem_map.1 h; rw [List.length_map]; exact hlen r h')
    (by
      intro run h d hd
      obtain ⟨r, h', rfl⟩ := List.mem_map.1 h
      obtain ⟨c, hc, rfl⟩ := List.mem_map.1 hd
      unfold countsToDistr
      rw [List.map_map]
      exact hn r h' c hc)).2 j d (by rw [List.length_map]; exact hd)
  rw [this.2 f, List.length_map, List.map_map]
  have e : ∀ c : List (ℕ × ℕ), expect (countsToDistr shots c) f = (c.map fun kc : ℕ × ℕ => (kc.2 : ℝ) * f kc.1).sum / shots := by
    intro c
    induction c with
    | nil => simp [countsToDistr, expect]
    | cons kc c ih =>
      have : countsToDistr shots (kc :: c) = (kc.1, (kc.2 : ℝ) / shots) :: countsToDistr shots c := rfl
      rw [this, expect_cons, ih, List.map_cons, List.sum_cons]
      ring
  have e2 : ∀ run : List (List (ℕ × ℕ)), expect (((run.map (countsToDistr shots))[j]?).getD []) f =
      (((run[j]?).getD []).map fun kc : ℕ × ℕ => (kc.2 : ℝ) * f kc.1).sum / shots := by
    intro run
    rw [List.getElem?_map]
    cases run[j]? with
    | none => simp [expect]
    | some c => exact e c
  have e3 : ∀ l : List (List (List (ℕ × ℕ))), (l.map ((fun run => expect ((run[j]?).getD []) f) ∘ fun run => run.map (countsToDistr shots))).sum =
      (l.map fun run => (((run[j]?).getD []).map fun kc : ℕ × ℕ => (kc.2 : ℝ) * f kc.1).sum).sum / shots := by
    intro l
    induction l with
    | nil => simp
    | cons r l ih =>
      rw [List.map_cons, List.sum_cons, List.map_cons, List.sum_cons, ih, Function.comp_apply, e2]
      ring
  rw [e3, Nat.cast_mul, div_div, mul_comm (shots : ℝ)]

/-- Two runs of one circuit, 10 shots each: outcome 0 was seen 7 + 5 times, outcome 1 3 times, outcome 2 5 times. -/
example : poolRuns 2 1 [countsToDistr 10 [(0, 7), (1, 3)], countsToDistr 10 [(2, 5), (0, 5)]] =
    [[(0, 12 / 20), (1, 3 / 20), (2, 5 / 20)]] := by
  simp [poolRuns, countsToDistr, addDistr, dictPut, List.zipIdx, List.lookup, List.modify]
  norm_num

/-! ### C76 -/

theorem independent_spec {n : ℕ} (hn : 0 < n) (dist : List Char → Res Distr) (noCoeffs : Bool) :
    ∀ (obs : List (List Char × ℝ)), (∀ pc ∈ obs, PauliLabel n pc.1) →
    (∀ pc ∈ obs, ∀ d, dist pc.1 = .ok d → IsProb d) → ∀ r v : ℝ,
    obs.foldlM (fun result pc => do
      let c : ℝ := if noCoeffs then 1 else pc.2
      let d ← dist pc.1
      let p1 ← probOne pc.1 d
      return result + 4 * c ^ 2 * (p1 - p1 ^ 2)) r = Except.ok v →
    ∃ ds : List Distr, ds.length = obs.length ∧ (∀ x ∈ obs.zip ds, dist x.1.1 = .ok x.2) ∧
      v = r + ((obs.zip ds).map fun x => (if noCoeffs then 1 else x.1.2) ^ 2 * variance x.2 (pauliSign n x.1.1)).sum := by
  intro obs
  induction obs with
  | nil => intro _ _ r v h; cases h; exact ⟨[], rfl, by simp, by simp⟩
  | cons pc obs ih =>
    intro hp hprob r v h
    rw [List.foldlM_cons] at h
    cases hd : dist pc.1 with
    | error e => simp only [hd] at h; cases h
    | ok d =>
      have e := probOne_eq (hp pc (by simp)) hn d
      simp only [hd] at h
      change (do
        let r1 ← (do
          let p1 ← probOne pc.1 d
          (pure (r + 4 * (if noCoeffs = true then (1 : ℝ) else pc.2) ^ 2 * (p1 - p1 ^ 2)) : Res ℝ))
        _) = _ at h
      rw [e] at h
      obtain ⟨ds, h1, h2, h3⟩ := ih (fun x hx => hp x (by simp [hx])) (fun x hx => hprob x (by simp [hx])) _ _ h
      refine ⟨d :: ds, by simp [h1], ?_, ?_⟩
      · intro x hx
        rw [List.zip_cons_cons] at hx
        rcases List.mem_cons.1 hx with rfl | hx
        · exact hd
        · exact h2 x hx
      · rw [h3, List.zip_cons_cons, List.map_cons, List.sum_cons]
        have := four_p1 (n := n) (p := pc.1) (hprob pc (by simp) d hd).2
        simp only
        rw [← this]
        ring

/-- C76, `do_cliques=False`: the sum of the squared coefficients times the variances of the labels, each
measured on its own, over the number of shots. -/
theorem C76_separate {n : ℕ} (hn : 0 < n) (q : QI) (measure : List Char → Distr) (key s : ℕ) (hs : q.shots = some (some s))
    (h0 : 0 < s) (noCoeffs noCorr : Bool) (obs : List (List Char × ℝ)) (hp : ∀ pc ∈ obs, PauliLabel n pc.1)
    (hprob : ∀ p, IsProb (measure p)) :
    q.variance measure key false noCoeffs noCorr obs =
      .ok ((obs.map fun pc => (if noCoeffs then 1 else pc.2) ^ 2 * variance (measure pc.1) (pauliSign n pc.1)).sum / s) := by
  have hok : ∀ (obs : List (List Char × ℝ)), (∀ pc ∈ obs, PauliLabel n pc.1) → ∀ r : ℝ, obs.foldlM (fun result pc => do
      let c : ℝ := if noCoeffs then 1 else pc.2
      let d ← (Except.ok (measure pc.1) : Res Distr)
      let p1 ← probOne pc.1 d
      return result + 4 * c ^ 2 * (p1 - p1 ^ 2)) r =
      Except.ok (r + (obs.map fun pc => (if noCoeffs then 1 else pc.2) ^ 2 * variance (measure pc.1) (pauliSign n pc.1)).sum) := by
    intro obs
    induction obs with
    | nil => intro _ r; simp [pure, Except.pure]
    | cons pc obs ih =>
      intro hp r
      rw [List.foldlM_cons]
      have e := probOne_eq (hp pc (by simp)) hn (measure pc.1)
      change (do
        let r1 ← (do
          let p1 ← probOne pc.1 (measure pc.1)
          (pure (r + 4 * (if noCoeffs = true then (1 : ℝ) else pc.2) ^ 2 * (p1 - p1 ^ 2)) : Res ℝ))
        _) = _
      rw [e]
      refine (ih (fun x hx => hp x (by simp [hx])) _).trans ?_
      rw [List.map_cons, List.sum_cons, ← four_p1 (n := n) (p := pc.1) (hprob pc.1).2]
      congr 1
      ring
  unfold QI.variance varIndependent
  have := hok obs hp 0
  rw [zero_add] at this
  simp only [Bool.false_eq_true, not_false_eq_true, if_true]
  rw [this, hs]
  obtain ⟨t, rfl⟩ : ∃ t, s = t + 1 := ⟨s - 1, by omega⟩
  rfl

theorem partValue_cons {n : ℕ} {obs : List (List Char × ℝ)} (hnd : (obs.map Prod.fst).Nodup) {pc : List Char × ℝ}
    (hpc : pc ∈ obs) {ps : List (List Char)} (hnot : pc.1 ∉ ps) (b : ℕ) :
    partValue n obs (pc.1 :: ps) b = pc.2 * pauliSign n pc.1 b + partValue n obs ps b := by
  unfold partValue
  induction obs with
  | nil => simp at hpc
  | cons o obs iho =>
    rw [List.map_cons, List.nodup_cons] at hnd
    rw [List.map_cons, List.sum_cons, List.map_cons, List.sum_cons]
    rcases List.mem_cons.1 hpc with rfl | hpc
    · rw [if_pos (by simp), if_neg hnot, zero_add]
      congr 2
      refine List.map_congr_left fun x hx => ?_
      have hne : x.1 ≠ pc.1 := fun e => hnd.1 (e ▸ List.mem_map_of_mem hx)
      simp [hne]
    · rw [iho hnd.2 hpc]
      have hne : o.1 ≠ pc.1 := fun e => hnd.1 (by rw [e]; exact List.mem_map_of_mem hpc)
      have : (if o.1 ∈ pc.1 :: ps then o.2 * pauliSign n o.1 b else 0) = if o.1 ∈ ps then o.2 * pauliSign n o.1 b else 0 := by
        simp [hne]
      rw [this]; ring

theorem groupVar_eq {n : ℕ} (hn : 0 < n) {obs : List (List Char × ℝ)} (hnd : (obs.map Prod.fst).Nodup)
    (hp : ∀ pc ∈ obs, PauliLabel n pc.1) (b : ℕ) {ps : List (List Char)} (hps : ps.Nodup)
    (hsub : ∀ p ∈ ps, p ∈ obs.map Prod.fst) : groupVar obs ps b = .ok (partValue n obs ps b) := by
  have hco : ∀ pc ∈ obs, coeffOf obs pc.1 = .ok pc.2 := by
    intro pc hpc
    unfold coeffOf
    have : obs.reverse.lookup pc.1 = some pc.2 := by
      rw [List.lookup_eq_some_iff]
      obtain ⟨l1, l2, h⟩ := List.append_of_mem (List.mem_reverse.2 hpc)
      refine ⟨l1, l2, h, fun p hp => ?_⟩
      have hnd' : (obs.reverse.map Prod.fst).Nodup := by rw [List.map_reverse]; exact List.nodup_reverse.2 hnd
      rw [h, List.map_append, List.map_cons, List.nodup_append] at hnd'
      have := hnd'.2.2 p.1 (List.mem_map_of_mem hp) pc.1 (by simp)
      simpa using fun e => this e.symm
    rw [this]
  have key : ∀ (ps : List (List Char)), ps.Nodup → (∀ p ∈ ps, p ∈ obs.map Prod.fst) → ∀ r : ℝ, ps.foldlM (fun g p => do
      let c ← coeffOf obs p
      let s ← getBitstringSign p b
      return g + c * (s : ℝ)) r = Except.ok (r + partValue n obs ps b) := by
    intro ps
    induction ps with
    | nil =>
      intro _ _ r
      have : partValue n obs [] b = 0 := by unfold partValue; simp
      rw [this, add_zero]; rfl
    | cons p ps ih =>
      intro hnd' hsub r
      obtain ⟨pc, hpc, rfl⟩ := List.mem_map.1 (hsub p (by simp))
      obtain ⟨s, h1, h2, -⟩ := sign_real (hp pc hpc) hn b
      rw [List.foldlM_cons, hco pc hpc]
      change (do
        let r1 ← (do
          let s ← getBitstringSign pc.1 b
          (pure (r + pc.2 * (s : ℝ)) : Res ℝ))
        _) = _
      rw [h1]
      rw [List.nodup_cons] at hnd'
      refine (ih hnd'.2 (fun x hx => hsub x (by simp [hx])) _).trans ?_
      have split := partValue_cons (n := n) hnd hpc hnd'.1 b
      rw [split, ← h2]
      congr 1
      ring
  have := key ps hps hsub 0
  rw [zero_add] at this
  exact this

theorem groupSums_eq {obs : List (List Char × ℝ)} {ps : List (List Char)} {X : ℕ → ℝ} (hX : ∀ b, groupVar obs ps b = .ok (X b)) :
    ∀ (d : Distr) (a : ℝ × ℝ), d.foldlM (fun (acc : ℝ × ℝ) kv => do
      let v ← groupVar obs ps kv.1
      return (acc.1 + kv.2 * v, acc.2 + kv.2 * v ^ 2)) a =
      Except.ok (a.1 + expect d X, a.2 + expect d fun b => X b ^ 2) := by
  intro d
  induction d with
  | nil => intro a; simp [expect, pure, Except.pure]
  | cons kv d ih =>
    intro a
    rw [List.foldlM_cons, hX]
    refine (ih _).trans ?_
    rw [expect_cons, expect_cons]
    simp only [add_assoc]

theorem distrOfHead_mem {head : List Char} {m : ℕ} {cs : List CliqueHead} {d : Distr} (h : distrOfHead head m cs = .ok d) :
    ∃ c ∈ cs, c.head = head ∧ c.data.lookup m = some d := by
  induction cs with
  | nil => cases h
  | cons c cs ih =>
    unfold distrOfHead at h
    split_ifs at h with hc
    · refine ⟨c, by simp, hc, ?_⟩
      unfold SaverData.get at h
      split at h
      · cases h
      · next e => cases h; exact e
    · obtain ⟨c', h1, h2⟩ := ih h
      exact ⟨c', by simp [h1], h2⟩

/-- C76, default options: the labels fall into groups measured together, and the result is the sum over
the groups of the variance of the part of the observable in the group, over the number of shots; it is
not negative. -/
theorem C76_groups {n : ℕ} (hn : 0 < n) (q : QI) (measure : List Char → Distr) (key opt s : ℕ) (hs : q.shots = some (some s))
    (ops : List CliqueOp) (hlen : ∀ op ∈ ops, ∀ p ∈ op.adds, p.length = n)
    (hsave : q.saver.lookup key = some (opt, ops.foldl CliqueOp.run [])) (obs : List (List Char × ℝ))
    (hp : ∀ pc ∈ obs, PauliLabel n pc.1) (hnd : (obs.map Prod.fst).Nodup) (hadd : ∀ pc ∈ obs, ∃ op ∈ ops, pc.1 ∈ op.adds)
    (hprob : ∀ c ∈ ops.foldl CliqueOp.run [], ∀ d, c.data.lookup q.flags.toInt = some d → d ≠ [] → IsProb d)
    (noCoeffs : Bool) (v : ℝ) (hv : q.variance measure key true noCoeffs false obs = .ok v) :
    (∃ gs : List ((List Char × List (List Char)) × Distr),
      (gs.flatMap fun g => g.1.2).Perm (obs.map Prod.fst) ∧
      (∀ g ∈ gs, (∀ p ∈ g.1.2, Covers g.1.1 p) ∧ ∃ c ∈ ops.foldl CliqueOp.run [], c.head = g.1.1 ∧
        c.data.lookup q.flags.toInt = some g.2) ∧
      v = (gs.map fun g => variance g.2 (partValue n obs g.1.2)).sum / s) ∧ 0 ≤ v := by
  obtain ⟨groups, g1, g2, g3, g4⟩ := C46_groups ops hlen (obs.map Prod.fst) (by
    intro p hp'
    obtain ⟨pc, h, rfl⟩ := List.mem_map.1 hp'
    exact hadd pc h)
  set cs := ops.foldl CliqueOp.run [] with hcs
  have hgnd : ∀ g ∈ groups, g.2.Nodup ∧ ∀ p ∈ g.2, p ∈ obs.map Prod.fst := by
    intro g hg
    have hall : (groups.flatMap Prod.snd).Nodup := g2.nodup_iff.2 hnd
    refine ⟨(List.nodup_flatMap.1 hall).1 g hg, fun p hp' => ?_⟩
    exact g2.mem_iff.1 (List.mem_flatMap.2 ⟨g, hg, hp'⟩)
  have fold : ∀ (groups : List (List Char × List (List Char))), (∀ g ∈ groups, g.2.Nodup ∧ ∀ p ∈ g.2, p ∈ obs.map Prod.fst) →
      ∀ r w : ℝ, groups.foldlM (fun result g => do
        let d ← distrOfHead g.1 q.flags.toInt cs
        let mean ← d.foldlM (fun (acc : ℝ × ℝ) kv => do
          let v ← groupVar obs g.2 kv.1
          return (acc.1 + kv.2 * v, acc.2 + kv.2 * v ^ 2)) (0, 0)
        return result + (mean.2 - mean.1 ^ 2)) r = Except.ok w →
      ∃ gs : List ((List Char × List (List Char)) × Distr), gs.map Prod.fst = groups ∧
        (∀ g ∈ gs, ∃ c ∈ cs, c.head = g.1.1 ∧ c.data.lookup q.flags.toInt = some g.2) ∧
        w = r + (gs.map fun g => variance g.2 (partValue n obs g.1.2)).sum := by
    intro groups
    induction groups with
    | nil => intro _ r w h; cases h; exact ⟨[], rfl, by simp, by simp⟩
    | cons g groups ih =>
      intro hg r w h
      rw [List.foldlM_cons] at h
      cases hd : distrOfHead g.1 q.flags.toInt cs with
      | error e => rw [hd] at h; cases h
      | ok d =>
        rw [hd] at h
        have hX := fun b => groupVar_eq hn hnd hp b (hg g (by simp)).1 (hg g (by simp)).2
        have e := groupSums_eq hX d (0, 0)
        change (do
          let r1 ← (do
            let mean ← d.foldlM (m := Except PyErr) (fun (acc : ℝ × ℝ) (kv : ℕ × ℝ) => do
              let v ← groupVar obs g.2 kv.1
              return (acc.1 + kv.2 * v, acc.2 + kv.2 * v ^ 2)) (0, 0)
            (pure (r + (mean.2 - mean.1 ^ 2)) : Res ℝ))
          _) = _ at h
        rw [e] at h
        obtain ⟨gs, h1, h2, h3⟩ := ih (fun x hx => hg x (by simp [hx])) _ _ h
        obtain ⟨c, c1, c2, c3⟩ := distrOfHead_mem hd
        refine ⟨(g, d) :: gs, by simp [h1], ?_, ?_⟩
        · intro x hx
          rcases List.mem_cons.1 hx with rfl | hx
          · exact ⟨c, c1, c2, c3⟩
          · exact h2 x hx
        · rw [h3, List.map_cons, List.sum_cons]
          simp only [zero_add]
          have : expect d (fun b => partValue n obs g.2 b ^ 2) - expect d (partValue n obs g.2) ^ 2 =
              variance d (partValue n obs g.2) := by
            by_cases hne : d = []
            · subst hne; simp [expect, variance]
            · exact variance_eq (hprob c c1 d c3 hne).2 _
          rw [this]; ring
  unfold QI.variance at hv
  rw [hsave] at hv
  simp only [not_true_eq_false, if_false, Bool.false_eq_true, not_false_eq_true, if_true] at hv
  cases hr : varGroups cs q.flags.toInt obs with
  | error e =>
    change (do let result ← varGroups cs q.flags.toInt obs; _) = _ at hv
    rw [hr] at hv; cases hv
  | ok w =>
    change (do let result ← varGroups cs q.flags.toInt obs; _) = _ at hv
    rw [hr, hs] at hv
    have hvw : v = w / s := by
      cases s with
      | zero => cases hv
      | succ t => exact (Except.ok.inj hv).symm
    unfold varGroups at hr
    rw [g1] at hr
    obtain ⟨gs, h1, h2, h3⟩ := fold groups hgnd 0 w hr
    rw [zero_add] at h3
    have hgs : ∀ g ∈ gs, g.1 ∈ groups := fun g hg => by rw [← h1]; exact List.mem_map_of_mem hg
    refine ⟨⟨gs, ?_, fun g hg => ⟨g4 g.1 (hgs g hg), h2 g hg⟩, by rw [hvw, h3]⟩, ?_⟩
    · have : (gs.flatMap fun g => g.1.2) = groups.flatMap Prod.snd := by rw [← h1, List.flatMap_map]
      rw [this]; exact g2
    · rw [hvw, h3]
      refine div_nonneg (List.sum_nonneg fun x hx => ?_) (Nat.cast_nonneg _)
      obtain ⟨g, hg, rfl⟩ := List.mem_map.1 hx
      obtain ⟨c, c1, -, c3⟩ := h2 g hg
      by_cases hne : g.2 = []
      · rw [hne]; simp [variance, expect]
      · exact variance_nonneg (hprob c c1 g.2 c3 hne).1 _

/-- C76, `do_no_corr=True`: as with separate measurements, on the saved distributions. -/
theorem C76_uncorrelated {n : ℕ} (hn : 0 < n) (q : QI) (measure : List Char → Distr) (key opt s : ℕ)
    (hs : q.shots = some (some s)) (cs : List CliqueHead) (hsave : q.saver.lookup key = some (opt, cs)) (noCoeffs : Bool)
    (obs : List (List Char × ℝ)) (hp : ∀ pc ∈ obs, PauliLabel n pc.1)
    (hprob : ∀ p d, getDistr p q.flags.toInt cs = .ok d → IsProb d) (v : ℝ)
    (hv : q.variance measure key true noCoeffs true obs = .ok v) :
    (∃ ds : List Distr, ds.length = obs.length ∧ (∀ x ∈ obs.zip ds, getDistr x.1.1 q.flags.toInt cs = .ok x.2) ∧
      v = ((obs.zip ds).map fun x => (if noCoeffs then 1 else x.1.2) ^ 2 * variance x.2 (pauliSign n x.1.1)).sum / s) ∧ 0 ≤ v := by
  unfold QI.variance at hv
  rw [hsave] at hv
  simp only [not_true_eq_false, if_false] at hv
  cases hr : varIndependent (fun p => getDistr p q.flags.toInt cs) noCoeffs obs with
  | error e =>
    change (do let result ← varIndependent (fun p => getDistr p q.flags.toInt cs) noCoeffs obs; _) = _ at hv
    rw [hr] at hv; cases hv
  | ok w =>
    change (do let result ← varIndependent (fun p => getDistr p q.flags.toInt cs) noCoeffs obs; _) = _ at hv
    rw [hr, hs] at hv
    have hvw : v = w / s := by
      cases s with
      | zero => cases hv
      | succ t => exact (Except.ok.inj hv).symm
    obtain ⟨ds, h1, h2, h3⟩ := independent_spec hn (fun p => getDistr p q.flags.toInt cs) noCoeffs obs hp
      (fun pc _ d hd => hprob _ d hd) 0 w hr
    rw [zero_add] at h3
    refine ⟨⟨ds, h1, h2, by rw [hvw, h3]⟩, ?_⟩
    rw [hvw, h3]
    refine div_nonneg (List.sum_nonneg fun x hx => ?_) (Nat.cast_nonneg _)
    obtain ⟨g, hg, rfl⟩ := List.mem_map.1 hx
    exact mul_nonneg (sq_nonneg _) (variance_nonneg (hprob _ _ (h2 g hg)).1 _)

/-- The documented option `no_coeffs` has no effect when the labels of a group are measured together. -/
theorem C76_no_coeffs_disagree (q : QI) (measure : List Char → Distr) (key : ℕ) (obs : List (List Char × ℝ)) :
    q.variance measure key true true false obs = q.variance measure key true false false obs := rfl

/-- A fair coin: probabilities, and variance 1 of `Z`. -/
example : IsProb [(0, 1 / 2), (1, 1 / 2)] ∧ variance [(0, 1 / 2), (1, 1 / 2)] (pauliSign 1 ['Z']) = 1 := by
  refine ⟨⟨by simp, by norm_num [expect]⟩, ?_⟩
  have h0 : pauliSign 1 ['Z'] 0 = 1 := by simp [pauliSign, letter]
  have h1 : pauliSign 1 ['Z'] 1 = -1 := by simp [pauliSign, letter]
  norm_num [variance, expect, h0, h1]

end SQ
