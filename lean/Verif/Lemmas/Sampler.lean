import Verif.Spec.Sampler
import Verif.Lemmas.Interface
import Verif.Props.Interface
import Verif.Lemmas.OperatorsSem

/-! # Lemmas: values of an ideal sampler -/

namespace SQ

open Finset

theorem exact_average {n : ℕ} {head p : List Char} {ψ : QState n} {d : Distr} (hp : PauliLabel n p) (hc : Covers head p)
    (h : ExactDistr n ψ head d) : ((averageSign n p d : ℝ) : ℂ) = qinner ψ (pauliOp n p ψ) := by
  set f : ℕ → ℝ := fun b => prob (runCircuit (toCBS n head) ψ) b *
    ∏ i : Fin n, if letter p i ≠ 'I' ∧ b.testBit i = true then -1 else 1 with hf
  have e1 : averageSign n p d = ((d.map Prod.fst).map f).sum := by
    unfold averageSign
    rw [List.map_map]
    refine congrArg List.sum (List.map_congr_left fun kv hkv => ?_)
    rw [Function.comp_apply, (h.value kv hkv).2]
  have e2 : ((d.map Prod.fst).map f).sum = ∑ b ∈ (d.map Prod.fst).toFinset, f b := (List.sum_toFinset f h.nodup).symm
  have e3 : ∑ b ∈ (d.map Prod.fst).toFinset, f b = ∑ b ∈ range (2 ^ n), f b := by
    refine Finset.sum_subset (fun b hb => ?_) fun b hb hn => ?_
    · rw [List.mem_toFinset] at hb
      obtain ⟨kv, hkv, rfl⟩ := List.mem_map.1 hb
      exact mem_range.2 (h.value kv hkv).1
    · rw [hf]
      change _ * _ = _
      rw [h.rest b (mem_range.1 hb) (fun hm => hn (List.mem_toFinset.2 hm)), zero_mul]
  rw [e1, e2, e3, ← measure_expectation hp hc ψ, hf]
  push_cast
  refine sum_congr rfl fun b _ => congrArg₂ _ rfl (prod_congr rfl fun i _ => ?_)
  split_ifs <;> simp

/-! ### Nothing raises -/

/-- Every head has nothing saved, or raw data. -/
def Tot (cs : List CliqueHead) : Prop := ∀ c ∈ cs, c.data = SaverData.empty ∨ c.data.isEmpty 0 = .ok false

theorem tot_nil : Tot [] := by intro c h; simp at h

theorem Tot.isEmpty {cs : List CliqueHead} (h : Tot cs) : ∀ c ∈ cs, ∃ b, c.data.isEmpty 0 = .ok b := by
  intro c hc
  rcases h c hc with h | h
  · exact ⟨true, by rw [h]; rfl⟩
  · exact ⟨_, h⟩

theorem newHeads_total {cs : List CliqueHead} (h : ∀ c ∈ cs, ∃ b, c.data.isEmpty 0 = .ok b) : ∃ hs, newHeads cs = .ok hs := by
  induction cs with
  | nil => exact ⟨[], rfl⟩
  | cons c cs ih =>
    obtain ⟨b, hb⟩ := h c (by simp)
    obtain ⟨r, hr⟩ := ih fun x hx => h x (by simp [hx])
    unfold newHeads
    rw [hb, hr]
    exact ⟨_, rfl⟩

theorem Hist.heads {n : ℕ} {P : ℕ → List Char → Distr → Prop} {cs : List CliqueHead} {ops : List CliqueOp}
    (h : Hist n P cs ops) : HeadsInv n (ops.flatMap CliqueOp.adds) (headsOf cs) := by
  obtain ⟨h1, h2, -⟩ := h
  rw [h1]
  exact (history_inv ops h2).1

theorem HeadsInv.nodup {n : ℕ} {ad hs : List (List Char)} (h : HeadsInv n ad hs) : hs.Nodup :=
  h.clash.imp fun hc => hc.ne

theorem Tot.keeps {cs cs' : List CliqueHead} (h : ∀ c ∈ cs, c.data.isEmpty 0 = .ok false)
    (hk : List.Forall₂ KeepsData cs cs') : ∀ c ∈ cs', c.data.isEmpty 0 = .ok false := by
  induction hk with
  | nil => simp
  | @cons c c' cs cs' hc hk ih =>
    intro x hx
    rcases List.mem_cons.1 hx with rfl | hx
    · obtain ⟨d, h1, h2⟩ := isEmpty_false.1 (h c (by simp))
      exact isEmpty_false.2 ⟨d, hc.2 0 d h2 h1, h2⟩
    · exact ih (fun y hy => h y (by simp [hy])) x hx

theorem addPaulis_tot {n : ℕ} {P : ℕ → List Char → Distr → Prop} {cs : List CliqueHead} {ops : List CliqueOp}
    (h : Hist n P cs ops) (ht : Tot cs) {ps : List (List Char)} (hp : ∀ p ∈ ps, p.length = n) :
    Tot (addPaulis cs ps).2 := by
  intro c hc
  rcases (addPaulis_inv hp h.heads).2 c hc with hc | hc
  · exact ht c hc
  · exact Or.inl hc

theorem addPaulis_total {n : ℕ} {P : ℕ → List Char → Distr → Prop} {cs : List CliqueHead} {ops : List CliqueOp}
    (h : Hist n P cs ops) (ht : Tot cs) {ps : List (List Char)} (hp : ∀ p ∈ ps, p.length = n) (hne : ps ≠ []) :
    ∃ hs, (addPaulis cs ps).1 = .ok hs := by
  have h2 := addPaulis_tot h ht hp
  rw [addPaulis_eq _ _ (fun h => hne h.2)] at h2 ⊢
  exact newHeads_total h2.isEmpty

theorem measureStep_total {n : ℕ} {P : ℕ → List Char → Distr → Prop} {cs : List CliqueHead} {ops : List CliqueOp}
    (h : Hist n P cs ops) (ht : Tot cs) (dev : List Char → Distr) (hdev : ∀ hd, dev hd ≠ []) {ps : List (List Char)}
    (hp : ∀ p ∈ ps, p.length = n) (hne : ps ≠ []) : (measureStep dev cs ps).1 = .ok () := by
  obtain ⟨hs, e⟩ := addPaulis_total h ht hp hne
  have hh := (h.add hp).heads.nodup
  have hn := addPaulis_ok (cs := cs) (ps := ps) (heads := hs) (cs' := (addPaulis cs ps).2) (Prod.ext e rfl)
  unfold measureStep
  cases e' : addPaulis cs ps with
  | mk r cs' =>
    rw [e'] at e hh hn
    cases e
    simp only
    split_ifs with hx
    · obtain ⟨u1, u2, -⟩ := update_after_newHeads hh hn (ds := hs.map dev) (by simp) (by simpa using fun a _ => hdev a)
      unfold updateDistr
      cases e2 : updateAll 0 (hs.zip (hs.map dev)) cs' with
      | mk r2 cs2 =>
        rw [e2] at u1 u2
        cases u1
        exact checkAllocated_ok u2
    · rfl

theorem mitigateStep_keeps (mit : List Char → Distr → Res Distr) (m : ℕ) (cs : List CliqueHead) :
    List.Forall₂ KeepsData cs (mitigateStep mit m cs).2 := by
  unfold mitigateStep
  split
  · exact keeps_refl _
  · split_ifs
    · exact keeps_refl _
    · split
      · exact keeps_refl _
      · rw [updateDistr_snd]
        exact updateAll_keeps _ _ _

theorem valueFrom_total {n : ℕ} (hn : 0 < n) (cs : List CliqueHead) (m : ℕ) (obs : List (List Char × ℝ))
    (hp : ∀ pc ∈ obs, PauliLabel n pc.1) (hg : ∀ pc ∈ obs, ∃ d, getDistr pc.1 m cs = .ok d) :
    ∀ v0 : ℝ, ∃ v, obs.foldlM (fun values pc => do
      let d ← getDistr pc.1 m cs
      let result ← d.foldlM (fun r kv => do
        let s ← getBitstringSign pc.1 kv.1
        return r + kv.2 * (s : ℝ)) 0
      return values + result * pc.2) v0 = Except.ok v := by
  induction obs with
  | nil => intro v0; exact ⟨v0, rfl⟩
  | cons pc obs ih =>
    intro v0
    obtain ⟨d, hd⟩ := hg pc (by simp)
    have e := signSum hn (hp pc (by simp)) d 0
    rw [List.foldlM_cons, hd]
    simp only [ok_bind]
    rw [e]
    simp only [ok_bind, pure_bind]
    exact ih (fun x hx => hp x (by simp [hx])) (fun x hx => hg x (by simp [hx])) _

/-- The real part of the expectation value of labels with coefficients. -/
noncomputable def labelSum {n : ℕ} (ψ : QState n) (obs : List (List Char × ℝ)) : ℝ :=
  (obs.map fun pc => pc.2 * (qinner ψ (pauliOp n pc.1 ψ)).re).sum

theorem zip_sum {n : ℕ} {ψ : QState n} (obs : List (List Char × ℝ)) : ∀ ds : List Distr, ds.length = obs.length →
    (∀ x ∈ obs.zip ds, averageSign n x.1.1 x.2 = (qinner ψ (pauliOp n x.1.1 ψ)).re) →
    ((obs.zip ds).map fun x => x.1.2 * averageSign n x.1.1 x.2).sum = labelSum ψ obs := by
  induction obs with
  | nil => intro ds _ _; simp [labelSum]
  | cons pc obs ih =>
    intro ds hl h
    cases ds with
    | nil => simp at hl
    | cons d ds =>
      have h1 := h (pc, d) (by simp)
      have h2 := ih ds (by simpa using hl) (fun x hx => h x (by simp [hx]))
      unfold labelSum at h2 ⊢
      rw [List.zip_cons_cons, List.map_cons, List.sum_cons, List.map_cons, List.sum_cons, h2, h1]

/-- Raw data are exact. -/
def Ex {n : ℕ} (ψ : QState n) (m : ℕ) (head : List Char) (d : Distr) : Prop := m = 0 → ExactDistr n ψ head d

theorem value_exact {n : ℕ} (hn : 0 < n) {ψ : QState n} {cs : List CliqueHead} {ops : List CliqueOp}
    (h : Hist n (Ex ψ) cs ops) (hfull : ∀ c ∈ cs, c.data.isEmpty 0 = .ok false) {obs : List (List Char × ℝ)}
    (hp : ∀ pc ∈ obs, PauliLabel n pc.1) (hadd : CliqueOp.add (obs.map Prod.fst) ∈ ops) :
    valueFrom cs 0 obs = .ok (labelSum ψ obs) := by
  have hheads := h.heads
  obtain ⟨h1, h2, h3⟩ := h
  have hg : ∀ pc ∈ obs, ∃ d, getDistr pc.1 0 cs = .ok d := by
    intro pc hpc
    obtain ⟨c, hc, -, -, hr⟩ := read_located cs (hheads.found pc.1
      (List.mem_flatMap.2 ⟨_, hadd, List.mem_map_of_mem hpc⟩))
    exact (hr 0).2 (hfull c hc)
  obtain ⟨v, hv⟩ := valueFrom_total hn cs 0 obs hp hg 0
  obtain ⟨ds, d1, d2, d3⟩ := valueFrom_ok hn cs 0 obs hp 0 v hv
  unfold valueFrom
  rw [hv, d3, zero_add, zip_sum obs ds d1]
  intro x hx
  have hxm : x.1 ∈ obs := (List.of_mem_zip (a := x.1) (b := x.2) hx).1
  obtain ⟨-, -, hloc⟩ := C46_history ops h2
  obtain ⟨head, -, hcov, -, hget⟩ := hloc _ hadd x.1.1 (List.mem_map_of_mem hxm)
  rw [← h1] at hget
  obtain ⟨-, op', ho, hgv⟩ := hget 0 x.2 (d2 x hx)
  have := exact_average (hp _ hxm) hcov (h3 op' ho _ _ _ hgv rfl)
  rw [← this, Complex.ofReal_re]

/-! ### One evaluation -/

variable {C : Type}

theorem disabled {f : Flags} (h : f.isEnabled = false) : f.toInt = 0 := by
  unfold Flags.isEnabled at h
  split_ifs at h with h0
  exact h0

theorem evaluate_exact {n : ℕ} (hn : 0 < n) {dev : Device C} {c : C} {q : QI} {key opt : ℕ} {ψ : QState n}
    {ops : List CliqueOp} (h : Hist n (Ex ψ) (q.entry key opt) ops) (ht : Tot (q.entry key opt))
    (hdev : ∀ hd, ExactDistr n ψ hd (dev.measure q.run (q.setting c) hd)) {obs : List (List Char × ℝ)}
    (hp : ∀ pc ∈ obs, PauliLabel n pc.1) (hne : obs ≠ []) :
    ∃ r q' cs, q.evaluate dev (fun _ _ => c) key opt obs = (r, q') ∧ q'.saver = dictPut q.saver key (opt, cs) ∧
      q'.params = q.params ∧ q'.flags = q.flags ∧ q'.shots = q.shots ∧ (∃ ops', Hist n (Ex ψ) cs ops') ∧ Tot cs ∧
      (q.flags.isEnabled = false → r = .ok (labelSum ψ obs)) := by
  have hlen : ∀ p ∈ obs.map Prod.fst, p.length = n := by
    intro p hp'
    obtain ⟨pc, h1, rfl⟩ := List.mem_map.1 hp'
    exact (hp pc h1).1
  obtain ⟨⟨ops1, hh1, hadd1⟩, hfull⟩ := measureStep_hist h (dev.measure q.run (q.setting c)) (fun hd _ => hdev hd) hlen
  have hok := measureStep_total h ht (dev.measure q.run (q.setting c)) (fun hd => (hdev hd).nonempty) hlen (by simpa using hne)
  have hfull := hfull hok
  unfold QI.evaluate
  simp only
  cases e : measureStep (dev.measure q.run (q.setting c)) (q.entry key opt) (obs.map Prod.fst) with
  | mk r cs =>
    rw [e] at hh1 hfull hok
    cases hok
    simp only
    by_cases hen : q.flags.isEnabled = true
    · rw [if_pos hen]
      have key : ∀ (q1 : QI) (M : ℕ × ℕ), q1.saver = q.saver → q1.params = q.params → q1.flags = q.flags → q1.shots = q.shots →
          ∃ r q' cs', (match mitigateStep (dev.mitigate M q.flags.toInt c) q.flags.toInt cs with
            | (.error e, cs) => ((.error e : Res ℝ), { q1 with saver := dictPut q1.saver key (opt, cs), run := q1.run + 1 })
            | (.ok (), cs) => (valueFrom cs q.flags.toInt obs, { q1 with saver := dictPut q1.saver key (opt, cs), run := q1.run + 1 }))
              = (r, q') ∧ q'.saver = dictPut q.saver key (opt, cs') ∧
            q'.params = q.params ∧ q'.flags = q.flags ∧ q'.shots = q.shots ∧ (∃ ops', Hist n (Ex ψ) cs' ops') ∧ Tot cs' ∧
            (q.flags.isEnabled = false → r = .ok (labelSum ψ obs)) := by
        intro q1 M e1 e2 e3 e4
        obtain ⟨ops2, hh2, -⟩ := mitigateStep_hist hh1 hfull (dev.mitigate M q.flags.toInt c) (m := q.flags.toInt)
          (fun hd raw d _ _ h0 => absurd h0 (toInt_ne hen))
        have hk := Tot.keeps hfull (mitigateStep_keeps (dev.mitigate M q.flags.toInt c) q.flags.toInt cs)
        cases e5 : mitigateStep (dev.mitigate M q.flags.toInt c) q.flags.toInt cs with
        | mk r2 cs2 =>
          rw [e5] at hh2 hk
          cases r2 with
          | error er => exact ⟨_, _, cs2, rfl, by rw [← e1], e2, e3, e4, ⟨ops2, hh2⟩, fun c hc => Or.inr (hk c hc),
              fun hf => by rw [hen] at hf; cases hf⟩
          | ok u => exact ⟨_, _, cs2, rfl, by rw [← e1], e2, e3, e4, ⟨ops2, hh2⟩, fun c hc => Or.inr (hk c hc),
              fun hf => by rw [hen] at hf; cases hf⟩
      split_ifs
      · exact key { q with minv := some (q.minv.getD (q.run, q.flags.toInt)) } _ rfl rfl rfl rfl
      · exact key q _ rfl rfl rfl rfl
    · rw [if_neg hen]
      exact ⟨_, _, cs, rfl, rfl, rfl, rfl, rfl, ⟨ops1, hh1⟩, fun c hc => Or.inr (hfull c hc),
        fun _ => value_exact hn hh1 hfull hp hadd1⟩

end SQ
