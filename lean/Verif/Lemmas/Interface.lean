import Verif.Spec.Interface
import Verif.Lemmas.Measure
import Verif.Props.Cliques

/-! # Lemmas: saved measurements of the interface -/

namespace SQ

/-- Cliques reached by calls that only hand over data with `P`. -/
def Hist (n : ℕ) (P : ℕ → List Char → Distr → Prop) (cs : List CliqueHead) (ops : List CliqueOp) : Prop :=
  cs = ops.foldl CliqueOp.run [] ∧ (∀ op ∈ ops, ∀ p ∈ op.adds, p.length = n) ∧
    ∀ op ∈ ops, ∀ h m d, op.Gives h m d → P m h d

theorem Hist.add {n : ℕ} {P : ℕ → List Char → Distr → Prop} {cs : List CliqueHead} {ops : List CliqueOp}
    (h : Hist n P cs ops) {ps : List (List Char)} (hp : ∀ p ∈ ps, p.length = n) :
    Hist n P (addPaulis cs ps).2 (ops ++ [.add ps]) := by
  obtain ⟨h1, h2, h3⟩ := h
  refine ⟨by rw [List.foldl_append, ← h1]; rfl, fun op ho p hp' => ?_, fun op ho h m d hg => ?_⟩
  · rcases List.mem_append.1 ho with ho | ho
    · exact h2 op ho p hp'
    · rw [List.mem_singleton] at ho; subst ho; exact hp p hp'
  · rcases List.mem_append.1 ho with ho | ho
    · exact h3 op ho h m d hg
    · rw [List.mem_singleton] at ho; subst ho; exact hg.elim

theorem Hist.update {n : ℕ} {P : ℕ → List Char → Distr → Prop} {cs : List CliqueHead} {ops : List CliqueOp}
    (h : Hist n P cs ops) {hs : List (List Char)} {ds : List Distr} {m : ℕ}
    (hp : ∀ x ∈ hs.zip ds, P m x.1 x.2) :
    Hist n P (updateDistr cs hs ds m).2 (ops ++ [.update hs ds m]) := by
  obtain ⟨h1, h2, h3⟩ := h
  refine ⟨by rw [List.foldl_append, ← h1]; rfl, fun op ho p hp' => ?_, fun op ho h m' d hg => ?_⟩
  · rcases List.mem_append.1 ho with ho | ho
    · exact h2 op ho p hp'
    · rw [List.mem_singleton] at ho; subst ho; simp [CliqueOp.adds] at hp'
  · rcases List.mem_append.1 ho with ho | ho
    · exact h3 op ho h m' d hg
    · rw [List.mem_singleton] at ho; subst ho
      obtain ⟨rfl, hm⟩ := hg
      exact hp _ hm

theorem checkAllocated_full {m : ℕ} {cs : List CliqueHead} (h : checkAllocated m cs = .ok ()) :
    ∀ c ∈ cs, c.data.isEmpty m = .ok false := by
  induction cs with
  | nil => simp
  | cons c cs ih =>
    unfold checkAllocated at h
    split at h
    · cases h
    · cases h
    · next he =>
      intro x hx
      rcases List.mem_cons.1 hx with rfl | hx
      · exact he
      · exact ih h x hx

theorem newHeads_nil {cs : List CliqueHead} (h : newHeads cs = .ok []) : ∀ c ∈ cs, c.data.isEmpty 0 = .ok false := by
  induction cs with
  | nil => simp
  | cons c cs ih =>
    unfold newHeads at h
    cases he : c.data.isEmpty 0 with
    | error e => rw [he] at h; cases h
    | ok b =>
      cases hr : newHeads cs with
      | error e => rw [he, hr] at h; cases h
      | ok r =>
        rw [he, hr] at h
        have h' : (if b = true then c.head :: r else r) = [] := Except.ok.inj h
        cases b with
        | true => simp at h'
        | false =>
          simp only [Bool.false_eq_true, if_false] at h'
          subst h'
          intro x hx
          rcases List.mem_cons.1 hx with rfl | hx
          · exact he
          · exact ih hr x hx

theorem updateDistr_full {cs cs' : List CliqueHead} {hs : List (List Char)} {ds : List Distr} {m : ℕ}
    (h : updateDistr cs hs ds m = (.ok (), cs')) : ∀ c ∈ cs', c.data.isEmpty m = .ok false := by
  unfold updateDistr at h
  split at h
  · cases h
  · next cs'' _ =>
    rw [Prod.mk.injEq] at h
    obtain ⟨h1, rfl⟩ := h
    exact checkAllocated_full h1

theorem addPaulis_ok {cs : List CliqueHead} {ps heads : List (List Char)} {cs' : List CliqueHead}
    (h : addPaulis cs ps = (.ok heads, cs')) : newHeads cs' = .ok heads := by
  by_cases h0 : cs = [] ∧ ps = []
  · unfold addPaulis at h
    rw [if_pos h0] at h
    cases h
  · rw [addPaulis_eq _ _ h0] at h
    rw [Prod.mk.injEq] at h
    obtain ⟨h1, rfl⟩ := h
    exact h1

theorem measureStep_hist {n : ℕ} {P : ℕ → List Char → Distr → Prop} {cs : List CliqueHead} {ops : List CliqueOp}
    (h : Hist n P cs ops) (dev : List Char → Distr) (hdev : ∀ hd, P 0 hd (dev hd)) {ps : List (List Char)}
    (hp : ∀ p ∈ ps, p.length = n) :
    (∃ ops', Hist n P (measureStep dev cs ps).2 ops' ∧ CliqueOp.add ps ∈ ops') ∧
    ((measureStep dev cs ps).1 = .ok () → ∀ c ∈ (measureStep dev cs ps).2, c.data.isEmpty 0 = .ok false) := by
  have hadd := h.add hp
  unfold measureStep
  cases e : addPaulis cs ps with
  | mk r cs' =>
    rw [e] at hadd
    cases r with
    | error er => exact ⟨⟨_, hadd, by simp⟩, fun h => by cases h⟩
    | ok heads =>
      simp only
      split_ifs with hne
      · refine ⟨⟨_, hadd.update (hs := heads) (ds := heads.map dev) (m := 0) ?_, by simp⟩, fun hok => ?_⟩
        · rintro ⟨a, b⟩ hx
          rw [List.zip_map_right, List.mem_map] at hx
          obtain ⟨⟨a', b'⟩, hx, he⟩ := hx
          have : a' = b' := by
            have := List.mem_iff_getElem.1 hx
            obtain ⟨i, hi, hz⟩ := this
            rw [List.getElem_zip, Prod.mk.injEq] at hz
            exact hz.1.symm.trans hz.2
          subst this
          cases he
          exact hdev a'
        · exact updateDistr_full (cs := cs') (hs := heads) (ds := heads.map dev) (Prod.ext hok rfl)
      · rw [not_not] at hne
        subst hne
        exact ⟨⟨_, hadd, by simp⟩, fun _ => newHeads_nil (addPaulis_ok e)⟩

theorem emptyHeads_mem {m : ℕ} {cs : List CliqueHead} {l : List (List Char × Distr)} (h : emptyHeadsDistr m cs = .ok l) :
    ∀ x ∈ l, ∃ c ∈ cs, c.head = x.1 ∧ c.data.lookup 0 = some x.2 := by
  induction cs generalizing l with
  | nil => unfold emptyHeadsDistr at h; cases h; simp
  | cons c cs ih =>
    unfold emptyHeadsDistr at h
    cases he : c.data.isEmpty m with
    | error e => rw [he] at h; cases h
    | ok b =>
      rw [he] at h
      cases b with
      | false =>
        change emptyHeadsDistr m cs = .ok l at h
        intro x hx
        obtain ⟨c', h1, h2⟩ := ih h x hx
        exact ⟨c', by simp [h1], h2⟩
      | true =>
        cases hg : c.data.lookup 0 with
        | none =>
          change (do let raw ← c.data.get 0; _) = _ at h
          unfold SaverData.get at h
          rw [hg] at h
          cases h
        | some raw =>
          change (do let raw ← c.data.get 0; _) = _ at h
          unfold SaverData.get at h
          rw [hg] at h
          cases hr : emptyHeadsDistr m cs with
          | error e =>
            change (do let r ← emptyHeadsDistr m cs; _) = _ at h
            rw [hr] at h; cases h
          | ok r =>
            change (do let r ← emptyHeadsDistr m cs; _) = _ at h
            rw [hr] at h
            have h' : (c.head, raw) :: r = l := Except.ok.inj h
            subst h'
            intro x hx
            rcases List.mem_cons.1 hx with rfl | hx
            · exact ⟨c, by simp, rfl, hg⟩
            · obtain ⟨c', h1, h2⟩ := ih hr x hx
              exact ⟨c', by simp [h1], h2⟩

theorem mapM_zip {α β : Type} {f : α → Res β} : ∀ {l : List α} {ds : List β}, l.mapM f = .ok ds →
    ∀ x ∈ l.zip ds, f x.1 = .ok x.2 := by
  intro l
  induction l with
  | nil => intro ds h x hx; simp at hx
  | cons a l ih =>
    intro ds h x hx
    rw [List.mapM_cons] at h
    cases hf : f a with
    | error e => rw [hf] at h; cases h
    | ok b =>
      rw [hf] at h
      cases hr : l.mapM f with
      | error e =>
        change (do let bs ← l.mapM f; _) = _ at h
        rw [hr] at h; cases h
      | ok bs =>
        change (do let bs ← l.mapM f; _) = _ at h
        rw [hr] at h
        have h' : b :: bs = ds := Except.ok.inj h
        subst h'
        rw [List.zip_cons_cons] at hx
        rcases List.mem_cons.1 hx with rfl | hx
        · exact hf
        · exact ih hr x hx

theorem mitigateStep_hist {n : ℕ} {P : ℕ → List Char → Distr → Prop} {cs : List CliqueHead} {ops : List CliqueOp}
    (h : Hist n P cs ops) (hfull : ∀ c ∈ cs, c.data.isEmpty 0 = .ok false)
    (mit : List Char → Distr → Res Distr) {m : ℕ} (hmit : ∀ hd raw d, P 0 hd raw → mit hd raw = .ok d → P m hd d) :
    ∃ ops', Hist n P (mitigateStep mit m cs).2 ops' ∧ ∀ op ∈ ops, op ∈ ops' := by
  unfold mitigateStep
  cases e : emptyHeadsDistr m cs with
  | error er => exact ⟨ops, h, fun _ h => h⟩
  | ok l =>
    simp only
    split_ifs with hl
    · exact ⟨ops, h, fun _ h => h⟩
    · cases hm : l.mapM (fun hd => mit hd.1 hd.2) with
      | error er => exact ⟨ops, h, fun _ h => h⟩
      | ok ds =>
        simp only
        refine ⟨_, h.update (hs := l.map Prod.fst) (ds := ds) (m := m) ?_, fun op ho => by simp [ho]⟩
        rintro ⟨a, d⟩ hx
        rw [List.zip_map_left, List.mem_map] at hx
        obtain ⟨⟨⟨a', raw⟩, d'⟩, hx, he⟩ := hx
        cases he
        have h1 := mapM_zip hm _ hx
        obtain ⟨c, hc, hh, hlook⟩ := emptyHeads_mem e _ (List.of_mem_zip hx).1
        obtain ⟨d0, e1, e2⟩ := isEmpty_false.1 (hfull c hc)
        rw [hlook, Option.some.injEq] at e1
        subst e1
        obtain ⟨h1', h2', h3'⟩ := h
        obtain ⟨-, hd⟩ := history_inv ops h2'
        rw [← h1'] at hd
        have hmem : (0, raw) ∈ c.data := by
          obtain ⟨l1, l2, he, -⟩ := List.lookup_eq_some_iff.1 hlook
          rw [he]; simp
        obtain ⟨op, ho, hg⟩ := hd c hc 0 raw hmem e2
        have hP := h3' op ho _ _ _ hg
        rw [hh] at hP
        exact hmit _ _ _ hP h1

/-! ### Values -/

theorem signSum {n : ℕ} (hn : 0 < n) {p : List Char} (hp : PauliLabel n p) (d : Distr) (r : ℝ) :
    d.foldlM (fun r kv => do
      let s ← getBitstringSign p kv.1
      return r + kv.2 * (s : ℝ)) r = Except.ok (r + averageSign n p d) := by
  induction d generalizing r with
  | nil => simp [averageSign, pure, Except.pure]
  | cons kv d ih =>
    rw [List.foldlM_cons, sign_spec hp hn]
    refine (ih _).trans ?_
    unfold averageSign
    rw [List.map_cons, List.sum_cons, add_assoc]
    push_cast
    refine congrArg Except.ok (congrArg₂ (· + ·) rfl (congrArg₂ (· + ·) (congrArg₂ (· * ·) rfl ?_) rfl))
    refine Finset.prod_congr rfl fun i _ => ?_
    split_ifs <;> simp

theorem valueFrom_ok {n : ℕ} (hn : 0 < n) (cs : List CliqueHead) (m : ℕ) (obs : List (List Char × ℝ))
    (hp : ∀ pc ∈ obs, PauliLabel n pc.1) : ∀ (v0 v : ℝ),
    obs.foldlM (fun values pc => do
    let d ← getDistr pc.1 m cs
    let result ← d.foldlM (fun r kv => do
      let s ← getBitstringSign pc.1 kv.1
      return r + kv.2 * (s : ℝ)) 0
    return values + result * pc.2) v0 = Except.ok v →
    ∃ ds : List Distr, ds.length = obs.length ∧ (∀ x ∈ obs.zip ds, getDistr x.1.1 m cs = .ok x.2) ∧
      v = v0 + ((obs.zip ds).map fun x => x.1.2 * averageSign n x.1.1 x.2).sum := by
  induction obs with
  | nil => intro v0 v h; cases h; exact ⟨[], rfl, by simp, by simp⟩
  | cons pc obs ih =>
    intro v0 v h
    rw [List.foldlM_cons] at h
    cases hg : getDistr pc.1 m cs with
    | error e => rw [hg] at h; cases h
    | ok d =>
      rw [hg] at h
      have e := signSum hn (hp pc (by simp)) d 0
      change (do
        let v1 ← (do
          let result ← d.foldlM (m := Except PyErr) (fun (r : ℝ) (kv : ℕ × ℝ) => do
            let s ← getBitstringSign pc.1 kv.1
            return r + kv.2 * (s : ℝ)) 0
          return v0 + result * pc.2)
        _) = _ at h
      rw [e] at h
      obtain ⟨ds, h1, h2, h3⟩ := ih (fun x hx => hp x (by simp [hx])) _ _ h
      refine ⟨d :: ds, by simp [h1], ?_, ?_⟩
      · intro x hx
        rw [List.zip_cons_cons] at hx
        rcases List.mem_cons.1 hx with rfl | hx
        · exact hg
        · exact h2 x hx
      · rw [h3, List.zip_cons_cons, List.map_cons, List.sum_cons]; ring

/-! ### Histories -/

variable {C : Type}

/-- All saved data belong to the present settings. -/
def SaverInv (n : ℕ) (dev : Device C) (circ : ℕ → ℕ → C) (q : QI) : Prop :=
  q.shots ≠ none ∧ ∀ e ∈ q.saver, ∃ ops, Hist n (FromDevice dev (q.setting (circ e.1 e.2.1))) e.2.2 ops

theorem setShots_saver (q : QI) (s : Option ℕ) : (q.setShots s).2.saver = [] ∧ (q.setShots s).2.shots ≠ none := by
  unfold QI.setShots
  cases s with
  | none =>
    simp only
    split_ifs <;> simp <;> (try split_ifs) <;> simp
  | some s =>
    simp only
    split_ifs <;> simp

theorem setMax_saver (q : QI) (hq : q.shots ≠ none) (m : ℕ) : (q.setMax m).2.saver = [] ∧ (q.setMax m).2.shots ≠ none := by
  unfold QI.setMax
  cases h : q.shots with
  | none => exact absurd h hq
  | some s => simp only [h]; exact setShots_saver _ s

theorem Hist.nil (n : ℕ) (P : ℕ → List Char → Distr → Prop) : Hist n P [] [] := ⟨rfl, by simp, by simp⟩

theorem entry_hist {n : ℕ} {dev : Device C} {circ : ℕ → ℕ → C} {q : QI} (h : SaverInv n dev circ q) (key opt : ℕ) :
    ∃ ops, Hist n (FromDevice dev (q.setting (circ key opt))) (q.entry key opt) ops := by
  unfold QI.entry
  cases hl : q.saver.lookup key with
  | none => exact ⟨[], Hist.nil _ _⟩
  | some e =>
    obtain ⟨o, cs⟩ := e
    simp only
    split_ifs with ho
    · exact ⟨[], Hist.nil _ _⟩
    · rw [ne_eq, not_not] at ho
      subst ho
      have hm : (key, (o, cs)) ∈ q.saver := by
        obtain ⟨l1, l2, he, -⟩ := List.lookup_eq_some_iff.1 hl
        rw [he]; simp
      exact h.2 _ hm

theorem toInt_ne {f : Flags} (h : f.isEnabled = true) : f.toInt ≠ 0 := by
  unfold Flags.isEnabled at h
  split_ifs at h with h0
  exact h0

/-- The state after an evaluation and where its value comes from. -/
theorem evaluate_spec {n : ℕ} (hn : 0 < n) {dev : Device C} {circ : ℕ → ℕ → C} {q : QI} (h : SaverInv n dev circ q)
    (key opt : ℕ) (obs : List (List Char × ℝ)) (hp : ∀ pc ∈ obs, PauliLabel n pc.1) :
    SaverInv n dev circ (q.evaluate dev circ key opt obs).2 ∧
    ((q.evaluate dev circ key opt obs).2.params = q.params ∧ (q.evaluate dev circ key opt obs).2.flags = q.flags) ∧
    ∀ v, (q.evaluate dev circ key opt obs).1 = .ok v →
      ∃ ds : List Distr, ds.length = obs.length ∧
        (∀ x ∈ obs.zip ds, ∃ head, Covers head x.1.1 ∧
          FromDevice dev (q.setting (circ key opt)) q.flags.toInt head x.2) ∧
        v = ((obs.zip ds).map fun x => x.1.2 * averageSign n x.1.1 x.2).sum := by
  obtain ⟨ops, hh⟩ := entry_hist h key opt
  have hlen : ∀ p ∈ obs.map Prod.fst, p.length = n := by
    intro p hp'
    obtain ⟨pc, h1, rfl⟩ := List.mem_map.1 hp'
    exact (hp pc h1).1
  have hdev : ∀ hd, FromDevice dev (q.setting (circ key opt)) 0 hd (dev.measure q.run (q.setting (circ key opt)) hd) :=
    fun hd => by unfold FromDevice; rw [if_pos rfl]; exact ⟨_, rfl⟩
  obtain ⟨⟨ops1, hh1, hadd1⟩, hfull⟩ := measureStep_hist hh _ hdev hlen
  -- saving keeps the invariant
  have hput : ∀ (q' : QI) (cs : List CliqueHead) (ops' : List CliqueOp), q'.saver = q.saver → q'.shots = q.shots →
      (∀ c : C, q'.setting c = q.setting c) →
      Hist n (FromDevice dev (q.setting (circ key opt))) cs ops' →
      SaverInv n dev circ { q' with saver := dictPut q'.saver key (opt, cs), run := q'.run + 1 } := by
    intro q' cs ops' e1 e2 e3 hc
    refine ⟨by change q'.shots ≠ none; rw [e2]; exact h.1, fun e he => ?_⟩
    have hs : ∀ c : C, QI.setting { q' with saver := dictPut q'.saver key (opt, cs), run := q'.run + 1 } c = q.setting c := e3
    rw [hs]
    rcases mem_dictPut he with hx | hx
    · exact h.2 e (by rw [← e1]; exact hx)
    · rw [hx]; exact ⟨ops', hc⟩
  -- reading
  have hread : ∀ (cs : List CliqueHead) (ops' : List CliqueOp) (m : ℕ),
      Hist n (FromDevice dev (q.setting (circ key opt))) cs ops' → CliqueOp.add (obs.map Prod.fst) ∈ ops' →
      ∀ v, valueFrom cs m obs = .ok v → ∃ ds : List Distr, ds.length = obs.length ∧
        (∀ x ∈ obs.zip ds, ∃ head, Covers head x.1.1 ∧ FromDevice dev (q.setting (circ key opt)) m head x.2) ∧
        v = ((obs.zip ds).map fun x => x.1.2 * averageSign n x.1.1 x.2).sum := by
    intro cs ops' m hc ha v hv
    obtain ⟨ds, d1, d2, d3⟩ := valueFrom_ok hn cs m obs hp 0 v hv
    refine ⟨ds, d1, fun x hx => ?_, by rw [d3, zero_add]⟩
    obtain ⟨hc1, hc2, hc3⟩ := hc
    obtain ⟨-, -, hloc⟩ := C46_history ops' hc2
    have hxm : x.1.1 ∈ obs.map Prod.fst :=
      List.mem_map.2 ⟨x.1, (List.of_mem_zip (a := x.1) (b := x.2) hx).1, rfl⟩
    obtain ⟨head, -, hcov, -, hget⟩ := hloc _ ha _ hxm
    rw [← hc1] at hget
    obtain ⟨-, op', ho, hg⟩ := hget m x.2 (d2 x hx)
    exact ⟨head, hcov, hc3 op' ho _ _ _ hg⟩
  unfold QI.evaluate
  simp only
  cases e : measureStep (dev.measure q.run (q.setting (circ key opt))) (q.entry key opt) (obs.map Prod.fst) with
  | mk r cs =>
    rw [e] at hh1 hfull
    cases r with
    | error er => exact ⟨hput q cs ops1 rfl rfl (fun _ => rfl) hh1, ⟨rfl, rfl⟩, fun v hv => by cases hv⟩
    | ok u =>
      simp only
      split_ifs with hen hmm
      · -- mitigated, with a matrix
        have hmit : ∀ hd raw d, FromDevice dev (q.setting (circ key opt)) 0 hd raw →
            dev.mitigate (Option.getD (some (q.minv.getD (q.run, q.flags.toInt))) (q.run, q.flags.toInt)) q.flags.toInt (circ key opt) hd raw = .ok d →
            FromDevice dev (q.setting (circ key opt)) q.flags.toInt hd d := by
          intro hd raw d h1 h2
          unfold FromDevice at h1 ⊢
          rw [if_pos rfl] at h1
          obtain ⟨r, rfl⟩ := h1
          rw [if_neg (toInt_ne hen)]
          exact ⟨r, _, h2⟩
        obtain ⟨ops2, hh2, hsub⟩ := mitigateStep_hist hh1 (hfull rfl) _ hmit
        cases e2 : mitigateStep (dev.mitigate (Option.getD (some (q.minv.getD (q.run, q.flags.toInt))) (q.run, q.flags.toInt)) q.flags.toInt (circ key opt)) q.flags.toInt cs with
        | mk r2 cs2 =>
          rw [e2] at hh2
          cases r2 with
          | error er => exact ⟨hput { q with minv := some (q.minv.getD (q.run, q.flags.toInt)) } cs2 ops2 rfl rfl (fun _ => rfl) hh2, ⟨rfl, rfl⟩, fun v hv => by cases hv⟩
          | ok u => exact ⟨hput { q with minv := some (q.minv.getD (q.run, q.flags.toInt)) } cs2 ops2 rfl rfl (fun _ => rfl) hh2, ⟨rfl, rfl⟩,
              hread cs2 ops2 _ hh2 (hsub _ hadd1)⟩
      · have hmit : ∀ hd raw d, FromDevice dev (q.setting (circ key opt)) 0 hd raw →
            dev.mitigate (q.minv.getD (q.run, q.flags.toInt)) q.flags.toInt (circ key opt) hd raw = .ok d →
            FromDevice dev (q.setting (circ key opt)) q.flags.toInt hd d := by
          intro hd raw d h1 h2
          unfold FromDevice at h1 ⊢
          rw [if_pos rfl] at h1
          obtain ⟨r, rfl⟩ := h1
          rw [if_neg (toInt_ne hen)]
          exact ⟨r, _, h2⟩
        obtain ⟨ops2, hh2, hsub⟩ := mitigateStep_hist hh1 (hfull rfl) _ hmit
        cases e2 : mitigateStep (dev.mitigate (q.minv.getD (q.run, q.flags.toInt)) q.flags.toInt (circ key opt)) q.flags.toInt cs with
        | mk r2 cs2 =>
          rw [e2] at hh2
          cases r2 with
          | error er => exact ⟨hput q cs2 ops2 rfl rfl (fun _ => rfl) hh2, ⟨rfl, rfl⟩, fun v hv => by cases hv⟩
          | ok u => exact ⟨hput q cs2 ops2 rfl rfl (fun _ => rfl) hh2, ⟨rfl, rfl⟩,
              hread cs2 ops2 _ hh2 (hsub _ hadd1)⟩
      · have h0 : q.flags.toInt = 0 := by
          by_contra h0
          apply hen
          unfold Flags.isEnabled
          rw [if_neg h0]
        rw [h0]
        exact ⟨hput q cs ops1 rfl rfl (fun _ => rfl) hh1, ⟨rfl, rfl⟩, hread cs ops1 0 hh1 hadd1⟩

end SQ
