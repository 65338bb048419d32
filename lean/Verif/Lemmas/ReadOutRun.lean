import Verif.Lemmas.ReadOut

/-! # Lemmas: an interface with read-out errors in use -/

namespace SQ

open Finset

/-! ### Calls that keep a predicate -/

section calls

variable {norb : ℕ} {B : Bench norb} {J : QI → Prop}

def KeepsIn {α : Type} (J : QI → Prop) (m : QM α) : Prop := ∀ q, J q → J (m q).2

def GivesIn {α : Type} (J : QI → Prop) (m : QM α) (r : Res α) : Prop := ∀ q, J q → ∃ q', m q = (r, q') ∧ J q'

theorem KeepsIn.bind {α β : Type} {m : QM α} {f : α → QM β} (h1 : KeepsIn J m) (h2 : ∀ a q, (m q).1 = .ok a → KeepsIn J (f a)) :
    KeepsIn J (m >>= f) := by
  intro q hq
  have := h1 q hq
  rw [qm_bind]
  cases e : m q with
  | mk r q' =>
    rw [e] at this
    cases r with
    | ok a => exact h2 a q (by rw [e]) q' this
    | error e => exact this

theorem GivesIn.bind {α β : Type} {m : QM α} {r : Res α} {f : α → QM β} {g : α → Res β} (h1 : GivesIn J m r)
    (h2 : ∀ a, r = .ok a → GivesIn J (f a) (g a)) : GivesIn J (m >>= f) (r >>= g) := by
  intro q hq
  obtain ⟨q', e1, e2⟩ := h1 q hq
  rw [qm_bind, e1]
  cases r with
  | ok a => exact h2 a rfl q' e2
  | error e => exact ⟨q', rfl, e2⟩

theorem givesIn_pure {α : Type} (a : α) : GivesIn J (pure a) (.ok a) := fun q hq => ⟨q, rfl, hq⟩

theorem keepsIn_pure {α : Type} (a : α) : KeepsIn J (pure a) := fun _ hq => hq

theorem givesIn_lift {α : Type} (r : Res α) : GivesIn J (csfsPair.liftExcept r) r := fun q hq => ⟨q, rfl, hq⟩

theorem keepsIn_lift {α : Type} (r : Res α) : KeepsIn J (csfsPair.liftExcept r) := fun _ hq => hq

/-- Matrix elements from single evaluations. -/
theorem givesIn_csfs {P : List Char → Prop} (custom : Option (List ℝ)) (opt : ℕ) (rev : Bool) {bra ket : List ℝ × List (List Char)}
    (hb : ∀ d ∈ bra.2, P d) (hk : ∀ d ∈ ket.2, P d) {op : Dict ℝ} {w : List (Gate (2 * norb)) → ℝ}
    (h1 : ∀ d c, P d → determinantReference d norb .jordanWigner = .ok c → GivesIn J (evOne B custom d c 1 op) (.ok (w c)))
    (h2 : ∀ d d' c o, P d → P d' → d ≠ d' → superpositionReference d d' norb .jordanWigner = .ok c →
      GivesIn J (evOne B custom (d ++ d') c o op) (.ok (w c))) :
    GivesIn J (quantumExpectationCsfs B custom opt rev bra op ket) (expectationCsfs w B.mapper rev bra ket) := by
  unfold quantumExpectationCsfs expectationCsfs
  split_ifs with g1 g2
  · exact fun q hq => ⟨q, rfl, hq⟩
  · exact givesIn_pure 0
  rw [not_not] at g1
  refine (givesIn_lift _).bind fun b eb => (givesIn_lift _).bind fun k ek => ?_
  have hm := unique_dets (rev := rev) P (fun x hx => hb _ (zipCsf_mem eb x hx)) (fun x hx => hk _ (zipCsf_mem ek x hx))
  generalize uniqueCombinations rev b k = l at hm
  have pair : ∀ x ∈ l, GivesIn J (csfsPair B custom opt op x) (csfsTerm w x) := by
    intro x hx
    obtain ⟨d1, d2⟩ := hm x hx
    unfold csfsPair csfsTerm
    rw [g1]
    split_ifs with hx
    · refine (givesIn_lift _).bind fun c hc => ?_
      exact (h1 _ _ d1 hc).bind (g := fun v => .ok (x.2 * v)) fun v _ => givesIn_pure _
    · refine (givesIn_lift _).bind fun s hs => ?_
      have step : ∀ (q : QI), GivesIn J (do
          let v ← evOne B custom (x.1.1 ++ x.1.2) s (supOption q.flags opt) op
          let c1 ← csfsPair.liftExcept (determinantReference x.1.1 norb .jordanWigner)
          let v1 ← evOne B custom x.1.1 c1 1 op
          let c2 ← csfsPair.liftExcept (determinantReference x.1.2 norb .jordanWigner)
          let v2 ← evOne B custom x.1.2 c2 1 op
          return x.2 * v - 0.5 * x.2 * v1 - 0.5 * x.2 * v2) (do
        let c1 ← determinantReference x.1.1 norb .jordanWigner
        let c2 ← determinantReference x.1.2 norb .jordanWigner
        return x.2 * w s - 0.5 * x.2 * w c1 - 0.5 * x.2 * w c2) := by
        intro q
        have := (h2 _ _ _ (supOption q.flags opt) d1 d2 hx hs).bind
          (g := fun v => do
            let c1 ← determinantReference x.1.1 norb .jordanWigner
            let c2 ← determinantReference x.1.2 norb .jordanWigner
            return x.2 * v - 0.5 * x.2 * w c1 - 0.5 * x.2 * w c2)
          (f := fun v => do
            let c1 ← csfsPair.liftExcept (determinantReference x.1.1 norb .jordanWigner)
            let v1 ← evOne B custom x.1.1 c1 1 op
            let c2 ← csfsPair.liftExcept (determinantReference x.1.2 norb .jordanWigner)
            let v2 ← evOne B custom x.1.2 c2 1 op
            return x.2 * v - 0.5 * x.2 * v1 - 0.5 * x.2 * v2) fun v _ => by
              refine (givesIn_lift _).bind fun c1 hc1 => ?_
              have := (h1 _ _ d1 hc1).bind
                (g := fun v1 => do
                  let c2 ← determinantReference x.1.2 norb .jordanWigner
                  return x.2 * v - 0.5 * x.2 * v1 - 0.5 * x.2 * w c2)
                (f := fun v1 => do
                  let c2 ← csfsPair.liftExcept (determinantReference x.1.2 norb .jordanWigner)
                  let v2 ← evOne B custom x.1.2 c2 1 op
                  return x.2 * v - 0.5 * x.2 * v1 - 0.5 * x.2 * v2) fun v1 _ => by
                    refine (givesIn_lift _).bind fun c2 hc2 => ?_
                    exact (h1 _ _ d2 hc2).bind
                      (g := fun v2 => .ok (x.2 * v - 0.5 * x.2 * v1 - 0.5 * x.2 * v2)) fun v2 _ => givesIn_pure _
              exact this
        exact this
      intro q hq
      exact step q q hq
  clear hm
  have loop : ∀ (l : List ((List Char × List Char) × ℝ)), (∀ x ∈ l, GivesIn J (csfsPair B custom opt op x) (csfsTerm w x)) →
      ∀ v0 : ℝ, GivesIn J (l.foldlM (fun val x => do
        let t ← csfsPair B custom opt op x
        return val + t) v0) (l.foldlM (fun val x => do
        let t ← csfsTerm w x
        return val + t) v0) := by
    intro l
    induction l with
    | nil => intro _ v0; exact givesIn_pure v0
    | cons x l ih =>
      intro hl v0
      rw [List.foldlM_cons, List.foldlM_cons]
      refine GivesIn.bind ?_ fun v _ => ih (fun y hy => hl y (by simp [hy])) v
      exact (hl x (by simp)).bind (g := fun t => .ok (v0 + t)) fun t _ => givesIn_pure _
  exact loop l pair 0

theorem keepsIn_csfs {P : List Char → Prop} (custom : Option (List ℝ)) (opt : ℕ) (rev : Bool) {bra ket : List ℝ × List (List Char)}
    (hb : ∀ d ∈ bra.2, P d) (hk : ∀ d ∈ ket.2, P d) (op : Dict ℝ)
    (h1 : ∀ d c, P d → determinantReference d norb .jordanWigner = .ok c → KeepsIn J (evOne B custom d c 1 op))
    (h2 : ∀ d d' c o, P d → P d' → superpositionReference d d' norb .jordanWigner = .ok c →
      KeepsIn J (evOne B custom (d ++ d') c o op)) :
    KeepsIn J (quantumExpectationCsfs B custom opt rev bra op ket) := by
  unfold quantumExpectationCsfs
  split_ifs with g1 g2
  · exact fun q hq => hq
  · exact keepsIn_pure 0
  rw [not_not] at g1
  refine (keepsIn_lift _).bind fun b _ eb => (keepsIn_lift _).bind fun k _ ek => ?_
  have hm := unique_dets (rev := rev) P (fun x hx => hb _ (zipCsf_mem eb x hx)) (fun x hx => hk _ (zipCsf_mem ek x hx))
  generalize uniqueCombinations rev b k = l at hm
  have pair : ∀ x ∈ l, KeepsIn J (csfsPair B custom opt op x) := by
    intro x hx
    obtain ⟨d1, d2⟩ := hm x hx
    unfold csfsPair
    rw [g1]
    split_ifs with hx
    · refine (keepsIn_lift _).bind fun c _ hc => ?_
      exact (h1 _ _ d1 hc).bind fun v _ _ => keepsIn_pure _
    · refine (keepsIn_lift _).bind fun s _ hs => ?_
      refine KeepsIn.bind (fun q hq => hq) fun q _ _ => ?_
      refine (h2 _ _ _ _ d1 d2 hs).bind fun v _ _ => ?_
      refine (keepsIn_lift _).bind fun c1 _ hc1 => (h1 _ _ d1 hc1).bind fun v1 _ _ => ?_
      refine (keepsIn_lift _).bind fun c2 _ hc2 => (h1 _ _ d2 hc2).bind fun v2 _ _ => ?_
      exact keepsIn_pure _
  have loop : ∀ (l : List ((List Char × List Char) × ℝ)), (∀ x ∈ l, KeepsIn J (csfsPair B custom opt op x)) →
      ∀ v0 : ℝ, KeepsIn J (l.foldlM (fun val x => do
        let t ← csfsPair B custom opt op x
        return val + t) v0) := by
    intro l
    induction l with
    | nil => intro _ v0; exact keepsIn_pure v0
    | cons x l ih =>
      intro hl v0
      rw [List.foldlM_cons]
      exact KeepsIn.bind ((hl x (by simp)).bind fun t _ _ => keepsIn_pure _) fun v _ _ => ih (fun y hy => hl y (by simp [hy])) v
  exact loop l pair 0

end calls

/-! ### One evaluation -/

variable {norb : ℕ} {B : Bench norb} {S : Primitive (2 * norb)} {ansatz : List ℝ → List (PGate (2 * norb))} {K : Calib}
  {M : Matrix (Fin (2 ^ (2 * norb))) (Fin (2 ^ (2 * norb))) ℝ}

/-- The matrix in use, if there is one, was measured without the ansatz. -/
def PlainMatrix (q : QI) : Prop := ∀ id, q.minv = some id → id.2.testBit 1 = false

/-- What the device does with a circuit `c` that prepares `ψ`. -/
structure Reads (e : ℕ × ℕ) (M : Matrix (Fin (2 ^ (2 * norb))) (Fin (2 ^ (2 * norb))) ℝ) (ψ : QState (2 * norb))
    (measure : List Char → Distr) (mitigate : ℕ × ℕ → ℕ → List Char → Distr → Res Distr) : Prop where
  raw : ∀ hd, ReadDistr (2 * norb) M (runCircuit (toCBS (2 * norb) hd) ψ) (measure hd)
  mit : ∀ id m hd d, id.2.testBit 1 = false → Good e M m ψ →
    ReadDistr (2 * norb) M (runCircuit (toCBS (2 * norb) hd) ψ) d → ∃ d', mitigate id m hd d = .ok d' ∧ ExactDistr (2 * norb) ψ hd d'

theorem raw_of_lookup {n : ℕ} {P : ℕ → List Char → Distr → Prop} {cs : List CliqueHead} {ops : List CliqueOp}
    (h : Hist n P cs ops) {c : CliqueHead} (hc : c ∈ cs) (hf : c.data.isEmpty 0 = .ok false) {raw : Distr}
    (hl : c.data.lookup 0 = some raw) : P 0 c.head raw := by
  obtain ⟨d0, e1, e2⟩ := isEmpty_false.1 hf
  rw [hl, Option.some.injEq] at e1
  subst e1
  obtain ⟨h1', h2', h3'⟩ := h
  obtain ⟨-, hd⟩ := history_inv ops h2'
  rw [← h1'] at hd
  have hmem : (0, raw) ∈ c.data := by
    obtain ⟨l1, l2, he, -⟩ := List.lookup_eq_some_iff.1 hl
    rw [he]; simp
  obtain ⟨op, ho, hg⟩ := hd c hc 0 raw hmem e2
  exact h3' op ho _ _ _ hg

theorem evaluate_read (hn : 0 < norb) {e : ℕ × ℕ} {dev : Device (List (Gate (2 * norb)))} {c : List (Gate (2 * norb))} {q : QI}
    {key opt : ℕ} {ψ : QState (2 * norb)} {ops : List CliqueOp} (h : Hist (2 * norb) (Rd e M ψ) (q.entry key opt) ops)
    (ht : Tot (q.entry key opt)) (hR : Reads e M ψ (dev.measure q.run (q.setting c)) (fun id m => dev.mitigate id m c))
    (hid : PlainMatrix q) (hpl : q.flags.toInt.testBit 1 = false) {obs : List (List Char × ℝ)}
    (hp : ∀ pc ∈ obs, PauliLabel (2 * norb) pc.1) (hne : obs ≠ []) :
    ∃ r q' cs, q.evaluate dev (fun _ _ => c) key opt obs = (r, q') ∧ q'.saver = dictPut q.saver key (opt, cs) ∧
      q'.params = q.params ∧ q'.flags = q.flags ∧ q'.shots = q.shots ∧ PlainMatrix q' ∧
      (∃ ops', Hist (2 * norb) (Rd e M ψ) cs ops') ∧ Tot cs ∧ (Good e M q.flags.toInt ψ → r = .ok (labelSum ψ obs)) := by
  have hlen : ∀ p ∈ obs.map Prod.fst, p.length = 2 * norb := by
    intro p hp'
    obtain ⟨pc, h1, rfl⟩ := List.mem_map.1 hp'
    exact (hp pc h1).1
  obtain ⟨⟨ops1, hh1, hadd1⟩, hfull⟩ := measureStep_hist h (dev.measure q.run (q.setting c)) (fun hd => rd_raw (hR.raw hd)) hlen
  have hok := measureStep_total h ht (dev.measure q.run (q.setting c)) (fun hd => (hR.raw hd).nonempty) hlen (by simpa using hne)
  have hfull := hfull hok
  unfold QI.evaluate
  simp only
  cases e0 : measureStep (dev.measure q.run (q.setting c)) (q.entry key opt) (obs.map Prod.fst) with
  | mk r cs =>
    rw [e0] at hh1 hfull hok
    cases hok
    simp only
    by_cases hen : q.flags.isEnabled = true
    · rw [if_pos hen]
      have hgood : ∀ id : ℕ × ℕ, id.2.testBit 1 = false → Good e M q.flags.toInt ψ → ∀ c' ∈ cs, ∀ raw, c'.data.lookup 0 = some raw →
          ∃ d, dev.mitigate id q.flags.toInt c c'.head raw = .ok d ∧ ExactDistr (2 * norb) ψ c'.head d :=
        fun id hi hg c' hc' raw hl => hR.mit id _ _ _ hi hg ((raw_of_lookup hh1 hc' (hfull c' hc') hl).1 rfl)
      have key : ∀ (q1 : QI) (id : ℕ × ℕ), id.2.testBit 1 = false → q1.saver = q.saver → q1.params = q.params → q1.flags = q.flags →
          q1.shots = q.shots → PlainMatrix q1 →
          ∃ r q' cs', (match mitigateStep (dev.mitigate id q.flags.toInt c) q.flags.toInt cs with
            | (.error e, cs) => ((.error e : Res ℝ), { q1 with saver := dictPut q1.saver key (opt, cs), run := q1.run + 1 })
            | (.ok (), cs) => (valueFrom cs q.flags.toInt obs, { q1 with saver := dictPut q1.saver key (opt, cs), run := q1.run + 1 }))
              = (r, q') ∧ q'.saver = dictPut q.saver key (opt, cs') ∧
            q'.params = q.params ∧ q'.flags = q.flags ∧ q'.shots = q.shots ∧ PlainMatrix q' ∧
            (∃ ops', Hist (2 * norb) (Rd e M ψ) cs' ops') ∧ Tot cs' ∧ (Good e M q.flags.toInt ψ → r = .ok (labelSum ψ obs)) := by
        intro q1 id hi e1 e2 e3 e4 e6
        obtain ⟨ops2, hh2, hsub⟩ := mitigateStep_hist hh1 hfull (dev.mitigate id q.flags.toInt c) (m := q.flags.toInt)
          (fun hd raw d hraw hd' => ⟨fun h0 => absurd h0 (toInt_ne hen), fun hg => by
            obtain ⟨d', f1, f2⟩ := hR.mit id _ hd raw hi hg (hraw.1 rfl)
            rw [hd', Except.ok.injEq] at f1
            rw [f1]; exact f2⟩)
        have hk := Tot.keeps hfull (mitigateStep_keeps (dev.mitigate id q.flags.toInt c) q.flags.toInt cs)
        have htot : Good e M q.flags.toInt ψ → _ := fun hg => mitigateStep_total (toInt_ne hen) hh1.heads.nodup hfull
          (dev.mitigate id q.flags.toInt c) (fun c' hc' raw hl => (hgood id hi hg c' hc' raw hl).imp fun d h => ⟨h.1, h.2.nonempty⟩)
        cases e5 : mitigateStep (dev.mitigate id q.flags.toInt c) q.flags.toInt cs with
        | mk r2 cs2 =>
          rw [e5] at hh2 hk htot
          cases r2 with
          | error er => exact ⟨_, _, cs2, rfl, by rw [← e1], e2, e3, e4, e6, ⟨ops2, hh2⟩, fun c hc => Or.inr (hk c hc),
              fun hg => by have := (htot hg).1; cases this⟩
          | ok u => exact ⟨_, _, cs2, rfl, by rw [← e1], e2, e3, e4, e6, ⟨ops2, hh2⟩, fun c hc => Or.inr (hk c hc),
              fun hg => value_good (by omega) (fun hd d hP => hP.2 hg) hh2 (htot hg).2 hp (hsub _ hadd1)⟩
      have hget : (q.minv.getD (q.run, q.flags.toInt)).2.testBit 1 = false := by
        cases hm : q.minv with
        | none => exact hpl
        | some id => exact hid id hm
      split_ifs
      · exact key { q with minv := some (q.minv.getD (q.run, q.flags.toInt)) } _ hget rfl rfl rfl rfl
          (fun id hi => by cases hi; exact hget)
      · exact key q _ hget rfl rfl rfl rfl hid
    · rw [if_neg hen]
      have h0 : q.flags.toInt = 0 := disabled (by simpa using hen)
      exact ⟨_, _, cs, rfl, rfl, rfl, rfl, rfl, hid, ⟨ops1, hh1⟩, fun c hc => Or.inr (hfull c hc),
        fun hg => value_good (by omega) (fun hd d hP => hP.2 (h0 ▸ hg)) hh1 hfull hp hadd1⟩

/-! ### Histories -/

/-- Saved data fit the states they are filed under. -/
def KeptRead (norb : ℕ) (ansatz : List ℝ → List (PGate (2 * norb))) (e : ℕ × ℕ)
    (M : Matrix (Fin (2 ^ (2 * norb))) (Fin (2 ^ (2 * norb))) ℝ) (q : QI) : Prop :=
  q.shots ≠ none ∧ PlainMatrix q ∧ ∀ x ∈ q.saver,
    (∃ ops, Hist (2 * norb) (Rd e M (runPCircuit (ansatz q.params) (savedState norb x.1))) x.2.2 ops) ∧ Tot x.2.2

theorem keptRead_entry {e : ℕ × ℕ} {q : QI} (h : KeptRead norb ansatz e M q) (key opt : ℕ) :
    (∃ ops, Hist (2 * norb) (Rd e M (runPCircuit (ansatz q.params) (savedState norb key))) (q.entry key opt) ops) ∧
      Tot (q.entry key opt) := by
  unfold QI.entry
  cases hl : q.saver.lookup key with
  | none => exact ⟨⟨[], Hist.nil _ _⟩, tot_nil⟩
  | some e =>
    obtain ⟨o, cs⟩ := e
    simp only
    split_ifs with ho
    · exact ⟨⟨[], Hist.nil _ _⟩, tot_nil⟩
    · have hm : (key, (o, cs)) ∈ q.saver := by
        obtain ⟨l1, l2, he, -⟩ := List.lookup_eq_some_iff.1 hl
        rw [he]; simp
      exact h.2.2 _ hm

/-- The device of the interface reads every circuit. -/
theorem Bench.Noisy.reads (hB : B.Noisy ansatz S K M) (run : ℕ) (s : RunSetting (List (Gate (2 * norb)))) (c : List (Gate (2 * norb))) :
    Reads B.numElec M (prepared ansatz s.params s.circuit) (B.dev.measure run s) (fun id m => B.dev.mitigate id m c) := by
  rw [hB.device]
  refine ⟨fun hd => hB.readout run s.perRun s.runs ⟨s.circuit, ansatz s.params, []⟩ hd, fun id m hd d hi hg hr => ?_⟩
  exact mitigation_exact hB.readout hB.matrix (hB.jw.2.trans hB.jw.1) hi (by rw [hB.electrons.2]; exact hg) hr

theorem labels_ok {map : SDict ℝ → Res (List (List Char × ℂ))} (hM : JWMapper (2 * norb) map) {op : Dict ℝ}
    {obs : List (List Char × ℂ)} (ho : opToQbit map norb op = .ok obs) :
    realParts obs ≠ [] ∧ (∀ pc ∈ realParts obs, PauliLabel (2 * norb) pc.1) := by
  have hlab : obs ≠ [] ∧ ∀ pc ∈ obs, PauliLabel (2 * norb) pc.1 := by
    unfold opToQbit at ho
    cases ef : getQiskitForm norb op with
    | error e => rw [ef] at ho; cases ho
    | ok form => rw [ef] at ho; exact hM.labels _ _ ho
  refine ⟨by unfold realParts; simpa using hlab.1, fun pc hpc => ?_⟩
  obtain ⟨x, hx, rfl⟩ := List.mem_map.1 hpc
  exact hlab.2 x hx

theorem evLabels_read (hB : B.Noisy ansatz S K M) {q : QI} (h : KeptRead norb ansatz B.numElec M q)
    (hpl : q.flags.Plain) {det : List Char} {c : List (Gate (2 * norb))} (hk : KeyOK norb det c) (opt : ℕ)
    {obs : List (List Char × ℝ)} (hne : obs ≠ []) (hlab : ∀ pc ∈ obs, PauliLabel (2 * norb) pc.1) :
    ∃ r q', evLabels B det c opt obs q = (r, q') ∧ KeptRead norb ansatz B.numElec M q' ∧ q'.params = q.params ∧ q'.flags = q.flags ∧
      (Good B.numElec M q.flags.toInt (prepared ansatz q.params c) → r = .ok (labelSum (prepared ansatz q.params c) obs)) := by
  obtain ⟨⟨key, ek⟩, hkey⟩ := hk
  have hkey := hkey key ek
  unfold evLabels
  rw [ek]
  simp only
  obtain ⟨⟨ops, he⟩, ht⟩ := keptRead_entry h key opt
  have hpr : runPCircuit (ansatz q.params) (savedState norb key) = prepared ansatz q.params c := by rw [hkey]; rfl
  rw [hpr] at he
  obtain ⟨r, q', cs, e1, e2, e3, e4, e5, e6, e7, e8, e9⟩ := evaluate_read (dev := B.dev) (c := c) hB.orbitals he ht
    (hB.reads q.run (q.setting c) c) h.2.1 (by rw [(toInt_bits _).2.1]; exact hpl.1) hlab hne
  refine ⟨r, q', e1, ⟨by rw [e5]; exact h.1, e6, fun x hx => ?_⟩, e3, e4, e9⟩
  rw [e3]
  rw [e2] at hx
  rcases mem_dictPut hx with hx | rfl
  · exact h.2.2 x hx
  · rw [hpr]; exact ⟨e7, e8⟩

theorem evSaved_read (hB : B.Noisy ansatz S K M) {q : QI} (h : KeptRead norb ansatz B.numElec M q)
    (hpl : q.flags.Plain) {det : List Char} {c : List (Gate (2 * norb))} (hk : KeyOK norb det c) (opt : ℕ) (op : Dict ℝ) :
    ∃ r q', evSaved B det c opt op q = (r, q') ∧ KeptRead norb ansatz B.numElec M q' ∧ q'.params = q.params ∧ q'.flags = q.flags ∧
      (Good B.numElec M q.flags.toInt (prepared ansatz q.params c) → ∀ obs, opToQbit B.map norb op = .ok obs →
        r = .ok (labelSum (prepared ansatz q.params c) (realParts obs))) := by
  obtain ⟨⟨key, ek⟩, hkey⟩ := hk
  have hkey := hkey key ek
  unfold evSaved
  rw [ek]
  simp only
  cases eo : opToQbit B.map norb op with
  | error e => exact ⟨_, _, rfl, h, rfl, rfl, fun _ obs ho => by cases ho⟩
  | ok obs =>
    obtain ⟨hne, hlab⟩ := labels_ok hB.mapping eo
    obtain ⟨⟨ops, he⟩, ht⟩ := keptRead_entry h key opt
    have hpr : runPCircuit (ansatz q.params) (savedState norb key) = prepared ansatz q.params c := by rw [hkey]; rfl
    rw [hpr] at he
    obtain ⟨r, q', cs, e1, e2, e3, e4, e5, e6, e7, e8, e9⟩ := evaluate_read (dev := B.dev) (c := c) hB.orbitals he ht
      (hB.reads q.run (q.setting c) c) h.2.1 (by rw [(toInt_bits _).2.1]; exact hpl.1) hlab hne
    refine ⟨r, q', e1, ⟨by rw [e5]; exact h.1, e6, fun x hx => ?_⟩, e3, e4, fun hg obs' ho => ?_⟩
    · rw [e3]
      rw [e2] at hx
      rcases mem_dictPut hx with hx | rfl
      · exact h.2.2 x hx
      · rw [hpr]; exact ⟨e7, e8⟩
    · cases ho
      exact e9 hg

theorem mitigateFresh_minv {q : QI} (hid : PlainMatrix q) (hpl : q.flags.Plain) (c : List (Gate (2 * norb)))
    (hs : List (List Char)) (ds : List Distr) : PlainMatrix (mitigateFresh B q c hs ds).2 := by
  unfold mitigateFresh
  split_ifs
  · intro id hi
    cases hi
    cases hm : q.minv with
    | none => change q.flags.toInt.testBit 1 = false; rw [(toInt_bits _).2.1]; exact hpl.1
    | some id => exact hid id hm
  · exact hid
  · exact hid

theorem evFresh_minv {q : QI} (hid : PlainMatrix q) (hpl : q.flags.Plain) (p : List ℝ) (c : List (Gate (2 * norb)))
    (op : Dict ℝ) : PlainMatrix (evFresh B p c op q).2 := by
  have hm := mitigateFresh_minv (B := B) hid hpl c
  unfold evFresh
  cases opToQbit B.map norb op with
  | error e => exact hid
  | ok obs =>
    simp only
    split_ifs
    · rcases addPaulis [] (obs.map Prod.fst) with ⟨_ | heads, cs⟩
      · exact hid
      · simp only
        have := hm heads (heads.map (B.dev.measure q.run { q.setting c with params := p }))
        revert this
        rcases mitigateFresh B q c heads (heads.map (B.dev.measure q.run { q.setting c with params := p })) with ⟨_ | ds, q1⟩
        · exact id
        · intro this
          simp only
          split <;> exact this
    · have := hm (obs.map Prod.fst) ((obs.map Prod.fst).map (B.dev.measure q.run { q.setting c with params := p }))
      revert this
      rcases mitigateFresh B q c (obs.map Prod.fst)
        ((obs.map Prod.fst).map (B.dev.measure q.run { q.setting c with params := p })) with ⟨_ | ds, q1⟩ <;> exact id

/-- Fresh data are corrected one by one. -/
theorem mitigateFresh_ok (hB : B.Noisy ansatz S K M) {q : QI} (hid : PlainMatrix q) (hpl : q.flags.Plain) {p : List ℝ}
    {c : List (Gate (2 * norb))} (hg : Good B.numElec M q.flags.toInt (prepared ansatz p c)) :
    ∃ f : List Char → Distr, (∀ hd, ExactDistr (2 * norb) (prepared ansatz p c) hd (f hd)) ∧
      ∀ hs, (mitigateFresh B q c hs (hs.map (B.dev.measure q.run { q.setting c with params := p }))).1 = .ok (hs.map f) := by
  have hR := hB.reads q.run { q.setting c with params := p } c
  by_cases hen : q.flags.isEnabled = true
  · set q' : QI := if q.flags.mMit.truthy then { q with minv := some (q.minv.getD (q.run, q.flags.toInt)) } else q with hq'
    have hget : (q'.minv.getD (q.run, q.flags.toInt)).2.testBit 1 = false := by
      have h0 : (q.minv.getD (q.run, q.flags.toInt)).2.testBit 1 = false := by
        cases hm : q.minv with
        | none => change q.flags.toInt.testBit 1 = false; rw [(toInt_bits _).2.1]; exact hpl.1
        | some id => exact hid id hm
      rw [hq']
      split_ifs
      · exact h0
      · exact h0
    have hmit := fun hd => hR.mit (q'.minv.getD (q.run, q.flags.toInt)) q.flags.toInt hd _ hget hg (hR.raw hd)
    choose f hf1 hf2 using hmit
    refine ⟨f, hf2, fun hs => ?_⟩
    unfold mitigateFresh
    rw [if_pos hen]
    change ((hs.zip (hs.map (B.dev.measure q.run { q.setting c with params := p }))).mapM fun hd =>
      B.dev.mitigate (q'.minv.getD (q.run, q.flags.toInt)) q.flags.toInt c hd.1 hd.2) = _
    have : hs.zip (hs.map (B.dev.measure q.run { q.setting c with params := p }))
        = hs.map fun h => (h, B.dev.measure q.run { q.setting c with params := p } h) := by
      induction hs with
      | nil => rfl
      | cons h hs ih => rw [List.map_cons, List.zip_cons_cons, ih]; rfl
    rw [this, mapM_ok (g := fun hd => f hd.1) (fun x hx => by
      obtain ⟨h, -, rfl⟩ := List.mem_map.1 hx
      exact hf1 h), List.map_map]
    rfl
  · have h0 : q.flags.toInt = 0 := disabled (by simpa using hen)
    refine ⟨_, fun hd => (rd_raw (e := B.numElec) (hR.raw hd)).2 (h0 ▸ hg), fun hs => ?_⟩
    unfold mitigateFresh
    rw [if_neg hen]

theorem evFresh_read (hB : B.Noisy ansatz S K M) {q : QI} (hid : PlainMatrix q) (hpl : q.flags.Plain) (p : List ℝ)
    (c : List (Gate (2 * norb))) (hg : Good B.numElec M q.flags.toInt (prepared ansatz p c)) {op : Dict ℝ}
    {obs : List (List Char × ℂ)} (ho : opToQbit B.map norb op = .ok obs) :
    (evFresh B p c op q).1 = .ok (labelSum (prepared ansatz p c) (realParts obs)) := by
  obtain ⟨hne, hp⟩ := labels_ok hB.mapping ho
  have hn := hB.orbitals
  have efst : (realParts obs).map Prod.fst = obs.map Prod.fst := by unfold realParts; simp
  obtain ⟨f, hf, hmit⟩ := mitigateFresh_ok hB hid hpl hg
  unfold evFresh
  rw [ho]
  simp only
  by_cases hc : B.cliques = true
  · rw [if_pos hc]
    have h0 : Hist (2 * norb) (Ex (prepared ansatz p c)) [] [] := Hist.nil _ _
    have hlen : ∀ x ∈ obs.map Prod.fst, x.length = 2 * norb := by
      intro x hx
      rw [← efst] at hx
      obtain ⟨pc, h1, rfl⟩ := List.mem_map.1 hx
      exact (hp pc h1).1
    obtain ⟨⟨ops, hh, hadd⟩, hfull⟩ := measureStep_hist h0 f (fun hd _ => hf hd) hlen
    have hok := measureStep_total h0 tot_nil f (fun hd => (hf hd).nonempty) hlen (by rw [← efst]; simpa using hne)
    have hfull := hfull hok
    unfold measureStep at hh hfull hok
    cases e : addPaulis [] (obs.map Prod.fst) with
    | mk r cs =>
      rw [e] at hh hfull hok
      cases r with
      | error er => cases hok
      | ok heads =>
        simp only at hh hfull hok ⊢
        have hm := hmit heads
        revert hm
        rcases mitigateFresh B q c heads (heads.map (B.dev.measure q.run { q.setting c with params := p })) with ⟨r1, q1⟩
        intro hm
        cases hm
        simp only
        by_cases hne : heads ≠ []
        · rw [if_pos hne] at hh hfull hok
          cases e2 : updateDistr cs heads (heads.map f) 0 with
          | mk r2 cs2 =>
            rw [e2] at hh hfull hok
            cases hok
            exact value_exact (by omega) hh hfull hp (efst ▸ hadd)
        · rw [if_neg hne] at hh hfull hok
          rw [not_not] at hne
          subst hne
          have : updateDistr cs [] ([].map f) 0 = (.ok (), cs) := by
            unfold updateDistr
            change (checkAllocated 0 cs, cs) = _
            rw [checkAllocated_ok hfull]
          rw [this]
          exact value_exact (by omega) hh hfull hp (efst ▸ hadd)
  · rw [if_neg hc]
    have hm := hmit (obs.map Prod.fst)
    revert hm
    rcases mitigateFresh B q c (obs.map Prod.fst)
      ((obs.map Prod.fst).map (B.dev.measure q.run { q.setting c with params := p })) with ⟨r1, q1⟩
    intro hm
    cases hm
    simp only
    have := direct_sum (by omega : 0 < 2 * norb) f hf (realParts obs) hp 0
    rw [efst, zero_add] at this
    exact this

/-- In use, with the flags `f`. -/
def UseF (norb : ℕ) (ansatz : List ℝ → List (PGate (2 * norb))) (e : ℕ × ℕ)
    (M : Matrix (Fin (2 ^ (2 * norb))) (Fin (2 ^ (2 * norb))) ℝ) (f : Flags) (p : List ℝ) (q : QI) : Prop :=
  KeptRead norb ansatz e M q ∧ q.flags = f ∧ q.params = p

theorem fresh_use {q : QI} {f : Flags} {p : List ℝ} (hpl : f.Plain) (hq : UseF norb ansatz B.numElec M f p q) (p' : List ℝ)
    (c : List (Gate (2 * norb))) (op : Dict ℝ) : UseF norb ansatz B.numElec M f p (evFresh B p' c op q).2 := by
  obtain ⟨⟨k1, k2, k3⟩, hf, hp⟩ := hq
  obtain ⟨h1, h2, h3, h4⟩ := evFresh_state (B := B) p' c op q
  have h5 := evFresh_minv (B := B) k2 (by rw [hf]; exact hpl) p' c op
  exact ⟨⟨by rw [h4]; exact k1, h5, by rw [h1, h2]; exact k3⟩, h3.trans hf, h2.trans hp⟩

theorem keepsIn_evOne (hB : B.Noisy ansatz S K M) {f : Flags} (hpl : f.Plain) (p : List ℝ) (custom : Option (List ℝ))
    {det : List Char} {c : List (Gate (2 * norb))} (hk : KeyOK norb det c) (opt : ℕ) (op : Dict ℝ) :
    KeepsIn (UseF norb ansatz B.numElec M f p) (evOne B custom det c opt op) := by
  intro q hq
  unfold evOne
  cases custom with
  | some p' => exact fresh_use hpl hq p' c op
  | none =>
    simp only
    split_ifs
    · obtain ⟨r, q', e, h1, h2, h3, -⟩ := evSaved_read hB hq.1 (by rw [hq.2.1]; exact hpl) hk opt op
      rw [e]
      exact ⟨h1, h3.trans hq.2.1, h2.trans hq.2.2⟩
    · exact fresh_use hpl hq _ c op

theorem givesIn_evOne (hB : B.Noisy ansatz S K M) {f : Flags} (hpl : f.Plain) (p : List ℝ) (custom : Option (List ℝ))
    {det : List Char} {c : List (Gate (2 * norb))} (hk : KeyOK norb det c) (opt : ℕ)
    (hg : Good B.numElec M f.toInt (prepared ansatz (custom.getD p) c)) {op : Dict ℝ} {obs : List (List Char × ℂ)}
    (ho : opToQbit B.map norb op = .ok obs) :
    GivesIn (UseF norb ansatz B.numElec M f p) (evOne B custom det c opt op)
      (.ok (labelSum (prepared ansatz (custom.getD p) c) (realParts obs))) := by
  intro q hq
  have fresh : ∀ p', Good B.numElec M f.toInt (prepared ansatz p' c) →
      ∃ q', evFresh B p' c op q = (.ok (labelSum (prepared ansatz p' c) (realParts obs)), q') ∧
        UseF norb ansatz B.numElec M f p q' := fun p' hg =>
    ⟨_, Prod.ext (evFresh_read hB hq.1.2.1 (by rw [hq.2.1]; exact hpl) p' c (by rw [hq.2.1]; exact hg) ho) rfl,
      fresh_use hpl hq p' c op⟩
  unfold evOne
  cases custom with
  | some p' => exact fresh p' hg
  | none =>
    simp only
    split_ifs
    · obtain ⟨r, q', e, h1, h2, h3, h4⟩ := evSaved_read hB hq.1 (by rw [hq.2.1]; exact hpl) hk opt op
      rw [hq.2.1, hq.2.2] at h4
      exact ⟨q', by rw [e, h4 hg obs ho]; rfl, h1, h3.trans hq.2.1, h2.trans hq.2.2⟩
    · rw [hq.2.2]; exact fresh p hg

theorem Bench.Noisy.key (hB : B.Noisy ansatz S K M) : KeyOK norb (defaultDet norb B.numElec) B.state :=
  keyOK_basis hB.orbitals (isDet_default hB.electrons.1) hB.start

theorem setShots_minv (q : QI) (s : Option ℕ) : (q.setShots s).2.minv = none := by
  unfold QI.setShots
  cases s with
  | none =>
    simp only
    split_ifs <;> simp <;> (try split_ifs) <;> simp
  | some s =>
    simp only
    split_ifs <;> simp

theorem init_minv {v2 : Bool} {mx : ℕ} {s : Option ℕ} {f : Flags} {np : ℕ} {q : QI} (h : QI.init v2 mx s f np = .ok q) :
    q.minv = none := by
  unfold QI.init at h
  simp only at h
  split at h
  · cases h
  · cases h; rfl

theorem reached_read (hB : B.Noisy ansatz S K M) {q : QI} (h : B.ReachedPlain q) :
    KeptRead norb ansatz B.numElec M q ∧ q.flags.Plain := by
  obtain ⟨v2, mx, s, f, np, q0, ops, hi, hops, hpl, rfl⟩ := h
  obtain ⟨h1, h2, -, -⟩ := init_inv hi
  have h3 := init_minv hi
  refine ⟨?_, by have := hpl ops.length; rwa [List.take_length] at this⟩
  suffices ∀ ops : List BenchOp, (∀ op ∈ ops, op.Full norb) → ∀ q, KeptRead norb ansatz B.numElec M q →
      (∀ k, ((ops.take k).foldl (BenchOp.run B) q).flags.Plain) →
      KeptRead norb ansatz B.numElec M (ops.foldl (BenchOp.run B) q) from
    this ops hops q0 ⟨h1, (fun id hi => by rw [h3] at hi; exact absurd hi (by simp)), by rw [h2]; simp⟩ hpl
  intro ops
  induction ops with
  | nil => intro _ q h _; exact h
  | cons op ops ih =>
    intro hops q hq hpl
    have hq0 : q.flags.Plain := hpl 0
    refine ih (fun o ho => hops o (by simp [ho])) _ ?_ (fun k => hpl (k + 1))
    cases op with
    | shots s =>
      obtain ⟨e1, e2⟩ := setShots_saver q s
      exact ⟨e2, (fun id hi => by change (q.setShots s).2.minv = _ at hi; rw [setShots_minv] at hi; exact absurd hi (by simp)),
        by change ∀ e ∈ (q.setShots s).2.saver, _; rw [e1]; simp⟩
    | max m =>
      obtain ⟨e1, e2⟩ := setMax_saver q hq.1 m
      refine ⟨e2, fun id hi => ?_, by change ∀ e ∈ (q.setMax m).2.saver, _; rw [e1]; simp⟩
      change (q.setMax m).2.minv = _ at hi
      unfold QI.setMax at hi
      cases hs : q.shots with
      | none => exact absurd hs hq.1
      | some s => simp only [hs] at hi; rw [setShots_minv] at hi; cases hi
    | params p =>
      change KeptRead norb ansatz B.numElec M (q.setParams p).2
      unfold QI.setParams
      by_cases hl : p.length ≠ q.numParams
      · rw [if_pos hl]; exact hq
      · rw [if_neg hl]
        by_cases hp : q.params ≠ p
        · simp only [if_pos hp]
          exact ⟨hq.1, hq.2.1, by simp⟩
        · rw [ne_eq, not_not] at hp
          subst hp
          simp only [ne_eq, not_true_eq_false, if_false]
          exact hq
    | flags kw => exact hq
    | redoM =>
      refine ⟨hq.1, fun id hi => ?_, hq.2.2⟩
      cases hi
      change q.flags.toInt.testBit 1 = false
      rw [(toInt_bits _).2.1]; exact hq0.1
    | expectation custom op =>
      exact (keepsIn_evOne hB hq0 q.params custom hB.key 1 op q ⟨hq, rfl, rfl⟩).1
    | labels obs =>
      obtain ⟨f1, f2⟩ : obs ≠ [] ∧ ∀ pc ∈ obs, PauliLabel (2 * norb) pc.1 := hops (.labels obs) (by simp)
      obtain ⟨r, q', e, h', -⟩ := evLabels_read hB hq hq0 hB.key 1 f1 f2
      change KeptRead norb ansatz B.numElec M (evLabels B (defaultDet norb B.numElec) B.state 1 obs q).2
      rw [e]; exact h'
    | csfs custom opt rev bra op ket =>
      obtain ⟨f1, f2⟩ : (∀ d ∈ bra.2, FullDet norb d) ∧ ∀ d ∈ ket.2, FullDet norb d :=
        hops (.csfs custom opt rev bra op ket) (by simp)
      exact (keepsIn_csfs (P := FullDet norb) custom opt rev f1 f2 op
        (fun d c hd hc => keepsIn_evOne hB hq0 q.params custom (keyOK_det hB.orbitals hd.1 hc) 1 op)
        (fun d d' c o hd hd' hc => keepsIn_evOne hB hq0 q.params custom (keyOK_sup hB.orbitals hd.1 hd'.1 hd.2 hc) o op)
        q ⟨hq, rfl, rfl⟩).1

/-! ### Asking again -/

theorem mitigateStep_full {mit : List Char → Distr → Res Distr} {m : ℕ} {cs : List CliqueHead}
    (h : (mitigateStep mit m cs).1 = .ok ()) : ∀ c ∈ (mitigateStep mit m cs).2, c.data.isEmpty m = .ok false := by
  unfold mitigateStep at h ⊢
  cases e : emptyHeadsDistr m cs with
  | error er => rw [e] at h; cases h
  | ok l =>
    rw [e] at h
    simp only at h ⊢
    by_cases hl : l = []
    · rw [if_pos hl]
      subst hl
      exact emptyHeads_full e
    · rw [if_neg hl] at h ⊢
      cases e2 : l.mapM (fun hd => mit hd.1 hd.2) with
      | error er => rw [e2] at h; cases h
      | ok ds =>
        rw [e2] at h
        simp only at h ⊢
        unfold updateDistr at h ⊢
        rcases e3 : updateAll m ((l.map Prod.fst).zip ds) cs with ⟨r, cs'⟩
        rw [e3] at h
        cases r with
        | error er => cases h
        | ok u => exact checkAllocated_full h

theorem emptyHeads_none {m : ℕ} {cs : List CliqueHead} (h : ∀ c ∈ cs, c.data.isEmpty m = .ok false) :
    emptyHeadsDistr m cs = .ok [] := by
  induction cs with
  | nil => rfl
  | cons c cs ih =>
    unfold emptyHeadsDistr
    rw [h c (by simp)]
    exact ih fun x hx => h x (by simp [hx])

theorem evaluate_again {C : Type} {n : ℕ} {dev : Device C} {circ : ℕ → ℕ → C} {q : QI} {key opt : ℕ}
    {ops : List CliqueOp} (h : Hist n (fun _ _ _ => True) (q.entry key opt) ops) {obs : List (List Char × ℝ)}
    (hlen : ∀ pc ∈ obs, pc.1.length = n) (hne0 : obs ≠ []) {v : ℝ}
    (hv : (q.evaluate dev circ key opt obs).1 = .ok v) (dev' : Device C) (circ' : ℕ → ℕ → C) (q2 : QI)
    (he : q2.entry key opt = (q.evaluate dev circ key opt obs).2.entry key opt) (hf2 : q2.flags = q.flags) :
    (q2.evaluate dev' circ' key opt obs).1 = .ok v := by
  by_cases hen : q.flags.isEnabled = false
  · exact evaluate_twice h (fun _ => trivial) hlen hne0 hen hv dev' circ' q2 he (by rw [hf2]; exact hen)
  rw [Bool.not_eq_false] at hen
  have hl : ∀ p ∈ obs.map Prod.fst, p.length = n := by
    intro p hp
    obtain ⟨pc, h1, rfl⟩ := List.mem_map.1 hp
    exact hlen pc h1
  obtain ⟨⟨ops1, hh, hadd⟩, hfull⟩ := measureStep_hist h (dev.measure q.run (q.setting (circ key opt))) (fun _ => trivial) hl
  unfold QI.evaluate at hv he
  simp only at hv he
  rcases e : measureStep (dev.measure q.run (q.setting (circ key opt))) (q.entry key opt) (obs.map Prod.fst) with ⟨r, cs⟩
  rw [e] at hh hfull hv he
  cases r with
  | error er => cases hv
  | ok u =>
    have hfull := hfull rfl
    simp only [hen, if_true] at hv he
    generalize hq1 : (if (q.flags.mMit.truthy && match emptyHeadsDistr q.flags.toInt cs with | .ok (_ :: _) => true | _ => false) = true
      then { q with minv := some (q.minv.getD (q.run, q.flags.toInt)) } else q : QI) = q1 at hv he
    set mit := dev.mitigate (q1.minv.getD (q1.run, q.flags.toInt)) q.flags.toInt (circ key opt) with hmit
    obtain ⟨ops2, hh2, hsub⟩ := mitigateStep_hist hh hfull mit (m := q.flags.toInt) (fun _ _ _ _ _ => trivial)
    have hk := Tot.keeps hfull (mitigateStep_keeps mit q.flags.toInt cs)
    have hfm := mitigateStep_full (mit := mit) (m := q.flags.toInt) (cs := cs)
    rcases e5 : mitigateStep mit q.flags.toInt cs with ⟨r2, cs2⟩
    rw [e5] at hv he hh2 hk hfm
    cases r2 with
    | error er => cases hv
    | ok u =>
      simp only at hv he hh2 hk hfm
      have hfm := hfm trivial
      have hent : q2.entry key opt = cs2 := by
        rw [he]
        unfold QI.entry
        simp only
        rw [lookup_dictPut, if_pos rfl]
        simp
      have hne : cs2 ≠ [] := by
        rintro rfl
        obtain ⟨pc, hpc⟩ := List.exists_mem_of_ne_nil _ hne0
        obtain ⟨l, g, r, he, -⟩ := hh2.heads.found pc.1 (List.mem_flatMap.2 ⟨_, hsub _ hadd, List.mem_map_of_mem hpc⟩)
        simp [headsOf] at he
      have hm : ∀ f, mitigateStep f q.flags.toInt cs2 = (.ok (), cs2) := by
        intro f
        unfold mitigateStep
        rw [emptyHeads_none hfm]
        rfl
      unfold QI.evaluate
      simp only
      rw [hent, measure_again hh2 (hsub _ hadd) hne hk]
      simp only [hf2, hen, if_true, hm]
      exact hv

/-! ### Electrons -/

theorem testBit_of {n b : ℕ} {f : Fin n → Bool} (h : qubitBits n b = f) (k : ℕ) (hk : k < n) : b.testBit k = f ⟨k, hk⟩ := by
  rw [← h]; rfl

theorem counts_of {d : List Char} {e : ℕ × ℕ} (hd : DetElectrons norb d e) {b : ℕ} (h : qubitBits (2 * norb) b = detBits norb d) :
    alphaCount norb b.testBit = e.1 ∧ betaCount norb b.testBit = e.2 := by
  obtain ⟨h1, h2⟩ := hd
  rw [← h1, ← h2]
  constructor
  · unfold alphaCount
    congr 1
    refine filter_congr fun k hk => ?_
    have hk := mem_range.1 hk
    rw [testBit_of h k (by omega)]
    unfold detBits modeOf
    simp [hk]
  · unfold betaCount alphaCount
    congr 1
    refine filter_congr fun k hk => ?_
    have hk := mem_range.1 hk
    rw [testBit_of h (norb + k) (by omega)]
    unfold detBits modeOf
    simp

theorem qinner_basis {n : ℕ} (a b : Fin n → Bool) : qinner (basis a) (basis b) = if a = b then 1 else 0 := by
  unfold qinner basis
  rw [sum_eq_single a]
  · by_cases h : a = b <;> simp [h]
  · intro c _ hc; simp [hc]
  · simp

theorem electrons_det {d : List Char} {e : ℕ × ℕ} (hd : DetElectrons norb d e) : HasElectrons norb e (basis (detBits norb d)) := by
  refine ⟨fun b _ hb => counts_of hd ?_, by rw [qinner_basis, if_pos rfl]⟩
  by_contra hn
  apply hb
  unfold prob basis
  rw [if_neg hn]; simp

theorem detBits_inj {d d' : List Char} (h1 : IsDet norb d) (h2 : IsDet norb d') (h : detBits norb d = detBits norb d') : d = d' := by
  refine List.ext_getElem (h1.1.trans h2.1.symm) fun i hi hi' => ?_
  have hlt : i < 2 * norb := by rw [← h1.1]; exact hi
  have hmode : modeOf norb (f2q i norb) = i := by unfold modeOf f2q; split_ifs <;> omega
  have := congrFun h ⟨f2q i norb, f2q_bound hlt⟩
  unfold detBits at this
  simp only [hmode, List.getElem?_eq_getElem hi, List.getElem?_eq_getElem hi', Option.some.injEq, decide_eq_decide] at this
  rcases h1.2 _ (List.getElem_mem hi) with a | a <;> rcases h2.2 _ (List.getElem_mem hi') with b | b <;> rw [a, b] at this ⊢ <;>
    exact absurd this (by decide)

theorem electrons_sup {d d' : List Char} (h1 : IsDet norb d) (h2 : IsDet norb d') (hne : d ≠ d') {e : ℕ × ℕ}
    (hd : DetElectrons norb d e) (hd' : DetElectrons norb d' e) :
    HasElectrons norb e (((Real.sqrt 2 : ℝ) : ℂ)⁻¹ • (basis (detBits norb d) + basis (detBits norb d'))) := by
  have hbits : detBits norb d ≠ detBits norb d' := fun h => hne (detBits_inj h1 h2 h)
  refine ⟨fun b _ hb => ?_, ?_⟩
  · by_cases ha : qubitBits (2 * norb) b = detBits norb d
    · exact counts_of hd ha
    · by_cases ha' : qubitBits (2 * norb) b = detBits norb d'
      · exact counts_of hd' ha'
      · exfalso
        apply hb
        unfold prob basis
        simp [ha, ha']
  · rw [qinner_smul_left, qinner_smul_right, qinner_add_left, qinner_add_right, qinner_add_right, qinner_basis, qinner_basis,
      qinner_basis, qinner_basis, if_pos rfl, if_pos rfl, if_neg hbits, if_neg hbits.symm, map_inv₀, Complex.conj_ofReal]
    have h : ((Real.sqrt 2 : ℝ) : ℂ) * ((Real.sqrt 2 : ℝ) : ℂ) = 2 := by
      rw [← Complex.ofReal_mul, Real.mul_self_sqrt (by norm_num)]; norm_num
    have h0 : ((Real.sqrt 2 : ℝ) : ℂ) ≠ 0 := by
      rw [Complex.ofReal_ne_zero]; exact (Real.sqrt_pos.2 (by norm_num)).ne'
    field_simp
    linear_combination -h

end SQ
