import Verif.Lemmas.Sampler
import Verif.Lemmas.Csfs
import Verif.Props.Determinants

/-! # Lemmas: histories on an interface with an ideal sampler -/

namespace SQ

variable {norb : ℕ}

/-! ### Keys of saved data -/

/-- The determinant with the integer `k`. -/
def keyBits (norb k : ℕ) : Fin (2 * norb) → Bool := fun q => k.testBit (2 * norb - 1 - modeOf norb q)

/-- The state that data with the key `k` belong to. -/
noncomputable def savedState (norb k : ℕ) : QState (2 * norb) :=
  if k < 2 ^ (2 * norb) then basis (keyBits norb k)
  else ((Real.sqrt 2 : ℝ) : ℂ)⁻¹ • (basis (keyBits norb (k / 2 ^ (2 * norb))) + basis (keyBits norb (k % 2 ^ (2 * norb))))

theorem detInt_fold (l : List Char) (h : ∀ c ∈ l, c = '0' ∨ c = '1') : ∃ v, v < 2 ^ l.length ∧
    (∀ r, l.foldlM (fun r c => if c = '0' then Except.ok (2 * r) else if c = '1' then .ok (2 * r + 1)
      else .error PyErr.valueError) r = .ok (r * 2 ^ l.length + v)) ∧
    (∀ i, i < l.length → (v.testBit i = true ↔ l[l.length - 1 - i]? = some '1')) := by
  induction l using List.reverseRecOn with
  | nil => exact ⟨0, by simp, fun r => by simp [pure, Except.pure], fun i hi => by simp at hi⟩
  | append_singleton l c ih =>
    obtain ⟨v, h1, h2, h3⟩ := ih fun x hx => h x (by simp [hx])
    have hlen : (l ++ [c]).length = l.length + 1 := by simp
    have h0 : (l ++ [c])[l.length]? = some c := by simp
    have hs : ∀ i, i < l.length → (l ++ [c])[l.length - 1 - i]? = l[l.length - 1 - i]? := fun i hi =>
      List.getElem?_append_left (by omega)
    rcases h c (by simp) with rfl | rfl
    · refine ⟨2 * v, by rw [hlen, pow_succ]; omega, fun r => ?_, fun i hi => ?_⟩
      · rw [List.foldlM_append, h2]
        change Except.ok (2 * (r * 2 ^ l.length + v)) = _
        rw [hlen, pow_succ]
        congr 1; ring
      · rw [hlen] at hi ⊢
        cases i with
        | zero => rw [show l.length + 1 - 1 - 0 = l.length by omega, h0]; simp
        | succ i =>
          rw [show l.length + 1 - 1 - (i + 1) = l.length - 1 - i by omega, hs i (by omega), Nat.testBit_succ,
            show 2 * v / 2 = v by omega]
          exact h3 i (by omega)
    · refine ⟨2 * v + 1, by rw [hlen, pow_succ]; omega, fun r => ?_, fun i hi => ?_⟩
      · rw [List.foldlM_append, h2]
        change Except.ok (2 * (r * 2 ^ l.length + v) + 1) = _
        rw [hlen, pow_succ]
        congr 1; ring
      · rw [hlen] at hi ⊢
        cases i with
        | zero => rw [show l.length + 1 - 1 - 0 = l.length by omega, h0]; simp
        | succ i =>
          rw [show l.length + 1 - 1 - (i + 1) = l.length - 1 - i by omega, hs i (by omega), Nat.testBit_succ,
            show (2 * v + 1) / 2 = v by omega]
          exact h3 i (by omega)

theorem detInt_ok (hn : 0 < norb) {det : List Char} (h : IsDet norb det) : ∃ v, detInt det = .ok v ∧ v < 2 ^ (2 * norb) ∧
    keyBits norb v = detBits norb det ∧ ('1' ∈ det → 0 < v) := by
  obtain ⟨v, h1, h2, h3⟩ := detInt_fold det h.2
  have hne : det ≠ [] := by rintro rfl; have := h.1; simp at this; omega
  refine ⟨v, ?_, h.1 ▸ h1, ?_, fun hm => ?_⟩
  · unfold detInt
    rw [if_neg hne, h2, zero_mul, zero_add]
  · funext q
    have hq := modeOf_lt q.2
    unfold keyBits detBits
    rw [Bool.eq_iff_iff, decide_eq_true_eq, h3 _ (by rw [h.1]; omega), h.1,
      show 2 * norb - 1 - (2 * norb - 1 - modeOf norb q) = modeOf norb q by omega]
  · obtain ⟨i, hi, e⟩ := List.mem_iff_getElem.1 hm
    rcases Nat.eq_zero_or_pos v with rfl | hv
    · have := (h3 (det.length - 1 - i) (by omega)).2
      rw [show det.length - 1 - (det.length - 1 - i) = i by omega, List.getElem?_eq_getElem hi, e] at this
      simpa using this rfl
    · exact hv

theorem detInt_append (hn : 0 < norb) {a b : List Char} (ha : IsDet norb a) (hb : IsDet norb b) {v w : ℕ}
    (hv : detInt a = .ok v) (hw : detInt b = .ok w) : detInt (a ++ b) = .ok (v * 2 ^ (2 * norb) + w) := by
  obtain ⟨v', -, h2, -⟩ := detInt_fold a ha.2
  obtain ⟨w', -, k2, -⟩ := detInt_fold b hb.2
  have hna : a ≠ [] := by rintro rfl; have := ha.1; simp at this; omega
  have hnb : b ≠ [] := by rintro rfl; have := hb.1; simp at this; omega
  unfold detInt at hv hw ⊢
  rw [if_neg hna, h2, zero_mul, zero_add] at hv
  rw [if_neg hnb, k2, zero_mul, zero_add] at hw
  have e1 := Except.ok.inj hv
  have e2 := Except.ok.inj hw
  rw [if_neg (by simp [hna]), List.foldlM_append, h2, zero_mul, zero_add]
  change b.foldlM _ v' = _
  rw [k2, hb.1, e1, e2]

/-- The data saved under `det` belong to the state that `c` prepares. -/
def KeyOK (norb : ℕ) (det : List Char) (c : List (Gate (2 * norb))) : Prop :=
  (∃ k, detInt det = .ok k) ∧ ∀ k, detInt det = .ok k → savedState norb k = runCircuit c (zeroState _)

theorem keyOK_basis (hn : 0 < norb) {det : List Char} (h : IsDet norb det) {c : List (Gate (2 * norb))}
    (hc : runCircuit c (zeroState _) = basis (detBits norb det)) : KeyOK norb det c := by
  obtain ⟨v, h1, h2, h3, -⟩ := detInt_ok hn h
  refine ⟨⟨v, h1⟩, fun k hk => ?_⟩
  rw [h1] at hk; cases hk
  unfold savedState
  rw [if_pos h2, h3, hc]

theorem keyOK_det (hn : 0 < norb) {det : List Char} (h : IsDet norb det) {c : List (Gate (2 * norb))}
    (hc : determinantReference det norb .jordanWigner = .ok c) : KeyOK norb det c := by
  obtain ⟨gs, e1, e2⟩ := C55_determinant h
  rw [hc] at e1; cases e1
  exact keyOK_basis hn h e2

theorem keyOK_sup (hn : 0 < norb) {a b : List Char} (ha : IsDet norb a) (hb : IsDet norb b) (ho : '1' ∈ a)
    {c : List (Gate (2 * norb))} (hc : superpositionReference a b norb .jordanWigner = .ok c) : KeyOK norb (a ++ b) c := by
  obtain ⟨v, h1, h2, h3, h4⟩ := detInt_ok hn ha
  obtain ⟨w, k1, k2, k3, -⟩ := detInt_ok hn hb
  have e := detInt_append hn ha hb h1 k1
  refine ⟨⟨_, e⟩, fun k hk => ?_⟩
  rw [e] at hk; cases hk
  have hpos : ∃ i : ℕ, a[i]? = some '0' ∧ b[i]? = some '1' := by
    by_contra hno
    rw [(C55_superposition ha hb).2 hno] at hc
    cases hc
  obtain ⟨gs, g1, g2⟩ := (C55_superposition ha hb).1 hpos
  rw [hc] at g1; cases g1
  have hP : 0 < 2 ^ (2 * norb) := by positivity
  have hbig : ¬ v * 2 ^ (2 * norb) + w < 2 ^ (2 * norb) := by
    have := Nat.mul_le_mul_right (2 ^ (2 * norb)) (h4 ho)
    omega
  unfold savedState
  rw [if_neg hbig, g2, show (v * 2 ^ (2 * norb) + w) / 2 ^ (2 * norb) = v by
      rw [Nat.mul_comm, Nat.mul_add_div hP, Nat.div_eq_of_lt k2, add_zero],
    show (v * 2 ^ (2 * norb) + w) % 2 ^ (2 * norb) = w by
      rw [Nat.mul_comm, Nat.mul_add_mod, Nat.mod_eq_of_lt k2], h3, k3]

/-! ### The invariant -/

/-- All saved raw data are exact for the present parameters and the state their key stands for. -/
def KeptRaw (norb : ℕ) (ansatz : List ℝ → List (PGate (2 * norb))) (q : QI) : Prop :=
  q.shots ≠ none ∧ ∀ e ∈ q.saver,
    (∃ ops, Hist (2 * norb) (Ex (runPCircuit (ansatz q.params) (savedState norb e.1))) e.2.2 ops) ∧ Tot e.2.2

variable {B : Bench norb} {ansatz : List ℝ → List (PGate (2 * norb))}

theorem kept_same {q q' : QI} (h : KeptRaw norb ansatz q) (h1 : q'.shots = q.shots) (h2 : q'.saver = q.saver)
    (h3 : q'.params = q.params) : KeptRaw norb ansatz q' := by
  unfold KeptRaw at *
  rw [h1, h2, h3]
  exact h

theorem kept_entry {q : QI} (h : KeptRaw norb ansatz q) (key opt : ℕ) :
    (∃ ops, Hist (2 * norb) (Ex (runPCircuit (ansatz q.params) (savedState norb key))) (q.entry key opt) ops) ∧
      Tot (q.entry key opt) := by
  unfold QI.entry
  cases hl : q.saver.lookup key with
  | none => exact ⟨⟨[], Hist.nil _ _⟩, tot_nil⟩
  | some e =>
    obtain ⟨o, cs⟩ := e
    simp only
    split_ifs with ho
    · exact ⟨⟨[], Hist.nil _ _⟩, tot_nil⟩
    · have hm : (key, (o, cs)) ∈ q.saver := by
        obtain ⟨l1, l2, he, -⟩ := List.lookup_eq_some_iff.1 hl
        rw [he]; simp
      exact h.2 _ hm

theorem evLabels_spec (hn : 0 < norb) (hI : Ideal B.dev ansatz) {q : QI}
    (h : KeptRaw norb ansatz q) {det : List Char} {c : List (Gate (2 * norb))} (hk : KeyOK norb det c) (opt : ℕ)
    {obs : List (List Char × ℝ)} (hne : obs ≠ []) (hlab : ∀ pc ∈ obs, PauliLabel (2 * norb) pc.1) :
    ∃ r q', evLabels B det c opt obs q = (r, q') ∧ KeptRaw norb ansatz q' ∧ q'.params = q.params ∧ q'.flags = q.flags ∧
      (q.flags.isEnabled = false → r = .ok (labelSum (prepared ansatz q.params c) obs)) := by
  obtain ⟨⟨key, ek⟩, hkey⟩ := hk
  have hkey := hkey key ek
  unfold evLabels
  rw [ek]
  simp only
  obtain ⟨⟨ops, he⟩, ht⟩ := kept_entry h key opt
  obtain ⟨r, q', cs, e1, e2, e3, e4, e5, e6, e7, e8⟩ := evaluate_exact (dev := B.dev) (c := c) (by omega : 0 < 2 * norb) he ht
    (fun hd => by
      have := hI q.run (q.setting c) hd
      rw [hkey]
      exact this) (obs := obs) hlab hne
  refine ⟨r, q', e1, ⟨by rw [e5]; exact h.1, fun e hx => ?_⟩, e3, e4, fun hf => ?_⟩
  · rw [e3]
    rw [e2] at hx
    rcases mem_dictPut hx with hx | rfl
    · exact h.2 e hx
    · exact ⟨e6, e7⟩
  · rw [e8 hf, hkey]
    rfl

theorem evSaved_spec (hn : 0 < norb) (hI : Ideal B.dev ansatz) (hM : JWMapper (2 * norb) B.map) {q : QI}
    (h : KeptRaw norb ansatz q) {det : List Char} {c : List (Gate (2 * norb))} (hk : KeyOK norb det c) (opt : ℕ) (op : Dict ℝ) :
    ∃ r q', evSaved B det c opt op q = (r, q') ∧ KeptRaw norb ansatz q' ∧ q'.params = q.params ∧ q'.flags = q.flags ∧
      (q.flags.isEnabled = false → ∀ obs, opToQbit B.map norb op = .ok obs →
        r = .ok (labelSum (prepared ansatz q.params c) (realParts obs))) := by
  obtain ⟨⟨key, ek⟩, hkey⟩ := hk
  have hkey := hkey key ek
  unfold evSaved
  rw [ek]
  simp only
  cases eo : opToQbit B.map norb op with
  | error e => exact ⟨_, _, rfl, h, rfl, rfl, fun _ obs ho => by cases ho⟩
  | ok obs =>
    have hlab : obs ≠ [] ∧ ∀ pc ∈ obs, PauliLabel (2 * norb) pc.1 := by
      unfold opToQbit at eo
      cases ef : getQiskitForm norb op with
      | error e => rw [ef] at eo; cases eo
      | ok form => rw [ef] at eo; exact hM.labels _ _ eo
    obtain ⟨⟨ops, he⟩, ht⟩ := kept_entry h key opt
    obtain ⟨r, q', cs, e1, e2, e3, e4, e5, e6, e7, e8⟩ := evaluate_exact (dev := B.dev) (c := c) (by omega : 0 < 2 * norb) he ht
      (fun hd => by
        have := hI q.run (q.setting c) hd
        rw [hkey]
        exact this) (obs := realParts obs)
      (fun pc hpc => by
        obtain ⟨x, hx, rfl⟩ := List.mem_map.1 hpc
        exact hlab.2 x hx)
      (by unfold realParts; simpa using hlab.1)
    refine ⟨r, q', e1, ⟨by rw [e5]; exact h.1, fun e hx => ?_⟩, e3, e4, fun hf obs' ho => ?_⟩
    · rw [e3]
      rw [e2] at hx
      rcases mem_dictPut hx with hx | rfl
      · exact h.2 e hx
      · exact ⟨e6, e7⟩
    · cases ho
      rw [e8 hf, hkey]
      rfl

theorem evFresh_state (p : List ℝ) (c : List (Gate (2 * norb))) (op : Dict ℝ) (q : QI) :
    (evFresh B p c op q).2.saver = q.saver ∧ (evFresh B p c op q).2.params = q.params ∧
      (evFresh B p c op q).2.flags = q.flags ∧ (evFresh B p c op q).2.shots = q.shots := by
  have hm : ∀ hs ds, (mitigateFresh B q c hs ds).2.saver = q.saver ∧ (mitigateFresh B q c hs ds).2.params = q.params ∧
      (mitigateFresh B q c hs ds).2.flags = q.flags ∧ (mitigateFresh B q c hs ds).2.shots = q.shots := by
    intro hs ds
    unfold mitigateFresh
    split_ifs <;> exact ⟨rfl, rfl, rfl, rfl⟩
  unfold evFresh
  cases opToQbit B.map norb op with
  | error e => exact ⟨rfl, rfl, rfl, rfl⟩
  | ok obs =>
    simp only
    split_ifs
    · rcases addPaulis [] (obs.map Prod.fst) with ⟨_ | heads, cs⟩
      · exact ⟨rfl, rfl, rfl, rfl⟩
      · simp only
        have := hm heads (heads.map (B.dev.measure q.run { q.setting c with params := p }))
        revert this
        rcases mitigateFresh B q c heads (heads.map (B.dev.measure q.run { q.setting c with params := p })) with ⟨_ | ds, q1⟩
        · exact id
        · intro this
          simp only
          split <;> exact this
    · have := hm (obs.map Prod.fst) ((obs.map Prod.fst).map (B.dev.measure q.run { q.setting c with params := p }))
      revert this
      rcases mitigateFresh B q c (obs.map Prod.fst)
        ((obs.map Prod.fst).map (B.dev.measure q.run { q.setting c with params := p })) with ⟨_ | ds, q1⟩ <;> exact id

theorem direct_sum {n : ℕ} (hn : 0 < n) {ψ : QState n} (f : List Char → Distr) (hf : ∀ hd, ExactDistr n ψ hd (f hd))
    (obs : List (List Char × ℝ)) (hp : ∀ pc ∈ obs, PauliLabel n pc.1) : ∀ v0 : ℝ,
    (obs.zip ((obs.map Prod.fst).map f)).foldlM (fun values x => do
      let result ← x.2.foldlM (fun r kv => do
        let s ← getBitstringSign x.1.1 kv.1
        return r + kv.2 * (s : ℝ)) 0
      return values + result * x.1.2) v0 = Except.ok (v0 + labelSum ψ obs) := by
  induction obs with
  | nil => intro v0; simp [labelSum, pure, Except.pure]
  | cons pc obs ih =>
    intro v0
    rw [List.map_cons, List.map_cons, List.zip_cons_cons, List.foldlM_cons]
    have e := signSum hn (hp pc (by simp)) (f pc.1) 0
    simp only
    rw [e]
    simp only [ok_bind, pure_bind]
    rw [ih fun x hx => hp x (by simp [hx])]
    have := exact_average (hp pc (by simp)) (Covers.refl pc.1) (hf pc.1)
    unfold labelSum
    rw [List.map_cons, List.sum_cons, ← this, Complex.ofReal_re]
    congr 1; ring

theorem evFresh_value (hn : 0 < norb) (hI : Ideal B.dev ansatz) (hM : JWMapper (2 * norb) B.map) {q : QI}
    (hf : q.flags.isEnabled = false) (p : List ℝ) (c : List (Gate (2 * norb))) {op : Dict ℝ} {obs : List (List Char × ℂ)}
    (ho : opToQbit B.map norb op = .ok obs) :
    (evFresh B p c op q).1 = .ok (labelSum (prepared ansatz p c) (realParts obs)) := by
  have hlab : obs ≠ [] ∧ ∀ pc ∈ obs, PauliLabel (2 * norb) pc.1 := by
    unfold opToQbit at ho
    cases ef : getQiskitForm norb op with
    | error e => rw [ef] at ho; cases ho
    | ok form => rw [ef] at ho; exact hM.labels _ _ ho
  have hp : ∀ pc ∈ realParts obs, PauliLabel (2 * norb) pc.1 := by
    intro pc hpc
    obtain ⟨x, hx, rfl⟩ := List.mem_map.1 hpc
    exact hlab.2 x hx
  have efst : (realParts obs).map Prod.fst = obs.map Prod.fst := by unfold realParts; simp
  have hdev : ∀ hd, ExactDistr (2 * norb) (prepared ansatz p c) hd
      (B.dev.measure q.run { q.setting c with params := p } hd) := fun hd => by
    have := hI q.run { q.setting c with params := p } hd
    exact this
  have hmit : ∀ hs ds, mitigateFresh B q c hs ds = (.ok ds, q) := by
    intro hs ds; unfold mitigateFresh; rw [hf]; rfl
  unfold evFresh
  rw [ho]
  simp only
  by_cases hc : B.cliques = true
  · rw [if_pos hc]
    have h0 : Hist (2 * norb) (Ex (prepared ansatz p c)) [] [] := Hist.nil _ _
    have hlen : ∀ x ∈ obs.map Prod.fst, x.length = 2 * norb := by
      intro x hx
      obtain ⟨pc, h1, rfl⟩ := List.mem_map.1 hx
      exact (hlab.2 pc h1).1
    set f := B.dev.measure q.run { q.setting c with params := p } with hfdef
    obtain ⟨⟨ops, hh, hadd⟩, hfull⟩ := measureStep_hist h0 f (fun hd _ => hdev hd) hlen
    have hok := measureStep_total h0 tot_nil f (fun hd => (hdev hd).nonempty) hlen (by simpa using hlab.1)
    have hfull := hfull hok
    unfold measureStep at hh hfull hok
    cases e : addPaulis [] (obs.map Prod.fst) with
    | mk r cs =>
      rw [e] at hh hfull hok
      cases r with
      | error er => cases hok
      | ok heads =>
        simp only at hh hfull hok ⊢
        rw [hmit]
        simp only
        by_cases hne : heads ≠ []
        · rw [if_pos hne] at hh hfull hok
          cases e2 : updateDistr cs heads (heads.map f) 0 with
          | mk r2 cs2 =>
            rw [e2] at hh hfull hok
            cases hok
            exact value_exact (by omega) hh hfull hp (efst ▸ hadd)
        · rw [if_neg hne] at hh hfull hok
          rw [not_not] at hne
          subst hne
          have : updateDistr cs [] ([].map f) 0 = (.ok (), cs) := by
            unfold updateDistr
            change (checkAllocated 0 cs, cs) = _
            rw [checkAllocated_ok hfull]
          rw [this]
          exact value_exact (by omega) hh hfull hp (efst ▸ hadd)
  · rw [if_neg hc, hmit]
    simp only
    have := direct_sum (by omega : 0 < 2 * norb) _ hdev (realParts obs) hp 0
    rw [efst, zero_add] at this
    exact this

/-! ### Calls -/

/-- The call keeps the invariant, whatever happens. -/
def QMKeeps {α : Type} (ansatz : List ℝ → List (PGate (2 * norb))) (m : QM α) : Prop :=
  ∀ q, KeptRaw norb ansatz q → KeptRaw norb ansatz (m q).2

/-- Without mitigation the call gives `r` and keeps invariant and settings. -/
def GivesVal {α : Type} (ansatz : List ℝ → List (PGate (2 * norb))) (p : List ℝ) (m : QM α) (r : Res α) : Prop :=
  ∀ q, KeptRaw norb ansatz q → q.params = p → q.flags.isEnabled = false →
    ∃ q', m q = (r, q') ∧ KeptRaw norb ansatz q' ∧ q'.params = p ∧ q'.flags.isEnabled = false

theorem qm_bind {α β : Type} (m : QM α) (f : α → QM β) (q : QI) : (m >>= f) q =
    match m q with
    | (.ok a, q') => f a q'
    | (.error e, q') => (.error e, q') := by
  rcases e : m q with ⟨r, q'⟩
  cases r <;> simp [bind, ExceptT.bind, ExceptT.mk, StateT.bind, ExceptT.bindCont, e, pure, StateT.pure]

theorem QMKeeps.bind {α β : Type} {m : QM α} {f : α → QM β} (h1 : QMKeeps ansatz m) (h2 : ∀ a q, (m q).1 = .ok a → QMKeeps ansatz (f a)) :
    QMKeeps ansatz (m >>= f) := by
  intro q hq
  have := h1 q hq
  rw [qm_bind]
  cases e : m q with
  | mk r q' =>
    rw [e] at this
    cases r with
    | ok a => exact h2 a q (by rw [e]) q' this
    | error e => exact this

theorem GivesVal.bind {α β : Type} {p : List ℝ} {m : QM α} {r : Res α} {f : α → QM β} {g : α → Res β} (h1 : GivesVal ansatz p m r)
    (h2 : ∀ a, r = .ok a → GivesVal ansatz p (f a) (g a)) : GivesVal ansatz p (m >>= f) (r >>= g) := by
  intro q hq hp hf
  obtain ⟨q', e1, e2, e3, e4⟩ := h1 q hq hp hf
  rw [qm_bind, e1]
  cases r with
  | ok a => exact h2 a rfl q' e2 e3 e4
  | error e => exact ⟨q', rfl, e2, e3, e4⟩

theorem gives_pure {α : Type} {p : List ℝ} (a : α) : GivesVal ansatz p (pure a) (.ok a) :=
  fun q hq hp hf => ⟨q, rfl, hq, hp, hf⟩

theorem keeps_pure {α : Type} (a : α) : QMKeeps ansatz (pure a) := fun _ hq => hq

theorem gives_lift {α : Type} {p : List ℝ} (r : Res α) : GivesVal ansatz p (csfsPair.liftExcept r) r :=
  fun q hq hp hf => ⟨q, rfl, hq, hp, hf⟩

theorem keeps_lift {α : Type} (r : Res α) : QMKeeps ansatz (csfsPair.liftExcept r) := fun _ hq => hq

theorem keeps_evOne (hn : 0 < norb) (hI : Ideal B.dev ansatz) (hM : JWMapper (2 * norb) B.map) (custom : Option (List ℝ))
    {det : List Char} {c : List (Gate (2 * norb))} (hk : KeyOK norb det c) (opt : ℕ) (op : Dict ℝ) :
    QMKeeps ansatz (evOne B custom det c opt op) := by
  intro q hq
  have fresh : ∀ p, KeptRaw norb ansatz (evFresh B p c op q).2 := fun p => by
    obtain ⟨h1, h2, h3, h4⟩ := evFresh_state (B := B) p c op q
    exact kept_same hq h4 h1 h2
  unfold evOne
  cases custom with
  | some p => exact fresh p
  | none =>
    simp only
    split_ifs
    · obtain ⟨r, q', e, h1, -⟩ := evSaved_spec hn hI hM hq hk opt op
      rw [e]; exact h1
    · exact fresh _

theorem gives_evOne (hn : 0 < norb) (hI : Ideal B.dev ansatz) (hM : JWMapper (2 * norb) B.map) (custom : Option (List ℝ))
    {det : List Char} {c : List (Gate (2 * norb))} (hk : KeyOK norb det c) (opt : ℕ) {op : Dict ℝ}
    {obs : List (List Char × ℂ)} (ho : opToQbit B.map norb op = .ok obs) (p : List ℝ) :
    GivesVal ansatz p (evOne B custom det c opt op) (.ok (labelSum (prepared ansatz (custom.getD p) c) (realParts obs))) := by
  intro q hq hp hf
  have fresh : ∀ p', ∃ q', evFresh B p' c op q = (.ok (labelSum (prepared ansatz p' c) (realParts obs)), q') ∧
      KeptRaw norb ansatz q' ∧ q'.params = p ∧ q'.flags.isEnabled = false := fun p' => by
    obtain ⟨h1, h2, h3, h4⟩ := evFresh_state (B := B) p' c op q
    exact ⟨_, Prod.ext (evFresh_value hn hI hM hf p' c ho) rfl, kept_same hq h4 h1 h2, h2.trans hp, by rw [h3]; exact hf⟩
  unfold evOne
  cases custom with
  | some p' => exact fresh p'
  | none =>
    simp only
    split_ifs
    · obtain ⟨r, q', e, h1, h2, h3, h4⟩ := evSaved_spec hn hI hM hq hk opt op
      refine ⟨q', ?_, h1, h2.trans hp, by rw [h3]; exact hf⟩
      rw [e, h4 hf obs ho, hp]
      rfl
    · rw [hp]; exact fresh p

/-! ### Matrix elements -/

theorem unique_dets {rev : Bool} {bra ket : List (ℝ × List Char)} (P : List Char → Prop) (hb : ∀ b ∈ bra, P b.2)
    (hk : ∀ k ∈ ket, P k.2) : ∀ x ∈ uniqueCombinations rev bra ket, P x.1.1 ∧ P x.1.2 := by
  intro x hx
  have := (addWeights_spec (fun _ => 0) _ [] (by simp)).2 x.1 (List.mem_map_of_mem hx)
  rcases this with h | h
  · simp at h
  · obtain ⟨y, hy, e⟩ := List.mem_map.1 h
    obtain ⟨b, hb', hy⟩ := List.mem_flatMap.1 hy
    obtain ⟨k, hk', rfl⟩ := List.mem_map.1 hy
    rw [← e]
    rcases sortedPair_cases rev b.2 k.2 with h | h <;> simp only [h]
    · exact ⟨hb b hb', hk k hk'⟩
    · exact ⟨hk k hk', hb b hb'⟩

theorem zipCsf_mem {csf : List ℝ × List (List Char)} {l : List (ℝ × List Char)} (h : zipCsf csf = .ok l) :
    ∀ x ∈ l, x.2 ∈ csf.2 := by
  unfold zipCsf at h
  split_ifs at h
  cases h
  exact fun x hx => (List.of_mem_zip (a := x.1) (b := x.2) hx).2

theorem gives_csfs (hn : 0 < norb) (hI : Ideal B.dev ansatz) (hM : JWMapper (2 * norb) B.map) (custom : Option (List ℝ))
    (opt : ℕ) (rev : Bool) {bra ket : List ℝ × List (List Char)} (hb : ∀ d ∈ bra.2, FullDet norb d)
    (hk : ∀ d ∈ ket.2, FullDet norb d) {op : Dict ℝ} {obs : List (List Char × ℂ)} (ho : opToQbit B.map norb op = .ok obs)
    (p : List ℝ) :
    GivesVal ansatz p (quantumExpectationCsfs B custom opt rev bra op ket)
      (expectationCsfs (fun c => labelSum (prepared ansatz (custom.getD p) c) (realParts obs)) B.mapper rev bra ket) := by
  unfold quantumExpectationCsfs expectationCsfs
  split_ifs with h1 h2
  · exact fun q hq hp hf => ⟨q, rfl, hq, hp, hf⟩
  · exact gives_pure 0
  rw [not_not] at h1
  refine (gives_lift _).bind fun b eb => (gives_lift _).bind fun k ek => ?_
  have hm := unique_dets (rev := rev) (FullDet norb) (fun x hx => hb _ (zipCsf_mem eb x hx))
    (fun x hx => hk _ (zipCsf_mem ek x hx))
  generalize uniqueCombinations rev b k = l at hm
  have pair : ∀ x ∈ l, GivesVal ansatz p (csfsPair B custom opt op x)
      (csfsTerm (fun c => labelSum (prepared ansatz (custom.getD p) c) (realParts obs)) x) := by
    intro x hx
    obtain ⟨⟨d1, o1⟩, ⟨d2, o2⟩⟩ := hm x hx
    unfold csfsPair csfsTerm
    rw [h1]
    split_ifs with hx
    · refine (gives_lift _).bind fun c hc => ?_
      exact (gives_evOne hn hI hM custom (keyOK_det hn d1 hc) 1 ho p).bind (g := fun v => .ok (x.2 * v)) fun v _ => gives_pure _
    · refine (gives_lift _).bind fun s hs => ?_
      have step : ∀ (q : QI), GivesVal ansatz p (do
          let v ← evOne B custom (x.1.1 ++ x.1.2) s (supOption q.flags opt) op
          let c1 ← csfsPair.liftExcept (determinantReference x.1.1 norb .jordanWigner)
          let v1 ← evOne B custom x.1.1 c1 1 op
          let c2 ← csfsPair.liftExcept (determinantReference x.1.2 norb .jordanWigner)
          let v2 ← evOne B custom x.1.2 c2 1 op
          return x.2 * v - 0.5 * x.2 * v1 - 0.5 * x.2 * v2) (do
        let c1 ← determinantReference x.1.1 norb .jordanWigner
        let c2 ← determinantReference x.1.2 norb .jordanWigner
        return x.2 * labelSum (prepared ansatz (custom.getD p) s) (realParts obs)
          - 0.5 * x.2 * labelSum (prepared ansatz (custom.getD p) c1) (realParts obs)
          - 0.5 * x.2 * labelSum (prepared ansatz (custom.getD p) c2) (realParts obs)) := by
        intro q
        have := (gives_evOne hn hI hM custom (keyOK_sup hn d1 d2 o1 hs) (supOption q.flags opt) ho p).bind
          (g := fun v => do
            let c1 ← determinantReference x.1.1 norb .jordanWigner
            let c2 ← determinantReference x.1.2 norb .jordanWigner
            return x.2 * v - 0.5 * x.2 * labelSum (prepared ansatz (custom.getD p) c1) (realParts obs)
              - 0.5 * x.2 * labelSum (prepared ansatz (custom.getD p) c2) (realParts obs))
          (f := fun v => do
            let c1 ← csfsPair.liftExcept (determinantReference x.1.1 norb .jordanWigner)
            let v1 ← evOne B custom x.1.1 c1 1 op
            let c2 ← csfsPair.liftExcept (determinantReference x.1.2 norb .jordanWigner)
            let v2 ← evOne B custom x.1.2 c2 1 op
            return x.2 * v - 0.5 * x.2 * v1 - 0.5 * x.2 * v2) fun v _ => by
              refine (gives_lift _).bind fun c1 hc1 => ?_
              have := (gives_evOne hn hI hM custom (keyOK_det hn d1 hc1) 1 ho p).bind
                (g := fun v1 => do
                  let c2 ← determinantReference x.1.2 norb .jordanWigner
                  return x.2 * v - 0.5 * x.2 * v1 - 0.5 * x.2 * labelSum (prepared ansatz (custom.getD p) c2) (realParts obs))
                (f := fun v1 => do
                  let c2 ← csfsPair.liftExcept (determinantReference x.1.2 norb .jordanWigner)
                  let v2 ← evOne B custom x.1.2 c2 1 op
                  return x.2 * v - 0.5 * x.2 * v1 - 0.5 * x.2 * v2) fun v1 _ => by
                    refine (gives_lift _).bind fun c2 hc2 => ?_
                    exact (gives_evOne hn hI hM custom (keyOK_det hn d2 hc2) 1 ho p).bind
                      (g := fun v2 => .ok (x.2 * v - 0.5 * x.2 * v1 - 0.5 * x.2 * v2)) fun v2 _ => gives_pure _
              exact this
        exact this
      intro q hq hp hf
      exact step q q hq hp hf
  clear hm
  have loop : ∀ (l : List ((List Char × List Char) × ℝ)), (∀ x ∈ l, GivesVal ansatz p (csfsPair B custom opt op x)
      (csfsTerm (fun c => labelSum (prepared ansatz (custom.getD p) c) (realParts obs)) x)) → ∀ v0 : ℝ,
      GivesVal ansatz p (l.foldlM (fun val x => do
        let t ← csfsPair B custom opt op x
        return val + t) v0) (l.foldlM (fun val x => do
        let t ← csfsTerm (fun c => labelSum (prepared ansatz (custom.getD p) c) (realParts obs)) x
        return val + t) v0) := by
    intro l
    induction l with
    | nil => intro _ v0; exact gives_pure v0
    | cons x l ih =>
      intro hl v0
      rw [List.foldlM_cons, List.foldlM_cons]
      refine GivesVal.bind ?_ fun v _ => ih (fun y hy => hl y (by simp [hy])) v
      exact (hl x (by simp)).bind (g := fun t => .ok (v0 + t)) fun t _ => gives_pure _
  exact loop l pair 0

theorem keeps_csfs (hn : 0 < norb) (hI : Ideal B.dev ansatz) (hM : JWMapper (2 * norb) B.map) (custom : Option (List ℝ))
    (opt : ℕ) (rev : Bool) {bra ket : List ℝ × List (List Char)} (hb : ∀ d ∈ bra.2, FullDet norb d)
    (hk : ∀ d ∈ ket.2, FullDet norb d) (op : Dict ℝ) :
    QMKeeps ansatz (quantumExpectationCsfs B custom opt rev bra op ket) := by
  unfold quantumExpectationCsfs
  split_ifs with h1 h2
  · exact fun q hq => hq
  · exact keeps_pure 0
  rw [not_not] at h1
  refine (keeps_lift _).bind fun b _ eb => (keeps_lift _).bind fun k _ ek => ?_
  have hm := unique_dets (rev := rev) (FullDet norb) (fun x hx => hb _ (zipCsf_mem eb x hx))
    (fun x hx => hk _ (zipCsf_mem ek x hx))
  generalize uniqueCombinations rev b k = l at hm
  have pair : ∀ x ∈ l, QMKeeps ansatz (csfsPair B custom opt op x) := by
    intro x hx
    obtain ⟨⟨d1, o1⟩, ⟨d2, o2⟩⟩ := hm x hx
    unfold csfsPair
    rw [h1]
    split_ifs with hx
    · refine (keeps_lift _).bind fun c _ hc => ?_
      exact (keeps_evOne hn hI hM custom (keyOK_det hn d1 hc) 1 op).bind fun v _ _ => keeps_pure _
    · refine (keeps_lift _).bind fun s _ hs => ?_
      refine QMKeeps.bind (fun q hq => hq) fun q _ _ => ?_
      refine (keeps_evOne hn hI hM custom (keyOK_sup hn d1 d2 o1 hs) _ op).bind fun v _ _ => ?_
      refine (keeps_lift _).bind fun c1 _ hc1 => (keeps_evOne hn hI hM custom (keyOK_det hn d1 hc1) 1 op).bind fun v1 _ _ => ?_
      refine (keeps_lift _).bind fun c2 _ hc2 => (keeps_evOne hn hI hM custom (keyOK_det hn d2 hc2) 1 op).bind fun v2 _ _ => ?_
      exact keeps_pure _
  have loop : ∀ (l : List ((List Char × List Char) × ℝ)), (∀ x ∈ l, QMKeeps ansatz (csfsPair B custom opt op x)) →
      ∀ v0 : ℝ, QMKeeps ansatz (l.foldlM (fun val x => do
        let t ← csfsPair B custom opt op x
        return val + t) v0) := by
    intro l
    induction l with
    | nil => intro _ v0; exact keeps_pure v0
    | cons x l ih =>
      intro hl v0
      rw [List.foldlM_cons]
      exact QMKeeps.bind ((hl x (by simp)).bind fun t _ _ => keeps_pure _) fun v _ _ => ih (fun y hy => hl y (by simp [hy])) v
  exact loop l pair 0

end SQ
