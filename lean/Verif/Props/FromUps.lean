import Verif.Lemmas.FromUps
import Verif.Props.CircuitWave
import Verif.Props.Sampler
import Verif.Props.StateAverage
import Verif.Props.SaStates
import Verif.Props.ResponseProjected

/-!
# C120: circuit wave functions made from UPS wave functions

`Bench.Plain`, `Bench.ReachedSimply`: Spec/FromUps.lean; `ExactQuantum`: Spec/QuantumResponse.lean; `LayoutAnsatz`,
`Bench.Sound`: Spec/Sampler.lean; `CasFits`: Spec/OrbitalSpaces.lean.
-/

namespace SQ

section start

variable {norb : ℕ} {B : Bench norb} {ansatz : List ℝ → List (PGate (2 * norb))}

/-- C120: on an interface that starts from any circuit, `quantum_expectation_value` returns the expectation value in the
state that circuit and ansatz prepare, after any calls other than of `quantum_expectation_value_csfs` (for those see
`C113_pairing_disagree`). -/
theorem C120_expectation (hB : B.Plain ansatz) {q : QI} (hq : B.ReachedSimply q) (hf : q.flags.isEnabled = false)
    (custom : Option (List ℝ)) {A : Dict ℝ} (hA : WF A) (hr : ∀ kv ∈ A, ∀ o ∈ kv.1, o.1 < 2 * norb) {y : Fock ℝ}
    (hy : Below (2 * norb) y) {s : ℂ} (hs : (starRingEnd ℂ) s * s = 1)
    (hp : prepared ansatz (custom.getD q.params) B.state = s • onRegister norb y) :
    (quantumExpectation B custom A q).1 = .ok (expv y (sumOp A)) := by
  obtain ⟨obs, ho, hob⟩ := opToQbit_ok hB.mapping hA hr
  obtain ⟨r, q', e, -, h⟩ := expectation_start hB (reachedSimply_kept hB hq) custom A
  rw [e, h hf obs ho, value_register hob hr hs hy hp]

end start

section values

variable {tiny big : ℝ → Bool} {th : Threads} {ci : CIInfo} {norb : ℕ} {B : Bench norb}
  {ansatz : List ℝ → List (PGate (2 * norb))} {st : AnsatzStruct} {Ts Ts' : List (FOp ℝ)}

theorem start_exact (ht : ExactTiny tiny) (hs : AnsatzSpace ci ci.nA) (hth : th.Fair ci.idx2det.length) (hn : norb = ci.nA)
    (hL : Layout 0 ci.nA st.types st.indices Ts) (hC : CircuitLayout ci.nA st.types st.indices Ts')
    (hB : B.Plain ansatz) (hA : LayoutAnsatz norb st.types st.indices ansatz) {q : QI} (hq : B.ReachedSimply q)
    (hf : q.flags.isEnabled = false) (hl : q.params.length = st.types.length) (ha : ∀ θ ∈ q.params, effAngle θ = θ)
    {d : List Char} (hd : IsDet norb d) (hstart : runCircuit B.state (zeroState _) = basis (detBits norb d)) {v w : Vec ℝ}
    (hv : stateOf ci v = ket (detSet d))
    (hw : constructUps (propVec tiny th ci) tiny ci.offset st q.params false v = .ok w) :
    ExactQuantum ci w fun A => (quantumExpectation B none A q).1 := by
  subst hn
  intro A hN hr
  obtain ⟨w', gs, names, e1, e2, e3⟩ := C91_same_state ht hs hth hL hC q.params hl ha (fun k => q.params.getD k 0)
    (fun k θ hk => by simp [hk]) v
  rw [hw] at e1
  cases e1
  have eg := layout_run hA q.params e2
  obtain ⟨s, h1, h2⟩ := det_register hd
  refine C120_expectation hB hq hf none hN.1 hr (below_stateOf ci w) h1 ?_
  unfold prepared
  rw [hstart, h2, ← runLin_apply, map_smul, runLin_apply, ← hv]
  change s • runPCircuit (ansatz q.params) _ = _
  rw [eg, e3]

end values

/-- The interface of a circuit wave function on a device. -/
def CircWf.bench {α : Type} (c : CircWf α) (dev : Device (List (Gate (2 * c.spaces.numActiveOrbs))))
    (map : SDict ℝ → Res (List (List Char × ℂ))) (save cliques : Bool) : Bench c.spaces.numActiveOrbs :=
  ⟨dev, .jordanWigner, map, c.numElec, c.state, save, cliques⟩

section built

variable {α : Type} {numOrbs numElec cas0 cas1 : ℕ}

theorem build_ok (h : CasFits numOrbs numElec cas0 cas1) {s : UpsStruct} {calls : List UpsCall}
    (e1 : s = calls.foldl UpsCall.run {}) (e2 : ∀ c ∈ calls, c.HasCircuit cas1) (hs : s.nParams ≤ 10 ^ 9) (k : KappaLists)
    (C : ℕ → α) (o : Options) (states : Option (List (List ℝ × List (List Char)))) {t : List ℝ} (htl : t.length = s.nParams) :
    ∃ c c', buildCircuit (mkSpaces numOrbs numElec cas0 cas1) k C (cas0 / 2, cas0 / 2) o s states = .ok c ∧
      c.setThetas t = .ok c' ∧ c'.spaces = mkSpaces numOrbs numElec cas0 cas1 ∧ c'.kappa = k ∧ c'.cMo = C ∧
      c'.numElec = (cas0 / 2, cas0 / 2) ∧ c'.names = s.names ∧ c'.params = t ∧ c'.states = states ∧
      LayoutAnsatz c'.spaces.numActiveOrbs s.types s.indices c'.ansatz ∧
      ∃ f : List Bool, f.length = cas1 ∧ f.count true = cas0 / 2 ∧
        (if o.flag "do_pp" ≠ 0 then ppDet (2 * cas1) cas0 else .ok (hfDet (2 * cas1) cas0)) = .ok (doubled f) ∧
        runCircuit c'.state (zeroState _) = basis (detBits c'.spaces.numActiveOrbs (detText (doubled f))) := by
  obtain ⟨-, -, f3, -⟩ := spaces_fits h
  obtain ⟨g1, g2, Ts, -, -, g3⟩ := calls_circuit e1 e2 hs
  have h2 := h.evenActive
  have h4 := h.enoughActive
  set S := mkSpaces numOrbs numElec cas0 cas1 with hS
  rw [← f3] at g3
  obtain ⟨c, f, k1, k2, k3, k4, k5⟩ := start_det (n := S.numActiveOrbs) (m := cas0 / 2) (by omega) o
  obtain ⟨gs, R, p1, p2⟩ := g3 (fun _ => 0)
  refine ⟨⟨S, k, C, (cas0 / 2, cas0 / 2), c, layoutGates S.numActiveOrbs s, R, s.names, List.replicate s.names.length 0, states⟩,
    ⟨S, k, C, (cas0 / 2, cas0 / 2), c, layoutGates S.numActiveOrbs s, R, s.names, t, states⟩, ?_, ?_, rfl, rfl, rfl, rfl,
    rfl, rfl, rfl, ?_, f, k2.trans f3, k3, ?_, k5⟩
  · unfold buildCircuit
    rw [k1, ok_bind, p1, ok_bind, p2, ok_bind]
    rfl
  · unfold CircWf.setThetas
    rw [if_neg (by simp only; rw [htl, g2]; simp)]
  · intro p
    obtain ⟨gs, R, p1, -⟩ := g3 (fun k => p.getD k 0)
    refine ⟨R, ?_⟩
    simp only
    unfold layoutGates
    rw [p1]
  · rw [show 2 * (cas0 / 2) = cas0 by omega, f3] at k4
    exact k4

/-- C120: a UPS wave function as its constructor made it, with whatever orbitals and parameters it holds now, is converted
to a circuit wave function with the same spaces, rotations, orbitals and parameters; and on an ideal device the expectation
values from the circuit are those of the state vector, also with perfect pairing. -/
theorem C120_ups (h : CasFits numOrbs numElec cas0 cas1) (hA : 0 < cas1) {mo : ℕ → α} {name : String} {o : Options}
    {inc : Bool} {csf : Vec ℝ} {ci : CIInfo} {w : UpsObj α}
    (hw : upsObject numOrbs numElec [cas0, cas1] mo name o inc = .ok (csf, ci, w))
    (hf : name ∈ ["fucc", "fuccsd", "ksafupccgsd", "fuccpd", "safuccsd"] →
      ∀ k ∈ ["GD", "T", "Q", "5", "6", "SAD"], w.options.flag k = 0)
    (hp : name ∈ ["sdsfuccsd", "ksasdsfupccgsd"] → w.options.flag "pD" = 0) (hs : w.layout.nParams ≤ 10 ^ 9)
    (C : ℕ → α) {t : List ℝ} (htl : t.length = w.layout.nParams) :
    ∃ c, circuitFromUps { w with cMo := C, thetas := t } = .ok c ∧ c.spaces = w.spaces ∧
      c.kappa = kappaLists w.spaces numOrbs inc ∧ c.cMo = C ∧ c.params = t ∧ c.names = w.layout.names ∧ c.states = none ∧
      ∀ dev map save cliques, Ideal dev c.ansatz → JWMapper (2 * c.spaces.numActiveOrbs) map →
        ∀ q, (c.bench dev map save cliques).ReachedSimply q → q.flags.isEnabled = false → q.params = t →
        (∀ θ ∈ t, effAngle θ = θ) → ∀ (tiny : ℝ → Bool) (th : Threads), ExactTiny tiny → th.Fair ci.idx2det.length →
        ∃ v, upsVec tiny th ci ⟨w.layout.types, w.layout.indices⟩ t false csf = .ok v ∧
          ExactQuantum ci v fun A => (quantumExpectation (c.bench dev map save cliques) none A q).1 := by
  obtain ⟨f1, f2, f3, f4, f5, f6, f7, f8⟩ := spaces_fits h
  have h2 := h.evenActive
  have h4 := h.enoughActive
  set S := mkSpaces numOrbs numElec cas0 cas1 with hS
  unfold upsObject at hw
  rw [f1, ok_bind, f2, f4, f3] at hw
  obtain ⟨ci', i1, i2, i3⟩ := (C26_spaces S.numInactiveOrbs cas1 S.numVirtualOrbs (cas0 / 2 : ℕ) (cas0 / 2 : ℕ) 0).1 hA
  rw [i1, ok_bind] at hw
  simp only at hw
  -- the reference
  set pp := decide (name = "tups" ∧ o.flag "do_pp" ≠ 0) with hpp
  have start : ∀ det : List Bool, (if pp = true then ppDet (2 * cas1) cas0 else .ok (hfDet (2 * cas1) cas0) : Res (List Bool)) = .ok det →
      ∃ cs, reference (R := ℝ) ci' det = .ok cs ∧ ∀ f : List Bool, det = doubled f → f.length = cas1 →
        f.count true = cas0 / 2 → stateOf ci' cs = ket (detSet (detText det)) := by
    intro det hdet
    have key : ∃ f : List Bool, det = doubled f ∧ f.length = cas1 ∧ f.count true = cas0 / 2 := by
      by_cases hb : pp = true
      · rw [if_pos hb] at hdet
        rw [show cas0 = 2 * (cas0 / 2) by omega, ppDet_eq (by omega)] at hdet
        exact ⟨_, (Except.ok.inj hdet).symm, pairing_length (by omega), pairing_count (by omega)⟩
      · rw [if_neg hb] at hdet
        rw [show cas0 = 2 * (cas0 / 2) by omega, hfDet_eq (by omega)] at hdet
        exact ⟨_, (Except.ok.inj hdet).symm, by simp; omega, by simp [List.count_replicate]⟩
    obtain ⟨f, rfl, l1, l2⟩ := key
    obtain ⟨cs, r1, r2⟩ := reference_doubled (R := ℝ) hA i1 f l1 l2
    exact ⟨cs, r1, fun _ _ _ _ => by rw [r2, detSet_text l1]⟩
  obtain ⟨cs, det, eC, hdet, hcs, hst, hlay⟩ : ∃ cs det eC,
      (if pp = true then ppDet (2 * cas1) cas0 else .ok (hfDet (2 * cas1) cas0) : Res (List Bool)) = .ok det ∧
      reference (R := ℝ) ci' det = .ok cs ∧ (∀ f : List Bool, det = doubled f → f.length = cas1 →
        f.count true = cas0 / 2 → stateOf ci' cs = ket (detSet (detText det))) ∧
      (match upsLayout name S.lists o with
        | (.error e, _) => .error e
        | (.ok layout, o') =>
          .ok (cs, ci', ⟨.ups, numOrbs, numElec, S, inc, some pp, layout, o', eC, List.replicate layout.nParams 0⟩) :
            Res (Vec ℝ × CIInfo × UpsObj α)) = .ok (csf, ci, w) := by
    cases hd : (if pp = true then ppDet (2 * cas1) cas0 else .ok (hfDet (2 * cas1) cas0) : Res (List Bool)) with
    | error e => rw [hd] at hw; cases hw
    | ok det =>
      rw [hd, ok_bind] at hw
      obtain ⟨cs, r1, r2⟩ := start det hd
      cases hc : (if pp = true then ppColumns S.numInactiveOrbs (hfDet (2 * cas1) cas0) det mo else .ok mo : Res (ℕ → α)) with
      | error e => rw [hc] at hw; cases hw
      | ok eC =>
        rw [hc, ok_bind, r1, ok_bind] at hw
        exact ⟨cs, det, eC, rfl, r1, r2, hw⟩
  rcases hu : upsLayout name S.lists o with ⟨_ | layout, o'⟩
  · rw [hu] at hlay; cases hlay
  rw [hu] at hlay
  cases hlay
  simp only at hf hp hs htl ⊢
  obtain ⟨calls, e1, e2⟩ := upsLayout_calls hu hf hp f5 f6
  rw [f7] at e2
  set oo : Options := if (some pp : Option Bool) = some true then [("do_pp", 1)] else [] with hoo
  have hflag : (oo.flag "do_pp" ≠ 0) ↔ pp = true := by
    rw [hoo]
    by_cases hb : pp = true
    · rw [if_pos (by rw [hb])]
      simp [hb, Options.flag]
    · rw [if_neg (fun hx => hb (Option.some.inj hx))]
      simp [hb, Options.flag]
  obtain ⟨c, c', b1, b2, b3, b4, b5, b6, b7, b8, b9, b10, f, b11, b12, b13, b14⟩ :=
    build_ok h e1 e2 hs (kappaLists S numOrbs inc) C oo none htl
  refine ⟨c', ?_, b3, b4, b5, b8, b7, b9, ?_⟩
  · unfold circuitFromUps circuitObject
    simp only
    rw [f2, f3, f8, ok_bind, if_neg (by rintro ⟨-, hx⟩; cases hx), ok_bind, ← hoo, b1, ok_bind]
    exact b2
  · intro dev map save cliques hI hM q hq hqf hqp hang tiny th ht hth
    have hd' : (if pp = true then ppDet (2 * cas1) cas0 else .ok (hfDet (2 * cas1) cas0) : Res (List Bool)) = .ok (doubled f) := by
      rw [← b13]
      by_cases hb : pp = true
      · rw [if_pos hb, if_pos (hflag.2 hb)]
      · rw [if_neg hb, if_neg (fun hx => hb (hflag.1 hx))]
    rw [hdet] at hd'
    obtain rfl := Except.ok.inj hd'
    have hv := hst f rfl b11 b12
    obtain ⟨g1, g2, Ts, t1, t2, -⟩ := calls_circuit e1 e2 hs
    have hn : c'.spaces.numActiveOrbs = ci.nA := by rw [b3, i3]; exact f3
    rw [← i3] at t1 t2
    obtain ⟨v, -, -, v1, -⟩ := C91_same_state (st := ⟨layout.types, layout.indices⟩) ht i2 hth t2 t1 t (htl.trans g1.symm) hang
      (fun k => t.getD k 0) (fun k θ hk => by simp [hk]) csf
    refine ⟨v, v1, ?_⟩
    refine start_exact (st := ⟨layout.types, layout.indices⟩) (B := c'.bench dev map save cliques) ht i2 hth hn t2 t1
      ⟨by rw [hn, i3]; exact hA, hI, hM, ?_⟩ b10 hq hqf (by rw [hqp]; exact htl.trans g1.symm) (by rw [hqp]; exact hang)
      (isDet_text (b11.trans (i3.symm.trans hn.symm))) b14 hv (by rw [hqp]; exact v1)
    show c'.numElec.1 + c'.numElec.2 ≤ _
    rw [b6, hn, i3]
    simp only
    omega

end built

/-- C120: so energies and density matrices from the circuit are those of the UPS wave function. -/
theorem C120_energy {tiny big : ℝ → Bool} {th : Threads} {ci : CIInfo} (ht : ExactTiny tiny) (hb : ExactBig big)
    (hs : AnsatzSpace ci ci.nA) (hth : th.Fair ci.idx2det.length) {st : AnsatzStruct} {t : List ℝ} {csf v : Vec ℝ}
    (hv : upsVec tiny th ci st t false csf = .ok v) {qev : Dict ℝ → Res ℝ} (hx : ExactQuantum ci v qev) :
    (∀ h g, circEnergy tiny big qev ci h g = upsEnergy tiny big th ci h g st csf t) ∧
    ∃ R1 R2 R1' R2', circRdm1 tiny qev ci = .ok R1 ∧ circRdm2 tiny qev ci = .ok R2 ∧ upsRdm1 tiny th ci v = .ok R1' ∧
      upsRdm2 tiny th ci v = .ok R2' ∧ (∀ p q, p < ci.nA → q < ci.nA → R1 p q = R1' p q) ∧
      ∀ p q r s, p < ci.nA → q < ci.nA → r < ci.nA → s < ci.nA → R2 p q r s = R2' p q r s := by
  obtain ⟨⟨R1, R2, a1, a2, a3⟩, e⟩ := C107_circuit (big := big) ht hb hx
  obtain ⟨R1', R2', b1, b2, b3⟩ := C29_ups ht hs hth v
  refine ⟨fun h g => by rw [e, C95_energy ht hb hs hth h g hv], R1, R2, R1', R2', a1, a2, b1, b2, fun p q hp hq => ?_,
    fun p q r s hp hq hr hs' => ?_⟩
  · rw [a3.one p q hp hq, b3.one p q hp hq]; rfl
  · rw [a3.two p q r s hp hq hr hs', b3.two p q r s hp hq hr hs']; rfl

section averaged

theorem saLayout_calls {name : String} {L : OrbLists} {o o' : Options} {s : UpsStruct}
    (h : saLayout name L o = (.ok s, o'))
    (hf : name ∈ ["fucc", "ksafupccgsd", "safuccsd"] → ∀ k ∈ ["GD", "T", "Q", "5", "6", "SAD"], o'.flag k = 0)
    (hp : name = "ksasdsfupccgsd" → o'.flag "pD" = 0) (hL : L.Ok) (hO : L.Ordered) :
    ∃ calls : List UpsCall, s = calls.foldl UpsCall.run {} ∧ ∀ c ∈ calls, c.HasCircuit L.numOrbs := by
  have done : ∀ {r : Res Unit × UpsStruct}, builtLayout r = .ok s → s = r.2 := by
    rintro ⟨_ | _, r⟩ h
    · cases h
    · cases h; rfl
  unfold saLayout at h
  by_cases h1 : name ∈ ["tups", "qnp"]
  · rw [if_pos h1] at h
    by_cases hq : o.flag "do_pp" ≠ 0
    · rw [if_pos hq] at h; cases h
    · rw [if_neg hq] at h
      exact ⟨[.tiled L.numOrbs _], done (congrArg Prod.fst h), by simp [UpsCall.HasCircuit]⟩
  rw [if_neg h1] at h
  by_cases h2 : name ∈ ["fucc", "ksafupccgsd", "safuccsd"]
  · rw [if_pos h2] at h
    obtain rfl : _ = o' := congrArg Prod.snd h
    refine ⟨[.fucc L _], done (congrArg Prod.fst h), ?_⟩
    · simp only [List.mem_singleton, forall_eq]
      exact ⟨hL, hO, rfl, hf h2⟩
  rw [if_neg h2] at h
  by_cases h3 : name = "ksasdsfupccgsd"
  · rw [if_pos h3] at h
    obtain rfl : _ = o' := congrArg Prod.snd h
    refine ⟨[.sds L _], done (congrArg Prod.fst h), ?_⟩
    · simp only [List.mem_singleton, forall_eq]
      exact ⟨hL, hO, rfl, hp h3⟩
  rw [if_neg h3] at h
  cases h

theorem saCsf_row {ci : CIInfo} {n : ℕ} {coeffs : List (List ℝ)} {dets : List (List (List Char))} {M : Mat ℝ}
    (h : saCsf ci n coeffs dets = .ok M) {i : ℕ} {s : Csf} (hi : (coeffs.zip dets)[i]? = some s) :
    saRow ci n s = .ok (M i) := by
  unfold saCsf at h
  cases hr : (coeffs.zip dets).mapM (saRow ci n) with
  | error e => rw [hr] at h; cases h
  | ok rows =>
    rw [hr, ok_bind] at h
    simp only at h
    split_ifs at h
    cases h
    obtain ⟨hi1, rfl⟩ := List.getElem?_eq_some_iff.1 hi
    have hl : rows.length = (coeffs.zip dets).length := mapM_length hr
    have := mapM_zip hr ((coeffs.zip dets)[i], rows[i]'(by omega))
      (List.mem_iff_getElem.2 ⟨i, by rw [List.length_zip]; omega, by simp⟩)
    simp only at this ⊢
    rw [List.getD_eq_getElem _ _ (by omega)]
    exact this

theorem sa_exact {tiny : ℝ → Bool} {th : Threads} {ci : CIInfo} {norb : ℕ} {st : AnsatzStruct} {Ts Ts' : List (FOp ℝ)}
    {B : Bench norb} {ansatz : List ℝ → List (PGate (2 * norb))} (hn : norb = ci.nA) (ht : ExactTiny tiny)
    (hs : AnsatzSpace ci ci.nA)
    (hth : th.Fair ci.idx2det.length) (hL : Layout 0 ci.nA st.types st.indices Ts)
    (hC : CircuitLayout ci.nA st.types st.indices Ts') (hB : B.Sound ansatz)
    (hA : LayoutAnsatz norb st.types st.indices ansatz) {thetas : List ℝ} (hl : thetas.length = st.types.length)
    (ha : ∀ θ ∈ thetas, effAngle θ = θ) {L : List Csf} (hg : ∀ s ∈ L, Csf.Good ci.nA s ∧ s.Electrons)
    {start amp : Csf → Vec ℝ} (h0 : ∀ s ∈ L, csfFock s = stateOf ci (start s))
    (h1 : ∀ s ∈ L, constructUps (propVec tiny th ci) tiny ci.offset st thetas false (start s) = .ok (amp s))
    {el : Csf → Dict ℝ → Csf → Res ℝ} (hel : ∀ s ∈ L, ∀ A, ∀ t ∈ L, ∃ q opt, B.Reached q ∧ q.flags.isEnabled = false ∧
      q.params = thetas ∧ el s A t = (quantumExpectationCsfs B none opt false s A t q).1) :
    ExactElems ci amp L el := by
  subst hn
  exact C117_interface ht hs hth hL hC hB hA hl ha hg h0 h1 hel

variable {α : Type} {numOrbs numElec cas0 cas1 : ℕ}

/-- C120: a state-averaged UPS wave function as its constructor made it, with whatever orbitals and parameters it holds
now, is converted to a state-averaged circuit wave function with the same spaces, rotations, orbitals, parameters and
states; and on an ideal device the matrix elements between the states of the circuit are those between the state vectors. -/
theorem C120_sa (h : CasFits numOrbs numElec cas0 cas1) (he : 0 < cas0) {mo : ℕ → α} {coeffs : List (List ℝ)}
    {dets : List (List (List Char))} (hn : ∀ s ∈ coeffs.zip dets, s.2.Nodup) {name : String} {o : Options}
    {inc : Bool} {M : Mat ℝ} {ci : CIInfo} {w : UpsObj α}
    (hw : saObject numOrbs numElec [cas0, cas1] mo coeffs dets name o inc = .ok (M, ci, w))
    (hf : name ∈ ["fucc", "ksafupccgsd", "safuccsd"] → ∀ k ∈ ["GD", "T", "Q", "5", "6", "SAD"], w.options.flag k = 0)
    (hp : name = "ksasdsfupccgsd" → w.options.flag "pD" = 0) (hs : w.layout.nParams ≤ 10 ^ 9)
    (C : ℕ → α) {t : List ℝ} (htl : t.length = w.layout.nParams) :
    ∃ c, circuitFromUps { w with cMo := C, thetas := t } = .ok c ∧ c.spaces = w.spaces ∧
      c.kappa = kappaLists w.spaces numOrbs inc ∧ c.cMo = C ∧ c.params = t ∧ c.names = w.layout.names ∧
      c.states = some (coeffs.zip dets) ∧
      ∀ dev map save cliques, Ideal dev c.ansatz → JWMapper (2 * c.spaces.numActiveOrbs) map →
        (∀ θ ∈ t, effAngle θ = θ) → ∀ (tiny : ℝ → Bool) (th : Threads), ExactTiny tiny → th.Fair ci.idx2det.length →
        ∃ amp : Csf → Vec ℝ, (∀ (i : ℕ) (s : Csf), (coeffs.zip dets)[i]? = some s →
            upsVec tiny th ci ⟨w.layout.types, w.layout.indices⟩ t false (M i) = .ok (amp s)) ∧
          ∀ el : Csf → Dict ℝ → Csf → Res ℝ, (∀ s ∈ coeffs.zip dets, ∀ A, ∀ s' ∈ coeffs.zip dets, ∃ q opt,
              (c.bench dev map save cliques).Reached q ∧ q.flags.isEnabled = false ∧ q.params = t ∧
              el s A s' = (quantumExpectationCsfs (c.bench dev map save cliques) none opt false s A s' q).1) →
            ExactElems ci amp (coeffs.zip dets) el := by
  obtain ⟨f1, f2, f3, f4, f5, f6, f7, f8⟩ := spaces_fits h
  have h2 := h.evenActive
  have h4 := h.enoughActive
  have hA : 0 < cas1 := by omega
  set S := mkSpaces numOrbs numElec cas0 cas1 with hS
  unfold saObject at hw
  rw [f1, ok_bind, f2, f4, f3] at hw
  obtain ⟨ci', i1, i2, i3⟩ := (C26_spaces S.numInactiveOrbs cas1 S.numVirtualOrbs (cas0 / 2 : ℕ) (cas0 / 2 : ℕ) 0).1 hA
  rw [i1, ok_bind] at hw
  cases hM : saCsf ci' (2 * cas1) coeffs dets with
  | error e => rw [hM] at hw; cases hw
  | ok M' =>
    rw [hM, ok_bind] at hw
    rcases hu : saLayout name S.lists o with ⟨_ | layout, o'⟩
    · rw [hu] at hw; cases hw
    rw [hu] at hw
    cases hw
    simp only at hf hp hs htl ⊢
    obtain ⟨calls, e1, e2⟩ := saLayout_calls hu hf hp f5 f6
    rw [f7] at e2
    obtain ⟨c, c', b1, b2, b3, b4, b5, b6, b7, b8, b9, b10, f, b11, b12, b13, b14⟩ :=
      build_ok h e1 e2 hs (kappaLists S numOrbs inc) C [] (some (coeffs.zip dets)) htl
    refine ⟨c', ?_, b3, b4, b5, b8, b7, b9, ?_⟩
    · unfold circuitFromUps saCircuitObject
      simp only
      rw [f2, f3, f8, ok_bind, if_neg (show ¬ (none : Option Bool) = some true by simp),
        if_neg (show ¬ Options.flag [] "do_pp" ≠ 0 by simp [Options.flag]), b1, ok_bind]
      exact b2
    · intro dev map save cliques hI hJ hang tiny th ht hth
      obtain ⟨g1, g2, Ts, t1, t2, -⟩ := calls_circuit e1 e2 hs
      have hno : c'.spaces.numActiveOrbs = ci.nA := by rw [b3, i3]; exact f3
      rw [← i3] at t1 t2
      have run : ∀ x : Vec ℝ, ∃ y, upsVec tiny th ci ⟨layout.types, layout.indices⟩ t false x = .ok y := fun x => by
        obtain ⟨v, -, -, v1, -⟩ := C91_same_state (st := ⟨layout.types, layout.indices⟩) ht i2 hth t2 t1 t (htl.trans g1.symm) hang
          (fun k => t.getD k 0) (fun k θ hk => by simp [hk]) x
        exact ⟨v, v1⟩
      choose U hU using run
      obtain ⟨-, acc, -⟩ := (C121_accepts hA i1 hn).1 ⟨M, hM⟩
      set start : Csf → Vec ℝ := fun s => match saRow ci (2 * cas1) s with | .ok v => v | .error _ => 0 with hstart
      have hrow : ∀ (i : ℕ) (s : Csf), (coeffs.zip dets)[i]? = some s → start s = M i := by
        intro i s hi
        rw [hstart]
        simp only
        rw [saCsf_row hM hi]
      refine ⟨fun s => U (start s), fun i s hi => by rw [← hrow i s hi]; exact hU _, fun el hel => ?_⟩
      have hdef : detText (doubled f) = defaultDet c'.spaces.numActiveOrbs (cas0 / 2, cas0 / 2) := by
        rw [if_neg (by simp [Options.flag])] at b13
        have hx : 2 * (cas0 / 2) = cas0 := by omega
        have hy := hfDet_eq (n := cas1) (o := cas0 / 2) (by omega)
        rw [hx, Except.ok.inj b13] at hy
        rw [hno, i3, default_text (by omega), hy]
      refine sa_exact (st := ⟨layout.types, layout.indices⟩) (B := c'.bench dev map save cliques) (start := start) hno ht i2 hth
        t2 t1 ⟨by rw [hno, i3]; exact hA, hI, hJ, rfl, ?_, ?_⟩ b10 (htl.trans g1.symm) hang (fun s hs' => ?_)
        (fun s hs' => ?_) (fun s _ => hU _) hel
      · show c'.numElec.1 + c'.numElec.2 ≤ _
        rw [b6, hno, i3]
        simp only
        omega
      · show runCircuit c'.state _ = basis (detBits _ (defaultDet _ c'.numElec))
        rw [b6, ← hdef]
        exact b14
      · obtain ⟨k1, k2⟩ := acc s hs'
        rw [i3]
        refine ⟨k1, fun d hd => ?_⟩
        obtain ⟨-, k3, -⟩ := k2 d hd
        have hpos : 0 < (spatOf cas1 0 (detSet d)).card := by omega
        obtain ⟨p, hp'⟩ := Finset.card_pos.1 hpos
        have := (Finset.mem_filter.1 hp').2
        exact List.mem_of_getElem? (Finset.mem_filter.1 this).2
      · obtain ⟨i, hi, e⟩ := List.mem_iff_getElem.1 hs'
        have hi' : (coeffs.zip dets)[i]? = some s := by rw [List.getElem?_eq_getElem hi, e]
        rw [hrow i s hi', C121_rows hA i1 hM hi' (hn s hs')]

/-- C120: so the state-averaged energy and density matrices of the circuit are those of the vectors. -/
theorem C120_sa_energy {tiny big : ℝ → Bool} {th : Threads} {ci : CIInfo} (ht : ExactTiny tiny) (hb : ∀ x, big x = false ↔ x = 0)
    (hs : AnsatzSpace ci ci.nA) (hth : th.Fair ci.idx2det.length) {L : List Csf} (hn : 0 < L.length) {amp : Csf → Vec ℝ}
    {el : Csf → Dict ℝ → Csf → Res ℝ} (hx : ExactElems ci amp L el) {M : Mat ℝ}
    (hM : ∀ (i : ℕ) (s : Csf), L[i]? = some s → M i = amp s) :
    (∀ h g, avEnergy tiny big el ci L.length L h g = saEnergy tiny big th ci L.length M h g) ∧
    ∃ R1 R2 R1' R2', avRdm1 tiny el ci L.length L = .ok R1 ∧ avRdm2 tiny el ci L.length L = .ok R2 ∧
      saRdm1 tiny big th ci L.length M = .ok R1' ∧ saRdm2 tiny big th ci L.length M = .ok R2' ∧
      (∀ p q, p < ci.nA → q < ci.nA → R1 p q = R1' p q) ∧
      ∀ p q r s, p < ci.nA → q < ci.nA → r < ci.nA → s < ci.nA → R2 p q r s = R2' p q r s :=
  C117_same ht hb hs hth hn hx fun i hi => hM i _ (List.getElem?_eq_getElem hi)

end averaged

section refused

variable {α : Type}

/-- C120: objects of other classes raise `TypeError`; state-averaged ones marked as perfect pairing raise `ValueError`. -/
theorem C120_refused (w : UpsObj α) :
    (w.kind = .other → circuitFromUps w = .error .typeError) ∧
    (∀ states, w.kind = .sa states → w.pp = some true → circuitFromUps w = .error .valueError) := by
  refine ⟨fun h => ?_, fun states h hp => ?_⟩
  · unfold circuitFromUps
    simp only
    rw [h]
  · unfold circuitFromUps
    simp only
    rw [h]
    simp only
    rw [if_pos hp]
    unfold saCircuitObject circuitSpaces
    by_cases hc : w.spaces.numActiveElec % 2 ≠ 0
    · rw [if_pos hc]; rfl
    · rw [if_neg hc, ok_bind, if_pos (by simp [Options.flag])]; rfl

/-- C120: a list of parameters of another length than the layout is not accepted. -/
theorem C120_length (c : CircWf α) (t : List ℝ) : (∃ c', c.setThetas t = .ok c') ↔ t.length = c.names.length := by
  unfold CircWf.setThetas
  by_cases h : t.length ≠ c.names.length
  · rw [if_pos h]; exact ⟨fun ⟨_, e⟩ => (by cases e), fun e => absurd e h⟩
  · rw [if_neg h]; exact ⟨fun _ => not_not.1 h, fun _ => ⟨_, rfl⟩⟩

end refused

/-- A perfect-pairing tUPS wave function of four electrons in three orbitals, and a state-averaged one of two electrons in
two orbitals, exist. -/
example : (∃ csf ci w, upsObject (α := ℕ) 3 4 [4, 3] id "tups" [("do_pp", 1), ("n_layers", 1)] false = .ok (csf, ci, w) ∧
      w.pp = some true ∧ w.layout.nParams = 6) ∧
    ∃ M ci w, saObject (α := ℕ) 2 2 [2, 2] id [[1], [3 / 5, 4 / 5]] [["1100".toList], ["1001".toList, "0110".toList]] "qnp"
      [("n_layers", 1)] false = .ok (M, ci, w) := by
  constructor
  · obtain ⟨f1, f2, f3, f4, -⟩ := spaces_fits (numOrbs := 3) (numElec := 4) (cas0 := 4) (cas1 := 3)
      ⟨by decide, by decide, by decide, by decide, by decide⟩
    obtain ⟨ci, i1, -⟩ := (C26_spaces (mkSpaces 3 4 4 3).numInactiveOrbs 3 (mkSpaces 3 4 4 3).numVirtualOrbs 2 2 0).1 (by decide)
    obtain ⟨cs, r1, -⟩ := reference_doubled (R := ℝ) (o := 2) (by decide) i1 [true, false, true] rfl rfl
    have hd : ppDet 6 4 = .ok (doubled [true, false, true]) := rfl
    have hpp : decide (True ∧ Options.flag [("do_pp", 1), ("n_layers", 1)] "do_pp" ≠ 0) = true := by decide
    obtain ⟨σ, hcol, -⟩ := C73_columns (nI := (mkSpaces 3 4 4 3).numInactiveOrbs) (nA := 3) (o := 2) (by decide) (id : ℕ → ℕ) hd
    obtain ⟨l, o', hl, hn⟩ : ∃ l o', upsLayout "tups" (mkSpaces 3 4 4 3).lists [("do_pp", 1), ("n_layers", 1)] = (.ok l, o') ∧
        l.nParams = 6 := ⟨_, _, rfl, rfl⟩
    refine ⟨cs, ci, ⟨.ups, 3, 4, mkSpaces 3 4 4 3, false, some true, l, o', fun c => id (σ c), List.replicate l.nParams 0⟩, ?_, rfl, hn⟩
    unfold upsObject
    rw [f1, ok_bind, f2, f3, f4]
    simp only
    rw [show ((4 / 2 : ℕ) : ℤ) = 2 from rfl, i1, ok_bind, hpp, if_pos rfl, show (2 * 3) = 6 from rfl, hd, ok_bind, if_pos rfl,
      show hfDet 6 4 = hfDet (2 * 3) (2 * 2) from rfl, hcol, ok_bind, r1, ok_bind, hl]
  · obtain ⟨f1, f2, f3, f4, -⟩ := spaces_fits (numOrbs := 2) (numElec := 2) (cas0 := 2) (cas1 := 2)
      ⟨by decide, by decide, by decide, by decide, by decide⟩
    obtain ⟨l, o', hl⟩ : ∃ l o', saLayout "qnp" (mkSpaces 2 2 2 2).lists [("n_layers", 1)] = (.ok l, o') := ⟨_, _, rfl⟩
    obtain ⟨ci, M, h1, h2⟩ := saCsf_case
    refine ⟨M, ci, ⟨.sa (List.zip [[1], [3 / 5, 4 / 5]] [["1100".toList], ["1001".toList, "0110".toList]]), 2, 2,
      mkSpaces 2 2 2 2, false, none, l, o', id, List.replicate l.nParams 0⟩, ?_⟩
    unfold saObject
    rw [f1, ok_bind, f2, f3, f4, show (mkSpaces 2 2 2 2).numInactiveOrbs = 0 from rfl,
      show (mkSpaces 2 2 2 2).numVirtualOrbs = 0 from rfl, show ((2 / 2 : ℕ) : ℤ) = 1 from rfl, h1, ok_bind,
      show 2 * 2 = 4 from rfl, h2, ok_bind, hl]

end SQ
