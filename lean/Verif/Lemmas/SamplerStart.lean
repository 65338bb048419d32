import Verif.Lemmas.SamplerUse
import Verif.Spec.FromUps

/-! # Lemmas: interfaces that start from any determinant -/

namespace SQ

variable {norb : ℕ} {B : Bench norb} {ansatz : List ℝ → List (PGate (2 * norb))}

/-- All saved raw data are exact for the present parameters and the initial circuit of the interface. -/
def KeptStart (B : Bench norb) (ansatz : List ℝ → List (PGate (2 * norb))) (q : QI) : Prop :=
  q.shots ≠ none ∧ ∀ e ∈ q.saver,
    (∃ ops, Hist (2 * norb) (Ex (prepared ansatz q.params B.state)) e.2.2 ops) ∧ Tot e.2.2

theorem keptStart_same {q q' : QI} (h : KeptStart B ansatz q) (h1 : q'.shots = q.shots) (h2 : q'.saver = q.saver)
    (h3 : q'.params = q.params) : KeptStart B ansatz q' := by
  unfold KeptStart at *
  rw [h1, h2, h3]
  exact h

theorem keptStart_entry {q : QI} (h : KeptStart B ansatz q) (key opt : ℕ) :
    (∃ ops, Hist (2 * norb) (Ex (prepared ansatz q.params B.state)) (q.entry key opt) ops) ∧ Tot (q.entry key opt) := by
  unfold QI.entry
  cases hl : q.saver.lookup key with
  | none => exact ⟨⟨[], Hist.nil _ _⟩, tot_nil⟩
  | some e =>
    obtain ⟨o, cs⟩ := e
    simp only
    split_ifs with ho
    · exact ⟨⟨[], Hist.nil _ _⟩, tot_nil⟩
    · have hm : (key, (o, cs)) ∈ q.saver := by
        obtain ⟨l1, l2, he, -⟩ := List.lookup_eq_some_iff.1 hl
        rw [he]; simp
      exact h.2 _ hm

theorem expectation_start (hB : B.Plain ansatz) {q : QI} (h : KeptStart B ansatz q) (custom : Option (List ℝ)) (op : Dict ℝ) :
    ∃ r q', quantumExpectation B custom op q = (r, q') ∧ KeptStart B ansatz q' ∧
      (q.flags.isEnabled = false → ∀ obs, opToQbit B.map norb op = .ok obs →
        r = .ok (labelSum (prepared ansatz (custom.getD q.params) B.state) (realParts obs))) := by
  have fresh : ∀ p, ∃ r q', evFresh B p B.state op q = (r, q') ∧ KeptStart B ansatz q' ∧
      (q.flags.isEnabled = false → ∀ obs, opToQbit B.map norb op = .ok obs →
        r = .ok (labelSum (prepared ansatz p B.state) (realParts obs))) := fun p => by
    obtain ⟨h1, h2, h3, h4⟩ := evFresh_state (B := B) p B.state op q
    exact ⟨_, _, rfl, keptStart_same h h4 h1 h2, fun hf obs ho => evFresh_value hB.orbitals hB.device hB.mapping hf p B.state ho⟩
  unfold quantumExpectation evOne
  cases custom with
  | some p => exact fresh p
  | none =>
    simp only
    split_ifs
    swap
    · exact fresh q.params
    unfold evSaved
    obtain ⟨key, ek, -, -⟩ := detInt_ok hB.orbitals (isDet_default hB.electrons)
    rw [ek]
    simp only
    cases eo : opToQbit B.map norb op with
    | error e => exact ⟨_, _, rfl, h, fun _ obs ho => by cases ho⟩
    | ok obs =>
      have hlab : obs ≠ [] ∧ ∀ pc ∈ obs, PauliLabel (2 * norb) pc.1 := by
        unfold opToQbit at eo
        cases ef : getQiskitForm norb op with
        | error e => rw [ef] at eo; cases eo
        | ok form => rw [ef] at eo; exact hB.mapping.labels _ _ eo
      obtain ⟨⟨ops, he⟩, ht⟩ := keptStart_entry h key 1
      have hn := hB.orbitals
      obtain ⟨r, q', cs, e1, e2, e3, e4, e5, e6, e7, e8⟩ := evaluate_exact (dev := B.dev) (c := B.state)
        (by omega : 0 < 2 * norb) he ht (fun hd => hB.device q.run (q.setting B.state) hd) (obs := realParts obs)
        (fun pc hpc => by
          obtain ⟨x, hx, rfl⟩ := List.mem_map.1 hpc
          exact hlab.2 x hx)
        (by unfold realParts; simpa using hlab.1)
      refine ⟨r, q', e1, ⟨by rw [e5]; exact h.1, fun e hx => ?_⟩, fun hf obs' ho => ?_⟩
      · rw [e3]
        rw [e2] at hx
        rcases mem_dictPut hx with hx | rfl
        · exact h.2 e hx
        · exact ⟨e6, e7⟩
      · cases ho
        exact e8 hf

theorem labels_start (hB : B.Plain ansatz) {q : QI} (h : KeptStart B ansatz q) {obs : List (List Char × ℝ)}
    (hne : obs ≠ []) (hlab : ∀ pc ∈ obs, PauliLabel (2 * norb) pc.1) :
    KeptStart B ansatz (evLabels B (defaultDet norb B.numElec) B.state 1 obs q).2 := by
  unfold evLabels
  obtain ⟨key, ek, -, -⟩ := detInt_ok hB.orbitals (isDet_default hB.electrons)
  rw [ek]
  simp only
  obtain ⟨⟨ops, he⟩, ht⟩ := keptStart_entry h key 1
  have hn := hB.orbitals
  obtain ⟨r, q', cs, e1, e2, e3, e4, e5, e6, e7, e8⟩ := evaluate_exact (dev := B.dev) (c := B.state)
    (by omega : 0 < 2 * norb) he ht (fun hd => hB.device q.run (q.setting B.state) hd) (obs := obs) hlab hne
  rw [e1]
  refine ⟨by rw [e5]; exact h.1, fun e hx => ?_⟩
  rw [e3]
  rw [e2] at hx
  rcases mem_dictPut hx with hx | rfl
  · exact h.2 e hx
  · exact ⟨e6, e7⟩

theorem reachedSimply_kept (hB : B.Plain ansatz) {q : QI} (h : B.ReachedSimply q) : KeptStart B ansatz q := by
  obtain ⟨v2, mx, s, f, np, q0, ops, hi, hops, rfl⟩ := h
  obtain ⟨h1, h2, -, -⟩ := init_inv hi
  suffices ∀ ops : List BenchOp, (∀ op ∈ ops, op.Simple norb) → ∀ q, KeptStart B ansatz q →
      KeptStart B ansatz (ops.foldl (BenchOp.run B) q) from this ops hops q0 ⟨h1, by rw [h2]; simp⟩
  intro ops
  induction ops with
  | nil => intro _ q h; exact h
  | cons op ops ih =>
    intro hops q hq
    refine ih (fun o ho => hops o (by simp [ho])) _ ?_
    cases op with
    | shots s =>
      obtain ⟨e1, e2⟩ := setShots_saver q s
      exact ⟨e2, by change ∀ e ∈ (q.setShots s).2.saver, _; rw [e1]; simp⟩
    | max m =>
      obtain ⟨e1, e2⟩ := setMax_saver q hq.1 m
      exact ⟨e2, by change ∀ e ∈ (q.setMax m).2.saver, _; rw [e1]; simp⟩
    | params p =>
      change KeptStart B ansatz (q.setParams p).2
      unfold QI.setParams
      by_cases hl : p.length ≠ q.numParams
      · rw [if_pos hl]; exact hq
      · rw [if_neg hl]
        by_cases hp : q.params ≠ p
        · simp only [if_pos hp]
          exact ⟨hq.1, by simp⟩
        · rw [ne_eq, not_not] at hp
          subst hp
          simp only [ne_eq, not_true_eq_false, if_false]
          exact hq
    | flags kw => exact hq
    | redoM => exact hq
    | expectation custom op =>
      obtain ⟨r, q', e, h', -⟩ := expectation_start hB hq custom op
      change KeptStart B ansatz (quantumExpectation B custom op q).2
      rw [e]; exact h'
    | labels obs =>
      obtain ⟨f1, f2⟩ : obs ≠ [] ∧ ∀ pc ∈ obs, PauliLabel (2 * norb) pc.1 := hops (.labels obs) (by simp)
      exact labels_start hB hq f1 f2
    | csfs custom opt rev bra op ket => exact absurd (hops (.csfs custom opt rev bra op ket) (by simp)) (by simp [BenchOp.Simple])

/-- The register after the circuit of a determinant. -/
theorem det_register {d : List Char} (h : IsDet norb d) : ∃ s : ℂ, (starRingEnd ℂ) s * s = 1 ∧
    basis (detBits norb d) = s • onRegister norb (ket (detSet d) : Fock ℝ) := by
  have e := onRegister_sgl h 1
  refine ⟨(((-1) ^ (crossings d).card : ℝ) : ℂ), ?_, ?_⟩
  · rw [Complex.conj_ofReal, ← Complex.ofReal_mul, ← mul_pow]; simp
  · change _ = _ • onRegister norb (sgl (detSet d) 1)
    rw [e, smul_smul, one_mul, ← Complex.ofReal_mul, ← mul_pow]; simp

end SQ
