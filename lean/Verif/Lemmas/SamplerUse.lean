import Verif.Lemmas.SamplerOps
import Verif.Lemmas.JWMap
import Verif.Spec.QuantumTransfer
import Verif.Spec.Response

/-! # Lemmas: an interface in use -/

namespace SQ

open Finset

/-! ### Asking again -/

theorem addPauli_located {p : List Char} : ∀ {cs : List CliqueHead}, Located p (headsOf cs) → addPauli p cs = cs
  | [], h => by
    obtain ⟨l, g, r, he, -⟩ := h
    simp [headsOf] at he
  | c :: cs, h => by
    have h' : Located p (c.head :: headsOf cs) := h
    rcases located_cons.1 h' with hc | ⟨hc, hl⟩
    · rw [addPauli_pos hc.not_clash, merge_eq_of_covers hc]
      simp
    · rw [addPauli_neg hc, addPauli_located hl]

/-- Labels that were all filed before are not measured again. -/
theorem measure_within {n : ℕ} {P : ℕ → List Char → Distr → Prop} {cs : List CliqueHead} {ops : List CliqueOp}
    (h : Hist n P cs ops) {ps : List (List Char)} (ha : ∀ p ∈ ps, p ∈ ops.flatMap CliqueOp.adds) (hne : cs ≠ [])
    (hfull : ∀ c ∈ cs, c.data.isEmpty 0 = .ok false) (f : List Char → Distr) : measureStep f cs ps = (.ok (), cs) := by
  have hloc : ∀ p ∈ ps, Located p (headsOf cs) := fun p hp => h.heads.found p (ha p hp)
  have hfold : ∀ l : List (List Char), (∀ p ∈ l, Located p (headsOf cs)) → l.foldl (fun cs p => addPauli p cs) cs = cs := by
    intro l
    induction l with
    | nil => intro _; rfl
    | cons p l ih =>
      intro hl
      rw [List.foldl_cons, addPauli_located (hl p (by simp)), ih fun x hx => hl x (by simp [hx])]
  have hnew : ∀ cs : List CliqueHead, (∀ c ∈ cs, c.data.isEmpty 0 = .ok false) → newHeads cs = .ok [] := by
    intro cs
    induction cs with
    | nil => intro _; rfl
    | cons c cs ih =>
      intro hc
      unfold newHeads
      rw [hc c (by simp), ih fun x hx => hc x (by simp [hx])]
      rfl
  have hs : startCliques cs ps = cs := by
    cases cs with
    | nil => exact absurd rfl hne
    | cons c cs => cases ps <;> rfl
  unfold measureStep
  rw [addPaulis_eq cs ps fun x => hne x.1, hs, hfold _ fun p hp => hloc p (mem_sortedReverse.1 hp), hnew cs hfull]
  rfl

theorem measure_again {n : ℕ} {P : ℕ → List Char → Distr → Prop} {cs : List CliqueHead} {ops : List CliqueOp}
    (h : Hist n P cs ops) {ps : List (List Char)} (ha : CliqueOp.add ps ∈ ops) (hne : cs ≠ [])
    (hfull : ∀ c ∈ cs, c.data.isEmpty 0 = .ok false) (f : List Char → Distr) : measureStep f cs ps = (.ok (), cs) :=
  measure_within h (fun _ hp => List.mem_flatMap.2 ⟨_, ha, hp⟩) hne hfull f

theorem evaluate_twice {C : Type} {n : ℕ} {dev : Device C} {circ : ℕ → ℕ → C} {q : QI} {key opt : ℕ}
    {P : ℕ → List Char → Distr → Prop} {ops : List CliqueOp} (h : Hist n P (q.entry key opt) ops)
    (hdev : ∀ hd, P 0 hd (dev.measure q.run (q.setting (circ key opt)) hd)) {obs : List (List Char × ℝ)}
    (hlen : ∀ pc ∈ obs, pc.1.length = n) (hne0 : obs ≠ []) (hf : q.flags.isEnabled = false) {v : ℝ}
    (hv : (q.evaluate dev circ key opt obs).1 = .ok v) (dev' : Device C) (circ' : ℕ → ℕ → C) (q2 : QI)
    (he : q2.entry key opt = (q.evaluate dev circ key opt obs).2.entry key opt) (hf2 : q2.flags.isEnabled = false) :
    (q2.evaluate dev' circ' key opt obs).1 = .ok v := by
  have hl : ∀ p ∈ obs.map Prod.fst, p.length = n := by
    intro p hp
    obtain ⟨pc, h1, rfl⟩ := List.mem_map.1 hp
    exact hlen pc h1
  obtain ⟨⟨ops1, hh, hadd⟩, hfull⟩ := measureStep_hist h (dev.measure q.run (q.setting (circ key opt))) hdev hl
  unfold QI.evaluate at hv he
  simp only at hv he
  cases e : measureStep (dev.measure q.run (q.setting (circ key opt))) (q.entry key opt) (obs.map Prod.fst) with
  | mk r cs =>
    rw [e] at hh hfull hv he
    cases r with
    | error er => cases hv
    | ok u =>
      simp only [hf, Bool.false_eq_true, if_false] at hv he
      have hent : q2.entry key opt = cs := by
        rw [he]
        unfold QI.entry
        simp only
        rw [lookup_dictPut, if_pos rfl]
        simp
      have hne : cs ≠ [] := by
        rintro rfl
        obtain ⟨pc, hpc⟩ := List.exists_mem_of_ne_nil _ hne0
        obtain ⟨l, g, r, he, -⟩ := hh.heads.found pc.1 (List.mem_flatMap.2 ⟨_, hadd, List.mem_map_of_mem hpc⟩)
        simp [headsOf] at he
      unfold QI.evaluate
      simp only
      rw [hent, measure_again hh hadd hne (hfull rfl)]
      simp only [hf2, Bool.false_eq_true, if_false]
      exact hv

/-! ### Histories -/

variable {norb : ℕ} {B : Bench norb} {ansatz : List ℝ → List (PGate (2 * norb))}

theorem isDet_default {e : ℕ × ℕ} (h : e.1 + e.2 ≤ 2 * norb) : IsDet norb (defaultDet norb e) := by
  unfold IsDet defaultDet
  refine ⟨by simp; omega, fun c hc => ?_⟩
  rcases List.mem_append.1 hc with hc | hc <;> rw [List.eq_of_mem_replicate hc] <;> simp

theorem Bench.Sound.key (hB : B.Sound ansatz) : KeyOK norb (defaultDet norb B.numElec) B.state :=
  keyOK_basis hB.orbitals (isDet_default hB.electrons) hB.start

theorem reached_kept (hB : B.Sound ansatz) {q : QI} (h : B.Reached q) : KeptRaw norb ansatz q := by
  obtain ⟨v2, mx, s, f, np, q0, ops, hi, hops, rfl⟩ := h
  obtain ⟨h1, h2, -, -⟩ := init_inv hi
  suffices ∀ ops : List BenchOp, (∀ op ∈ ops, op.Full norb) → ∀ q, KeptRaw norb ansatz q →
      KeptRaw norb ansatz (ops.foldl (BenchOp.run B) q) from this ops hops q0 ⟨h1, by rw [h2]; simp⟩
  intro ops
  induction ops with
  | nil => intro _ q h; exact h
  | cons op ops ih =>
    intro hops q hq
    refine ih (fun o ho => hops o (by simp [ho])) _ ?_
    cases op with
    | shots s =>
      obtain ⟨e1, e2⟩ := setShots_saver q s
      exact ⟨e2, by change ∀ e ∈ (q.setShots s).2.saver, _; rw [e1]; simp⟩
    | max m =>
      obtain ⟨e1, e2⟩ := setMax_saver q hq.1 m
      exact ⟨e2, by change ∀ e ∈ (q.setMax m).2.saver, _; rw [e1]; simp⟩
    | params p =>
      change KeptRaw norb ansatz (q.setParams p).2
      unfold QI.setParams
      by_cases hl : p.length ≠ q.numParams
      · rw [if_pos hl]; exact hq
      · rw [if_neg hl]
        by_cases hp : q.params ≠ p
        · simp only [if_pos hp]
          exact ⟨hq.1, by simp⟩
        · rw [ne_eq, not_not] at hp
          subst hp
          simp only [ne_eq, not_true_eq_false, if_false]
          exact hq
    | flags kw => exact hq
    | redoM => exact hq
    | expectation custom op => exact keeps_evOne hB.orbitals hB.device hB.mapping custom hB.key 1 op q hq
    | labels obs =>
      obtain ⟨f1, f2⟩ : obs ≠ [] ∧ ∀ pc ∈ obs, PauliLabel (2 * norb) pc.1 := hops (.labels obs) (by simp)
      obtain ⟨r, q', e, h', -⟩ := evLabels_spec hB.orbitals hB.device hq hB.key 1 f1 f2
      change KeptRaw norb ansatz (evLabels B (defaultDet norb B.numElec) B.state 1 obs q).2
      rw [e]; exact h'
    | csfs custom opt rev bra op ket =>
      obtain ⟨f1, f2⟩ : (∀ d ∈ bra.2, FullDet norb d) ∧ ∀ d ∈ ket.2, FullDet norb d :=
        hops (.csfs custom opt rev bra op ket) (by simp)
      exact keeps_csfs hB.orbitals hB.device hB.mapping custom opt rev f1 f2 op q hq

/-! ### Values -/

theorem value_register {A : Dict ℝ} {obs : List (List Char × ℂ)}
    (ho : ∀ x, Below (2 * norb) x → obsOp (2 * norb) obs (onRegister norb x) = onRegister norb (sumOp A x))
    (hr : ∀ kv ∈ A, ∀ o ∈ kv.1, o.1 < 2 * norb) {ψ : QState (2 * norb)} {s : ℂ} {y : Fock ℝ}
    (hs : (starRingEnd ℂ) s * s = 1) (hy : Below (2 * norb) y) (hψ : ψ = s • onRegister norb y) :
    labelSum ψ (realParts obs) = expv y (sumOp A) := by
  rw [hψ, labelSum_smul hs, labelSum_herm, hermLin_register ho hr hy hy]
  unfold expv
  ring

theorem csfs_register {A : Dict ℝ} {obs : List (List Char × ℂ)}
    (ho : ∀ x, Below (2 * norb) x → obsOp (2 * norb) obs (onRegister norb x) = onRegister norb (sumOp A x))
    (hr : ∀ kv ∈ A, ∀ o ∈ kv.1, o.1 < 2 * norb) (p : List ℝ) (rev : Bool) {bra ket : Csf}
    (hb : ∀ d ∈ bra.2, IsDet norb d) (hk : ∀ d ∈ ket.2, IsDet norb d)
    (lb : bra.2.length ≤ bra.1.length) (lk : ket.2.length ≤ ket.1.length)
    (hrev : rev = true → ∀ d ∈ bra.2, ∀ d' ∈ ket.2, d.count '1' = d'.count '1') {b k : Fock ℝ}
    (hb1 : Below (2 * norb) b) (hk1 : Below (2 * norb) k)
    (eb : runPCircuit (ansatz p) (onRegister norb (csfFock bra)) = onRegister norb b)
    (ek : runPCircuit (ansatz p) (onRegister norb (csfFock ket)) = onRegister norb k) :
    expectationCsfs (fun c => labelSum (prepared ansatz p c) (realParts obs)) .jordanWigner rev bra ket
      = .ok (1 / 2 * (inner b (sumOp A k) + inner k (sumOp A b))) := by
  rw [csfs_ok (pullback (runLin (ansatz p)) (hermLin (2 * norb) obs))
    (fun φ ψ => by rw [qinner_pullback, qinner_pullback, hermLin_herm])
    _ (fun gs => by rw [labelSum_herm, qinner_pullback, runLin_apply]; rfl) rev bra ket hb hk lb lk hrev,
    qinner_pullback, runLin_apply, runLin_apply, csfState_register hb, csfState_register hk, eb, ek,
    hermLin_register ho hr hb1 hk1]

/-! ### The Hartree-Fock circuit -/

theorem run_flips {n : ℕ} (P : Fin n → Prop) [DecidablePred P] : ∀ (l : List (Fin n)), l.Nodup → ∀ b : Fin n → Bool,
    runCircuit (l.flatMap fun q => if P q then [.x q] else []) (basis b)
      = basis fun q => if q ∈ l ∧ P q then !b q else b q := by
  intro l
  induction l with
  | nil => intro _ b; simp [run_nil]
  | cons a l ih =>
    intro hl b
    obtain ⟨h1, h2⟩ := List.nodup_cons.1 hl
    rw [List.flatMap_cons, run_append]
    have e : runCircuit (if P a then [Gate.x a] else []) (basis b) = basis (if P a then Function.update b a (!b a) else b) := by
      split_ifs
      · rw [run_cons, x_basis]; rfl
      · rfl
    rw [e, ih h2]
    congr 1
    funext q
    by_cases hq : q = a
    · subst hq
      by_cases hP : P q <;> simp [hP, h1]
    · by_cases hP : P a <;> simp [hP, hq, List.mem_cons]

theorem default_get {e : ℕ × ℕ} (p : ℕ) : (defaultDet norb e)[p]? = some '1' ↔ p < e.1 + e.2 := by
  unfold defaultDet
  by_cases h : p < e.1 + e.2
  · rw [List.getElem?_append_left (by simpa using h), List.getElem?_replicate, if_pos h]
    simp [h]
  · rw [List.getElem?_append_right (by simpa using h), List.getElem?_replicate]
    split_ifs <;> simp [h]

theorem hfCircuit_start (n m : ℕ) :
    runCircuit (hfCircuit n (m, m)) (zeroState _) = basis (detBits n (defaultDet n (m, m))) := by
  have e : hfCircuit n (m, m) = (List.finRange (2 * n)).flatMap fun q : Fin (2 * n) =>
      if modeOf n q < m + m then [.x q] else [] := by
    unfold hfCircuit
    congr 1
    funext q
    unfold modeOf
    split_ifs <;> first | rfl | omega
  rw [e, zeroState, run_flips _ _ (List.nodup_finRange _)]
  congr 1
  funext q
  unfold detBits
  by_cases h : modeOf n q < m + m
  · simp [h, default_get, List.mem_finRange]
  · simp [h, default_get]

theorem detSet_default {n m : ℕ} (h : m ≤ n) : detSet (defaultDet n (m, m)) = hfOcc n m m := by
  ext p
  unfold detSet hfOcc
  have hl := (isDet_default (norb := n) (e := (m, m)) (by simp only; omega)).1
  rw [mem_filter, mem_filter, default_get, hl, mem_range]
  simp only
  constructor
  · rintro ⟨h1, h2⟩; exact ⟨h1, by omega⟩
  · rintro ⟨h1, h2⟩; exact ⟨h1, by omega⟩

theorem start_register {n m : ℕ} (h : m ≤ n) : ∃ s : ℂ, (starRingEnd ℂ) s * s = 1 ∧
    basis (detBits n (defaultDet n (m, m))) = s • onRegister n (ket (hfOcc n m m) : Fock ℝ) := by
  have hd := isDet_default (norb := n) (e := (m, m)) (by simp only; omega)
  have e := onRegister_sgl hd 1
  rw [detSet_default h] at e
  refine ⟨(((-1) ^ (crossings (defaultDet n (m, m))).card : ℝ) : ℂ), ?_, ?_⟩
  · rw [Complex.conj_ofReal, ← Complex.ofReal_mul, ← mul_pow]; simp
  · change _ = _ • onRegister n (sgl (hfOcc n m m) 1)
    rw [e, smul_smul, one_mul, ← Complex.ofReal_mul, ← mul_pow]; simp

/-! ## Single evaluations -/

section single

variable {norb : ℕ} {B : Bench norb} {ansatz : List ℝ → List (PGate (2 * norb))}

/-- The first saved evaluation for a determinant, and later ones that find its data. -/
theorem evSaved_first (hn : 0 < norb) (hI : Ideal B.dev ansatz) (hM : JWMapper (2 * norb) B.map) {q : QI} {key opt : ℕ}
    (he : q.entry key opt = []) {det : List Char} (ek : detInt det = .ok key) (hf : q.flags.isEnabled = false) {op : Dict ℝ}
    {obs : List (List Char × ℂ)} (ho : opToQbit B.map norb op = .ok obs) (c : List (Gate (2 * norb))) :
    ∃ q', evSaved B det c opt op q = (.ok (labelSum (prepared ansatz q.params c) (realParts obs)), q') ∧
      q'.params = q.params ∧ q'.flags = q.flags ∧ (∀ k o, k ≠ key → q'.entry k o = q.entry k o) ∧
      ∀ det2 q2 c2, detInt det2 = .ok key → q2.entry key opt = q'.entry key opt → q2.flags.isEnabled = false →
        (evSaved B det2 c2 opt op q2).1 = .ok (labelSum (prepared ansatz q.params c) (realParts obs)) := by
  have hlab : obs ≠ [] ∧ ∀ pc ∈ obs, PauliLabel (2 * norb) pc.1 := by
    unfold opToQbit at ho
    cases ef : getQiskitForm norb op with
    | error e => rw [ef] at ho; cases ho
    | ok form => rw [ef] at ho; exact hM.labels _ _ ho
  have hl : ∀ pc ∈ realParts obs, PauliLabel (2 * norb) pc.1 := by
    intro pc hpc
    obtain ⟨x, hx, rfl⟩ := List.mem_map.1 hpc
    exact hlab.2 x hx
  have hne : realParts obs ≠ [] := by unfold realParts; simpa using hlab.1
  have h0 : Hist (2 * norb) (Ex (prepared ansatz q.params c)) (q.entry key opt) [] := by rw [he]; exact Hist.nil _ _
  have hd : ∀ hd, ExactDistr (2 * norb) (prepared ansatz q.params c) hd (B.dev.measure q.run (q.setting c) hd) := fun hd => by
    have := hI q.run (q.setting c) hd
    exact this
  obtain ⟨r, q', cs, e1, e2, e3, e4, e5, e6, e7, e8⟩ := evaluate_exact (dev := B.dev) (c := c) (by omega : 0 < 2 * norb) h0
    (by rw [he]; exact tot_nil) hd hl hne
  rw [e8 hf] at e1
  refine ⟨q', by unfold evSaved; rw [ek, ho]; exact e1, e3, e4, fun k o hk => ?_, fun det2 q2 c2 ek2 hq2 hf2 => ?_⟩
  · unfold QI.entry
    rw [e2, lookup_dictPut, if_neg hk]
  · unfold evSaved
    rw [ek2, ho]
    exact evaluate_twice (dev := B.dev) (circ := fun _ _ => c) h0 (fun x _ => hd x) (fun pc hpc => (hl pc hpc).1) hne hf
      (by rw [e1]) B.dev (fun _ _ => c2) q2 (by rw [e1]; exact hq2) hf2

/-- One determinant on both sides. -/
theorem csfs_single (hj : B.mapper = .jordanWigner) (hsave : B.save = true) {d : List Char} {c : List (Gate (2 * norb))}
    (hc : determinantReference d norb .jordanWigner = .ok c) (hs : (getReorderingSign d : ℝ) * getReorderingSign d = 1)
    {A : Dict ℝ} {q : QI} {v : ℝ} (hv : (evSaved B d c 1 A q).1 = .ok v) :
    (quantumExpectationCsfs B none 1 false ([1], [d]) A ([1], [d]) q).1 = .ok v := by
  unfold quantumExpectationCsfs
  rw [if_neg (by rw [hj]; decide), if_neg (by simp)]
  have hz : zipCsf (([1], [d]) : List ℝ × List (List Char)) = .ok [(1, d)] := rfl
  have hu : uniqueCombinations false [(1, d)] [(1, d)] = [((d, d), 1)] := by
    unfold uniqueCombinations sortedPair
    simp only [List.flatMap_cons, List.flatMap_nil, List.map_cons, List.map_nil, List.append_nil, List.foldl_cons, List.foldl_nil,
      Bool.false_eq_true, if_false, ite_self]
    unfold addWeight
    simp [hs]
  rw [hz, qm_bind]
  simp only [csfsPair.liftExcept]
  rw [qm_bind]
  simp only [csfsPair.liftExcept]
  rw [hu, List.foldlM_cons, qm_bind, qm_bind]
  unfold csfsPair
  simp only [if_true]
  rw [qm_bind, hj]
  simp only [csfsPair.liftExcept, hc]
  rw [qm_bind]
  unfold evOne
  simp only [hsave, if_true]
  cases e : evSaved B d c 1 A q with
  | mk r q' =>
    rw [e] at hv
    cases hv
    simp [List.foldlM_nil, pure, ExceptT.pure, ExceptT.mk, StateT.pure]

/-- The number operator of one spin orbital in a determinant. -/
theorem number_value (p : ℕ) (S : Finset ℕ) :
    expv (ket S : Fock ℝ) (sumOp [([(p, true), (p, false)], 1)]) = if p ∈ S then 1 else 0 := by
  have e : (sumOp [([(p, true), (p, false)], (1 : ℝ))] : FOp ℝ) = cr p * an p := by
    simp [ladder]
  unfold expv
  rw [e, Module.End.mul_apply, ← adjoint_an p, an_single]
  split_ifs
  · rw [one_mul, inner_single_single, if_pos rfl, phase_sq]
  · simp

theorem prepared_nil (p : List ℝ) (c : List (Gate (2 * norb))) : prepared (fun _ => []) p c = runCircuit c (zeroState _) := rfl

/-- The value of a determinant without an ansatz. -/
theorem det_value {d : List Char} (hd : IsDet norb d) {A : Dict ℝ} {obs : List (List Char × ℂ)}
    (ho : ∀ x, Below (2 * norb) x → obsOp (2 * norb) obs (onRegister norb x) = onRegister norb (sumOp A x))
    (hr : ∀ kv ∈ A, ∀ o ∈ kv.1, o.1 < 2 * norb) :
    labelSum (basis (detBits norb d)) (realParts obs) = expv (ket (detSet d) : Fock ℝ) (sumOp A) := by
  have e := onRegister_sgl hd 1
  refine value_register ho hr (s := (((-1) ^ (crossings d).card : ℝ) : ℂ)) ?_ ?_ ?_
  · rw [Complex.conj_ofReal, ← Complex.ofReal_mul, ← mul_pow]; simp
  · refine below_sgl ?_ 1
    intro p hp
    have := Finset.mem_range.1 (Finset.mem_filter.1 hp).1
    rw [hd.1] at this
    exact this
  · change _ = _ • onRegister norb (sgl (detSet d) 1)
    rw [e, smul_smul, one_mul, ← Complex.ofReal_mul, ← mul_pow]; simp

/-- Two determinants. -/
theorem csfs_two (hj : B.mapper = .jordanWigner) (hsave : B.save = true) {a b : List Char} (hne : a ≠ b)
    (hsort : sortedPair false a b = (a, b)) (hsign : (getReorderingSign a : ℝ) * getReorderingSign b = 1)
    {s c1 c2 : List (Gate (2 * norb))} (hs : superpositionReference a b norb .jordanWigner = .ok s)
    (h1 : determinantReference a norb .jordanWigner = .ok c1) (h2 : determinantReference b norb .jordanWigner = .ok c2)
    {A : Dict ℝ} {q q1 q2 : QI} {v v1 v2 : ℝ} (e : evSaved B (a ++ b) s 1 A q = (.ok v, q1))
    (e1 : evSaved B a c1 1 A q1 = (.ok v1, q2)) (e2 : (evSaved B b c2 1 A q2).1 = .ok v2) :
    (quantumExpectationCsfs B none 1 false ([1], [a]) A ([1], [b]) q).1 = .ok (v - 0.5 * v1 - 0.5 * v2) := by
  unfold quantumExpectationCsfs
  rw [if_neg (by rw [hj]; decide), if_neg (by simp)]
  have hz : ∀ d, zipCsf (([1], [d]) : List ℝ × List (List Char)) = .ok [(1, d)] := fun _ => rfl
  have hu : uniqueCombinations false [(1, a)] [(1, b)] = [((a, b), 1)] := by
    unfold uniqueCombinations
    simp only [List.flatMap_cons, List.flatMap_nil, List.map_cons, List.map_nil, List.append_nil, List.foldl_cons, List.foldl_nil,
      hsort]
    unfold addWeight
    simp [hsign]
  have hopt : ∀ f, supOption f 1 = 1 := by intro f; unfold supOption; split_ifs <;> rfl
  rw [hz, hz, qm_bind]
  simp only [csfsPair.liftExcept]
  rw [qm_bind]
  simp only [csfsPair.liftExcept]
  rw [hu, List.foldlM_cons, qm_bind, qm_bind]
  unfold csfsPair
  rw [if_neg hne, qm_bind, hj]
  simp only [csfsPair.liftExcept, hs]
  rw [qm_bind]
  have hget : (get : QM QI) q = (.ok q, q) := rfl
  rw [hget]
  simp only [hopt]
  rw [qm_bind]
  unfold evOne
  simp only [hsave, if_true, e]
  rw [qm_bind]
  simp only [h1, csfsPair.liftExcept]
  rw [qm_bind]
  simp only [e1]
  rw [qm_bind]
  simp only [h2, csfsPair.liftExcept]
  rw [qm_bind]
  cases e3 : evSaved B b c2 1 A q2 with
  | mk r q' =>
    rw [e3] at e2
    cases e2
    simp [List.foldlM_nil, pure, ExceptT.pure, ExceptT.mk, StateT.pure]

end single

end SQ
