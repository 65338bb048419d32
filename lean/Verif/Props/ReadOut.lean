import Verif.Lemmas.ReadOutRun
import Verif.Props.Sampler

/-!
# C132: read-out mitigation removes read-out errors

A primitive with perfect gates, unlimited shots and read-out errors `M` (`ReadOut S M`); the interface measures its
read-out matrix with it (`makeMinv`), keeps it, and corrects what it has measured.
-/

namespace SQ

variable {norb : ℕ} {B : Bench norb} {S : Primitive (2 * norb)} {ansatz : List ℝ → List (PGate (2 * norb))} {K : Calib}
  {M : Matrix (Fin (2 ^ (2 * norb))) (Fin (2 ^ (2 * norb))) ℝ}

/-- C132: on at most 8 qubits the calibration returns the inverse of the matrix of read-out errors; on more it raises. -/
theorem C132_matrix {n : ℕ} {S : Primitive n} {M : Matrix (Fin (2 ^ n)) (Fin (2 ^ n)) ℝ} (hS : ReadOut S M)
    (hM : ReadOutMatrix M) (run : ℕ) (shots : Option ℕ) :
    makeMinv n [] (S.sample run shots 1) = if n ≤ 8 then .ok M⁻¹ else .error .valueError := by
  by_cases hn : n ≤ 8
  · rw [if_pos hn]
    exact makeMinv_ok hn hM fun g head => hS run shots 1 g head
  · rw [if_neg hn]
    unfold makeMinv
    rw [if_pos (by omega)]

/-- C132: `quantum_expectation_value` returns the expectation value of the operator in the state that the circuit prepares,
although the outcomes are misread, if the flags ask for the correction; also with post-selection, if the state has the
electrons selected. This holds whatever was evaluated, saved, corrected, calibrated or changed before, as long as
`do_M_ansatz0` and `do_M_ansatz0_plus` have been off. -/
theorem C132_expectation (hB : B.Noisy ansatz S K M) {q : QI} (hq : B.ReachedPlain q) (hf : q.flags.Corrects M)
    (custom : Option (List ℝ))
    (hsel : q.flags.postsel.truthy = true → HasElectrons norb B.numElec (prepared ansatz (custom.getD q.params) B.state))
    {A : Dict ℝ} (hA : WF A) (hr : ∀ kv ∈ A, ∀ o ∈ kv.1, o.1 < 2 * norb) {y : Fock ℝ}
    (hy : Below (2 * norb) y) {s : ℂ} (hs : (starRingEnd ℂ) s * s = 1)
    (hp : prepared ansatz (custom.getD q.params) B.state = s • onRegister norb y) :
    (quantumExpectation B custom A q).1 = .ok (expv y (sumOp A)) := by
  obtain ⟨obs, ho, hob⟩ := opToQbit_ok hB.mapping hA hr
  obtain ⟨hk, hpl⟩ := reached_read hB hq
  obtain ⟨q', e, -⟩ := givesIn_evOne hB hpl q.params custom hB.key 1 (good_of hf hsel) ho q ⟨hk, rfl, rfl⟩
  unfold quantumExpectation
  rw [e, value_register hob hr hs hy hp]

/-- C132: likewise `quantum_expectation_value_csfs` returns the matrix element; with post-selection, if all determinants have
the electrons selected and the ansatz keeps them. -/
theorem C132_csfs (hB : B.Noisy ansatz S K M) {q : QI} (hq : B.ReachedPlain q) (hf : q.flags.Corrects M)
    (custom : Option (List ℝ)) (opt : ℕ) (rev : Bool) {A : Dict ℝ} (hA : WF A)
    (hr : ∀ kv ∈ A, ∀ o ∈ kv.1, o.1 < 2 * norb) {bra ket : List ℝ × List (List Char)}
    (hb : ∀ d ∈ bra.2, FullDet norb d) (hk : ∀ d ∈ ket.2, FullDet norb d)
    (hsel : q.flags.postsel.truthy = true → Conserves norb B.numElec (ansatz (custom.getD q.params)) ∧
      (∀ d ∈ bra.2, DetElectrons norb d B.numElec) ∧ ∀ d ∈ ket.2, DetElectrons norb d B.numElec)
    (lb : bra.2.length ≤ bra.1.length) (lk : ket.2.length ≤ ket.1.length)
    (hrev : rev = true → ∀ d ∈ bra.2, ∀ d' ∈ ket.2, d.count '1' = d'.count '1') {b k : Fock ℝ}
    (hb1 : Below (2 * norb) b) (hk1 : Below (2 * norb) k)
    (eb : runPCircuit (ansatz (custom.getD q.params)) (onRegister norb (csfFock bra)) = onRegister norb b)
    (ek : runPCircuit (ansatz (custom.getD q.params)) (onRegister norb (csfFock ket)) = onRegister norb k) :
    (quantumExpectationCsfs B custom opt rev bra A ket q).1
      = .ok (1 / 2 * (inner b (sumOp A k) + inner k (sumOp A b))) := by
  obtain ⟨obs, ho, hob⟩ := opToQbit_ok hB.mapping hA hr
  obtain ⟨hkept, hpl⟩ := reached_read hB hq
  have hn := hB.orbitals
  obtain ⟨q', e, -⟩ := givesIn_csfs (B := B) (J := UseF norb ansatz B.numElec M q.flags q.params)
    (P := fun d => FullDet norb d ∧ (q.flags.postsel.truthy = true → DetElectrons norb d B.numElec)) custom opt rev
    (bra := bra) (ket := ket) (fun d hd => ⟨hb d hd, fun h => (hsel h).2.1 d hd⟩) (fun d hd => ⟨hk d hd, fun h => (hsel h).2.2 d hd⟩)
    (op := A) (w := fun c => labelSum (prepared ansatz (custom.getD q.params) c) (realParts obs))
    (fun d c hd hc => givesIn_evOne hB hpl q.params custom (keyOK_det hn hd.1.1 hc) 1 (good_of hf fun h => by
      obtain ⟨gs, g1, g2⟩ := C55_determinant hd.1.1
      rw [hc] at g1; cases g1
      unfold prepared
      rw [g2]
      exact (hsel h).1 _ (electrons_det (hd.2 h))) ho)
    (fun d d' c o hd hd' hne hc => givesIn_evOne hB hpl q.params custom (keyOK_sup hn hd.1.1 hd'.1.1 hd.1.2 hc) o (good_of hf fun h => by
      have hpos : ∃ i : ℕ, d[i]? = some '0' ∧ d'[i]? = some '1' := by
        by_contra hno
        rw [(C55_superposition hd.1.1 hd'.1.1).2 hno] at hc
        cases hc
      obtain ⟨gs, g1, g2⟩ := (C55_superposition hd.1.1 hd'.1.1).1 hpos
      rw [hc] at g1; cases g1
      unfold prepared
      rw [g2]
      exact (hsel h).1 _ (electrons_sup hd.1.1 hd'.1.1 hne (hd.2 h) (hd'.2 h))) ho)
    q ⟨hkept, rfl, rfl⟩
  rw [e, hB.jw.1, csfs_register hob hr _ rev (fun d hd => (hb d hd).1) (fun d hd => (hk d hd).1) lb lk hrev hb1 hk1 eb ek]

/-- C132: with saving on, evaluating again gives the value found before, also with the correction on, and also after
`redo_M_mitigation`: what has been corrected with the old matrix is used, whatever the new one is. -/
theorem C132_again (hB : B.Noisy ansatz S K M) (hsave : B.save = true) {q : QI} (hq : B.ReachedPlain q)
    {A : Dict ℝ} {v : ℝ} {q' : QI} (hv : quantumExpectation B none A q = (.ok v, q'))
    (dev' : Device (List (Gate (2 * norb)))) :
    (quantumExpectation { B with dev := dev' } none A q').1 = .ok v ∧
      (quantumExpectation { B with dev := dev' } none A q'.redoM.2).1 = .ok v := by
  obtain ⟨hkept, hpl⟩ := reached_read hB hq
  have hfl := (keepsIn_evOne hB hpl q.params none hB.key 1 A q ⟨hkept, rfl, rfl⟩).2.1
  obtain ⟨⟨key, ek⟩, -⟩ := hB.key
  obtain ⟨⟨ops, he⟩, ht⟩ := keptRead_entry hkept key 1
  have hT : Hist (2 * norb) (fun _ _ _ => True) (q.entry key 1) ops := ⟨he.1, he.2.1, fun _ _ _ _ _ _ => trivial⟩
  unfold quantumExpectation at hv
  rw [hv] at hfl
  unfold evOne evSaved at hv
  simp only [hsave, if_true, ek] at hv
  unfold quantumExpectation evOne evSaved
  simp only [hsave, if_true, ek]
  cases ho : opToQbit B.map norb A with
  | error er => rw [ho] at hv; cases hv
  | ok obs =>
    rw [ho] at hv
    simp only at hv ⊢
    obtain ⟨hne, hlab⟩ := labels_ok hB.mapping ho
    have hev : (q.evaluate B.dev (fun _ _ => B.state) key 1 (realParts obs)).1 = .ok v := by rw [hv]
    exact ⟨evaluate_again hT (fun pc hpc => (hlab pc hpc).1) hne hev dev' _ q' (by rw [hv]) hfl,
      evaluate_again hT (fun pc hpc => (hlab pc hpc).1) hne hev dev' _ q'.redoM.2 (by rw [hv]; rfl) hfl⟩

/-! ### Such devices exist -/

/-- All bits are misread together with probability `1 / 10`. -/
noncomputable def flipMatrix (n : ℕ) : Matrix (Fin (2 ^ n)) (Fin (2 ^ n)) ℝ :=
  (9 / 10 : ℝ) • (1 : Matrix (Fin (2 ^ n)) (Fin (2 ^ n)) ℝ) + (1 / 10 : ℝ) • (Matrix.of fun a b => if a = b.rev then 1 else 0)

theorem flipMatrix_ok (n : ℕ) : ReadOutMatrix (flipMatrix n) := by
  set R : Matrix (Fin (2 ^ n)) (Fin (2 ^ n)) ℝ := Matrix.of fun a b => if a = b.rev then 1 else 0 with hR
  have hRR : R * R = 1 := by
    ext a b
    rw [Matrix.mul_apply, Finset.sum_eq_single b.rev]
    · rw [hR, Matrix.of_apply, Matrix.of_apply, Fin.rev_rev, if_pos rfl, mul_one, Matrix.one_apply]
    · intro c _ hc
      rw [hR, Matrix.of_apply, Matrix.of_apply, if_neg hc, mul_zero]
    · simp
  have hval : ∀ a b, flipMatrix n a b = 9 / 10 * (if a = b then 1 else 0) + 1 / 10 * (if a = b.rev then 1 else 0) := by
    intro a b
    unfold flipMatrix
    rw [Matrix.add_apply, Matrix.smul_apply, Matrix.smul_apply, Matrix.one_apply]
    rfl
  refine ⟨fun a b => ?_, fun b => ?_, fun a => ?_, fun h0 => ?_⟩
  · rw [hval]; split_ifs <;> norm_num
  · simp only [hval, Finset.sum_add_distrib, ← Finset.mul_sum, Finset.sum_ite_eq', Finset.mem_univ, if_true]
    norm_num
  · rw [hval, if_pos rfl]; split_ifs <;> norm_num
  · have hm : flipMatrix n * ((9 / 10 : ℝ) • (1 : Matrix (Fin (2 ^ n)) (Fin (2 ^ n)) ℝ) - (1 / 10 : ℝ) • R)
        = (8 / 10 : ℝ) • (1 : Matrix (Fin (2 ^ n)) (Fin (2 ^ n)) ℝ) := by
      unfold flipMatrix
      rw [← hR]
      simp only [add_mul, mul_sub, smul_mul_assoc, mul_smul_comm, one_mul, mul_one, hRR, smul_smul]
      module
    have := congrArg Matrix.det hm
    rw [Matrix.det_mul, h0, zero_mul, Matrix.det_smul, Matrix.det_one, mul_one] at this
    exact absurd this.symm (by positivity)

/-- A primitive with given read-out errors. -/
noncomputable def misread {n : ℕ} (M : Matrix (Fin (2 ^ n)) (Fin (2 ^ n)) ℝ) : Primitive n :=
  ⟨fun _ _ _ g head => (List.finRange (2 ^ n)).map fun a : Fin (2 ^ n) => ((a : ℕ), readProb M (runCircuit (toCBS n head) g.run) a)⟩

theorem misread_ok {n : ℕ} (M : Matrix (Fin (2 ^ n)) (Fin (2 ^ n)) ℝ) : ReadOut (misread M) M := by
  intro run shots k g head
  have hf : ((misread M).sample run shots k g head).map Prod.fst = (List.finRange (2 ^ n)).map Fin.val := by
    unfold misread; rw [List.map_map]; rfl
  refine ⟨fun h => ?_, ?_, fun kv hk => ?_, fun b hb => ?_⟩
  · have := congrArg List.length h
    unfold misread at this
    simp at this
  · rw [hf]
    exact (List.nodup_finRange _).map Fin.val_injective
  · obtain ⟨a, -, rfl⟩ := List.mem_map.1 hk
    exact ⟨a.2, rfl⟩
  · exfalso
    rw [hf] at hb
    exact hb (List.mem_map_of_mem (List.mem_finRange b))

/-- An interface that meets all hypotheses, with an ansatz, errors in every outcome, and the correction switched on after a
measurement without it. -/
example : ∃ (B : Bench 2) (ansatz : List ℝ → List (PGate (2 * 2))) (S : Primitive (2 * 2)) (K : Calib)
    (M : Matrix (Fin (2 ^ (2 * 2))) (Fin (2 ^ (2 * 2))) ℝ) (q : QI),
    LayoutAnsatz 2 ["sa_single", "double"] [[0, 1], [0, 1, 2, 3]] ansatz ∧ B.Noisy ansatz S K M ∧ M ≠ 1 ∧
    B.ReachedPlain q ∧ q.flags.Corrects M ∧ q.flags.postsel.truthy = false ∧ B.save = true := by
  have h : CircuitLayout 2 ["sa_single", "double"] [[0, 1], [0, 1, 2, 3]]
      [E 1 0 - E 0 1, excite [2, 3] [1, 0] - excite [0, 1] [3, 2]] :=
    .cons (.saSingle 0 1 (by decide) (by decide)) (.cons (.double 0 1 2 3 (by decide) (by decide) (by decide) (by decide)) .nil)
  obtain ⟨map, hM⟩ := jwMapper_exists (2 * 2)
  set ansatz : List ℝ → List (PGate (2 * 2)) := fun p => (C90_layout h fun k => p.getD k 0).choose
  set M : Matrix (Fin (2 ^ (2 * 2))) (Fin (2 ^ (2 * 2))) ℝ := flipMatrix (2 * 2) with hMdef
  set K : Calib := ⟨2, none, .jordanWigner, (1, 1)⟩ with hK
  set B : Bench 2 := ⟨primitiveDevice (misread M) ansatz K, .jordanWigner, map, (1, 1), hfCircuit 2 (1, 1), true, true⟩ with hBdef
  have hne : M ≠ 1 := by
    intro e
    have := congrFun (congrFun e 0) 0
    rw [hMdef] at this
    unfold flipMatrix at this
    rw [Matrix.add_apply, Matrix.smul_apply, Matrix.smul_apply, Matrix.one_apply, if_pos rfl, Matrix.of_apply,
      if_neg (by decide)] at this
    norm_num at this
  have hB : B.Noisy ansatz (misread M) K M := ⟨by decide, rfl, misread_ok M, flipMatrix_ok _, hM, ⟨rfl, rfl⟩, ⟨show 1 + 1 ≤ 2 * 2 by decide, rfl⟩,
    hfCircuit_start 2 1⟩
  set q1 : QI := (QI.init true 100 (some 10) (Flags.init (.bool false) (.bool false) (.bool false) (.bool false)) 2).toOption.get rfl with hq1
  have hinit : QI.init true 100 (some 10) (Flags.init (.bool false) (.bool false) (.bool false) (.bool false)) 2 = .ok q1 := rfl
  set op1 : BenchOp := .expectation none [] with hop1
  set op2 : BenchOp := .flags [("do_M_mitigation", .bool true)] with hop2
  have hf1 : (BenchOp.run B q1 op1).flags = q1.flags := by
    have hpl : q1.flags.Plain := ⟨rfl, rfl⟩
    have hk : KeptRead 2 ansatz B.numElec M q1 := ⟨nofun, (fun id hi => absurd hi nofun), nofun⟩
    exact (keepsIn_evOne hB hpl q1.params none hB.key 1 [] q1 ⟨hk, rfl, rfl⟩).2.1
  have hf2 : (BenchOp.run B (BenchOp.run B q1 op1) op2).flags = Flags.init (.bool true) (.bool false) (.bool false) (.bool false) := by
    change ((BenchOp.run B q1 op1).flags.update _).2 = _
    rw [hf1]
    rfl
  refine ⟨B, ansatz, misread M, K, M, [op1, op2].foldl (BenchOp.run B) q1,
    fun p => (C90_layout h fun k => p.getD k 0).choose_spec.imp fun _ h => h.1, hB, hne,
    ⟨_, _, _, _, _, q1, [op1, op2], hinit, ?_, ?_, rfl⟩, Or.inl ⟨?_, by decide⟩, ?_, rfl⟩
  · intro op ho
    rcases List.mem_cons.1 ho with rfl | ho
    · trivial
    · rw [List.mem_singleton.1 ho]; trivial
  · intro k
    match k with
    | 0 => exact ⟨rfl, rfl⟩
    | 1 => change (BenchOp.run B q1 op1).flags.Plain; rw [hf1]; exact ⟨rfl, rfl⟩
    | k + 2 =>
      rw [List.take_of_length_le (by simp)]
      change (BenchOp.run B (BenchOp.run B q1 op1) op2).flags.Plain; rw [hf2]; exact ⟨rfl, rfl⟩
  · change (BenchOp.run B (BenchOp.run B q1 op1) op2).flags.mMit.truthy = true; rw [hf2]; rfl
  · change (BenchOp.run B (BenchOp.run B q1 op1) op2).flags.postsel.truthy = false; rw [hf2]; rfl

/-- Electrons of the determinants of two orbitals, and an ansatz that keeps them. -/
example : DetElectrons 2 "1100".toList (1, 1) ∧ DetElectrons 2 "0011".toList (1, 1) ∧ DetElectrons 2 "1001".toList (1, 1) ∧
    ¬ DetElectrons 2 "1010".toList (1, 1) ∧ Conserves 2 (1, 1) [] :=
  ⟨by unfold DetElectrons alphaCount; decide, by unfold DetElectrons alphaCount; decide, by unfold DetElectrons alphaCount; decide,
    by unfold DetElectrons alphaCount; decide, fun _ h => h⟩

/-! ### A matrix out of date -/

/-- The flags do not say which matrix is used: after `update_mitigation_flags(do_M_ansatz0=True)` the interface, which has a
matrix measured without the ansatz, still uses that one. -/
theorem C132_stale_disagree (B : Bench norb) (v2 : Bool) (mx shots np : ℕ) (hmx : 0 < mx) :
    ∃ (q : QI) (ops : List BenchOp) (q0 : QI) (id : ℕ × ℕ),
      QI.init v2 mx (some shots) (Flags.init (.bool false) (.bool false) (.bool false) (.bool false)) np = .ok q0 ∧
      q = ops.foldl (BenchOp.run B) q0 ∧ q.flags.ansatz0.truthy = true ∧ q.minv = some id ∧
      ∀ (S : Primitive (2 * norb)) ansatz K, matrixOf S ansatz K id = makeMinv (2 * norb) [] (S.sample id.1 K.shots 1) := by
  obtain ⟨q0, h0, hf⟩ : ∃ q0, QI.init v2 mx (some shots) (Flags.init (.bool false) (.bool false) (.bool false) (.bool false)) np = .ok q0 ∧
      q0.flags = Flags.init (.bool false) (.bool false) (.bool false) (.bool false) := by
    unfold QI.init QI.setMax QI.setShots
    simp only
    by_cases h1 : shots > mx
    · simp only [h1, if_true, hmx.ne', if_false]
      split_ifs <;> exact ⟨_, rfl, rfl⟩
    · simp only [h1, if_false]
      exact ⟨_, rfl, rfl⟩
  refine ⟨_, [.flags [("do_M_mitigation", .bool true)], .redoM, .flags [("do_M_ansatz0", .bool true)]], q0,
    (q0.run, 1), h0, rfl, ?_, ?_, fun S ansatz K => ?_⟩
  · simp only [List.foldl_cons, List.foldl_nil, BenchOp.run, QI.setFlags, QI.redoM, hf]
    rfl
  · simp only [List.foldl_cons, List.foldl_nil, BenchOp.run, QI.setFlags, QI.redoM, hf]
    rfl
  · unfold matrixOf
    rw [if_neg (show ¬ Nat.testBit 1 1 = true by decide)]

end SQ
