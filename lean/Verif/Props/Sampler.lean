import Verif.Lemmas.SamplerUse
import Verif.Props.Circuits
import Verif.Model.OrbitalSpaces

/-!
# C113, C114: an interface with an ideal device

`Bench.Reached B q`: `q` arises from constructing the interface and any sequence of calls, failing ones included.
-/

namespace SQ

variable {norb : ℕ} {B : Bench norb} {ansatz : List ℝ → List (PGate (2 * norb))}

/-! ## C113 -/

/-- C113: with all mitigation switched off, `quantum_expectation_value` returns the expectation value of the operator in
the state that the initial circuit and the ansatz prepare with the parameters in force (or those handed over), whatever
was evaluated, saved or changed before, with or without saving and grouping of labels. -/
theorem C113_expectation (hB : B.Sound ansatz) {q : QI} (hq : B.Reached q) (hf : q.flags.isEnabled = false)
    (custom : Option (List ℝ)) {A : Dict ℝ} (hA : WF A) (hr : ∀ kv ∈ A, ∀ o ∈ kv.1, o.1 < 2 * norb) {y : Fock ℝ}
    (hy : Below (2 * norb) y) {s : ℂ} (hs : (starRingEnd ℂ) s * s = 1)
    (hp : prepared ansatz (custom.getD q.params) B.state = s • onRegister norb y) :
    (quantumExpectation B custom A q).1 = .ok (expv y (sumOp A)) := by
  obtain ⟨obs, ho, hob⟩ := opToQbit_ok hB.mapping hA hr
  obtain ⟨q', e, -⟩ := gives_evOne hB.orbitals hB.device hB.mapping custom hB.key 1 ho q.params q (reached_kept hB hq) rfl hf
  unfold quantumExpectation
  rw [e, value_register hob hr hs hy hp]

/-- C113: likewise `quantum_expectation_value_csfs` returns the matrix element of the symmetric part of the operator
between the states that the ansatz makes of bra and ket. -/
theorem C113_csfs (hB : B.Sound ansatz) {q : QI} (hq : B.Reached q) (hf : q.flags.isEnabled = false)
    (custom : Option (List ℝ)) (opt : ℕ) (rev : Bool) {A : Dict ℝ} (hA : WF A)
    (hr : ∀ kv ∈ A, ∀ o ∈ kv.1, o.1 < 2 * norb) {bra ket : List ℝ × List (List Char)}
    (hb : ∀ d ∈ bra.2, FullDet norb d) (hk : ∀ d ∈ ket.2, FullDet norb d)
    (lb : bra.2.length ≤ bra.1.length) (lk : ket.2.length ≤ ket.1.length)
    (hrev : rev = true → ∀ d ∈ bra.2, ∀ d' ∈ ket.2, d.count '1' = d'.count '1') {b k : Fock ℝ}
    (hb1 : Below (2 * norb) b) (hk1 : Below (2 * norb) k)
    (eb : runPCircuit (ansatz (custom.getD q.params)) (onRegister norb (csfFock bra)) = onRegister norb b)
    (ek : runPCircuit (ansatz (custom.getD q.params)) (onRegister norb (csfFock ket)) = onRegister norb k) :
    (quantumExpectationCsfs B custom opt rev bra A ket q).1
      = .ok (1 / 2 * (inner b (sumOp A k) + inner k (sumOp A b))) := by
  obtain ⟨obs, ho, hob⟩ := opToQbit_ok hB.mapping hA hr
  obtain ⟨q', e, -⟩ := gives_csfs hB.orbitals hB.device hB.mapping custom opt rev hb hk ho q.params q
    (reached_kept hB hq) rfl hf
  rw [e, hB.jw, csfs_register hob hr _ rev (fun d hd => (hb d hd).1) (fun d hd => (hk d hd).1) lb lk hrev hb1 hk1 eb ek]

/-- C113: with saving on and mitigation off, evaluating an operator again gives the value found before, whatever the device
does by then: nothing is measured anew. -/
theorem C113_again (hB : B.Sound ansatz) (hsave : B.save = true) {q : QI} (hq : B.Reached q)
    (hf : q.flags.isEnabled = false) {A : Dict ℝ} (hA : WF A) (hr : ∀ kv ∈ A, ∀ o ∈ kv.1, o.1 < 2 * norb)
    (dev' : Device (List (Gate (2 * norb)))) :
    ∃ v q', quantumExpectation B none A q = (.ok v, q') ∧
      (quantumExpectation { B with dev := dev' } none A q').1 = .ok v := by
  obtain ⟨obs, ho, hob⟩ := opToQbit_ok hB.mapping hA hr
  have hkept := reached_kept hB hq
  obtain ⟨q', e, -, -, f'⟩ := gives_evOne hB.orbitals hB.device hB.mapping none hB.key 1 ho q.params q hkept rfl hf
  refine ⟨_, q', e, ?_⟩
  obtain ⟨⟨key, ek⟩, hkey⟩ := hB.key
  have hkey := hkey key ek
  obtain ⟨⟨ops, he⟩, ht⟩ := kept_entry hkept key 1
  have hlab : obs ≠ [] ∧ ∀ pc ∈ obs, PauliLabel (2 * norb) pc.1 := by
    unfold opToQbit at ho
    cases ef : getQiskitForm norb A with
    | error e => rw [ef] at ho; cases ho
    | ok form => rw [ef] at ho; exact hB.mapping.labels _ _ ho
  unfold evOne evSaved at e
  simp only [hsave, if_true, ek, ho] at e
  unfold quantumExpectation evOne evSaved
  simp only [hsave, if_true, ek, ho]
  have := evaluate_twice (dev := B.dev) (circ := fun _ _ => B.state) he
    (fun hd _ => by have := hB.device q.run (q.setting B.state) hd; rw [hkey]; exact this) (obs := realParts obs)
    (fun pc hpc => by
      obtain ⟨x, hx, rfl⟩ := List.mem_map.1 hpc
      exact (hlab.2 x hx).1)
    (by unfold realParts; simpa using hlab.1) hf (by rw [e]) dev' (fun _ _ => B.state) q' (by rw [e]) f'
  exact this

/-- C114: an interface built for closed shells as the wave function class builds it. -/
theorem C114_sound {m : ℕ} (hn : 0 < norb) (hm : m ≤ norb) (hd : Ideal B.dev ansatz) (hM : JWMapper (2 * norb) B.map)
    (hj : B.mapper = .jordanWigner) (he : B.numElec = (m, m)) (hs : B.state = hfCircuit norb (m, m)) : B.Sound ansatz :=
  ⟨hn, hd, hM, hj, by rw [he]; simp only; omega, by rw [he, hs, hfCircuit_start]⟩

/-- C113 fails when the initial circuit does not prepare the Hartree-Fock determinant, as with `do_pp`: the evaluation of an
expectation value files the measurements of the perfect-pairing determinant under the Hartree-Fock determinant, and
`quantum_expectation_value_csfs` for the Hartree-Fock determinant then returns the value of the other one. -/
theorem C113_pairing_disagree : ∃ (B : Bench 3) (ansatz : List ℝ → List (PGate (2 * 3))) (q : QI) (A : Dict ℝ),
    Ideal B.dev ansatz ∧ JWMapper (2 * 3) B.map ∧ B.mapper = .jordanWigner ∧ B.save = true ∧ B.numElec = (2, 2) ∧
    ppDet 6 4 = .ok [true, true, false, false, true, true] ∧
    determinantReference "110011".toList 3 .jordanWigner = .ok B.state ∧ B.Reached q ∧ q.flags.isEnabled = false ∧
    let hf : List ℝ × List (List Char) := ([1], ["111100".toList])
    (quantumExpectationCsfs B none 1 false hf A hf q).1 = .ok 1 ∧
    (quantumExpectationCsfs B none 1 false hf A hf (quantumExpectation B none A q).2).1 = .ok 0 := by
  obtain ⟨map, hM⟩ := jwMapper_exists (2 * 3)
  have d1 : IsDet 3 "110011".toList := by unfold IsDet; decide
  have d2 : IsDet 3 "111100".toList := by unfold IsDet; decide
  obtain ⟨c1, g1, g2⟩ := C55_determinant d1
  obtain ⟨c2, f1, f2⟩ := C55_determinant d2
  set B : Bench 3 := ⟨exactDevice fun _ => [], .jordanWigner, map, (2, 2), c1, true, true⟩ with hBdef
  have hI : Ideal B.dev (fun _ => []) := exactDevice_ideal (fun _ => ([] : List (PGate (2 * 3))))
  set f : Flags := Flags.init (.bool false) (.bool false) (.bool false) (.bool false) with hfdef
  obtain ⟨q, hq, hqs, hqf⟩ : ∃ q, QI.init true 100 (some 10) f 0 = .ok q ∧ q.saver = [] ∧ q.flags.isEnabled = false :=
    ⟨_, rfl, rfl, rfl⟩
  set A : Dict ℝ := [([(2, true), (2, false)], 1)] with hAdef
  have hA : WF A := by rw [hAdef]; decide
  have hr : ∀ kv ∈ A, ∀ o ∈ kv.1, o.1 < 2 * 3 := by
    intro kv hkv o ho
    rw [hAdef, List.mem_singleton] at hkv
    subst hkv
    simp at ho
    rcases ho with rfl | rfl <;> decide
  obtain ⟨obs, ho, hob⟩ := opToQbit_ok hM hA hr
  have hent : ∀ k, q.entry k 1 = [] := by intro k; unfold QI.entry; rw [hqs]; rfl
  have hsign : (getReorderingSign "111100".toList : ℝ) * getReorderingSign "111100".toList = 1 := by
    rw [show getReorderingSign "111100".toList = -1 by decide]; norm_num
  obtain ⟨q1, e1, -, e2, -, e3⟩ := evSaved_first (by decide) hI hM (hent 60) (det := "111100".toList) rfl hqf ho c1
  obtain ⟨q2, e4, -⟩ := evSaved_first (by decide) hI hM (hent 60) (det := "111100".toList) rfl hqf ho c2
  refine ⟨B, fun _ => [], q, A, hI, hM, rfl, rfl, rfl, by decide, g1, ⟨_, _, _, _, _, q, [], hq, by simp, rfl⟩, hqf, ?_, ?_⟩
  · refine csfs_single rfl rfl f1 hsign ?_
    rw [e4, prepared_nil, f2, det_value d2 hob hr, number_value, if_pos (by decide)]
  · have : (quantumExpectation B none A q).2 = q1 := by
      have : quantumExpectation B none A q = evSaved B "111100".toList c1 1 A q := rfl
      rw [this, e1]
    rw [this]
    refine csfs_single rfl rfl f1 hsign ?_
    rw [e3 _ q1 c2 rfl rfl (by rw [e2]; exact hqf), prepared_nil, g2, det_value d1 hob hr, number_value, if_neg (by decide)]

/-- C113 needs `FullDet`, determinants with electrons: the saver key of the superposition of the empty determinant with
another is the key of that other one, so that the second evaluation reads the data of the first. -/
theorem C113_vacuum_disagree : ∃ (B : Bench 1) (ansatz : List ℝ → List (PGate (2 * 1))) (q : QI) (A : Dict ℝ),
    B.Sound ansatz ∧ B.Reached q ∧ q.flags.isEnabled = false ∧ WF A ∧
    inner (csfFock ([1], ["00".toList])) (sumOp A (csfFock ([1], ["10".toList]))) = 0 ∧ SymOn 1 A ∧
    (quantumExpectationCsfs B none 1 false ([1], ["00".toList]) A ([1], ["10".toList]) q).1 = .ok (1 / 4) := by
  obtain ⟨map, hM⟩ := jwMapper_exists (2 * 1)
  have d1 : IsDet 1 "00".toList := by unfold IsDet; decide
  have d2 : IsDet 1 "10".toList := by unfold IsDet; decide
  obtain ⟨c1, g1, g2⟩ := C55_determinant d1
  obtain ⟨c2, f1, f2⟩ := C55_determinant d2
  obtain ⟨cs, s1, s2⟩ := (C55_superposition d1 d2).1 ⟨0, rfl, rfl⟩
  set B : Bench 1 := ⟨exactDevice fun _ => [], .jordanWigner, map, (1, 1), hfCircuit 1 (1, 1), true, true⟩ with hBdef
  have hI : Ideal B.dev (fun _ => []) := exactDevice_ideal (fun _ => ([] : List (PGate (2 * 1))))
  set f : Flags := Flags.init (.bool false) (.bool false) (.bool false) (.bool false) with hfdef
  obtain ⟨q, hq, hqs, hqf, hqF⟩ : ∃ q, QI.init true 100 (some 10) f 0 = .ok q ∧ q.saver = [] ∧ q.flags.isEnabled = false ∧
    q.flags = f := ⟨_, rfl, rfl, rfl, rfl⟩
  set A : Dict ℝ := [([(0, true), (0, false)], 1)] with hAdef
  have hA : WF A := by rw [hAdef]; decide
  have hr : ∀ kv ∈ A, ∀ o ∈ kv.1, o.1 < 2 * 1 := by
    intro kv hkv o ho
    rw [hAdef, List.mem_singleton] at hkv
    subst hkv
    simp at ho
    rcases ho with rfl | rfl <;> decide
  have hop : (sumOp A : FOp ℝ) = cr 0 * an 0 := by rw [hAdef]; simp [ladder]
  have hsym : ∀ x y : Fock ℝ, inner x (sumOp A y) = inner y (sumOp A x) := by
    intro x y
    rw [hop, Module.End.mul_apply, Module.End.mul_apply, ← adjoint_an 0, ← adjoint_an 0, inner_comm]
  obtain ⟨obs, ho, hob⟩ := opToQbit_ok hM hA hr
  have hent : ∀ k, q.entry k 1 = [] := by intro k; unfold QI.entry; rw [hqs]; rfl
  obtain ⟨q1, e1, p1, e2, k1, e3⟩ := evSaved_first (by decide) hI hM (hent 2) (det := "00".toList ++ "10".toList) rfl hqf ho cs
  have hf1 : q1.flags.isEnabled = false := by rw [e2]; exact hqf
  obtain ⟨q2, e4, p2, e5, k2, e6⟩ := evSaved_first (by decide) hI hM (q := q1) (key := 0) (opt := 1)
    (by rw [k1 0 1 (by decide)]; exact hent 0) (det := "00".toList) rfl hf1 ho c1
  have e7 := e3 "10".toList q2 c2 rfl (k2 2 1 (by decide)) (by rw [e5]; exact hf1)
  have v0 : labelSum (prepared (fun _ => []) q1.params c1) (realParts obs) = 0 := by
    rw [prepared_nil, g2, det_value d1 hob hr, number_value, if_neg (by decide)]
  have v1 : labelSum (prepared (fun _ => []) q.params cs) (realParts obs) = 1 / 2 := by
    have es : detSet "00".toList = ∅ := by decide
    have es2 : detSet "10".toList = {0} := by decide
    set t : ℝ := (Real.sqrt 2)⁻¹ with ht
    have htt : t * t = 1 / 2 := by rw [ht, ← mul_inv, Real.mul_self_sqrt (by norm_num)]; norm_num
    have x1 := onRegister_sgl d1 t
    have x2 := onRegister_sgl d2 t
    rw [es, show (crossings "00".toList).card = 0 by decide] at x1
    rw [es2, show (crossings "10".toList).card = 0 by decide] at x2
    rw [prepared_nil, value_register hob hr (s := 1) (y := sgl ∅ t + sgl {0} t) (by simp) ?_ ?_]
    · unfold expv
      rw [hop, Module.End.mul_apply, ← adjoint_an 0, map_add, an_single, an_single, if_neg (by simp), if_pos (by simp),
        zero_add, inner_single_single, if_pos rfl]
      have := phase_sq (R := ℝ) {0} 0
      linear_combination htt + (t * t) * this
    · intro S hS p hp
      by_contra hlt
      apply hS
      rw [coeff_add, coeff_sgl, coeff_sgl, if_neg, if_neg, add_zero]
      · rintro rfl; simp at hp; omega
      · rintro rfl; simp at hp
    · rw [s2, onRegister_add, x1, x2, one_smul]
      simp [smul_add, ht]
  refine ⟨B, fun _ => [], q, A, C114_sound (m := 1) (by decide) (by decide) hI hM rfl rfl rfl, ⟨_, _, _, _, _, q, [], hq, by simp, rfl⟩, hqf, hA,
    ?_, fun x y _ _ => hsym x y, ?_⟩
  · rw [hsym, show csfFock ([1], ["00".toList]) = sgl ∅ 1 by
      unfold csfFock; rw [List.zip_cons_cons]; simp only [List.zip_nil_left, List.map_cons, List.map_nil, List.sum_cons, List.sum_nil, add_zero]
      rw [show detSet "00".toList = ∅ by decide], hop, Module.End.mul_apply, an_single]
    simp
  · rw [csfs_two rfl rfl (by decide) (by decide) (by
      rw [show getReorderingSign "00".toList = 1 by decide, show getReorderingSign "10".toList = 1 by decide]; norm_num)
      s1 g1 f1 e1 e4 e7, v0, v1]
    norm_num

/-! ## C114 -/

theorem layout_run {types : List String} {indices : List (List ℕ)} (hA : LayoutAnsatz norb types indices ansatz) (p : List ℝ)
    {gs : List (PGate (2 * norb))} {names : List (String × ℕ)}
    (h : upslayout2circuit norb types indices (fun k => p.getD k 0) = .ok (gs, names)) : ansatz p = gs := by
  obtain ⟨_, e⟩ := hA p
  rw [e] at h
  cases h
  rfl

/-- Such an interface and ansatz exist; every initial state of the interface is `Reached`. -/
example : ∃ (B : Bench 2) (ansatz : List ℝ → List (PGate (2 * 2))) (Ts : List (FOp ℝ)) (q : QI),
    CircuitLayout 2 ["sa_single", "double"] [[0, 1], [0, 1, 2, 3]] Ts ∧
    LayoutAnsatz 2 ["sa_single", "double"] [[0, 1], [0, 1, 2, 3]] ansatz ∧ B.Sound ansatz ∧ B.numElec = (1, 1) ∧
    B.save = true ∧ B.Reached q ∧ q.flags.isEnabled = false ∧ q.params.length = 2 := by
  have h : CircuitLayout 2 ["sa_single", "double"] [[0, 1], [0, 1, 2, 3]]
      [E 1 0 - E 0 1, excite [2, 3] [1, 0] - excite [0, 1] [3, 2]] :=
    .cons (.saSingle 0 1 (by decide) (by decide)) (.cons (.double 0 1 2 3 (by decide) (by decide) (by decide) (by decide)) .nil)
  obtain ⟨map, hM⟩ := jwMapper_exists (2 * 2)
  set ansatz : List ℝ → List (PGate (2 * 2)) := fun p => (C90_layout h fun k => p.getD k 0).choose
  refine ⟨⟨exactDevice ansatz, .jordanWigner, map, (1, 1), hfCircuit 2 (1, 1), true, true⟩, ansatz, _,
    _, h, fun p => (C90_layout h fun k => p.getD k 0).choose_spec.imp fun _ h => h.1, ?_, rfl, rfl,
    ⟨true, 100, some 10, Flags.init (.bool false) (.bool false) (.bool false) (.bool false), 2, _, [], rfl, by simp, rfl⟩, rfl, rfl⟩
  exact C114_sound (m := 1) (by decide) (by decide) (exactDevice_ideal ansatz) hM rfl rfl rfl

/-- C114: the parameter-shift rule of the circuit wave function, fed with energies that the interface returns at any time
for the shifted parameters, is the derivative of the energy of the ansatz at the parameters. -/
theorem C114_gradient {types : List String} {indices : List (List ℕ)} {Ts : List (FOp ℝ)}
    (hC : CircuitLayout norb types indices Ts) (hB : B.Sound ansatz) (hA : LayoutAnsatz norb types indices ansatz)
    {m : ℕ} (hm : m ≤ norb) (he : B.numElec = (m, m)) {A : Dict ℝ} (hN : WF A) (hr : ∀ kv ∈ A, ∀ o ∈ kv.1, o.1 < 2 * norb)
    {E : List ℝ → ℝ} (hE : ∀ θs, θs.length = types.length → ∃ q, B.Reached q ∧ q.flags.isEnabled = false ∧
      (quantumExpectation B (some θs) A q).1 = .ok (E θs))
    (θs : List ℝ) (hl : θs.length = types.length) {k : ℕ} {ty : String} (hk : types[k]? = some ty) {t : ℝ}
    (ht : θs[k]? = some t) :
    ∃ R evals, gradR ty = some R ∧ gradEvals E θs k R = .ok evals ∧
      (∀ s, ∃ y, ExpChain (Ts.zip (θs.set k s)) (ket (hfOcc norb m m)) y ∧ E (θs.set k s) = expv y (sumOp A)) ∧
      HasDerivAt (fun s => E (θs.set k s)) (shiftGradient evals R) t := by
  obtain ⟨l1, g1, g2⟩ := hC.gens
  obtain ⟨r, T, hR, hT, hg⟩ := g2 k ty hk
  obtain ⟨Y, hY, hc⟩ := chain_trig hg (Ts := Ts) (θs := θs) (k := k) (by rw [hl, l1]) g1 hT (ket (hfOcc norb m m) : Fock ℝ)
  have hr0 : 0 < 2 * r := by
    cases hr : 2 * r with
    | zero =>
      rw [hr] at hR
      have : ∀ ty, gradR ty ≠ some 0 := by intro ty; unfold gradR; split <;> simp
      exact absurd hR (this ty)
    | succ m => omega
  have hbel : Below (2 * norb) (ket (hfOcc norb m m) : Fock ℝ) := by
    refine below_sgl ?_ 1
    rw [← detSet_default hm]
    intro p hp
    have := Finset.mem_range.1 (Finset.mem_filter.1 hp).1
    rwa [(isDet_default (norb := norb) (e := (m, m)) (by simp only; omega)).1] at this
  have val : ∀ s, E (θs.set k s) = expv (Y s) (sumOp A) := by
    intro s
    obtain ⟨q, q1, q2, q3⟩ := hE (θs.set k s) (by simpa using hl)
    obtain ⟨gs, names, f1, -, -, f2⟩ := C90_layout hC fun j => (θs.set k s).getD j 0
    obtain ⟨y, c1, c0, c2⟩ := f2 _ hbel
    have e : (List.range Ts.length).map (fun j => (θs.set k s).getD j 0) = θs.set k s := by
      refine List.ext_getElem (by simp [hl, l1]) fun j h1 h2 => ?_
      rw [List.getElem_map, List.getElem_range, List.getD_eq_getElem?_getD, List.getElem?_eq_getElem h2]; rfl
    rw [e] at c1
    obtain ⟨z, h1, h2⟩ := start_register hm
    have := C113_expectation hB q1 q2 (some (θs.set k s)) hN hr c0 h1 (by
      unfold prepared
      rw [hB.start, he, h2, ← runLin_apply, map_smul, runLin_apply]
      change z • runPCircuit (ansatz (θs.set k s)) _ = _
      rw [layout_run hA _ f1, c2])
    rw [q3] at this
    rw [Except.ok.inj this, expChain_unique c1 (hc s)]
  have htrig : TrigPoly (2 * r) fun s => E (θs.set k s) := (hY.bilin (innerForm (sumOp A))).congr fun s => by
    rw [val s]
    rfl
  obtain ⟨evals, h4, h5⟩ := C45_gradient hr0 ht htrig
  exact ⟨2 * r, evals, hR, h4, fun s => ⟨Y s, hc s, val s⟩, h5⟩

section layout

variable {tiny : ℝ → Bool} {th : Threads} {ci : CIInfo} {st : AnsatzStruct} {Ts Ts' : List (FOp ℝ)}
  {B : Bench ci.nA} {ansatz : List ℝ → List (PGate (2 * ci.nA))}

/-- C114: expectation values from the interface are those of the state vector code: with the Hartree-Fock determinant as
start and the parameters of the interface as angles, the interface is exact for the vector the code computes. -/
theorem C114_expectation (ht : ExactTiny tiny) (hs : AnsatzSpace ci ci.nA) (hth : th.Fair ci.idx2det.length)
    (hL : Layout 0 ci.nA st.types st.indices Ts) (hC : CircuitLayout ci.nA st.types st.indices Ts')
    (hB : B.Sound ansatz) (hA : LayoutAnsatz ci.nA st.types st.indices ansatz) {m : ℕ} (hm : m ≤ ci.nA)
    (he : B.numElec = (m, m)) {q : QI} (hq : B.Reached q) (hf : q.flags.isEnabled = false)
    (hl : q.params.length = st.types.length) (ha : ∀ θ ∈ q.params, effAngle θ = θ) {v w : Vec ℝ}
    (hv : stateOf ci v = ket (hfOcc ci.nA m m))
    (hw : constructUps (propVec tiny th ci) tiny ci.offset st q.params false v = .ok w) :
    ExactQuantum ci w fun A => (quantumExpectation B none A q).1 := by
  intro A hN hr
  obtain ⟨w', gs, names, e1, e2, e3⟩ := C91_same_state ht hs hth hL hC q.params hl ha (fun k => q.params.getD k 0)
    (fun k θ hk => by simp [hk]) v
  rw [hw] at e1
  cases e1
  have eg := layout_run hA q.params e2
  obtain ⟨s, h1, h2⟩ := start_register hm
  refine C113_expectation hB hq hf none hN.1 hr (below_stateOf ci w) h1 ?_
  unfold prepared
  rw [hB.start, he, h2, ← runLin_apply, map_smul, runLin_apply, ← hv]
  change s • runPCircuit (ansatz q.params) _ = _
  rw [eg, e3]

/-- C114: likewise for matrix elements: `W` is any wave function whose `U` is the ansatz of the state vector code. -/
theorem C114_csfs {W : RespWf} (ht : ExactTiny tiny) (hs : AnsatzSpace W.ci W.ci.nA) (hth : th.Fair W.ci.idx2det.length)
    (hL : Layout 0 W.ci.nA st.types st.indices Ts) (hC : CircuitLayout W.ci.nA st.types st.indices Ts')
    {B : Bench W.ci.nA} {ansatz : List ℝ → List (PGate (2 * W.ci.nA))}
    (hB : B.Sound ansatz) (hA : LayoutAnsatz W.ci.nA st.types st.indices ansatz) {q : QI} (hq : B.Reached q)
    (hf : q.flags.isEnabled = false) (hl : q.params.length = st.types.length) (ha : ∀ θ ∈ q.params, effAngle θ = θ)
    (hU : W.U false = constructUps (propVec tiny th W.ci) tiny W.ci.offset st q.params false) (opt : ℕ) :
    ExactCsfs W fun bra A ket => (quantumExpectationCsfs B none opt false bra A ket q).1 := by
  intro A hN hr hsym bra ket hb hk eb ek b k b' k' fb fk ub uk
  have run : ∀ v w, W.U false v = .ok w → runPCircuit (ansatz q.params) (onRegister W.ci.nA (stateOf W.ci v))
      = onRegister W.ci.nA (stateOf W.ci w) := by
    intro v w hvw
    obtain ⟨w', gs, names, e1, e2, e3⟩ := C91_same_state ht hs hth hL hC q.params hl ha (fun k => q.params.getD k 0)
      (fun k θ hk => by simp [hk]) v
    rw [hU, e1] at hvw
    cases hvw
    rw [layout_run hA q.params e2, e3]
  change (quantumExpectationCsfs B none opt false bra A ket q).1 = _
  rw [C113_csfs hB hq hf none opt false hN.1 hr (fun d hd => ⟨hb.2 d hd, eb d hd⟩) (fun d hd => ⟨hk.2 d hd, ek d hd⟩)
    hb.1.ge hk.1.ge (fun h => by cases h) (below_stateOf W.ci b') (below_stateOf W.ci k')
    (by rw [fb]; exact run b b' ub) (by rw [fk]; exact run k k' uk),
    hsym _ _ (below_stateOf W.ci k') (below_stateOf W.ci b')]
  congr 1
  ring

end layout

end SQ
