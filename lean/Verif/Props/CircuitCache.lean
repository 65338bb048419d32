import Verif.Lemmas.CircuitCacheRun

/-! # C118, C119 (and C78): what is read from a circuit wave function -/

namespace SQ

open CircObj

variable {e : CircEnv}

/-- C118: after any assignments, changes of the primitive and reads, in any order and with refused ones among them, every
quantity read is the one for the orbitals, parameters and primitive in force. -/
theorem C118_reads (hv : ValidKappa e.kappaIdx) {ops : List (CircOp e)} (hops : ∀ op ∈ ops, op.Fits) :
    let r := ops.foldl (fun r op => op.ref r) (CircRef.start e)
    let s := ops.foldl (fun s op => op.run s) (CircObj.init e)
    (readCMo s).1 = .ok r.orb ∧ (readH s).1 = .ok r.h ∧ (readG s).1 = .ok r.g ∧ (readRdm1 s).1 = .ok r.d1 ∧
      (readRdm2 s).1 = .ok r.d2 ∧ (readEnergy s).1 = .ok r.E ∧
      (e.sa = false → (readRdm3 s).1 = .ok r.d3 ∧ (readRdm4 s).1 = .ok r.d4) ∧
      (e.sa = true → (readStates s).1 = .ok r.energies) ∧ s.params = r.thetas ∧ s.kappa = r.kappa := by
  intro r s
  have hi : CircInv e r s := circ_inv_ops hv ops hops circ_inv_init
  have hn : r.reported = none := circ_ops_reported ops _ rfl
  have hE := (cfollows_readEnergy hv r).fst hi
  rw [hn] at hE
  refine ⟨(cfollows_readCMo hv r).fst hi, (cfollows_readH hv r).fst hi, (cfollows_readG hv r).fst hi, (cfollows_readRdm1 r).fst hi,
    (cfollows_readRdm2 r).fst hi, hE,
    fun h => ⟨(cfollows_readRdm3 h r).fst hi, (cfollows_readRdm4 h r).fst hi⟩, fun h => ?_, hi.params, hi.kappa⟩
  obtain ⟨s', h', -⟩ := readStates_eq hv h hi
  rw [h']

/-- C118: a number of ansatz parameters that does not fit is refused, one that fits is taken; a primitive that is not a
sampler is refused. -/
theorem C118_refused (t : List ℝ) (s : CircObj e) :
    (setThetas t s).1 = (if t.length = e.numTheta then .ok () else .error .valueError) ∧
    (t.length ≠ e.numTheta → (setThetas t s).2.params = s.params) ∧
    changePrimitive (e := e) .estimator s = (.error .valueError, s) ∧ changePrimitive (e := e) .other s = (.error .typeError, s) := by
  refine ⟨circ_setThetas_fst t s, fun h => ?_, rfl, rfl⟩
  unfold setThetas
  rw [CircM.bind_modify, if_pos h]
  rfl

/-- The states of an object: made, used, optimized, in any order; exceptions are caught. -/
inductive CircHistory (e : CircEnv) : CircObj e → Prop
  | init : CircHistory e (CircObj.init e)
  | op {s : CircObj e} (o : CircOp e) : o.Fits → CircHistory e s → CircHistory e (o.run s)
  | run2 {s : CircObj e} (name : String) (oo : Bool) (tol : ℝ) (rs : List WFObj.Round) : (∀ r ∈ rs, CircFits e r) →
      CircHistory e s → CircHistory e (CircObj.run2 name oo tol rs s).2
  | run1 {s : CircObj e} (name : String) (oo : Bool) (m : List ℝ → List WFObj.Call × List ℝ × ℝ) : KeepsSize m →
      CircHistory e s → CircHistory e (CircObj.run1 name oo m s).2

theorem CircHistory.followed (hv : ValidKappa e.kappaIdx) {s : CircObj e} (hs : CircHistory e s) : CFollowed e s := by
  induction hs with
  | init => exact ⟨_, circ_inv_init, RotOf.refl _⟩
  | op o hf _ ih =>
    obtain ⟨r, hr, ho⟩ := ih
    refine ⟨_, circ_inv_run hv hr hf, ?_⟩
    cases o with
    | setKappa k arr => exact ho.rotate _ _
    | primitive p => cases p <;> exact ho
    | _ => exact ho
  | run2 name oo tol rs hf _ ih => exact ckeeps_run2 hv name oo tol hf _ ih
  | run1 name oo m hm _ ih => exact ckeeps_run1 hv name oo hm _ ih

/-- C118: also with optimizations in between, whatever the minimizers do: integrals, density matrices and energies of the
states belong to the orbital coefficients, parameters and primitive of the object. -/
theorem C118_history (hv : ValidKappa e.kappaIdx) {s : CircObj e} (hs : CircHistory e s) :
    ∃ c, (readCMo s).1 = .ok c ∧ (readH s).1 = .ok (oneTransform c e.hAo) ∧ (readG s).1 = .ok (twoTransform c e.gAo) ∧
      (readRdm1 s).1 = .ok (e.mkRdm1 s.prim s.params) ∧
      (readRdm2 s).1 = .ok (e.mkRdm2 s.prim s.params (e.mkRdm1 s.prim s.params)) ∧
      (e.sa = true → (readStates s).1 = .ok (e.stateE s.prim s.params (oneTransform c e.hAo) (twoTransform c e.gAo))) ∧
      s.kappa = s.kappaOld ∧ s.params.length = e.numTheta := by
  obtain ⟨r, hi, -⟩ := hs.followed hv
  rw [hi.params, hi.prim]
  refine ⟨r.orb, (cfollows_readCMo hv r).fst hi, (cfollows_readH hv r).fst hi, (cfollows_readG hv r).fst hi,
    (cfollows_readRdm1 r).fst hi, (cfollows_readRdm2 r).fst hi, fun h => ?_, hi.kappa.trans hi.kappaOld.symm, hi.thetaLen⟩
  obtain ⟨s', h', -⟩ := readStates_eq hv h hi
  rw [h']
  rfl

/-- C118: after an optimization the energy read is the value that a minimizer returned. -/
theorem C118_reported (name : String) (oo : Bool) {s s' : CircObj e} :
    (∀ tol rs, CircObj.run2 name oo tol rs s = (.ok (), s') →
      ∃ r ∈ rs, (readEnergy s').1 = .ok r.kappaFun ∨ (readEnergy s').1 = .ok r.thetaFun) ∧
    (∀ m, CircObj.run1 name oo m s = (.ok (), s') → ∃ p, (readEnergy s').1 = .ok (m p).2.2) := by
  have read : ∀ {s : CircObj e} {E : ℝ}, s.energy = some E → (readEnergy s).1 = .ok E := by
    intro s E h
    unfold readEnergy
    rw [CircM.bind_get]
    simp only [h]
    rfl
  have fin : ∀ {s s' : CircObj e} {E : ℝ}, (do
      if e.sa then doStateCI
      CircM.modify fun s => { s with energy := some E } : CircM e Unit) s = (.ok (), s') → s'.energy = some E := by
    intro s s' E h
    by_cases hsa : e.sa = true
    · rw [if_pos hsa] at h
      obtain ⟨_, s1, -, h⟩ := CircM.ok_bind h
      obtain rfl : _ = s' := congrArg Prod.snd h
      rfl
    · rw [if_neg hsa] at h
      obtain rfl : _ = s' := congrArg Prod.snd h
      rfl
  have value : ∀ {tol : ℝ} {rs : List WFObj.Round} {eOld : ℝ} {s s' : CircObj e} {E : ℝ} {o : Option ℝ},
      rounds oo tol rs eOld o s = (.ok (some E), s') → (∃ r ∈ rs, E = r.kappaFun ∨ E = r.thetaFun) ∨ o = some E := by
    intro tol rs
    induction rs with
    | nil =>
      intro eOld s s' E o h
      exact Or.inr (Except.ok.inj (congrArg Prod.fst h))
    | cons r rs ih =>
      intro eOld s s' E o h
      unfold rounds at h
      obtain ⟨_, s1, -, h⟩ := CircM.ok_bind h
      obtain ⟨_, s2, -, h⟩ := CircM.ok_bind h
      rw [CircM.bind_get] at h
      by_cases hc : oo = true ∧ s2.kappa.length ≠ 0
      · rw [if_pos hc] at h
        obtain ⟨_, s3, -, h⟩ := CircM.ok_bind h
        obtain ⟨_, s4, -, h⟩ := CircM.ok_bind h
        by_cases ht : |r.kappaFun - eOld| < tol
        · rw [if_pos ht] at h
          have := Option.some.inj (Except.ok.inj (congrArg Prod.fst h))
          exact Or.inl ⟨r, by simp, Or.inl this.symm⟩
        · rw [if_neg ht] at h
          rcases ih h with ⟨r', hr', h'⟩ | h'
          · exact Or.inl ⟨r', by simp [hr'], h'⟩
          · exact Or.inl ⟨r, by simp, Or.inl (Option.some.inj h').symm⟩
      · rw [if_neg hc] at h
        have := Option.some.inj (Except.ok.inj (congrArg Prod.fst h))
        exact Or.inl ⟨r, by simp, Or.inr this.symm⟩
  constructor
  · intro tol rs h
    unfold CircObj.run2 at h
    by_cases hc : e.custom = true ∧ gradientFree name = false
    · rw [if_pos hc] at h
      cases congrArg Prod.fst h
    · rw [if_neg hc] at h
      obtain ⟨o, s1, h1, h⟩ := CircM.ok_bind h
      cases o with
      | none => cases congrArg Prod.fst h
      | some E =>
        rw [read (fin h)]
        rcases value h1 with ⟨r, hr, hE | hE⟩ | hE
        · exact ⟨r, hr, Or.inl (by rw [hE])⟩
        · exact ⟨r, hr, Or.inr (by rw [hE])⟩
        · cases hE
  · intro m h
    unfold CircObj.run1 at h
    rw [CircM.bind_get] at h
    by_cases h1 : e.custom = true ∧ gradientFree name = false
    · rw [if_pos h1] at h
      cases congrArg Prod.fst h
    rw [if_neg h1] at h
    by_cases h2 : name.toLower = "rotosolve" ∧ oo = true ∧ s.kappa.length ≠ 0
    · rw [if_pos h2] at h
      cases congrArg Prod.fst h
    rw [if_neg h2] at h
    obtain ⟨p, s1, -, h⟩ := CircM.ok_bind h
    obtain ⟨_, s2, -, h⟩ := CircM.ok_bind h
    refine ⟨p, read ?_⟩
    cases oo with
    | true =>
      change (CircM.get >>= _) s2 = _ at h
      rw [CircM.bind_get] at h
      obtain ⟨_, s3, -, h⟩ := CircM.ok_bind h
      obtain ⟨_, s4, -, h⟩ := CircM.ok_bind h
      exact fin h
    | false =>
      obtain ⟨_, s3, -, h⟩ := CircM.ok_bind h
      exact fin h

/-- The coefficients of the states that an object ought to use: those for its orbitals `c`, parameters and primitive. -/
noncomputable def freshCoeffs (s : CircObj e) (c : Matrix (Fin e.n) (Fin e.n) ℝ) : e.Co :=
  e.stateC s.prim s.params (oneTransform c e.hAo) (twoTransform c e.gAo)

/-- Transition property of an object for given coefficients of the states. -/
noncomputable def momentsWith (s : CircObj e) (c : Matrix (Fin e.n) (Fin e.n) ℝ) (co : e.Co)
    (ao : Matrix (Fin e.n) (Fin e.n) ℝ) : e.Tr := e.transition s.prim s.params co (oneTransform c ao)

/-- C119, if the energies of the states were read since the last change: transition properties and oscillator strengths
belong to the orbitals, parameters and primitive in force. Missing: other times, see `C119_stale_disagree` and
`C119_fresh_disagree`. -/
theorem C119_transition_partial (hv : ValidKappa e.kappaIdx) (hsa : e.sa = true) {s : CircObj e} (hs : CircHistory e s)
    (ao : Matrix (Fin e.n) (Fin e.n) ℝ) :
    ∃ c E, (readCMo s).1 = .ok c ∧ (readStates s).1 = .ok E ∧
      (transitionProp ao (readStates s).2).1 = .ok (momentsWith s c (freshCoeffs s c) ao) ∧
      (oscillators (readStates s).2).1 = .ok (e.strengths E (momentsWith s c (freshCoeffs s c) (e.dipole 0))
        (momentsWith s c (freshCoeffs s c) (e.dipole 1)) (momentsWith s c (freshCoeffs s c) (e.dipole 2))) := by
  obtain ⟨r, hi, -⟩ := hs.followed hv
  obtain ⟨h1, h2⟩ := transition_after_states hv hsa hi ao
  obtain ⟨s', h', -⟩ := readStates_eq hv hsa hi
  refine ⟨r.orb, r.energies, (cfollows_readCMo hv r).fst hi, by rw [h'], h1.trans ?_, h2.trans ?_⟩ <;>
  · unfold momentsWith freshCoeffs
    rw [hi.params, hi.prim]
    rfl

/-- C119, likewise, after ansatz parameters were assigned. -/
theorem C119_thetas_partial (hv : ValidKappa e.kappaIdx) (hsa : e.sa = true) {s : CircObj e} (hs : CircHistory e s)
    {t : List ℝ} (ht : t.length = e.numTheta) (ao : Matrix (Fin e.n) (Fin e.n) ℝ) :
    ∃ c, (readCMo s).1 = .ok c ∧ (transitionProp ao (setThetas t s).2).1 =
      .ok (momentsWith { s with params := t } c (freshCoeffs { s with params := t } c) ao) := by
  obtain ⟨r, hi, -⟩ := hs.followed hv
  refine ⟨r.orb, (cfollows_readCMo hv r).fst hi, (transition_after_thetas hv hsa hi ht ao).trans ?_⟩
  unfold momentsWith freshCoeffs CircRef.moments CircRef.coeffs
  simp only [CircRef.setThetas, if_pos ht, hi.prim]
  rfl

/-- C119 fails otherwise: after new orbital parameters, the coefficients of the states are still those of the old orbitals,
in `get_transition_property` and also in `get_oscillator_strenghts`, where the energies are those of the new ones. -/
theorem C119_stale (hv : ValidKappa e.kappaIdx) (hsa : e.sa = true) {s : CircObj e} (hs : CircHistory e s) {k : List ℝ}
    (hk : k.length = e.kappaIdx.length) (arr : Bool) (ao : Matrix (Fin e.n) (Fin e.n) ℝ) :
    let s' := (setKappa k arr (readStates s).2).2
    ∃ c c' E, (readCMo s).1 = .ok c ∧ (readCMo s').1 = .ok c' ∧ (readStates s').1 = .ok E ∧
      (transitionProp ao s').1 = .ok (momentsWith s c' (freshCoeffs s c) ao) ∧
      (oscillators s').1 = .ok (e.strengths E (momentsWith s c' (freshCoeffs s c) (e.dipole 0))
        (momentsWith s c' (freshCoeffs s c) (e.dipole 1)) (momentsWith s c' (freshCoeffs s c) (e.dipole 2))) := by
  intro s'
  obtain ⟨r, hi, -⟩ := hs.followed hv
  obtain ⟨h1, h2⟩ := transition_stale hv hsa hi hk arr ao
  obtain ⟨s1, a1, b1, -⟩ := readStates_eq hv hsa hi
  have hs' : CircInv e (r.setKappa k) s' := by
    change CircInv e (r.setKappa k) (setKappa k arr (readStates s).2).2
    rw [a1]
    exact (cfollows_setKappa hv r hk arr).snd b1
  obtain ⟨s2, a2, -⟩ := readStates_eq hv hsa hs'
  refine ⟨r.orb, (r.setKappa k).orb, (r.setKappa k).energies, (cfollows_readCMo hv r).fst hi,
    (cfollows_readCMo hv _).fst hs', by rw [a2], h1.trans ?_, h2.trans ?_⟩ <;>
  · unfold momentsWith freshCoeffs
    rw [hi.params, hi.prim]
    rfl

/-- Likewise after a change of the primitive: matrix elements are measured with the new one, the coefficients of the states
are those found with the old one. -/
theorem C119_stale_primitive (hv : ValidKappa e.kappaIdx) (hsa : e.sa = true) {s : CircObj e} (hs : CircHistory e s)
    (p : e.Prim) (ao : Matrix (Fin e.n) (Fin e.n) ℝ) :
    ∃ c, (readCMo s).1 = .ok c ∧ (transitionProp ao (changePrimitive (.sampler p) (readStates s).2).2).1 =
      .ok (momentsWith { s with prim := p } c (freshCoeffs s c) ao) := by
  obtain ⟨r, hi, -⟩ := hs.followed hv
  refine ⟨r.orb, (cfollows_readCMo hv r).fst hi, (transition_stale_primitive hv hsa hi p ao).trans ?_⟩
  unfold momentsWith freshCoeffs
  rw [hi.params, hi.prim]
  rfl

/-- C119 fails on a new object: `_state_ci_coeffs` does not exist until ansatz parameters are assigned or the energies of the
states are read, and transition properties and oscillator strengths raise `AttributeError`; orbital parameters and changes
of the primitive do not help. -/
theorem C119_fresh_disagree (ao : Matrix (Fin e.n) (Fin e.n) ℝ) {s : CircObj e} (h : s.stateC = none) :
    transitionProp ao s = (.error .attributeError, s) ∧ oscillators s = (.error .attributeError, s) ∧
    (CircObj.init e).stateC = none ∧ (∀ k arr, (setKappa k arr s).2.stateC = none) ∧
    (∀ p, (changePrimitive p s).2.stateC = none) := by
  refine ⟨transitionProp_none ao h, CircM.bind_error (transitionProp_none _ h), rfl, fun k arr => ?_, fun p => ?_⟩
  · have hr : ∀ s : CircObj e, (readCMo s).2 = s := by
      intro s
      unfold readCMo
      split_ifs
      · cases WFObj.arrSub s.kappa s.kappaOld with
        | error x => rfl
        | ok d => simp only; split_ifs <;> rfl
      · rfl
    unfold setKappa
    rw [CircM.bind_modify]
    match hm : readCMo { s with hMo := none, gMo := none, energy := none, stateE := none, kappa := k, kappaArr := arr } with
    | (.ok a, s') =>
      have := hr { s with hMo := none, gMo := none, energy := none, stateE := none, kappa := k, kappaArr := arr }
      rw [hm] at this
      rw [CircM.bind_ok hm]
      change s'.stateC = none
      rw [show s' = _ from this]
      exact h
    | (.error x, s') =>
      have := hr { s with hMo := none, gMo := none, energy := none, stateE := none, kappa := k, kappaArr := arr }
      rw [hm] at this
      rw [CircM.bind_error hm]
      change s'.stateC = none
      rw [show s' = _ from this]
      exact h
  · cases p <;> exact h

/-- C78 for circuits: a one-step optimization with orbitals cannot be repeated: the first one leaves an array as orbital parameters, and the
second one adds them to the ansatz parameters, which raises `ValueError` unless the numbers agree or one is 1. -/
theorem C78_circuit_disagree (hv : ValidKappa e.kappaIdx) {s s' : CircObj e} (hs : CircHistory e s) {name name' : String}
    {m m' : List ℝ → List WFObj.Call × List ℝ × ℝ} (hm : KeepsSize m)
    (hc : ∀ p, ∃ c ∈ (m p).1, e.sa = false ∨ ∃ p, c = .grad p)
    (h : CircObj.run1 name true m s = (.ok (), s')) (hn : e.kappaIdx.length ≠ e.numTheta) (hk : e.kappaIdx.length ≠ 1)
    (ht : 1 < e.numTheta) : CircObj.run1 name' true m' s' = (.error .valueError, s') := by
  have hi : CFollowed e s' := by
    have := ckeeps_run1 hv name true hm s (hs.followed hv)
    rwa [h] at this
  obtain ⟨r, hi, -⟩ := hi
  have harr : s'.kappaArr = true := by
    unfold CircObj.run1 at h
    rw [CircM.bind_get] at h
    by_cases h1 : e.custom = true ∧ gradientFree name = false
    · rw [if_pos h1] at h
      cases congrArg Prod.fst h
    rw [if_neg h1] at h
    by_cases h2 : name.toLower = "rotosolve" ∧ true = true ∧ s.kappa.length ≠ 0
    · rw [if_pos h2] at h
      cases congrArg Prod.fst h
    rw [if_neg h2] at h
    obtain ⟨p, s1, -, h⟩ := CircM.ok_bind h
    obtain ⟨_, s2, hmin, h⟩ := CircM.ok_bind h
    have ha : CHasArr s2 := by
      unfold minimizeCalls at hmin
      by_cases hsa : e.sa = true
      · rw [if_pos hsa, CircM.bind_modify] at hmin
        exact calls_arr (hc p) hmin
      · rw [if_neg hsa] at hmin
        exact calls_arr (hc p) hmin
    change (CircM.get >>= _) s2 = _ at h
    rw [CircM.bind_get] at h
    obtain ⟨_, s3, h3, h⟩ := CircM.ok_bind h
    obtain ⟨_, s4, h4, h⟩ := CircM.ok_bind h
    have ha3 : CHasArr s3 := by
      have := ckeepsA_setThetas ((m p).2.1.drop s2.kappa.length) s2 ha
      rwa [h3] at this
    have ha4 : CHasArr s4 := by
      obtain rfl : _ = s4 := congrArg Prod.snd h4
      exact ha3
    by_cases hsa : e.sa = true
    · rw [if_pos hsa] at h
      obtain ⟨_, s5, h5, h⟩ := CircM.ok_bind h
      have ha5 := ckeepsA_doStateCI s4 ha4
      rw [h5] at ha5
      obtain rfl : _ = s' := congrArg Prod.snd h
      exact ha5
    · rw [if_neg hsa] at h
      obtain rfl : _ = s' := congrArg Prod.snd h
      exact ha4
  have hkl : s'.kappa.length = e.kappaIdx.length := by rw [hi.kappa, hi.kappaLen]
  have htl : s'.params.length = e.numTheta := by rw [hi.params, hi.thetaLen]
  have hst : CircObj.startParams true s' = (.error .valueError, s') := by
    unfold CircObj.startParams
    rw [CircM.bind_get, if_pos rfl, if_pos (by omega), harr]
    have : WFObj.joinParams true s'.kappa s'.params = .error .valueError := by
      unfold WFObj.joinParams
      rw [if_pos rfl]
      unfold WFObj.arrSub
      rw [if_neg (by rw [List.length_map]; omega)]
      split
      · rename_i heq
        split at heq
        · rename_i x hx
          rw [hx] at hkl
          exact absurd hkl.symm hk
        · rename_i hx _
          have := congrArg List.length hx
          rw [List.length_map, htl] at this
          simp at this
          omega
        · cases heq
      · rename_i heq
        split at heq <;> cases heq
        rfl
    rw [this]
    rfl
  unfold CircObj.run1
  rw [CircM.bind_get]
  by_cases h1 : e.custom = true ∧ gradientFree name' = false
  · rw [if_pos h1]
    rfl
  rw [if_neg h1]
  by_cases h2 : name'.toLower = "rotosolve" ∧ true = true ∧ s'.kappa.length ≠ 0
  · rw [if_pos h2]
    rfl
  · rw [if_neg h2]
    exact CircM.bind_error hst

/-! ### Concrete cases -/

/-- Two orbitals and one rotation; the coefficients of the states are taken to be the first diagonal element of the
integrals, and a transition property to be the coefficient. -/
noncomputable def twoStates (sa : Bool) : CircEnv where
  sa := sa
  custom := false
  n := 2
  kappaIdx := [(0, 1)]
  numTheta := 2
  hAo := Matrix.diagonal ![1, 2]
  gAo := fun _ _ _ _ => 0
  mo := 1
  Prim := ℝ
  prim := 0
  D1 := List ℝ
  D2 := List ℝ
  D3 := List ℝ
  D4 := List ℝ
  En := ℝ
  Co := ℝ
  Tr := ℝ
  Os := ℝ
  mkRdm1 := fun p t => p :: t
  mkRdm2 := fun _ t d => d ++ t
  mkRdm3 := fun _ _ d d' => d ++ d'
  mkRdm4 := fun _ _ d d' d'' => d ++ d' ++ d''
  energy := fun p t h _ => p + t.sum + 2 * h 0 0
  energyRdm := fun h _ d _ => d.sum + 2 * h 0 0
  gradKappa := fun h _ _ _ => [-4 * h 0 1]
  gradTheta := fun _ _ _ _ => [1, 1]
  stateE := fun p t h _ => p + t.sum + h 0 0
  stateC := fun p _ h _ => p + h 0 0
  transition := fun _ _ c _ => c
  strengths := fun x a b c => x * (a + b + c)
  dipole := fun _ => 1

theorem twoStates_valid (sa : Bool) : ValidKappa (twoStates sa).kappaIdx := ⟨List.nodup_singleton _, fun x hx => by
  have : x = ((0 : Fin 2), (1 : Fin 2)) := List.mem_singleton.1 hx
  subst this
  exact (by decide : (0 : Fin 2) < 1)⟩

theorem twoStates_rot (sa : Bool) : ((CircRef.start (twoStates sa)).setKappa [Real.pi / 2]).h (0 : Fin 2) (0 : Fin 2) = 2 ∧
    (CircRef.start (twoStates sa)).h (0 : Fin 2) (0 : Fin 2) = 1 := by
  have h1 : oneTransform ((1 : Matrix (Fin 2) (Fin 2) ℝ) * NormedSpace.exp (-rotGen [(0, 1)] [Real.pi / 2 - 0]))
      (Matrix.diagonal ![1, 2]) 0 0 = 2 := by
    rw [exp_rotGen_two]
    simp [oneTransform, Fin.sum_univ_two]
  have h2 : oneTransform (1 : Matrix (Fin 2) (Fin 2) ℝ) (Matrix.diagonal ![1, 2]) 0 0 = 1 := by
    simp [oneTransform, Fin.sum_univ_two]
  exact ⟨h1, h2⟩

/-- C119 fails: reading the energies of the states, assigning orbital parameters and asking for a transition property and for
oscillator strengths gives other numbers than asking after the energies were read again. -/
theorem C119_stale_disagree :
    let s := (setKappa [Real.pi / 2] false (readStates (CircObj.init (twoStates true))).2).2
    (transitionProp (e := twoStates true) 1 s).1 = .ok (1 : ℝ) ∧
    (transitionProp (e := twoStates true) 1 (readStates s).2).1 = .ok (2 : ℝ) ∧
    (oscillators s).1 = .ok (6 : ℝ) ∧ (oscillators (oscillators s).2).1 = .ok (12 : ℝ) := by
  intro s
  have hv := twoStates_valid true
  have hi : CircInv (twoStates true) _ _ := circ_inv_init
  obtain ⟨g1, g2⟩ := transition_stale (e := twoStates true) hv rfl hi (k := [Real.pi / 2]) rfl false 1
  obtain ⟨h1, h2⟩ := twoStates_rot true
  obtain ⟨s1, a1, b1, c1, d1⟩ := readStates_eq hv rfl hi
  have hs : CircInv (twoStates true) ((CircRef.start (twoStates true)).setKappa [Real.pi / 2]) s := by
    change CircInv _ _ (setKappa [Real.pi / 2] false (readStates (CircObj.init (twoStates true))).2).2
    rw [a1]
    exact (cfollows_setKappa hv _ rfl false).snd b1
  have hd : s.stateC = some (some (CircRef.start (twoStates true)).coeffs) := by
    change (setKappa [Real.pi / 2] false (readStates (CircObj.init (twoStates true))).2).2.stateC = _
    rw [a1]
    simp only
    rw [circ_setKappa_eq hv b1 rfl false]
    exact d1
  have e1 : (CircRef.start (twoStates true)).coeffs = (1 : ℝ) := by
    change (0 : ℝ) + (CircRef.start (twoStates true)).h (0 : Fin 2) (0 : Fin 2) = 1
    rw [h2]; norm_num
  have e2 : ((CircRef.start (twoStates true)).setKappa [Real.pi / 2]).coeffs = (2 : ℝ) := by
    change (0 : ℝ) + ((CircRef.start (twoStates true)).setKappa [Real.pi / 2]).h (0 : Fin 2) (0 : Fin 2) = 2
    rw [h1]; norm_num
  have e3 : ((CircRef.start (twoStates true)).setKappa [Real.pi / 2]).energies = (2 : ℝ) := by
    change (0 : ℝ) + (List.replicate 2 (0 : ℝ)).sum +
      ((CircRef.start (twoStates true)).setKappa [Real.pi / 2]).h (0 : Fin 2) (0 : Fin 2) = 2
    rw [h1]; norm_num
  obtain ⟨t1, -⟩ := transition_after_states hv rfl hs 1
  refine ⟨?_, ?_, ?_, ?_⟩
  · rw [g1]
    exact congrArg Except.ok e1
  · rw [t1]
    exact congrArg Except.ok e2
  · rw [g2]
    exact congrArg Except.ok ((congrArg₂ (fun x y : ℝ => x * (y + y + y)) e3 e1).trans (by norm_num))
  · -- the first call leaves the state after reading the energies
    have T : ∀ ao, transitionProp ao s = (.ok (((CircRef.start (twoStates true)).setKappa [Real.pi / 2]).moments
        (CircRef.start (twoStates true)).coeffs ao), s) := by
      intro ao
      obtain ⟨s2, a2, -, -, d2⟩ := transitionProp_eq hv rfl hs ao hd
      rw [a2, d2 (by simp)]
      rfl
    have hO : (oscillators s).2 = (readStates s).2 := by
      unfold oscillators
      rw [CircM.bind_ok (T _), CircM.bind_ok (T _), CircM.bind_ok (T _)]
      obtain ⟨s3, a3, -⟩ := readStates_eq hv rfl hs
      rw [CircM.bind_ok a3, a3]
      rfl
    rw [hO, (transition_after_states hv rfl hs 1).2]
    exact congrArg Except.ok ((congrArg₂ (fun x y : ℝ => x * (y + y + y)) e3 e2).trans (by norm_num))

/-- A history with refused parameters, a new primitive and reads in between: the energy is that of the last parameters. -/
example : (readEnergy ((CircOp.setThetas (e := twoStates false) [5]).run ((CircOp.setKappa [Real.pi / 2] false).run
    (CircOp.energy.run ((CircOp.primitive (.sampler (7 : ℝ))).run ((CircOp.setThetas [1, 2]).run
      (CircOp.energy.run (CircObj.init (twoStates false))))))))).1 = .ok 14 := by
  have h := (C118_reads (e := twoStates false) (twoStates_valid false)
    (ops := [.energy, .setThetas [1, 2], .primitive (.sampler (7 : ℝ)), .energy, .setKappa [Real.pi / 2] false, .setThetas [5]])
    (by intro op hop; simp only [List.mem_cons, List.not_mem_nil, or_false] at hop
        rcases hop with rfl | rfl | rfl | rfl | rfl | rfl <;> first | trivial | rfl)).2.2.2.2.2.1
  refine h.trans (congrArg Except.ok ?_)
  change (7 : ℝ) + ([1, 2] : List ℝ).sum + 2 * ((CircRef.start (twoStates false)).setKappa [Real.pi / 2]).h (0 : Fin 2) (0 : Fin 2) = 14
  rw [(twoStates_rot false).1]
  norm_num

/-- An optimization with orbitals of a new object succeeds with a minimizer that asks for one gradient and returns its
start; so `C78_circuit_disagree` applies to it for suitable numbers of parameters. -/
example (hv : ValidKappa e.kappaIdx) (hsa : e.sa = false) (hc : e.custom = false) (ht : 0 < e.numTheta) :
    ∃ s', CircObj.run1 "bfgs" true (fun p => ([.grad p], p, 3)) (CircObj.init e) = (.ok (), s') := by
  have hlow : "bfgs".toLower ≠ "rotosolve" := by
    intro h
    have := congrArg String.toList h
    simp [String.toLower, String.toList_map] at this
  set p := List.replicate e.kappaIdx.length (0 : ℝ) ++ List.replicate e.numTheta 0 with hp
  have hst : CircObj.startParams true (CircObj.init e) = (.ok p, CircObj.init e) := by
    unfold CircObj.startParams
    rw [CircM.bind_get, if_pos rfl, if_pos (by simpa [CircObj.init] using ht)]
    rfl
  set r1 := ((CircRef.start e).setKappa (p.take e.kappaIdx.length)).setThetas (p.drop e.kappaIdx.length)
  have hk : (p.take e.kappaIdx.length).length = e.kappaIdx.length := by simp [hp]
  have hth : (p.drop e.kappaIdx.length).length = e.numTheta := by simp [hp]
  have hset : CFollows (CircRef.start e) (CircObj.setParams p true true) r1 () :=
    (cfollows_setKappa hv _ hk true).bind (cfollows_setThetas _ hth)
  obtain ⟨s1, a1, b1⟩ := hset _ circ_inv_init
  have hgrad : ∃ v s2, gradCall p true true (CircObj.init e) = (.ok v, s2) ∧ CircInv e r1 s2 := by
    unfold gradCall
    rw [CircM.bind_ok a1]
    obtain ⟨t1, x1, y1⟩ := cfollows_readH hv r1 s1 b1
    obtain ⟨t2, x2, y2⟩ := cfollows_readG hv r1 t1 y1
    obtain ⟨t3, x3, y3⟩ := cfollows_readRdm1 r1 t2 y2
    obtain ⟨t4, x4, y4⟩ := cfollows_readRdm2 r1 t3 y3
    obtain ⟨t5, x5, y5⟩ := cfollows_readH hv r1 t4 y4
    obtain ⟨t6, x6, y6⟩ := cfollows_readG hv r1 t5 y5
    refine ⟨e.gradKappa r1.h r1.g r1.d1 r1.d2 ++ e.gradTheta t6.prim t6.params r1.h r1.g, t6, ?_, y6⟩
    refine (CircM.bind_ok x1).trans ((CircM.bind_ok x2).trans ((CircM.bind_ok x3).trans ((CircM.bind_ok x4).trans
      ((CircM.bind_ok x5).trans ((CircM.bind_ok x6).trans ?_)))))
    rfl
  obtain ⟨v, s2, a2, b2⟩ := hgrad
  have hmin : minimizeCalls (e := e) p.length true true [.grad p] (CircObj.init e) = (.ok (), s2) := by
    unfold minimizeCalls
    rw [if_neg (by simp [hsa])]
    have : doCall (e := e) true true (.grad p) (CircObj.init e) = (.ok (), s2) := CircM.bind_ok a2
    exact CircM.bind_ok this
  have hth2 : (p.drop s2.kappa.length).length = e.numTheta := by rw [b2.kappa, b2.kappaLen]; exact hth
  obtain ⟨s3, a3, -⟩ := cfollows_setThetas r1 hth2 s2 b2
  unfold CircObj.run1
  rw [CircM.bind_get, if_neg (by simp [hc]), if_neg (fun h => hlow h.1), CircM.bind_ok hst]
  have h0 : (!true || decide ((CircObj.init e).params.length > 0)) = true := by simp [CircObj.init, ht]
  simp only [h0]
  rw [CircM.bind_ok hmin]
  change ∃ s', (CircM.get >>= _) s2 = (Except.ok (), s')
  rw [CircM.bind_get, CircM.bind_ok a3]
  simp only [hsa, Bool.false_eq_true, if_false]
  exact ⟨_, rfl⟩

end SQ
