import Verif.Lemmas.CircuitCache
import Verif.Lemmas.WaveFunctionRun

/-! # Lemmas: what optimizations of circuit wave functions keep -/

namespace SQ

open CircObj

variable {e : CircEnv} {α β : Type}

theorem CircM.ok_bind {m : CircM e α} {f : α → CircM e β} {s s' : CircObj e} {b : β} (h : (m >>= f) s = (.ok b, s')) :
    ∃ a s1, m s = (.ok a, s1) ∧ f a s1 = (.ok b, s') := by
  change CircM.bind m f s = _ at h
  unfold CircM.bind at h
  match hm : m s with
  | (.ok a, s1) => rw [hm] at h; exact ⟨a, s1, rfl, h⟩
  | (.error x, s1) => rw [hm] at h; cases h

section

variable (hv : ValidKappa e.kappaIdx)

include hv

theorem ckeeps_readH : CKeeps (CFollowed e) (readH (e := e)) := ckeeps_of fun r => cfollows_readH hv r
theorem ckeeps_readG : CKeeps (CFollowed e) (readG (e := e)) := ckeeps_of fun r => cfollows_readG hv r
theorem ckeeps_doStateCI : CKeeps (CFollowed e) (doStateCI (e := e)) := ckeeps_of fun r => cfollows_doStateCI hv r

theorem ckeeps_setParams {p : List ℝ} {theta kappa : Bool} (hp : kappa = true → e.kappaIdx.length ≤ p.length) :
    CKeeps (CFollowed e) (CircObj.setParams p theta kappa) := by
  cases kappa with
  | false =>
    cases theta with
    | false => exact CKeeps.pure ()
    | true => exact ckeeps_setThetas _
  | true =>
    have h1 : CKeeps (CFollowed e) (CircObj.setKappa (p.take e.kappaIdx.length) true) :=
      ckeeps_of (fun r => cfollows_setKappa hv r (by have := hp rfl; simp; omega) true) fun _ h => h.rotate _ _
    cases theta with
    | false => exact h1.bind fun _ => CKeeps.pure ()
    | true => exact h1.bind fun _ => ckeeps_setThetas _

theorem ckeeps_callbackEnergy (theta : Bool) : CKeeps (CFollowed e) (callbackEnergy (e := e) theta) := by
  unfold callbackEnergy
  split_ifs
  · exact (ckeeps_readH hv).bind fun _ => (ckeeps_readG hv).bind fun _ => CKeeps.get fun s hs => hs
  · exact (ckeeps_readH hv).bind fun _ => (ckeeps_readG hv).bind fun _ =>
      CKeeps.bind (ckeeps_of fun r => cfollows_readRdm1 r) fun _ =>
      CKeeps.bind (ckeeps_of fun r => cfollows_readRdm2 r) fun _ => CKeeps.pure _

omit hv in
theorem ckeeps_memory (p : List ℝ) (E : ℝ) :
    CKeeps (CFollowed e) (CircM.modify fun s => { s with eOptOld := E, oldParams := p }) := by
  rintro s ⟨r, hs, ho⟩
  exact ⟨r, { hs with }, ho⟩

theorem ckeeps_energyCall {p : List ℝ} {theta kappa : Bool} (hp : kappa = true → e.kappaIdx.length ≤ p.length) :
    CKeeps (CFollowed e) (energyCall p theta kappa) := by
  unfold energyCall
  by_cases hsa : e.sa = true
  · rw [if_pos hsa]
    refine CKeeps.get fun s hs => ?_
    cases WFObj.arrSub s.oldParams p with
    | error x => exact hs
    | ok d =>
      simp only
      split_ifs
      · exact hs
      · exact hs
      · refine CKeeps.bind (ckeeps_setParams hv hp) (fun _ => (ckeeps_callbackEnergy hv theta).bind fun E => ?_) s hs
        exact (ckeeps_memory p E).bind fun _ => CKeeps.pure _
  · rw [if_neg hsa]
    exact (ckeeps_setParams hv hp).bind fun _ => ckeeps_callbackEnergy hv theta

theorem ckeeps_gradCall {p : List ℝ} {theta kappa : Bool} (hp : kappa = true → e.kappaIdx.length ≤ p.length) :
    CKeeps (CFollowed e) (gradCall p theta kappa) := by
  unfold gradCall
  refine (ckeeps_setParams hv hp).bind fun _ => ?_
  have hk : ∀ {f : List ℝ → CircM e (List ℝ)}, (∀ x, CKeeps (CFollowed e) (f x)) → CKeeps (CFollowed e) (do
        let h ← readH
        let g ← readG
        let d1 ← readRdm1
        let d2 ← readRdm2
        let gk ← pure (e.gradKappa h g d1 d2)
        f gk) := fun h =>
    (ckeeps_readH hv).bind fun _ => (ckeeps_readG hv).bind fun _ =>
      CKeeps.bind (ckeeps_of fun r => cfollows_readRdm1 r) fun _ =>
      CKeeps.bind (ckeeps_of fun r => cfollows_readRdm2 r) fun _ => (CKeeps.pure _).bind h
  have ht : ∀ {f : List ℝ → CircM e (List ℝ)}, (∀ x, CKeeps (CFollowed e) (f x)) → CKeeps (CFollowed e) (do
        let h ← readH
        let g ← readG
        let s ← CircM.get
        let gt ← pure (e.gradTheta s.prim s.params h g)
        f gt) := fun h =>
    (ckeeps_readH hv).bind fun _ => (ckeeps_readG hv).bind fun _ => CKeeps.get fun s hs => (CKeeps.pure _).bind h s hs
  cases kappa with
  | false =>
    cases theta with
    | false => exact (CKeeps.pure []).bind fun _ => (CKeeps.pure []).bind fun _ => CKeeps.pure _
    | true => exact (CKeeps.pure []).bind fun _ => ht fun _ => CKeeps.pure _
  | true =>
    cases theta with
    | false => exact hk fun _ => (CKeeps.pure []).bind fun _ => CKeeps.pure _
    | true => exact hk fun _ => ht fun _ => CKeeps.pure _

theorem ckeeps_calls {theta kappa : Bool} : ∀ {calls : List WFObj.Call},
    (kappa = true → ∀ c ∈ calls, e.kappaIdx.length ≤ c.params.length) →
    CKeeps (CFollowed e) (calls.forM (doCall (e := e) theta kappa)) := by
  intro calls
  induction calls with
  | nil => intro _; exact CKeeps.pure ()
  | cons c calls ih =>
    intro hp
    refine CKeeps.bind ?_ fun _ => ih fun hk c hc => hp hk c (List.mem_cons_of_mem _ hc)
    cases c with
    | energy p => exact (ckeeps_energyCall hv fun hk => hp hk (.energy p) (by simp)).bind fun _ => CKeeps.pure ()
    | grad p => exact (ckeeps_gradCall hv fun hk => hp hk (.grad p) (by simp)).bind fun _ => CKeeps.pure ()

theorem ckeeps_minimizeCalls {size : ℕ} {theta kappa : Bool} {calls : List WFObj.Call}
    (hp : kappa = true → ∀ c ∈ calls, e.kappaIdx.length ≤ c.params.length) :
    CKeeps (CFollowed e) (minimizeCalls (e := e) size theta kappa calls) := by
  unfold minimizeCalls
  by_cases hsa : e.sa = true
  · rw [if_pos hsa]
    exact (ckeeps_memory _ _).bind fun _ => ckeeps_calls hv hp
  · rw [if_neg hsa]
    exact ckeeps_calls hv hp

omit hv in
theorem ckeeps_resetKappa : CKeeps (CFollowed e) (resetKappa (e := e)) := by
  rintro s ⟨r, hs, ho⟩
  exact ⟨{ r with kappa := List.replicate r.kappa.length 0 }, { hs with
    kappa := congrArg (fun k : List ℝ => List.replicate k.length (0 : ℝ)) hs.kappa
    kappaOld := congrArg (fun k : List ℝ => List.replicate k.length (0 : ℝ)) hs.kappa
    kappaLen := by rw [List.length_replicate]; exact hs.kappaLen }, ho⟩

omit hv in
theorem ckeeps_report (E : ℝ) : CKeeps (CFollowed e) (CircM.modify fun s => { s with energy := some E }) := by
  rintro s ⟨r, hs, ho⟩
  exact ⟨{ r with reported := some E }, { hs with
    energy := fun _ h => (Option.some.inj h).symm
    reported := fun _ h => h }, ho⟩

theorem ckeeps_finish (E : ℝ) : CKeeps (CFollowed e) (do
    if e.sa then doStateCI
    CircM.modify fun s => { s with energy := some E } : CircM e Unit) := by
  split_ifs with hsa
  · exact (ckeeps_doStateCI hv).bind fun _ => ckeeps_report E
  · exact ckeeps_report E

/-- The orbital minimizer of a round calls with as many parameters as it was given. -/
def CircFits (e : CircEnv) (r : WFObj.Round) : Prop := ∀ c ∈ r.kappaCalls, c.params.length = e.kappaIdx.length

theorem ckeeps_rounds (oo : Bool) (tol : ℝ) : ∀ (rs : List WFObj.Round) (eOld : ℝ) (eNew : Option ℝ), (∀ r ∈ rs, CircFits e r) →
    CKeeps (CFollowed e) (rounds (e := e) oo tol rs eOld eNew) := by
  intro rs
  induction rs with
  | nil => intro _ eNew _; exact CKeeps.pure eNew
  | cons r rs ih =>
    intro eOld eNew hf
    unfold rounds
    refine CKeeps.bind (ckeeps_minimizeCalls hv fun h => by cases h) fun _ => CKeeps.bind (ckeeps_setThetas _) fun _ =>
      CKeeps.get fun s hs => ?_
    by_cases h : oo = true ∧ s.kappa.length ≠ 0
    · rw [if_pos h]
      refine CKeeps.bind (ckeeps_minimizeCalls hv fun _ c hc => (hf r (by simp) c hc).ge)
        (fun _ => CKeeps.bind ckeeps_resetKappa fun _ => ?_) s hs
      split_ifs
      · exact CKeeps.pure _
      · exact ih _ _ fun r hr => hf r (List.mem_cons_of_mem _ hr)
    · rw [if_neg h]
      exact hs

theorem ckeeps_run2 (name : String) (oo : Bool) (tol : ℝ) {rs : List WFObj.Round} (hf : ∀ r ∈ rs, CircFits e r) :
    CKeeps (CFollowed e) (CircObj.run2 (e := e) name oo tol rs) := by
  unfold CircObj.run2
  by_cases hc : e.custom = true ∧ gradientFree name = false
  · rw [if_pos hc]
    exact CKeeps.raise _
  · rw [if_neg hc]
    refine (ckeeps_rounds hv oo tol rs _ _ hf).bind fun o => ?_
    cases o with
    | none => exact CKeeps.raise _
    | some E => exact ckeeps_finish hv E

omit hv in
theorem circ_startParams_cases {oo : Bool} {s : CircObj e} :
    (∃ x, CircObj.startParams oo s = (.error x, s)) ∨
      ∃ p, CircObj.startParams oo s = (.ok p, s) ∧ (oo = true → s.kappa.length ≤ p.length) := by
  unfold CircObj.startParams
  rw [CircM.bind_get]
  cases oo with
  | false => exact Or.inr ⟨s.params, rfl, fun h => by cases h⟩
  | true =>
    rw [if_pos rfl]
    split_ifs with ht
    · unfold WFObj.joinParams
      cases s.kappaArr with
      | false => exact Or.inr ⟨s.kappa ++ s.params, rfl, fun _ => by simp⟩
      | true =>
        rw [if_pos rfl]
        cases hd : WFObj.arrSub s.kappa (s.params.map (- ·)) with
        | error x => exact Or.inl ⟨x, rfl⟩
        | ok d => exact Or.inr ⟨d, rfl, fun _ => (arrSub_length (by simpa using ht) hd).1⟩
    · exact Or.inr ⟨s.kappa, rfl, fun _ => le_rfl⟩

theorem ckeeps_run1 (name : String) (oo : Bool) {m : List ℝ → List WFObj.Call × List ℝ × ℝ} (hm : KeepsSize m) :
    CKeeps (CFollowed e) (CircObj.run1 (e := e) name oo m) := by
  unfold CircObj.run1
  refine CKeeps.get fun s hs => ?_
  by_cases h1 : e.custom = true ∧ gradientFree name = false
  · rw [if_pos h1]
    exact hs
  rw [if_neg h1]
  by_cases h2 : name.toLower = "rotosolve" ∧ oo = true ∧ s.kappa.length ≠ 0
  · rw [if_pos h2]
    exact hs
  · rw [if_neg h2]
    obtain ⟨r, hr, ho⟩ := hs
    rcases circ_startParams_cases (oo := oo) (s := s) with ⟨x, hx⟩ | ⟨p, hx, hl⟩
    · rw [CircM.bind_error hx]
      exact ⟨r, hr, ho⟩
    · rw [CircM.bind_ok hx]
      refine CKeeps.bind (ckeeps_minimizeCalls hv fun h c hc => ?_) (fun _ => ?_) s ⟨r, hr, ho⟩
      · rw [hm p c hc, ← hr.kappaLen, ← hr.kappa]
        exact hl h
      · cases oo with
        | true =>
          exact CKeeps.get fun s hs => ((ckeeps_setThetas _).bind fun _ => ckeeps_resetKappa.bind fun _ => ckeeps_finish hv _) s hs
        | false => exact (ckeeps_setThetas _).bind fun _ => ckeeps_finish hv _

end

/-! ### Orbital parameters stay an array -/

def CHasArr (s : CircObj e) : Prop := s.kappaArr = true

theorem ckeepsA_readCMo : CKeeps (e := e) CHasArr readCMo := by
  intro s hs
  unfold readCMo
  split_ifs
  · cases WFObj.arrSub s.kappa s.kappaOld with
    | error x => exact hs
    | ok d => simp only; split_ifs <;> exact hs
  · exact hs

theorem ckeepsA_readH : CKeeps (e := e) CHasArr readH := by
  unfold readH
  refine CKeeps.get fun s hs => ?_
  cases s.hMo with
  | some g => exact hs
  | none => exact (ckeepsA_readCMo.bind fun c => CKeeps.bind (fun s h => h) fun _ => CKeeps.pure _) s hs

theorem ckeepsA_readG : CKeeps (e := e) CHasArr readG := by
  unfold readG
  refine CKeeps.get fun s hs => ?_
  cases s.gMo with
  | some g => exact hs
  | none => exact (ckeepsA_readCMo.bind fun c => CKeeps.bind (fun s h => h) fun _ => CKeeps.pure _) s hs

theorem ckeepsA_readRdm1 : CKeeps (e := e) CHasArr readRdm1 := by
  unfold readRdm1
  refine CKeeps.get fun s hs => ?_
  cases s.rdm1 <;> exact hs

theorem ckeepsA_readRdm2 : CKeeps (e := e) CHasArr readRdm2 := by
  unfold readRdm2
  refine CKeeps.get fun s hs => ?_
  cases s.rdm2 with
  | some g => exact hs
  | none => exact (ckeepsA_readRdm1.bind fun c => CKeeps.bind (fun s h => h) fun _ => CKeeps.pure _) s hs

theorem ckeepsA_setThetas (t : List ℝ) : CKeeps (e := e) CHasArr (setThetas t) := by
  unfold setThetas
  refine CKeeps.bind (fun s h => h) fun _ => ?_
  split_ifs
  · exact CKeeps.raise _
  · exact fun s h => h

theorem setKappa_arr (k : List ℝ) (s : CircObj e) : CHasArr (setKappa k true s).2 := by
  unfold setKappa
  rw [CircM.bind_modify]
  exact (ckeepsA_readCMo.bind fun c s h => h) _ rfl

theorem setParams_arr (p : List ℝ) (theta : Bool) (s : CircObj e) : CHasArr (CircObj.setParams p theta true s).2 := by
  have h := setKappa_arr (p.take e.kappaIdx.length) s
  have h2 : CKeeps (e := e) CHasArr (if theta then setThetas (p.drop e.kappaIdx.length) else pure ()) := by
    split_ifs
    · exact ckeepsA_setThetas _
    · exact CKeeps.pure _
  change CHasArr ((setKappa (p.take e.kappaIdx.length) true >>= fun _ =>
    if theta then setThetas (p.drop e.kappaIdx.length) else pure ()) s).2
  match hm : setKappa (p.take e.kappaIdx.length) true s with
  | (.ok a, s') => rw [hm] at h; rw [CircM.bind_ok hm]; exact h2 s' h
  | (.error x, s') => rw [hm] at h; rw [CircM.bind_error hm]; exact h

theorem ckeepsA_setParams (p : List ℝ) (theta : Bool) : CKeeps (e := e) CHasArr (CircObj.setParams p theta true) :=
  fun s _ => setParams_arr p theta s

theorem ckeepsA_callbackEnergy (theta : Bool) : CKeeps (e := e) CHasArr (callbackEnergy theta) := by
  unfold callbackEnergy
  split_ifs
  · exact ckeepsA_readH.bind fun _ => ckeepsA_readG.bind fun _ => CKeeps.get fun s hs => hs
  · exact ckeepsA_readH.bind fun _ => ckeepsA_readG.bind fun _ => ckeepsA_readRdm1.bind fun _ => ckeepsA_readRdm2.bind fun _ =>
      CKeeps.pure _

theorem ckeepsA_gradRest (theta : Bool) : CKeeps (e := e) CHasArr (do
    let gk ← if true then do
        let h ← readH
        let g ← readG
        let d1 ← readRdm1
        let d2 ← readRdm2
        pure (e.gradKappa h g d1 d2)
      else pure []
    let gt ← if theta then do
        let h ← readH
        let g ← readG
        let s ← CircM.get
        pure (e.gradTheta s.prim s.params h g)
      else pure []
    return gk ++ gt : CircM e (List ℝ)) := by
  cases theta with
  | false =>
    exact ckeepsA_readH.bind fun _ => ckeepsA_readG.bind fun _ => ckeepsA_readRdm1.bind fun _ => ckeepsA_readRdm2.bind fun _ =>
      (CKeeps.pure _).bind fun _ => (CKeeps.pure _).bind fun _ => CKeeps.pure _
  | true =>
    exact ckeepsA_readH.bind fun _ => ckeepsA_readG.bind fun _ => ckeepsA_readRdm1.bind fun _ => ckeepsA_readRdm2.bind fun _ =>
      (CKeeps.pure _).bind fun _ => ckeepsA_readH.bind fun _ => ckeepsA_readG.bind fun _ =>
      CKeeps.get fun s hs => hs

/-- A call of an orbital minimizer leaves the orbital parameters an array, unless a remembered energy was returned. -/
theorem doCall_arr {theta : Bool} {c : WFObj.Call} {s : CircObj e} (h : e.sa = false ∨ ∃ p, c = .grad p) :
    CHasArr (doCall (e := e) theta true c s).2 := by
  have sets : ∀ {α : Type} {p : List ℝ} {f : Unit → CircM e α}, (∀ a, CKeeps (e := e) CHasArr (f a)) →
      CHasArr ((CircObj.setParams p theta true >>= f) s).2 := by
    intro α p f hf
    have h := setParams_arr p theta s
    match hm : CircObj.setParams p theta true s with
    | (.ok a, s') => rw [hm] at h; rw [CircM.bind_ok hm]; exact hf a s' h
    | (.error x, s') => rw [hm] at h; rw [CircM.bind_error hm]; exact h
  have post : ∀ {α : Type} {m : CircM e α}, CHasArr (m s).2 → CHasArr ((do let _ ← m : CircM e Unit) s).2 := by
    intro α m h
    match hm : m s with
    | (.ok a, s') => rw [hm] at h; rw [CircM.bind_ok hm]; exact h
    | (.error x, s') => rw [hm] at h; rw [CircM.bind_error hm]; exact h
  cases c with
  | energy p =>
    have hsa : e.sa = false := by
      rcases h with h | ⟨p, h⟩
      · exact h
      · cases h
    refine post ?_
    unfold energyCall
    rw [if_neg (by simp [hsa])]
    exact sets fun _ => ckeepsA_callbackEnergy theta
  | grad p =>
    refine post ?_
    unfold gradCall
    exact sets fun _ => ckeepsA_gradRest theta

theorem ckeepsA_doCall (theta : Bool) (c : WFObj.Call) : CKeeps (e := e) CHasArr (doCall theta true c) := by
  by_cases h : e.sa = false ∨ ∃ p, c = .grad p
  · exact fun s _ => doCall_arr h
  · push Not at h
    cases c with
    | grad p => exact absurd rfl (h.2 p)
    | energy p =>
      refine CKeeps.bind ?_ fun _ => CKeeps.pure ()
      unfold energyCall
      rw [if_pos (by simpa using h.1)]
      refine CKeeps.get fun s hs => ?_
      cases WFObj.arrSub s.oldParams p with
      | error x => exact hs
      | ok d =>
        simp only
        split_ifs
        · exact hs
        · exact hs
        · exact ((ckeepsA_setParams p theta).bind fun _ => (ckeepsA_callbackEnergy theta).bind fun E =>
            CKeeps.bind (fun s h => h) fun _ => CKeeps.pure _) s hs

theorem ckeepsA_calls (theta : Bool) : ∀ calls : List WFObj.Call, CKeeps (e := e) CHasArr (calls.forM (doCall theta true)) := by
  intro calls
  induction calls with
  | nil => exact CKeeps.pure ()
  | cons c calls ih => exact (ckeepsA_doCall theta c).bind fun _ => ih

theorem calls_arr {theta : Bool} : ∀ {calls : List WFObj.Call} {s s' : CircObj e},
    (∃ c ∈ calls, e.sa = false ∨ ∃ p, c = .grad p) → calls.forM (doCall (e := e) theta true) s = (.ok (), s') → CHasArr s' := by
  intro calls
  induction calls with
  | nil => rintro s s' ⟨c, hc, -⟩; simp at hc
  | cons c calls ih =>
    rintro s s' ⟨c', hc', h⟩ hr
    obtain ⟨_, s1, h1, h2⟩ := CircM.ok_bind hr
    rcases List.mem_cons.1 hc' with rfl | hc'
    · have ha := doCall_arr (theta := theta) (s := s) h
      rw [h1] at ha
      have := ckeepsA_calls theta calls s1 ha
      change calls.forM (doCall (e := e) theta true) s1 = _ at h2
      rw [h2] at this
      exact this
    · exact ih ⟨c', hc', h⟩ h2

theorem ckeepsA_doStateCI : CKeeps (e := e) CHasArr doStateCI :=
  ckeepsA_readH.bind fun _ => ckeepsA_readG.bind fun _ _ h => h

end SQ
