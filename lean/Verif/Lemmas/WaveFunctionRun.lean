import Verif.Lemmas.WaveFunctionOpt

/-! # Lemmas: what optimizations keep -/

namespace SQ

open WFObj

variable {e : WFEnv} {α β : Type}

/-- The state after the method, whether it returns or raises, has the property again. -/
def WFKeeps (P : WFObj e → Prop) (m : WFM e α) : Prop := ∀ s, P s → P (m s).2

theorem WFKeeps.bind {P : WFObj e → Prop} {m : WFM e α} {f : α → WFM e β} (h1 : WFKeeps P m) (h2 : ∀ a, WFKeeps P (f a)) :
    WFKeeps P (m >>= f) := by
  intro s hs
  have h := h1 s hs
  change P (WFM.bind m f s).2
  unfold WFM.bind
  match hm : m s with
  | (.ok a, s') => rw [hm] at h; exact h2 a s' h
  | (.error x, s') => rw [hm] at h; exact h

theorem WFKeeps.get {P : WFObj e → Prop} {f : WFObj e → WFM e β} (h : ∀ s, P s → P (f s s).2) : WFKeeps P (WFM.get >>= f) := by
  intro s hs
  rw [WFM.bind_get]
  exact h s hs

theorem WFKeeps.pure {P : WFObj e → Prop} (a : α) : WFKeeps P (pure a : WFM e α) := fun _ hs => hs

theorem WFKeeps.raise {P : WFObj e → Prop} (x : PyErr) : WFKeeps P (WFM.raise x : WFM e α) := fun _ hs => hs

/-- The state follows some reference. -/
def Followed (e : WFEnv) (s : WFObj e) : Prop := ∃ r, WFInv e r s

theorem keeps_of_follows {m : WFM e α} {f : WFRef e.n → WFRef e.n} {v : WFRef e.n → α} (h : ∀ r, Follows r m (f r) (v r)) :
    WFKeeps (Followed e) m := by
  rintro s ⟨r, hs⟩
  obtain ⟨s', h1, h2, -⟩ := h r s hs
  rw [h1]
  exact ⟨_, h2⟩

theorem keeps_setThetas (t : List ℝ) : WFKeeps (Followed e) (setThetas t) := by
  by_cases ht : t.length = e.numTheta
  · exact keeps_of_follows fun r => follows_setThetas r ht
  · rintro s ⟨r, hs⟩
    rw [setThetas_wrong r ht s hs]
    exact ⟨r, hs⟩

theorem keeps_setKappa (hv : ValidKappa e.kappaIdx) {k : List ℝ} (hk : k.length = e.kappaIdx.length) (arr : Bool) :
    WFKeeps (Followed e) (setKappa k arr) := keeps_of_follows fun r => follows_setKappa hv r hk arr

theorem keeps_setParams (hv : ValidKappa e.kappaIdx) {p : List ℝ} {theta kappa : Bool}
    (hp : kappa = true → e.kappaIdx.length ≤ p.length) : WFKeeps (Followed e) (WFObj.setParams p theta kappa) := by
  cases kappa with
  | false =>
    cases theta with
    | false => exact WFKeeps.pure ()
    | true => exact keeps_setThetas _
  | true =>
    have h1 : WFKeeps (Followed e) (WFObj.setKappa (p.take e.kappaIdx.length) true) :=
      keeps_setKappa hv (by have := hp rfl; simp; omega) true
    cases theta with
    | false => exact h1.bind fun _ => WFKeeps.pure ()
    | true => exact h1.bind fun _ => keeps_setThetas _

theorem keeps_callbackEnergy (hv : ValidKappa e.kappaIdx) (kappa : Bool) : WFKeeps (Followed e) (callbackEnergy kappa) :=
  keeps_of_follows fun r => follows_callbackEnergy hv r kappa

theorem keeps_memory (f : WFObj e → List ℝ) (g : WFObj e → ℝ) :
    WFKeeps (Followed e) (WFM.modify fun s => { s with eOptOld := g s, oldParams := f s }) := by
  rintro s ⟨r, hs⟩
  exact ⟨r, { hs with }⟩

theorem keeps_energyCall (hv : ValidKappa e.kappaIdx) {p : List ℝ} {theta kappa : Bool}
    (hp : kappa = true → e.kappaIdx.length ≤ p.length) : WFKeeps (Followed e) (energyCall p theta kappa) := by
  unfold energyCall
  apply WFKeeps.get
  intro s hs
  cases arrSub s.oldParams p with
  | error x => exact hs
  | ok d =>
    simp only
    split_ifs
    · exact hs
    · exact hs
    · refine WFKeeps.bind (keeps_setParams hv hp) (fun _ => (keeps_callbackEnergy hv kappa).bind fun E => ?_) s hs
      exact (keeps_memory (fun _ => p) (fun _ => E)).bind fun _ => WFKeeps.pure _

theorem keeps_gradCall (hv : ValidKappa e.kappaIdx) {p : List ℝ} {theta kappa : Bool}
    (hp : kappa = true → e.kappaIdx.length ≤ p.length) : WFKeeps (Followed e) (gradCall p theta kappa) := by
  unfold gradCall
  refine (keeps_setParams hv hp).bind fun _ => ?_
  have hH : WFKeeps (Followed e) (readH (e := e)) := keeps_of_follows fun r => follows_readH hv r
  have hG : WFKeeps (Followed e) (readG (e := e)) := keeps_of_follows fun r => follows_readG hv r
  have h1 : WFKeeps (Followed e) (readRdm1 (e := e)) := keeps_of_follows fun r => follows_readRdm1 r
  have h2 : WFKeeps (Followed e) (readRdm2 (e := e)) := keeps_of_follows fun r => follows_readRdm2 r
  have hC : WFKeeps (Followed e) (readCI (e := e)) := keeps_of_follows fun r => follows_readCI r
  have hk : ∀ {f : List ℝ → WFM e (List ℝ)}, (∀ x, WFKeeps (Followed e) (f x)) → WFKeeps (Followed e) (do
        let h ← readH
        let g ← readG
        let d1 ← readRdm1
        let d2 ← readRdm2
        let gk ← pure (e.gradKappa h g d1 d2)
        f gk) := fun h =>
    hH.bind fun _ => hG.bind fun _ => h1.bind fun _ => h2.bind fun _ => (WFKeeps.pure _).bind h
  have ht : ∀ {f : List ℝ → WFM e (List ℝ)}, (∀ x, WFKeeps (Followed e) (f x)) → WFKeeps (Followed e) (do
        let h ← readH
        let g ← readG
        let v ← readCI
        let s ← WFM.get
        let gt ← pure (e.gradTheta v s.thetas h g)
        f gt) := fun h =>
    hH.bind fun _ => hG.bind fun _ => hC.bind fun _ => WFKeeps.get fun s hs => (WFKeeps.pure _).bind h s hs
  cases kappa with
  | false =>
    cases theta with
    | false => exact (WFKeeps.pure []).bind fun _ => (WFKeeps.pure []).bind fun _ => WFKeeps.pure _
    | true => exact (WFKeeps.pure []).bind fun _ => ht fun _ => WFKeeps.pure _
  | true =>
    cases theta with
    | false => exact hk fun _ => (WFKeeps.pure []).bind fun _ => WFKeeps.pure _
    | true => exact hk fun _ => ht fun _ => WFKeeps.pure _

def WFObj.Call.params : WFObj.Call → List ℝ
  | .energy p => p
  | .grad p => p

theorem keeps_minimizeCalls (hv : ValidKappa e.kappaIdx) {size : ℕ} {theta kappa : Bool} {calls : List WFObj.Call}
    (hp : kappa = true → ∀ c ∈ calls, e.kappaIdx.length ≤ c.params.length) :
    WFKeeps (Followed e) (minimizeCalls size theta kappa calls) := by
  unfold minimizeCalls
  refine (keeps_memory (fun _ => List.replicate size (10 ^ 20)) (fun _ => 0)).bind fun _ => ?_
  induction calls with
  | nil => exact WFKeeps.pure ()
  | cons c calls ih =>
    refine WFKeeps.bind ?_ fun _ => ih fun hk c hc => hp hk c (List.mem_cons_of_mem _ hc)
    cases c with
    | energy p => exact (keeps_energyCall hv fun hk => hp hk (.energy p) (by simp)).bind fun _ => WFKeeps.pure ()
    | grad p => exact (keeps_gradCall hv fun hk => hp hk (.grad p) (by simp)).bind fun _ => WFKeeps.pure ()

theorem inv_zero {r : WFRef e.n} {s : WFObj e} (hs : WFInv e r s) :
    WFInv e { r with kappa := List.replicate r.kappa.length 0 }
      { s with kappa := List.replicate s.kappa.length 0, kappaOld := List.replicate s.kappa.length 0 } :=
  { hs with
    kappa := by rw [hs.kappa]
    kappaOld := by rw [hs.kappa]
    kappaLen := by rw [List.length_replicate]; exact hs.kappaLen }

theorem keeps_resetKappa1 : WFKeeps (Followed e) (resetKappa1 (e := e)) := by
  rintro s ⟨r, hs⟩
  exact ⟨_, inv_zero hs⟩

theorem keeps_resetKappa2 (hk : e.kind ≠ .ucc) : WFKeeps (Followed e) (resetKappa2 (e := e)) := by
  rintro s ⟨r, hs⟩
  refine ⟨{ r with kappa := List.replicate r.kappa.length 0 }, ?_⟩
  unfold resetKappa2
  simp only [WFM.modify, if_neg hk]
  exact inv_zero hs

theorem keeps_report (E : ℝ) : WFKeeps (Followed e) (WFM.modify fun s => { s with energy := some E }) := by
  rintro s ⟨r, hs⟩
  exact ⟨{ r with reported := some E }, { hs with
    energy := fun _ h => by cases h; rfl
    reported := fun _ h => h }⟩

/-- The minimizers of a round call with as many parameters as they were given. -/
def WFObj.Round.Fits (e : WFEnv) (r : WFObj.Round) : Prop := ∀ c ∈ r.kappaCalls, c.params.length = e.kappaIdx.length

theorem keeps_rounds (hv : ValidKappa e.kappaIdx) {oo : Bool} (hk : e.kind ≠ .ucc ∨ oo = false) (tol : ℝ) :
    ∀ (rs : List Round) (eOld : ℝ) (eNew : Option ℝ), (∀ r ∈ rs, r.Fits e) → WFKeeps (Followed e) (rounds (e := e) oo tol rs eOld eNew) := by
  intro rs
  induction rs with
  | nil => intro _ eNew _; exact WFKeeps.pure eNew
  | cons r rs ih =>
    intro eOld eNew hf
    unfold rounds
    refine WFKeeps.get fun s hs => ?_
    refine WFKeeps.bind (keeps_minimizeCalls hv fun h => by cases h) (fun _ => WFKeeps.bind (keeps_setThetas _) fun _ => WFKeeps.get fun s hs => ?_) s hs
    by_cases h : oo = true ∧ s.kappa.length ≠ 0
    · rw [if_pos h]
      refine WFKeeps.bind (keeps_minimizeCalls hv fun _ c hc => (hf r (by simp) c hc).ge)
        (fun _ => WFKeeps.bind (keeps_resetKappa2 (hk.resolve_right (by rw [h.1]; decide))) fun _ => ?_) s hs
      split_ifs
      · exact WFKeeps.pure _
      · exact ih _ _ fun r hr => hf r (List.mem_cons_of_mem _ hr)
    · rw [if_neg h]
      exact hs

theorem keeps_stateCI (hv : ValidKappa e.kappaIdx) (hsa : e.kind = .sa) : WFKeeps (Followed e) (doStateCI (e := e)) :=
  keeps_of_follows fun r => follows_doStateCI hv r hsa

theorem keeps_finish (hv : ValidKappa e.kappaIdx) (E : ℝ) : WFKeeps (Followed e) (do
    if e.kind = .sa then do let _ ← doStateCI
    WFM.modify fun s => { s with energy := some E } : WFM e Unit) := by
  split_ifs with hsa
  · exact (keeps_stateCI hv hsa).bind fun _ => keeps_report E
  · exact keeps_report E

theorem keeps_run2 (hv : ValidKappa e.kappaIdx) {oo : Bool} (hk : e.kind ≠ .ucc ∨ oo = false) (tol : ℝ) {rs : List Round}
    (hf : ∀ r ∈ rs, r.Fits e) : WFKeeps (Followed e) (run2 (e := e) oo tol rs) := by
  unfold run2
  refine (keeps_rounds hv hk tol rs _ _ hf).bind fun o => ?_
  cases o with
  | none => exact WFKeeps.raise _
  | some E => exact keeps_finish hv E

theorem arrSub_length {a b d : List ℝ} (hb : 0 < b.length) (h : arrSub a b = .ok d) : a.length ≤ d.length ∧
    (d.length = a.length ∨ (a.length = 1 ∧ d.length = b.length)) := by
  unfold arrSub at h
  split_ifs at h with hl
  · cases h
    rw [List.length_zipWith, hl, min_self]
    exact ⟨le_rfl, Or.inl rfl⟩
  · split at h
    · cases h
      rw [List.length_map]
      exact ⟨hb, Or.inr ⟨rfl, rfl⟩⟩
    · cases h
      rw [List.length_map]
      exact ⟨le_rfl, Or.inl rfl⟩
    · cases h

theorem WFM.bind_error {m : WFM e α} {f : α → WFM e β} {s s' : WFObj e} {x : PyErr} (h : m s = (.error x, s')) :
    (m >>= f) s = (.error x, s') := by
  change WFM.bind m f s = _
  unfold WFM.bind
  rw [h]

theorem WFM.ok_bind {m : WFM e α} {f : α → WFM e β} {s s' : WFObj e} {b : β} (h : (m >>= f) s = (.ok b, s')) :
    ∃ a s1, m s = (.ok a, s1) ∧ f a s1 = (.ok b, s') := by
  change WFM.bind m f s = _ at h
  unfold WFM.bind at h
  match hm : m s with
  | (.ok a, s1) => rw [hm] at h; exact ⟨a, s1, rfl, h⟩
  | (.error x, s1) => rw [hm] at h; cases h

theorem startParams_cases {oo : Bool} {s : WFObj e} :
    (∃ x, startParams oo s = (.error x, s)) ∨ ∃ p, startParams oo s = (.ok p, s) ∧ (oo = true → s.kappa.length ≤ p.length) := by
  unfold startParams
  rw [WFM.bind_get]
  cases oo with
  | false => exact Or.inr ⟨s.thetas, rfl, fun h => by cases h⟩
  | true =>
    rw [if_pos rfl]
    split_ifs with ht
    · unfold joinParams
      cases s.kappaArr with
      | false => exact Or.inr ⟨s.kappa ++ s.thetas, rfl, fun _ => by simp⟩
      | true =>
        rw [if_pos rfl]
        cases hd : arrSub s.kappa (s.thetas.map (- ·)) with
        | error x => exact Or.inl ⟨x, rfl⟩
        | ok d => exact Or.inr ⟨d, rfl, fun _ => (arrSub_length (by simpa using ht) hd).1⟩
    · exact Or.inr ⟨s.kappa, rfl, fun _ => le_rfl⟩

/-! ### The integrals stay cached -/

/-- The integrals are cached. -/
def HasH (s : WFObj e) : Prop := s.hMo.isSome

theorem readH_hasH (hv : ValidKappa e.kappaIdx) {r : WFRef e.n} {s : WFObj e} (hs : WFInv e r s) : HasH (readH s).2 := by
  unfold readH
  rw [WFM.bind_get]
  cases hc : s.hMo with
  | some h => exact by change HasH s; unfold HasH; rw [hc]; rfl
  | none =>
    obtain ⟨s1, h1, -⟩ := follows_readCMo hv r s hs
    simp only
    rw [WFM.bind_ok h1, WFM.bind_modify]
    rfl

theorem keepsH_readCMo : WFKeeps (e := e) HasH readCMo := by
  intro s hs
  unfold readCMo
  split_ifs
  · cases arrSub s.kappa s.kappaOld with
    | error x => exact hs
    | ok d => simp only; split_ifs <;> exact hs
  · exact hs

theorem keepsH_readG : WFKeeps (e := e) HasH readG := by
  unfold readG
  refine WFKeeps.get fun s hs => ?_
  cases s.gMo with
  | some g => exact hs
  | none => exact (keepsH_readCMo.bind fun c => WFKeeps.bind (fun s h => h) fun _ => WFKeeps.pure _) s hs

theorem keepsH_readCI : WFKeeps (e := e) HasH readCI := by
  unfold readCI
  refine WFKeeps.get fun s hs => ?_
  cases s.ci with
  | some g => exact hs
  | none => exact hs

theorem keepsH_readRdm1 : WFKeeps (e := e) HasH readRdm1 := by
  unfold readRdm1
  refine WFKeeps.get fun s hs => ?_
  cases s.rdm1 with
  | some g => exact hs
  | none => exact (keepsH_readCI.bind fun c => WFKeeps.bind (fun s h => h) fun _ => WFKeeps.pure _) s hs

theorem keepsH_readRdm2 : WFKeeps (e := e) HasH readRdm2 := by
  unfold readRdm2
  refine WFKeeps.get fun s hs => ?_
  cases s.rdm2 with
  | some g => exact hs
  | none =>
    exact (keepsH_readCI.bind fun c => keepsH_readRdm1.bind fun d => WFKeeps.bind (fun s h => h) fun _ => WFKeeps.pure _) s hs

/-! ### Orbital parameters stay an array -/

def HasArr (s : WFObj e) : Prop := s.kappaArr = true

theorem keepsA_readCMo : WFKeeps (e := e) HasArr readCMo := by
  intro s hs
  unfold readCMo
  split_ifs
  · cases arrSub s.kappa s.kappaOld with
    | error x => exact hs
    | ok d => simp only; split_ifs <;> exact hs
  · exact hs

theorem keepsA_readH : WFKeeps (e := e) HasArr readH := by
  unfold readH
  refine WFKeeps.get fun s hs => ?_
  cases s.hMo with
  | some g => exact hs
  | none => exact (keepsA_readCMo.bind fun c => WFKeeps.bind (fun s h => h) fun _ => WFKeeps.pure _) s hs

theorem keepsA_readG : WFKeeps (e := e) HasArr readG := by
  unfold readG
  refine WFKeeps.get fun s hs => ?_
  cases s.gMo with
  | some g => exact hs
  | none => exact (keepsA_readCMo.bind fun c => WFKeeps.bind (fun s h => h) fun _ => WFKeeps.pure _) s hs

theorem keepsA_readCI : WFKeeps (e := e) HasArr readCI := by
  unfold readCI
  refine WFKeeps.get fun s hs => ?_
  cases s.ci with
  | some g => exact hs
  | none => exact hs

theorem keepsA_doStateCI : WFKeeps (e := e) HasArr doStateCI :=
  keepsA_readH.bind fun _ => keepsA_readG.bind fun _ => keepsA_readCI.bind fun _ =>
    WFKeeps.bind (fun _ h => h) fun _ => WFKeeps.pure _

theorem keepsA_setThetas (t : List ℝ) : WFKeeps (e := e) HasArr (setThetas t) := by
  unfold setThetas
  refine WFKeeps.get fun s hs => ?_
  split_ifs <;> exact hs

/-- After an energy was computed in an orbital optimization, the integrals are cached. -/
theorem energyCall_hasH (hv : ValidKappa e.kappaIdx) {r : WFRef e.n} {s : WFObj e} (hs : WFInv e r s) {p : List ℝ}
    {theta : Bool} (hl : s.oldParams.length = p.length) (hf : p.length = callSize e theta true)
    (hc : ¬Close s.oldParams p) (hk : e.kind ≠ .sa) : HasH (energyCall p theta true s).2 := by
  have hp : p ≠ [] := by
    rintro rfl
    exact hc fun x hx => by simp at hx
  obtain ⟨s1, a1, b1, -⟩ := follows_setParams hv r hf s hs
  obtain ⟨s2, a2, b2, -⟩ := follows_readH hv (r.params e p theta true) s1 b1
  have h2 := readH_hasH hv b1
  rw [a2] at h2
  unfold energyCall
  rw [WFM.bind_get]
  simp only [arrSub_eq hl]
  rw [if_neg (by rw [List.length_zipWith, hl, min_self]; exact fun h => hp (List.eq_nil_of_length_eq_zero h)), if_neg]
  · rw [WFM.bind_ok a1]
    have h3 : HasH (callbackEnergy (e := e) true s1).2 := by
      unfold callbackEnergy
      rw [if_pos ⟨rfl, hk⟩, WFM.bind_ok a2]
      exact (keepsH_readG.bind fun _ => keepsH_readRdm1.bind fun _ => keepsH_readRdm2.bind fun _ => WFKeeps.pure _) s2 h2
    obtain ⟨s3, a3, -⟩ := follows_callbackEnergy hv (r.params e p theta true) true s1 b1
    rw [a3] at h3
    rw [WFM.bind_ok a3, WFM.bind_modify]
    exact h3
  · intro h
    apply hc
    intro x hx
    have := List.all_eq_true.1 h x hx
    simpa using this

/-- The minimizer calls with as many parameters as it was given. -/
def KeepsSize (minimizer : List ℝ → List WFObj.Call × List ℝ × ℝ) : Prop :=
  ∀ p, ∀ c ∈ (minimizer p).1, c.params.length = p.length

theorem keeps_run1 (hv : ValidKappa e.kappaIdx) (oo : Bool) {minimizer : List ℝ → List WFObj.Call × List ℝ × ℝ}
    (hm : KeepsSize minimizer) : WFKeeps (Followed e) (run1 (e := e) oo minimizer) := by
  unfold run1
  refine WFKeeps.get fun s hs => ?_
  have start : ∀ p, (oo = true → e.kappaIdx.length ≤ p.length) → WFKeeps (Followed e) (do
      minimizeCalls p.length (!oo || s.thetas.length > 0) oo (minimizer p).1
      if oo then do
        let s ← WFM.get
        setThetas ((minimizer p).2.1.drop s.kappa.length)
        resetKappa1
      else setThetas (minimizer p).2.1
      if e.kind = .sa then do let _ ← doStateCI
      WFM.modify fun s => { s with energy := some (minimizer p).2.2 } : WFM e Unit) := by
    intro p hp
    refine (keeps_minimizeCalls hv fun h c hc => by rw [hm p c hc]; exact hp h).bind fun _ => ?_
    cases oo with
    | true =>
      exact WFKeeps.get fun s hs => ((keeps_setThetas _).bind fun _ => keeps_resetKappa1.bind fun _ => keeps_finish hv _) s hs
    | false => exact (keeps_setThetas _).bind fun _ => keeps_finish hv _
  obtain ⟨r, hs⟩ := hs
  have hst : WFKeeps (Followed e) (startParams (e := e) oo >>= fun p => (do
      minimizeCalls p.length (!oo || s.thetas.length > 0) oo (minimizer p).1
      if oo then do
        let s ← WFM.get
        setThetas ((minimizer p).2.1.drop s.kappa.length)
        resetKappa1
      else setThetas (minimizer p).2.1
      if e.kind = .sa then do let _ ← doStateCI
      WFM.modify fun s => { s with energy := some (minimizer p).2.2 } : WFM e Unit)) := by
    rintro s ⟨r, hs⟩
    rcases startParams_cases (oo := oo) (s := s) with ⟨x, hx⟩ | ⟨p, hx, hl⟩
    · rw [WFM.bind_error hx]
      exact ⟨r, hs⟩
    · rw [WFM.bind_ok hx]
      exact start p (fun h => by rw [← hs.kappaLen, ← hs.kappa]; exact hl h) s ⟨r, hs⟩
  exact hst s ⟨r, hs⟩

end SQ
