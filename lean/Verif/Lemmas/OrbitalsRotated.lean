import Verif.Lemmas.WaveFunctionRun
import Verif.Lemmas.MatrixRotation

/-! # Lemmas: the orbitals of a wave function object are always rotated initial ones -/

namespace SQ

open WFObj

variable {e : WFEnv} {α : Type}

/-- The stored orbitals are the initial ones after rotations, and both lists of orbital parameters have their length. -/
def Rotated (s : WFObj e) : Prop :=
  RotOf e.mo s.cMo ∧ s.kappa.length = e.kappaIdx.length ∧ s.kappaOld.length = e.kappaIdx.length

theorem rotated_init : Rotated (WFObj.init e) := ⟨RotOf.refl _, by simp [WFObj.init], by simp [WFObj.init]⟩

theorem Rotated.readCMo (hv : ValidKappa e.kappaIdx) {s : WFObj e} (hs : Rotated s) :
    ∃ C, WFObj.readCMo s = (.ok C, s) ∧ RotOf e.mo C :=
  ⟨_, readCMo_eq hv s hs.2.1 hs.2.2, hs.1.rotate _ _⟩

theorem keepsO_readCMo : WFKeeps (e := e) Rotated readCMo := by
  intro s hs
  unfold readCMo
  split_ifs
  · cases arrSub s.kappa s.kappaOld with
    | error x => exact hs
    | ok d => simp only; split_ifs <;> exact hs
  · exact hs

theorem keepsO_setKappa (hv : ValidKappa e.kappaIdx) {k : List ℝ} (hk : k.length = e.kappaIdx.length) (arr : Bool) :
    WFKeeps (e := e) Rotated (setKappa k arr) := by
  intro s hs
  have h := readCMo_eq hv
    { s with hMo := none, gMo := none, energy := none, states := if e.kind = .sa then none else s.states, kappa := k, kappaArr := arr }
    hk hs.2.2
  unfold setKappa
  rw [WFM.bind_modify, WFM.bind_ok h]
  exact ⟨hs.1.rotate _ _, hk, hk⟩

theorem keepsO_setThetas (t : List ℝ) : WFKeeps (e := e) Rotated (setThetas t) := by
  unfold setThetas
  refine WFKeeps.get fun s hs => ?_
  split_ifs <;> exact hs

theorem keepsO_readH : WFKeeps (e := e) Rotated readH := by
  unfold readH
  refine WFKeeps.get fun s hs => ?_
  cases s.hMo with
  | some g => exact hs
  | none => exact (keepsO_readCMo.bind fun c => WFKeeps.bind (fun _ h => h) fun _ => WFKeeps.pure _) s hs

theorem keepsO_readG : WFKeeps (e := e) Rotated readG := by
  unfold readG
  refine WFKeeps.get fun s hs => ?_
  cases s.gMo with
  | some g => exact hs
  | none => exact (keepsO_readCMo.bind fun c => WFKeeps.bind (fun _ h => h) fun _ => WFKeeps.pure _) s hs

theorem keepsO_readCI : WFKeeps (e := e) Rotated readCI := by
  unfold readCI
  refine WFKeeps.get fun s hs => ?_
  cases s.ci with
  | some g => exact hs
  | none => exact hs

theorem keepsO_readRdm1 : WFKeeps (e := e) Rotated readRdm1 := by
  unfold readRdm1
  refine WFKeeps.get fun s hs => ?_
  cases s.rdm1 with
  | some g => exact hs
  | none => exact (keepsO_readCI.bind fun c => WFKeeps.bind (fun _ h => h) fun _ => WFKeeps.pure _) s hs

theorem keepsO_readRdm2 : WFKeeps (e := e) Rotated readRdm2 := by
  unfold readRdm2
  refine WFKeeps.get fun s hs => ?_
  cases s.rdm2 with
  | some g => exact hs
  | none => exact (keepsO_readCI.bind fun c => keepsO_readRdm1.bind fun d => WFKeeps.bind (fun _ h => h) fun _ => WFKeeps.pure _) s hs

theorem keepsO_readRdm3 : WFKeeps (e := e) Rotated readRdm3 := by
  unfold readRdm3
  refine WFKeeps.get fun s hs => ?_
  match s.rdm3 with
  | none => exact hs
  | some (some d) => exact hs
  | some none =>
    exact (keepsO_readCI.bind fun c => keepsO_readRdm1.bind fun d => keepsO_readRdm2.bind fun d => WFKeeps.bind (fun _ h => h) fun _ => WFKeeps.pure _) s hs

theorem keepsO_readRdm4 : WFKeeps (e := e) Rotated readRdm4 := by
  unfold readRdm4
  refine WFKeeps.get fun s hs => ?_
  match s.rdm4 with
  | none => exact hs
  | some (some d) => exact hs
  | some none =>
    exact (keepsO_readCI.bind fun c => keepsO_readRdm1.bind fun d => keepsO_readRdm2.bind fun d => keepsO_readRdm3.bind fun d =>
      WFKeeps.bind (fun _ h => h) fun _ => WFKeeps.pure _) s hs

theorem keepsO_readEnergy : WFKeeps (e := e) Rotated readEnergy := by
  unfold readEnergy
  refine WFKeeps.get fun s hs => ?_
  cases s.energy with
  | some g => exact hs
  | none =>
    exact (keepsO_readCI.bind fun c => keepsO_readH.bind fun d => keepsO_readG.bind fun d => WFKeeps.bind (fun _ h => h) fun _ => WFKeeps.pure _) s hs

theorem keepsO_doStateCI : WFKeeps (e := e) Rotated doStateCI :=
  keepsO_readH.bind fun _ => keepsO_readG.bind fun _ => keepsO_readCI.bind fun _ => WFKeeps.bind (fun _ h => h) fun _ => WFKeeps.pure _

theorem keepsO_readStates : WFKeeps (e := e) Rotated readStates := by
  unfold readStates
  split_ifs
  · exact WFKeeps.raise _
  · refine WFKeeps.get fun s hs => ?_
    cases s.states with
    | some g => exact hs
    | none => exact keepsO_doStateCI s hs

theorem keepsO_setParams (hv : ValidKappa e.kappaIdx) {p : List ℝ} {theta kappa : Bool}
    (hp : kappa = true → e.kappaIdx.length ≤ p.length) : WFKeeps (e := e) Rotated (WFObj.setParams p theta kappa) := by
  cases kappa with
  | false =>
    cases theta with
    | false => exact WFKeeps.pure ()
    | true => exact keepsO_setThetas _
  | true =>
    have h1 : WFKeeps (e := e) Rotated (WFObj.setKappa (p.take e.kappaIdx.length) true) :=
      keepsO_setKappa hv (by have := hp rfl; simp; omega) true
    cases theta with
    | false => exact h1.bind fun _ => WFKeeps.pure ()
    | true => exact h1.bind fun _ => keepsO_setThetas _

theorem keepsO_callbackEnergy (kappa : Bool) : WFKeeps (e := e) Rotated (callbackEnergy kappa) := by
  unfold callbackEnergy
  split_ifs
  · exact keepsO_readH.bind fun _ => keepsO_readG.bind fun _ => keepsO_readRdm1.bind fun _ => keepsO_readRdm2.bind fun _ =>
      WFKeeps.pure _
  · exact keepsO_readCI.bind fun _ => keepsO_readH.bind fun _ => keepsO_readG.bind fun _ => WFKeeps.pure _

theorem keepsO_energyCall (hv : ValidKappa e.kappaIdx) {p : List ℝ} {theta kappa : Bool}
    (hp : kappa = true → e.kappaIdx.length ≤ p.length) : WFKeeps (e := e) Rotated (energyCall p theta kappa) := by
  unfold energyCall
  apply WFKeeps.get
  intro s hs
  cases arrSub s.oldParams p with
  | error x => exact hs
  | ok d =>
    simp only
    split_ifs
    · exact hs
    · exact hs
    · exact WFKeeps.bind (keepsO_setParams hv hp) (fun _ => (keepsO_callbackEnergy kappa).bind fun E =>
        WFKeeps.bind (fun _ h => h) fun _ => WFKeeps.pure _) s hs

theorem keepsO_gradCall (hv : ValidKappa e.kappaIdx) {p : List ℝ} {theta kappa : Bool}
    (hp : kappa = true → e.kappaIdx.length ≤ p.length) : WFKeeps (e := e) Rotated (gradCall p theta kappa) := by
  unfold gradCall
  refine (keepsO_setParams hv hp).bind fun _ => ?_
  have hk : ∀ {f : List ℝ → WFM e (List ℝ)}, (∀ x, WFKeeps (e := e) Rotated (f x)) → WFKeeps (e := e) Rotated (do
        let h ← readH
        let g ← readG
        let d1 ← readRdm1
        let d2 ← readRdm2
        let gk ← pure (e.gradKappa h g d1 d2)
        f gk) := fun h =>
    keepsO_readH.bind fun _ => keepsO_readG.bind fun _ => keepsO_readRdm1.bind fun _ => keepsO_readRdm2.bind fun _ =>
      (WFKeeps.pure _).bind h
  have ht : ∀ {f : List ℝ → WFM e (List ℝ)}, (∀ x, WFKeeps (e := e) Rotated (f x)) → WFKeeps (e := e) Rotated (do
        let h ← readH
        let g ← readG
        let v ← readCI
        let s ← WFM.get
        let gt ← pure (e.gradTheta v s.thetas h g)
        f gt) := fun h =>
    keepsO_readH.bind fun _ => keepsO_readG.bind fun _ => keepsO_readCI.bind fun _ =>
      WFKeeps.get fun s hs => (WFKeeps.pure _).bind h s hs
  cases kappa with
  | false =>
    cases theta with
    | false => exact (WFKeeps.pure []).bind fun _ => (WFKeeps.pure []).bind fun _ => WFKeeps.pure _
    | true => exact (WFKeeps.pure []).bind fun _ => ht fun _ => WFKeeps.pure _
  | true =>
    cases theta with
    | false => exact hk fun _ => (WFKeeps.pure []).bind fun _ => WFKeeps.pure _
    | true => exact hk fun _ => ht fun _ => WFKeeps.pure _

theorem keepsO_minimizeCalls (hv : ValidKappa e.kappaIdx) {size : ℕ} {theta kappa : Bool} {calls : List WFObj.Call}
    (hp : kappa = true → ∀ c ∈ calls, e.kappaIdx.length ≤ c.params.length) :
    WFKeeps (e := e) Rotated (minimizeCalls size theta kappa calls) := by
  unfold minimizeCalls
  refine WFKeeps.bind (fun _ h => h) fun _ => ?_
  induction calls with
  | nil => exact WFKeeps.pure ()
  | cons c calls ih =>
    refine WFKeeps.bind ?_ fun _ => ih fun hk c hc => hp hk c (List.mem_cons_of_mem _ hc)
    cases c with
    | energy p => exact (keepsO_energyCall hv fun hk => hp hk (.energy p) (by simp)).bind fun _ => WFKeeps.pure ()
    | grad p => exact (keepsO_gradCall hv fun hk => hp hk (.grad p) (by simp)).bind fun _ => WFKeeps.pure ()

theorem keepsO_resetKappa1 : WFKeeps (e := e) Rotated resetKappa1 :=
  fun _ hs => ⟨hs.1, List.length_replicate.trans hs.2.1, List.length_replicate.trans hs.2.1⟩

/-- Also in the coupled-cluster class, where only the old parameters are set to zero. -/
theorem keepsO_resetKappa2 : WFKeeps (e := e) Rotated resetKappa2 := by
  intro s hs
  refine ⟨hs.1, ?_, List.length_replicate.trans hs.2.1⟩
  change (if e.kind = .ucc then s.kappa else List.replicate s.kappa.length 0).length = _
  split_ifs
  · exact hs.2.1
  · simpa using hs.2.1

theorem keepsO_finish (E : ℝ) : WFKeeps (e := e) Rotated (do
    if e.kind = .sa then do let _ ← doStateCI
    WFM.modify fun s => { s with energy := some E } : WFM e Unit) := by
  split_ifs
  · exact keepsO_doStateCI.bind fun _ => fun _ h => h
  · exact fun _ h => h

theorem keepsO_rounds (hv : ValidKappa e.kappaIdx) (oo : Bool) (tol : ℝ) : ∀ (rs : List Round) (eOld : ℝ) (eNew : Option ℝ),
    (∀ r ∈ rs, r.Fits e) → WFKeeps (e := e) Rotated (rounds oo tol rs eOld eNew) := by
  intro rs
  induction rs with
  | nil => intro _ eNew _; exact WFKeeps.pure eNew
  | cons r rs ih =>
    intro eOld eNew hf
    unfold rounds
    refine WFKeeps.get fun s hs => ?_
    refine WFKeeps.bind (keepsO_minimizeCalls hv fun h => by cases h) (fun _ => WFKeeps.bind (keepsO_setThetas _) fun _ => WFKeeps.get fun s hs => ?_) s hs
    by_cases h : oo = true ∧ s.kappa.length ≠ 0
    · rw [if_pos h]
      refine WFKeeps.bind (keepsO_minimizeCalls hv fun _ c hc => (hf r (by simp) c hc).ge)
        (fun _ => WFKeeps.bind keepsO_resetKappa2 fun _ => ?_) s hs
      split_ifs
      · exact WFKeeps.pure _
      · exact ih _ _ fun r hr => hf r (List.mem_cons_of_mem _ hr)
    · rw [if_neg h]
      exact hs

theorem keepsO_run2 (hv : ValidKappa e.kappaIdx) (oo : Bool) (tol : ℝ) {rs : List Round} (hf : ∀ r ∈ rs, r.Fits e) :
    WFKeeps (e := e) Rotated (run2 oo tol rs) := by
  unfold run2
  refine (keepsO_rounds hv oo tol rs _ _ hf).bind fun o => ?_
  cases o with
  | none => exact WFKeeps.raise _
  | some E => exact keepsO_finish E

theorem keepsO_run1 (hv : ValidKappa e.kappaIdx) (oo : Bool) {minimizer : List ℝ → List WFObj.Call × List ℝ × ℝ}
    (hm : KeepsSize minimizer) : WFKeeps (e := e) Rotated (run1 oo minimizer) := by
  unfold run1
  refine WFKeeps.get fun s hs => ?_
  rcases startParams_cases (oo := oo) (s := s) with ⟨x, hx⟩ | ⟨p, hx, hl⟩
  · rw [WFM.bind_error hx]
    exact hs
  · rw [WFM.bind_ok hx]
    have hp : oo = true → e.kappaIdx.length ≤ p.length := fun h => by rw [← hs.2.1]; exact hl h
    refine WFKeeps.bind (keepsO_minimizeCalls hv fun h c hc => by rw [hm p c hc]; exact hp h) (fun _ => ?_) s hs
    cases oo with
    | true => exact WFKeeps.get fun s hs => ((keepsO_setThetas _).bind fun _ => keepsO_resetKappa1.bind fun _ => keepsO_finish _) s hs
    | false => exact (keepsO_setThetas _).bind fun _ => keepsO_finish _

end SQ
