import Verif.Lemmas.MatrixRotation
import Verif.Spec.CircuitCache
import Verif.Lemmas.WaveFunction

/-! # Lemmas: the cached quantities of a circuit wave function follow the parameters -/

namespace SQ

open CircObj

variable {e : CircEnv} {α β : Type}

theorem CircM.bind_ok {m : CircM e α} {f : α → CircM e β} {s s' : CircObj e} {a : α} (h : m s = (.ok a, s')) :
    (m >>= f) s = f a s' := by
  change CircM.bind m f s = _
  unfold CircM.bind
  rw [h]

theorem CircM.bind_error {m : CircM e α} {f : α → CircM e β} {s s' : CircObj e} {x : PyErr} (h : m s = (.error x, s')) :
    (m >>= f) s = (.error x, s') := by
  change CircM.bind m f s = _
  unfold CircM.bind
  rw [h]

theorem CircM.bind_get (f : CircObj e → CircM e β) (s : CircObj e) : (CircM.get >>= f) s = f s s := rfl

theorem CircM.bind_modify (g : CircObj e → CircObj e) (f : Unit → CircM e β) (s : CircObj e) :
    (CircM.modify g >>= f) s = f () (g s) := rfl

theorem circ_readCMo_eq (hv : ValidKappa e.kappaIdx) (s : CircObj e) (h1 : s.kappa.length = e.kappaIdx.length)
    (h2 : s.kappaOld.length = e.kappaIdx.length) :
    readCMo s = (.ok (s.cMo * NormedSpace.exp (-rotGen e.kappaIdx (List.zipWith (· - ·) s.kappa s.kappaOld))), s) := by
  unfold readCMo
  by_cases h0 : s.kappa.length = 0
  · rw [if_neg (not_not.2 h0), rotGen_zero _ _ (by rw [List.eq_nil_of_length_eq_zero h0]; simp)]
  · rw [if_pos h0, arrSub_eq (h1.trans h2.symm)]
    simp only
    rw [if_neg (by rw [List.length_zipWith, h1, h2, min_self, ← h1]; exact h0)]
    split_ifs with hd
    · rw [kappaMat_eq hv h1 h2]
    · rw [rotGen_zero]
      intro x hx
      by_contra hne
      exact hd (List.any_eq_true.2 ⟨x, hx, by simpa using hne⟩)

/-- Every cached quantity that is present is the one of the reference; the coefficients of the states are if the energies
of the states are present. -/
structure CircInv (e : CircEnv) (r : CircRef e) (s : CircObj e) : Prop where
  prim : s.prim = r.prim
  cMo : s.cMo = r.orb
  kappa : s.kappa = r.kappa
  kappaOld : s.kappaOld = r.kappa
  kappaLen : r.kappa.length = e.kappaIdx.length
  params : s.params = r.thetas
  thetaLen : r.thetas.length = e.numTheta
  rdm1 : ∀ d, s.rdm1 = some d → d = r.d1
  rdm2 : ∀ d, s.rdm2 = some d → d = r.d2
  rdm3 : ∀ d, s.rdm3 = some d → d = r.d3
  rdm4 : ∀ d, s.rdm4 = some d → d = r.d4
  hMo : ∀ h, s.hMo = some h → h = r.h
  gMo : ∀ g, s.gMo = some g → g = r.g
  energy : ∀ E, s.energy = some E → E = r.reported.getD r.E
  reported : ∀ E, r.reported = some E → s.energy = some E
  states : ∀ x, s.stateE = some x → x = r.energies ∧ s.stateC = some (some r.coeffs)

/-- From a state following `r`, the method returns `v` and ends in a state following `r'`; the coefficients of the states,
if there, stay or become those of `r'`. -/
def CFollows (r : CircRef e) (m : CircM e α) (r' : CircRef e) (v : α) : Prop :=
  ∀ s, CircInv e r s → ∃ s', m s = (.ok v, s') ∧ CircInv e r' s'

theorem CFollows.bind {r r' r'' : CircRef e} {m : CircM e α} {f : α → CircM e β} {v : α} {w : β}
    (h1 : CFollows r m r' v) (h2 : CFollows r' (f v) r'' w) : CFollows r (m >>= f) r'' w := by
  intro s hs
  obtain ⟨s1, a1, b1⟩ := h1 s hs
  obtain ⟨s2, a2, b2⟩ := h2 s1 b1
  exact ⟨s2, (CircM.bind_ok a1).trans a2, b2⟩

theorem CFollows.pure (r : CircRef e) (v : α) : CFollows (e := e) r (pure v) r v := fun s hs => ⟨s, rfl, hs⟩

theorem CFollows.fst {r r' : CircRef e} {m : CircM e α} {v : α} (h : CFollows r m r' v) {s : CircObj e} (hs : CircInv e r s) :
    (m s).1 = .ok v := by
  obtain ⟨s', h1, -⟩ := h s hs
  rw [h1]

theorem CFollows.snd {r r' : CircRef e} {m : CircM e α} {v : α} (h : CFollows r m r' v) {s : CircObj e} (hs : CircInv e r s) :
    CircInv e r' (m s).2 := by
  obtain ⟨s', h1, h2⟩ := h s hs
  rw [h1]
  exact h2

theorem cfollows_modify {r r' : CircRef e} {f : CircObj e → CircObj e} (h : ∀ s, CircInv e r s → CircInv e r' (f s)) :
    CFollows (e := e) r (CircM.modify f) r' () := fun s hs => ⟨f s, rfl, h s hs⟩

/-- A value that depends on the attributes. -/
theorem cfollows_get {r r' : CircRef e} {f : CircObj e → CircM e β} {v : β}
    (h : ∀ s, CircInv e r s → ∃ s', f s s = (.ok v, s') ∧ CircInv e r' s') : CFollows (e := e) r (CircM.get >>= f) r' v :=
  fun s hs => h s hs

theorem cfollows_readCMo (hv : ValidKappa e.kappaIdx) (r : CircRef e) : CFollows (e := e) r readCMo r r.orb := by
  intro s hs
  refine ⟨s, ?_, hs⟩
  rw [circ_readCMo_eq hv s (by rw [hs.kappa, hs.kappaLen]) (by rw [hs.kappaOld, hs.kappaLen]), hs.kappa, hs.kappaOld,
    rotGen_zero, neg_zero, NormedSpace.exp_zero, mul_one, hs.cMo]
  intro x hx
  rw [List.zipWith_self] at hx
  obtain ⟨y, -, rfl⟩ := List.mem_map.1 hx
  exact sub_self y

theorem circ_setKappa_eq (hv : ValidKappa e.kappaIdx) {r : CircRef e} {s : CircObj e} (hs : CircInv e r s) {k : List ℝ}
    (hk : k.length = e.kappaIdx.length) (arr : Bool) :
    setKappa k arr s = (.ok (), { s with
      hMo := none, gMo := none, energy := none, stateE := none
      kappa := k, kappaArr := arr, kappaOld := k
      cMo := s.cMo * NormedSpace.exp (-rotGen e.kappaIdx (List.zipWith (· - ·) k s.kappaOld)) }) := by
  have h := circ_readCMo_eq hv
    { s with hMo := none, gMo := none, energy := none, stateE := none, kappa := k, kappaArr := arr }
    hk (by simpa only [hs.kappaOld] using hs.kappaLen)
  unfold setKappa
  rw [CircM.bind_modify, CircM.bind_ok h]
  rfl

theorem cfollows_setKappa (hv : ValidKappa e.kappaIdx) (r : CircRef e) {k : List ℝ} (hk : k.length = e.kappaIdx.length)
    (arr : Bool) : CFollows (e := e) r (setKappa k arr) (r.setKappa k) () := by
  intro s hs
  refine ⟨_, circ_setKappa_eq hv hs hk arr, ?_⟩
  exact ⟨hs.prim, by simp only [hs.cMo, hs.kappaOld]; rfl, rfl, rfl, hk, hs.params, hs.thetaLen, hs.rdm1, hs.rdm2,
      hs.rdm3, hs.rdm4, fun _ h => (nomatch h), fun _ h => (nomatch h), fun _ h => (nomatch h), fun _ h => (nomatch h),
      fun _ h => (nomatch h)⟩

theorem circ_setThetas_inv {r : CircRef e} {s : CircObj e} (hs : CircInv e r s) (t : List ℝ) :
    CircInv e (r.setThetas t) (setThetas t s).2 := by
  unfold setThetas
  rw [CircM.bind_modify]
  by_cases ht : t.length = e.numTheta
  · rw [if_neg (not_not.2 ht)]
    exact ⟨hs.prim, hs.cMo, hs.kappa, hs.kappaOld, hs.kappaLen, by simp only [CircRef.setThetas, if_pos ht]; rfl,
      by simp only [CircRef.setThetas, if_pos ht]; exact ht,
      fun _ h => (nomatch h), fun _ h => (nomatch h), fun _ h => (nomatch h), fun _ h => (nomatch h), hs.hMo, hs.gMo,
      fun _ h => (nomatch h), fun _ h => (nomatch h), fun _ h => (nomatch h)⟩
  · rw [if_pos ht]
    exact ⟨hs.prim, hs.cMo, hs.kappa, hs.kappaOld, hs.kappaLen, by simp only [CircRef.setThetas, if_neg ht]; exact hs.params,
      by simp only [CircRef.setThetas, if_neg ht]; exact hs.thetaLen,
      fun _ h => (nomatch h), fun _ h => (nomatch h), fun _ h => (nomatch h), fun _ h => (nomatch h), hs.hMo, hs.gMo,
      fun _ h => (nomatch h), fun _ h => (nomatch h), fun _ h => (nomatch h)⟩

theorem circ_setThetas_fst (t : List ℝ) (s : CircObj e) :
    (setThetas t s).1 = if t.length = e.numTheta then .ok () else .error .valueError := by
  unfold setThetas
  rw [CircM.bind_modify]
  by_cases ht : t.length = e.numTheta
  · rw [if_neg (not_not.2 ht), if_pos ht]; rfl
  · rw [if_pos ht, if_neg ht]; rfl

theorem cfollows_setThetas (r : CircRef e) {t : List ℝ} (ht : t.length = e.numTheta) :
    CFollows (e := e) r (setThetas t) (r.setThetas t) () := by
  intro s hs
  refine ⟨_, ?_, circ_setThetas_inv hs t⟩
  rw [← Prod.mk.eta (p := setThetas t s), circ_setThetas_fst, if_pos ht]

theorem cfollows_primitive (r : CircRef e) (p : e.Prim) :
    CFollows (e := e) r (changePrimitive (.sampler p)) (r.setPrim p) () :=
  cfollows_modify fun _ hs => ⟨rfl, hs.cMo, hs.kappa, hs.kappaOld, hs.kappaLen, hs.params, hs.thetaLen,
      fun _ h => (nomatch h), fun _ h => (nomatch h), fun _ h => (nomatch h), fun _ h => (nomatch h), hs.hMo, hs.gMo,
      fun _ h => (nomatch h), fun _ h => (nomatch h), fun _ h => (nomatch h)⟩

theorem cfollows_store {α : Type} {r : CircRef e} {f : CircObj e → CircObj e} {v : α} (h : ∀ s, CircInv e r s → CircInv e r (f s)) :
    CFollows (e := e) r (do CircM.modify f; return v) r v := (cfollows_modify h).bind (CFollows.pure r v)

/-- A read that stores what it computes. -/
theorem cfollows_cached {α : Type} {r : CircRef e} {v : α} (c : CircObj e → Option α) {f : CircObj e → CircM e α}
    (hf : ∀ s x, c s = some x → f s = pure x) (hc : ∀ s, CircInv e r s → ∀ x, c s = some x → x = v)
    (hm : ∀ s, CircInv e r s → c s = none → CFollows r (f s) r v) :
    CFollows (e := e) r (CircM.get >>= f) r v := by
  intro s hs
  rw [CircM.bind_get]
  cases h : c s with
  | some x => exact ⟨s, by rw [hf s x h, hc s hs x h]; rfl, hs⟩
  | none => exact hm s hs h s hs

theorem cfollows_readH (hv : ValidKappa e.kappaIdx) (r : CircRef e) : CFollows (e := e) r readH r r.h := by
  unfold readH
  refine cfollows_cached (fun s => s.hMo) (fun s x h => by simp only [h]) (fun s hs => hs.hMo) fun s hs hn => ?_
  simp only [hn]
  refine (cfollows_readCMo hv r).bind (cfollows_store ?_)
  exact fun s hs => { hs with hMo := fun h hh => (Option.some.inj hh).symm }

theorem cfollows_readG (hv : ValidKappa e.kappaIdx) (r : CircRef e) : CFollows (e := e) r readG r r.g := by
  unfold readG
  refine cfollows_cached (fun s => s.gMo) (fun s x h => by simp only [h]) (fun s hs => hs.gMo) fun s hs hn => ?_
  simp only [hn]
  refine (cfollows_readCMo hv r).bind (cfollows_store ?_)
  exact fun s hs => { hs with gMo := fun h hh => (Option.some.inj hh).symm }

theorem cfollows_readRdm1 (r : CircRef e) : CFollows (e := e) r readRdm1 r r.d1 := by
  unfold readRdm1
  refine cfollows_cached (fun s => s.rdm1) (fun s x h => by simp only [h]) (fun s hs => hs.rdm1) fun s hs hn => ?_
  simp only [hn]
  rw [hs.prim, hs.params]
  refine cfollows_store ?_
  exact fun s hs => { hs with rdm1 := fun h hh => (Option.some.inj hh).symm }

theorem cfollows_readRdm2 (r : CircRef e) : CFollows (e := e) r readRdm2 r r.d2 := by
  unfold readRdm2
  refine cfollows_cached (fun s => s.rdm2) (fun s x h => by simp only [h]) (fun s hs => hs.rdm2) fun s hs hn => ?_
  simp only [hn]
  rw [hs.prim, hs.params]
  refine (cfollows_readRdm1 r).bind (cfollows_store ?_)
  exact fun s hs => { hs with rdm2 := fun h hh => (Option.some.inj hh).symm }

theorem cfollows_readRdm3 (hsa : e.sa = false) (r : CircRef e) : CFollows (e := e) r readRdm3 r r.d3 := by
  unfold readRdm3
  rw [if_neg (by simp [hsa])]
  refine cfollows_cached (fun s => s.rdm3) (fun s x h => by simp only [h]) (fun s hs => hs.rdm3) fun s hs hn => ?_
  simp only [hn]
  rw [hs.prim, hs.params]
  refine (cfollows_readRdm1 r).bind ((cfollows_readRdm2 r).bind (cfollows_store ?_))
  exact fun s hs => { hs with rdm3 := fun h hh => (Option.some.inj hh).symm }

theorem cfollows_readRdm4 (hsa : e.sa = false) (r : CircRef e) : CFollows (e := e) r readRdm4 r r.d4 := by
  unfold readRdm4
  rw [if_neg (by simp [hsa])]
  refine cfollows_cached (fun s => s.rdm4) (fun s x h => by simp only [h]) (fun s hs => hs.rdm4) fun s hs hn => ?_
  simp only [hn]
  rw [hs.prim, hs.params]
  refine (cfollows_readRdm1 r).bind ((cfollows_readRdm2 r).bind ((cfollows_readRdm3 hsa r).bind (cfollows_store ?_)))
  exact fun s hs => { hs with rdm4 := fun h hh => (Option.some.inj hh).symm }

theorem cfollows_readEnergy (hv : ValidKappa e.kappaIdx) (r : CircRef e) :
    CFollows (e := e) r readEnergy r (r.reported.getD r.E) := by
  unfold readEnergy
  refine cfollows_cached (fun s => s.energy) (fun s x h => by simp only [h]) (fun s hs => hs.energy) fun s hs hn => ?_
  simp only [hn]
  have hr : r.reported = none := by
    cases h : r.reported with
    | none => rfl
    | some E => exact absurd ((hs.reported E h).symm.trans hn) (by simp)
  refine (cfollows_readH hv r).bind ((cfollows_readG hv r).bind (cfollows_get fun s hs => ?_))
  refine (cfollows_store (v := r.reported.getD r.E) (f := fun s => { s with energy := some (r.reported.getD r.E) }) ?_ s hs).imp
    fun s' h => ⟨?_, h.2⟩
  · exact fun s hs => { hs with
      energy := fun h hh => (Option.some.inj hh).symm
      reported := fun E h => absurd (hr.symm.trans h) (by simp) }
  · rw [← h.1, hs.prim, hs.params, hr]
    rfl

theorem cfollows_doStateCI (hv : ValidKappa e.kappaIdx) (r : CircRef e) : CFollows (e := e) r doStateCI r () :=
  (cfollows_readH hv r).bind ((cfollows_readG hv r).bind (cfollows_modify (r' := r) fun s hs =>
    { hs with states := fun x hx => by rw [hs.prim, hs.params] at hx ⊢; cases hx; exact ⟨rfl, rfl⟩ }))

theorem doStateCI_stateE (hv : ValidKappa e.kappaIdx) {r : CircRef e} {s : CircObj e} (hs : CircInv e r s) :
    ∃ s', doStateCI s = (.ok (), s') ∧ CircInv e r s' ∧ s'.stateE = some r.energies ∧ s'.stateC = some (some r.coeffs) := by
  obtain ⟨s1, a1, b1⟩ := cfollows_readH hv r s hs
  obtain ⟨s2, a2, b2⟩ := cfollows_readG hv r s1 b1
  obtain ⟨s3, a3, b3⟩ := cfollows_doStateCI hv r s hs
  have h : s3 = { s2 with stateE := some (e.stateE s2.prim s2.params r.h r.g), stateC := some (some (e.stateC s2.prim s2.params r.h r.g)) } := by
    unfold doStateCI at a3
    rw [CircM.bind_ok a1, CircM.bind_ok a2] at a3
    cases a3
    rfl
  refine ⟨s3, a3, b3, ?_⟩
  have hE : s3.stateE = some r.energies := by
    rw [h]
    simp only [b2.prim, b2.params]
    rfl
  exact ⟨hE, (b3.states _ hE).2⟩

theorem readStates_eq (hv : ValidKappa e.kappaIdx) (hsa : e.sa = true) {r : CircRef e} {s : CircObj e} (hs : CircInv e r s) :
    ∃ s', readStates s = (.ok r.energies, s') ∧ CircInv e r s' ∧ s'.stateE = some r.energies ∧
      s'.stateC = some (some r.coeffs) := by
  unfold readStates
  rw [if_neg (by simp [hsa]), CircM.bind_get]
  cases hc : s.stateE with
  | some x =>
    obtain ⟨rfl, h⟩ := hs.states x hc
    exact ⟨s, rfl, hs, hc, h⟩
  | none =>
    obtain ⟨s', a1, b1, c1, d1⟩ := doStateCI_stateE hv hs
    refine ⟨s', ?_, b1, c1, d1⟩
    dsimp only
    rw [CircM.bind_ok a1, CircM.bind_get, c1]
    rfl

/-- The coefficients `get_transition_property` uses. -/
theorem transitionProp_eq (hv : ValidKappa e.kappaIdx) (hsa : e.sa = true) {r : CircRef e} {s : CircObj e} (hs : CircInv e r s)
    (ao : Matrix (Fin e.n) (Fin e.n) ℝ) {o : Option e.Co} (ho : s.stateC = some o) :
    ∃ s', transitionProp ao s = (.ok (r.moments (o.getD r.coeffs) ao), s') ∧ CircInv e r s' ∧
      s'.stateC = some (some (o.getD r.coeffs)) ∧ (o ≠ none → s' = s) := by
  unfold transitionProp
  rw [if_neg (by simp [hsa]), CircM.bind_get, ho]
  cases o with
  | some c =>
    refine ⟨s, ?_, hs, ho, fun _ => rfl⟩
    dsimp only
    obtain ⟨s1, a1, -⟩ := cfollows_readCMo hv r s hs
    have : s1 = s := by
      rw [circ_readCMo_eq hv s (by rw [hs.kappa, hs.kappaLen]) (by rw [hs.kappaOld, hs.kappaLen])] at a1
      exact (congrArg Prod.snd a1).symm
    subst this
    change (readCMo >>= _) s1 = _
    rw [CircM.bind_ok a1, CircM.bind_get, ho, hs.prim, hs.params]
    rfl
  | none =>
    obtain ⟨s1, a1, b1, c1, d1⟩ := doStateCI_stateE hv hs
    refine ⟨s1, ?_, b1, d1, fun h => absurd rfl h⟩
    dsimp only
    obtain ⟨s2, a2, -⟩ := cfollows_readCMo hv r s1 b1
    have : s2 = s1 := by
      rw [circ_readCMo_eq hv s1 (by rw [b1.kappa, b1.kappaLen]) (by rw [b1.kappaOld, b1.kappaLen])] at a2
      exact (congrArg Prod.snd a2).symm
    subst this
    rw [CircM.bind_ok a1, CircM.bind_ok a2, CircM.bind_get, d1, b1.prim, b1.params]
    rfl

theorem transitionProp_none (ao : Matrix (Fin e.n) (Fin e.n) ℝ) {s : CircObj e} (h : s.stateC = none) :
    transitionProp ao s = (.error .attributeError, s) := by
  unfold transitionProp
  by_cases hsa : e.sa = true
  · rw [if_neg (by simp [hsa]), CircM.bind_get, h]; rfl
  · rw [if_pos (by simpa using hsa)]; rfl

/-! ### What is kept whether a method returns or raises -/

/-- The state follows some reference, whose orbitals are the initial ones after rotations. -/
def CFollowed (e : CircEnv) (s : CircObj e) : Prop := ∃ r, CircInv e r s ∧ RotOf e.mo r.orb

def CKeeps (P : CircObj e → Prop) (m : CircM e α) : Prop := ∀ s, P s → P (m s).2

theorem CKeeps.bind {P : CircObj e → Prop} {m : CircM e α} {f : α → CircM e β} (h1 : CKeeps P m) (h2 : ∀ a, CKeeps P (f a)) :
    CKeeps P (m >>= f) := by
  intro s hs
  have h := h1 s hs
  change P (CircM.bind m f s).2
  unfold CircM.bind
  match hm : m s with
  | (.ok a, s') => rw [hm] at h; exact h2 a s' h
  | (.error x, s') => rw [hm] at h; exact h

theorem CKeeps.get {P : CircObj e → Prop} {f : CircObj e → CircM e β} (h : ∀ s, P s → P (f s s).2) :
    CKeeps P (CircM.get >>= f) := fun s hs => h s hs

theorem CKeeps.pure {P : CircObj e → Prop} (a : α) : CKeeps P (pure a : CircM e α) := fun _ hs => hs

theorem CKeeps.raise {P : CircObj e → Prop} (x : PyErr) : CKeeps P (CircM.raise x : CircM e α) := fun _ hs => hs

theorem CKeeps.modify {P : CircObj e → Prop} {f : CircObj e → CircObj e} (h : ∀ s, P s → P (f s)) :
    CKeeps P (CircM.modify f) := h

theorem ckeeps_of {m : CircM e α} {f : CircRef e → CircRef e} {v : CircRef e → α} (h : ∀ r, CFollows r m (f r) (v r))
    (hr : ∀ r : CircRef e, RotOf e.mo r.orb → RotOf e.mo (f r).orb := by exact fun _ h => h) : CKeeps (CFollowed e) m := by
  rintro s ⟨r, hs, ho⟩
  exact ⟨_, (h r).snd hs, hr r ho⟩

theorem ckeeps_setThetas (t : List ℝ) : CKeeps (CFollowed e) (setThetas t) :=
  fun _ ⟨_, hs, ho⟩ => ⟨_, circ_setThetas_inv hs t, ho⟩

theorem ckeeps_primitive (p : PrimArg e) : CKeeps (CFollowed e) (changePrimitive p) := by
  cases p with
  | sampler p => exact ckeeps_of fun r => cfollows_primitive r p
  | estimator => exact CKeeps.raise _
  | other => exact CKeeps.raise _

theorem ckeeps_transition (hv : ValidKappa e.kappaIdx) (ao : Matrix (Fin e.n) (Fin e.n) ℝ) {r : CircRef e} :
    CKeeps (CircInv e r) (transitionProp ao) := by
  intro s hs
  by_cases hsa : e.sa = true
  · cases h : s.stateC with
    | none => rw [transitionProp_none ao h]; exact hs
    | some o =>
      obtain ⟨s', a, b, -⟩ := transitionProp_eq hv hsa hs ao h
      rw [a]
      exact b
  · unfold transitionProp
    rw [if_pos (by simpa using hsa)]
    exact hs

theorem ckeeps_readStates (hv : ValidKappa e.kappaIdx) {r : CircRef e} : CKeeps (CircInv e r) (readStates (e := e)) := by
  intro s hs
  by_cases hsa : e.sa = true
  · obtain ⟨s', a, b, -⟩ := readStates_eq hv hsa hs
    rw [a]
    exact b
  · unfold readStates
    rw [if_pos (by simpa using hsa)]
    exact hs

theorem ckeeps_oscillators (hv : ValidKappa e.kappaIdx) {r : CircRef e} : CKeeps (CircInv e r) (oscillators (e := e)) :=
  (ckeeps_transition hv _).bind fun _ => (ckeeps_transition hv _).bind fun _ => (ckeeps_transition hv _).bind fun _ =>
    (ckeeps_readStates hv).bind fun _ => CKeeps.pure _

theorem circ_inv_init : CircInv e (CircRef.start e) (CircObj.init e) :=
  ⟨rfl, rfl, rfl, rfl, by simp [CircRef.start], rfl, by simp [CircRef.start], fun _ h => (nomatch h), fun _ h => (nomatch h),
    fun _ h => (nomatch h), fun _ h => (nomatch h), fun _ h => (nomatch h), fun _ h => (nomatch h), fun _ h => (nomatch h),
    fun _ h => (nomatch h), fun _ h => (nomatch h)⟩

theorem circ_inv_run (hv : ValidKappa e.kappaIdx) {r : CircRef e} {s : CircObj e} (hs : CircInv e r s) {op : CircOp e}
    (hop : op.Fits) : CircInv e (op.ref r) (op.run s) := by
  cases op with
  | setKappa k arr => exact (cfollows_setKappa hv r hop arr).snd hs
  | setThetas t => exact circ_setThetas_inv hs t
  | primitive p =>
    cases p with
    | sampler p => exact (cfollows_primitive r p).snd hs
    | estimator => exact hs
    | other => exact hs
  | cMo => exact (cfollows_readCMo hv r).snd hs
  | hMo => exact (cfollows_readH hv r).snd hs
  | gMo => exact (cfollows_readG hv r).snd hs
  | rdm1 => exact (cfollows_readRdm1 r).snd hs
  | rdm2 => exact (cfollows_readRdm2 r).snd hs
  | rdm3 =>
    by_cases hsa : e.sa = true
    · have : readRdm3 s = (.error .attributeError, s) := by unfold readRdm3; rw [if_pos hsa]; rfl
      simp only [CircOp.run, CircOp.ref]; rw [this]; exact hs
    · exact (cfollows_readRdm3 (by simpa using hsa) r).snd hs
  | rdm4 =>
    by_cases hsa : e.sa = true
    · have : readRdm4 s = (.error .attributeError, s) := by unfold readRdm4; rw [if_pos hsa]; rfl
      simp only [CircOp.run, CircOp.ref]; rw [this]; exact hs
    · exact (cfollows_readRdm4 (by simpa using hsa) r).snd hs
  | energy => exact (cfollows_readEnergy hv r).snd hs
  | states => exact ckeeps_readStates hv s hs
  | transition ao => exact ckeeps_transition hv ao s hs
  | oscillators => exact ckeeps_oscillators hv s hs

theorem circ_inv_ops (hv : ValidKappa e.kappaIdx) : ∀ (ops : List (CircOp e)) {r : CircRef e} {s : CircObj e},
    (∀ op ∈ ops, op.Fits) → CircInv e r s →
    CircInv e (ops.foldl (fun r op => op.ref r) r) (ops.foldl (fun s op => op.run s) s) := by
  intro ops
  induction ops with
  | nil => intro r s _ hs; exact hs
  | cons op ops ih =>
    intro r s hw hs
    exact ih (fun o ho => hw o (List.mem_cons_of_mem _ ho)) (circ_inv_run hv hs (hw op (by simp)))

theorem circ_ops_reported : ∀ (ops : List (CircOp e)) (r : CircRef e), r.reported = none →
    (ops.foldl (fun r op => op.ref r) r).reported = none := by
  intro ops
  induction ops with
  | nil => intro r h; exact h
  | cons op ops ih =>
    intro r h
    apply ih
    cases op with
    | primitive p => cases p <;> first | rfl | exact h
    | setThetas t => rfl
    | setKappa k arr => rfl
    | _ => exact h

/-! ### Transition properties -/

theorem transition_after_states (hv : ValidKappa e.kappaIdx) (hsa : e.sa = true) {r : CircRef e} {s : CircObj e} (hs : CircInv e r s)
    (ao : Matrix (Fin e.n) (Fin e.n) ℝ) :
    let s' := (readStates s).2
    (transitionProp ao s').1 = .ok (r.moments r.coeffs ao) ∧
    (oscillators s').1 = .ok (e.strengths r.energies (r.moments r.coeffs (e.dipole 0)) (r.moments r.coeffs (e.dipole 1))
      (r.moments r.coeffs (e.dipole 2))) := by
  intro s'
  obtain ⟨s1, a, b, c, d⟩ := readStates_eq hv hsa hs
  have h1 : s' = s1 := by change (readStates s).2 = s1; rw [a]
  rw [h1]
  have T : ∀ ao, transitionProp ao s1 = (.ok (r.moments r.coeffs ao), s1) := by
    intro ao
    obtain ⟨s2, a2, -, -, d2⟩ := transitionProp_eq hv hsa b ao d
    rw [a2, d2 (by simp)]
    rfl
  refine ⟨by rw [T], ?_⟩
  unfold oscillators
  rw [CircM.bind_ok (T _), CircM.bind_ok (T _), CircM.bind_ok (T _)]
  obtain ⟨s3, a3, -⟩ := readStates_eq hv hsa b
  rw [CircM.bind_ok a3]
  rfl

theorem transition_after_thetas (hv : ValidKappa e.kappaIdx) (hsa : e.sa = true) {r : CircRef e} {s : CircObj e}
    (hs : CircInv e r s) {t : List ℝ} (ht : t.length = e.numTheta) (ao : Matrix (Fin e.n) (Fin e.n) ℝ) :
    (transitionProp ao (setThetas t s).2).1 = .ok ((r.setThetas t).moments (r.setThetas t).coeffs ao) := by
  have hi := circ_setThetas_inv hs t
  have hc : (setThetas t s).2.stateC = some none := by
    unfold setThetas
    rw [CircM.bind_modify, if_neg (not_not.2 ht)]
    simp only [CircM.modify, hsa, if_true]
  obtain ⟨s', a, -⟩ := transitionProp_eq hv hsa hi ao hc
  rw [a]
  rfl

theorem transition_stale (hv : ValidKappa e.kappaIdx) (hsa : e.sa = true) {r : CircRef e} {s : CircObj e}
    (hs : CircInv e r s) {k : List ℝ} (hk : k.length = e.kappaIdx.length) (arr : Bool) (ao : Matrix (Fin e.n) (Fin e.n) ℝ) :
    let s' := (setKappa k arr (readStates s).2).2
    let r' := r.setKappa k
    (transitionProp ao s').1 = .ok (r'.moments r.coeffs ao) ∧
    (oscillators s').1 = .ok (e.strengths r'.energies (r'.moments r.coeffs (e.dipole 0)) (r'.moments r.coeffs (e.dipole 1))
      (r'.moments r.coeffs (e.dipole 2))) := by
  intro s' r'
  obtain ⟨s1, a, b, c, d⟩ := readStates_eq hv hsa hs
  have h1 := circ_setKappa_eq hv b hk arr
  have hi : CircInv e r' s' := by
    change CircInv e (r.setKappa k) (setKappa k arr (readStates s).2).2
    rw [a]
    exact (cfollows_setKappa hv r hk arr).snd b
  have hd : s'.stateC = some (some r.coeffs) := by
    change (setKappa k arr (readStates s).2).2.stateC = _
    rw [a]
    simp only
    rw [h1]
    exact d
  have T : ∀ ao, transitionProp ao s' = (.ok (r'.moments r.coeffs ao), s') := by
    intro ao
    obtain ⟨s2, a2, -, -, d2⟩ := transitionProp_eq hv hsa hi ao hd
    rw [a2, d2 (by simp)]
    rfl
  refine ⟨by rw [T], ?_⟩
  unfold oscillators
  rw [CircM.bind_ok (T _), CircM.bind_ok (T _), CircM.bind_ok (T _)]
  obtain ⟨s3, a3, -⟩ := readStates_eq hv hsa hi
  rw [CircM.bind_ok a3]
  rfl

theorem transition_stale_primitive (hv : ValidKappa e.kappaIdx) (hsa : e.sa = true) {r : CircRef e} {s : CircObj e}
    (hs : CircInv e r s) (p : e.Prim) (ao : Matrix (Fin e.n) (Fin e.n) ℝ) :
    (transitionProp ao (changePrimitive (.sampler p) (readStates s).2).2).1 = .ok ((r.setPrim p).moments r.coeffs ao) := by
  obtain ⟨s1, a, b, c, d⟩ := readStates_eq hv hsa hs
  rw [a]
  obtain ⟨s2, a2, -⟩ := transitionProp_eq hv hsa ((cfollows_primitive r p).snd b) ao (o := some r.coeffs) d
  rw [a2]
  rfl

end SQ
