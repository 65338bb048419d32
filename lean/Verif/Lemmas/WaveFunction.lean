import Verif.Model.WaveFunction
import Verif.Spec.WaveFunction

/-! # Lemmas: the cached quantities follow the parameters -/

namespace SQ

open WFObj

variable {e : WFEnv}

theorem WFM.bind_ok {α β : Type} {m : WFM e α} {f : α → WFM e β} {s s' : WFObj e} {a : α} (h : m s = (.ok a, s')) :
    (m >>= f) s = f a s' := by
  change WFM.bind m f s = _
  unfold WFM.bind
  rw [h]

theorem WFM.bind_get {β : Type} (f : WFObj e → WFM e β) (s : WFObj e) : (WFM.get >>= f) s = f s s := rfl

theorem WFM.bind_modify {β : Type} (g : WFObj e → WFObj e) (f : Unit → WFM e β) (s : WFObj e) :
    (WFM.modify g >>= f) s = f () (g s) := rfl

/-! ### The rotation matrix -/

theorem setEntry_add {n : ℕ} {M : Matrix (Fin n) (Fin n) ℝ} {p q : Fin n} (h : M p q = 0) (v : ℝ) :
    setEntry M p q v = M + Matrix.single p q v := by
  ext i j
  unfold setEntry
  rw [Matrix.add_apply, Matrix.single_apply]
  by_cases hi : i = p ∧ j = q
  · rw [if_pos hi, if_pos ⟨hi.1.symm, hi.2.symm⟩, hi.1, hi.2, h, zero_add]
  · rw [if_neg hi, if_neg (fun h => hi ⟨h.1.symm, h.2.symm⟩), add_zero]

theorem kappaMat_fold {n : ℕ} : ∀ (idx : List (Fin n × Fin n)) (k kOld : List ℝ) (M : Matrix (Fin n) (Fin n) ℝ),
    ValidKappa idx → k.length = idx.length → kOld.length = idx.length →
    (∀ x ∈ idx, M x.1 x.2 = 0 ∧ M x.2 x.1 = 0) →
    (k.zip (kOld.zip idx)).foldl (fun M x =>
      setEntry (setEntry M x.2.2.1 x.2.2.2 (x.1 - x.2.1)) x.2.2.2 x.2.2.1 (-(x.1 - x.2.1))) M =
    M + rotGen idx (List.zipWith (· - ·) k kOld) := by
  intro idx
  induction idx with
  | nil =>
    intro k kOld M _ h1 h2 _
    rw [List.length_nil] at h1 h2
    rw [List.eq_nil_of_length_eq_zero h1, List.eq_nil_of_length_eq_zero h2]
    simp [rotGen]
  | cons x idx ih =>
    intro k kOld M hv h1 h2 hM
    obtain ⟨a, k, rfl⟩ := List.exists_cons_of_length_eq_add_one h1
    obtain ⟨b, kOld, rfl⟩ := List.exists_cons_of_length_eq_add_one h2
    obtain ⟨p, q⟩ := x
    have hpq : p < q := hv.2 (p, q) (by simp)
    have hM0 := hM (p, q) (by simp)
    simp only at hM0
    have e1 : setEntry (setEntry M p q (a - b)) q p (-(a - b)) =
        M + (a - b) • (Matrix.single p q 1 - Matrix.single q p 1) := by
      rw [setEntry_add hM0.1, setEntry_add]
      · rw [smul_sub, Matrix.smul_single, Matrix.smul_single, smul_eq_mul, mul_one, ← Matrix.single_neg]
        abel
      · rw [Matrix.add_apply, hM0.2, Matrix.single_apply, if_neg (fun h => absurd h.1 (ne_of_lt hpq)), add_zero]
    have hv' : ValidKappa idx := ⟨(List.nodup_cons.1 hv.1).2, fun y hy => hv.2 y (List.mem_cons_of_mem _ hy)⟩
    rw [List.zip_cons_cons, List.zip_cons_cons, List.foldl_cons]
    simp only
    rw [e1, ih k kOld _ hv' (by simpa using h1) (by simpa using h2)]
    · simp only [rotGen, List.zipWith_cons_cons, List.zip_cons_cons, List.map_cons, List.sum_cons]
      abel
    · intro y hy
      obtain ⟨r, t⟩ := y
      have hrt : r < t := hv.2 (r, t) (List.mem_cons_of_mem _ hy)
      have hne : (p, q) ≠ (r, t) := fun h => (List.nodup_cons.1 hv.1).1 (h ▸ hy)
      have hM1 := hM (r, t) (List.mem_cons_of_mem _ hy)
      simp only at hM1 ⊢
      have n1 : ¬(p = r ∧ q = t) := fun h => hne (Prod.ext h.1 h.2)
      have n2 : ¬(q = r ∧ p = t) := fun h => absurd hpq (not_lt.2 (by rw [h.1, h.2]; exact hrt.le))
      have n3 : ¬(p = t ∧ q = r) := fun h => n2 ⟨h.2, h.1⟩
      have n4 : ¬(q = t ∧ p = r) := fun h => n1 ⟨h.2, h.1⟩
      simp [Matrix.add_apply, Matrix.sub_apply, Matrix.single_apply, hM1.1, hM1.2, n1, n2, n3, n4]

theorem kappaMat_eq {n : ℕ} {idx : List (Fin n × Fin n)} (hv : ValidKappa idx) {k kOld : List ℝ}
    (h1 : k.length = idx.length) (h2 : kOld.length = idx.length) :
    kappaMat idx k kOld = rotGen idx (List.zipWith (· - ·) k kOld) := by
  unfold kappaMat
  rw [kappaMat_fold idx k kOld 0 hv h1 h2 (by simp), zero_add]

theorem rotGen_zero {n : ℕ} (idx : List (Fin n × Fin n)) (d : List ℝ) (h : ∀ x ∈ d, x = 0) : rotGen idx d = 0 := by
  unfold rotGen
  apply List.sum_eq_zero
  intro x hx
  obtain ⟨y, hy, rfl⟩ := List.mem_map.1 hx
  rw [h y.2 (List.of_mem_zip hy).2, zero_smul]

theorem arrSub_eq {a b : List ℝ} (h : a.length = b.length) : arrSub a b = .ok (List.zipWith (· - ·) a b) := by
  unfold arrSub
  rw [if_pos h]

theorem readCMo_eq (hv : ValidKappa e.kappaIdx) (s : WFObj e) (h1 : s.kappa.length = e.kappaIdx.length)
    (h2 : s.kappaOld.length = e.kappaIdx.length) :
    readCMo s = (.ok (s.cMo * NormedSpace.exp (-rotGen e.kappaIdx (List.zipWith (· - ·) s.kappa s.kappaOld))), s) := by
  unfold readCMo
  by_cases h0 : s.kappa.length = 0
  · rw [if_neg (not_not.2 h0), rotGen_zero _ _ (by rw [List.eq_nil_of_length_eq_zero h0]; simp)]
  · rw [if_pos h0, arrSub_eq (h1.trans h2.symm)]
    simp only
    rw [if_neg (by rw [List.length_zipWith, h1, h2, min_self, ← h1]; exact h0)]
    split_ifs with hd
    · rw [kappaMat_eq hv h1 h2]
    · rw [rotGen_zero]
      intro x hx
      by_contra hne
      exact hd (List.any_eq_true.2 ⟨x, hx, by simpa using hne⟩)

/-! ### The invariant -/

/-- Every cached quantity that is present is the one of the reference. -/
structure WFInv (e : WFEnv) (r : WFRef e.n) (s : WFObj e) : Prop where
  cMo : s.cMo = r.orb
  kappa : s.kappa = r.kappa
  kappaOld : s.kappaOld = r.kappa
  kappaLen : r.kappa.length = e.kappaIdx.length
  kappaArr : s.kappaArr = r.arr
  thetas : s.thetas = r.thetas
  thetaLen : r.thetas.length = e.numTheta
  ci : s.ci = some (e.state r.thetas) ∨ (s.ci = none)
  rdm1 : ∀ d, s.rdm1 = some d → d = e.mkRdm1 (e.state r.thetas)
  rdm2 : ∀ d, s.rdm2 = some d → d = e.mkRdm2 (e.state r.thetas) (e.mkRdm1 (e.state r.thetas))
  rdm3 : ∀ d, s.rdm3 = some (some d) → d = e.mkRdm3 (e.state r.thetas) (e.mkRdm1 (e.state r.thetas))
    (e.mkRdm2 (e.state r.thetas) (e.mkRdm1 (e.state r.thetas)))
  rdm4 : ∀ d, s.rdm4 = some (some d) → d = e.mkRdm4 (e.state r.thetas) (e.mkRdm1 (e.state r.thetas))
    (e.mkRdm2 (e.state r.thetas) (e.mkRdm1 (e.state r.thetas)))
    (e.mkRdm3 (e.state r.thetas) (e.mkRdm1 (e.state r.thetas))
      (e.mkRdm2 (e.state r.thetas) (e.mkRdm1 (e.state r.thetas))))
  has3 : s.rdm3.isSome = (e.kind = .ucc ∨ (e.kind = .ups ∧ r.assigned = true))
  has4 : s.rdm4.isSome = (e.kind = .ucc ∨ (e.kind = .ups ∧ r.assigned = true))
  hMo : ∀ h, s.hMo = some h → h = oneTransform r.orb e.hAo
  gMo : ∀ g, s.gMo = some g → g = twoTransform r.orb e.gAo
  energy : ∀ E, s.energy = some E →
    E = r.reported.getD (e.energy (e.state r.thetas) (oneTransform r.orb e.hAo) (twoTransform r.orb e.gAo))
  reported : ∀ E, r.reported = some E → s.energy = some E
  states : ∀ x, s.states = some x →
    x = e.stateCI (e.state r.thetas) (oneTransform r.orb e.hAo) (twoTransform r.orb e.gAo)
  noStates : e.kind ≠ .sa → s.states = none

/-- From a state following `r`, the method returns `v` and ends in a state following `r'`; the memory of
the callbacks is not touched. -/
def Follows {α : Type} (r : WFRef e.n) (m : WFM e α) (r' : WFRef e.n) (v : α) : Prop :=
  ∀ s, WFInv e r s → ∃ s', m s = (.ok v, s') ∧ WFInv e r' s' ∧ s'.oldParams = s.oldParams ∧ s'.eOptOld = s.eOptOld

theorem Follows.bind {α β : Type} {r r' r'' : WFRef e.n} {m : WFM e α} {f : α → WFM e β} {v : α} {w : β}
    (h1 : Follows r m r' v) (h2 : Follows r' (f v) r'' w) : Follows r (m >>= f) r'' w := by
  intro s hs
  obtain ⟨s1, a1, b1, c1, d1⟩ := h1 s hs
  obtain ⟨s2, a2, b2, c2, d2⟩ := h2 s1 b1
  refine ⟨s2, ?_, b2, c2.trans c1, d2.trans d1⟩
  change WFM.bind m f s = _
  unfold WFM.bind
  rw [a1]
  exact a2

theorem Follows.pure {α : Type} (r : WFRef e.n) (v : α) : Follows (e := e) r (pure v) r v :=
  fun s hs => ⟨s, rfl, hs, rfl, rfl⟩

theorem follows_readCMo (hv : ValidKappa e.kappaIdx) (r : WFRef e.n) : Follows (e := e) r readCMo r r.orb := by
  intro s hs
  refine ⟨s, ?_, hs, rfl, rfl⟩
  rw [readCMo_eq hv s (by rw [hs.kappa, hs.kappaLen]) (by rw [hs.kappaOld, hs.kappaLen]), hs.kappa, hs.kappaOld,
    rotGen_zero, neg_zero, NormedSpace.exp_zero, mul_one, hs.cMo]
  intro x hx
  rw [List.zipWith_self] at hx
  obtain ⟨y, -, rfl⟩ := List.mem_map.1 hx
  exact sub_self y

theorem follows_setKappa (hv : ValidKappa e.kappaIdx) (r : WFRef e.n) {k : List ℝ} (hk : k.length = e.kappaIdx.length)
    (arr : Bool) : Follows (e := e) r (setKappa k arr) (r.setKappa e.kappaIdx k arr) () := by
  intro s hs
  have h := readCMo_eq hv
    { s with hMo := none, gMo := none, energy := none, states := if e.kind = .sa then none else s.states, kappa := k, kappaArr := arr }
    hk (by simpa only [hs.kappaOld] using hs.kappaLen)
  refine ⟨{ s with
      hMo := none, gMo := none, energy := none, states := if e.kind = .sa then none else s.states
      kappa := k, kappaArr := arr, kappaOld := k
      cMo := s.cMo * NormedSpace.exp (-rotGen e.kappaIdx (List.zipWith (· - ·) k s.kappaOld)) }, ?_, ?_, rfl, rfl⟩
  · unfold setKappa
    rw [WFM.bind_modify, WFM.bind_ok h]
    rfl
  · refine ⟨by simp only [hs.cMo, hs.kappaOld]; rfl, rfl, rfl, hk, rfl, hs.thetas, hs.thetaLen, hs.ci, hs.rdm1, hs.rdm2,
      hs.rdm3, hs.rdm4, hs.has3, hs.has4, fun _ h => ?_, fun _ h => ?_, fun _ h => ?_, fun _ h => (nomatch h), fun x h => ?_, fun hk => ?_⟩
    · cases h
    · cases h
    · cases h
    · by_cases hsa : e.kind = .sa
      · simp only [if_pos hsa] at h; cases h
      · simp only [if_neg hsa, hs.noStates hsa] at h; cases h
    · simp only [if_neg hk, hs.noStates hk]

theorem follows_setThetas (r : WFRef e.n) {t : List ℝ} (ht : t.length = e.numTheta) :
    Follows (e := e) r (setThetas t) (r.setThetas t) () := by
  intro s hs
  refine ⟨{ s with
    rdm1 := none, rdm2 := none
    rdm3 := if e.kind = .sa then s.rdm3 else some none
    rdm4 := if e.kind = .sa then s.rdm4 else some none
    energy := none
    states := if e.kind = .sa then none else s.states
    thetas := t
    ci := if e.kind = .ups then some (e.state t) else none }, ?_, ?_, rfl, rfl⟩
  · unfold setThetas
    rw [WFM.bind_get]
    rw [if_neg (by rw [hs.thetas, hs.thetaLen]; exact not_not.2 ht)]
    rfl
  · refine ⟨hs.cMo, hs.kappa, hs.kappaOld, hs.kappaLen, hs.kappaArr, rfl, ht, ?_, fun _ h => ?_, fun _ h => ?_, fun _ h => ?_,
      fun _ h => ?_, ?_, ?_, hs.hMo, hs.gMo, fun _ h => ?_, fun _ h => (nomatch h), fun x h => ?_, fun hk => ?_⟩
    · simp only [WFRef.setThetas]
      by_cases hk : e.kind = .ups
      · rw [if_pos hk]; exact Or.inl rfl
      · rw [if_neg hk]; exact Or.inr rfl
    · cases h
    · cases h
    · by_cases hsa : e.kind = .sa
      · have h3 := hs.has3
        rw [hsa] at h3
        simp only [if_pos hsa] at h
        rw [h] at h3
        simp at h3
      · simp [if_neg hsa] at h
    · by_cases hsa : e.kind = .sa
      · have h3 := hs.has4
        rw [hsa] at h3
        simp only [if_pos hsa] at h
        rw [h] at h3
        simp at h3
      · simp [if_neg hsa] at h
    · by_cases hsa : e.kind = .sa
      · have h3 := hs.has3
        simp only [if_pos hsa]
        rw [h3, hsa]
        simp
      · simp only [if_neg hsa, WFRef.setThetas]
        cases hk : e.kind <;> simp_all
    · by_cases hsa : e.kind = .sa
      · have h3 := hs.has4
        simp only [if_pos hsa]
        rw [h3, hsa]
        simp
      · simp only [if_neg hsa, WFRef.setThetas]
        cases hk : e.kind <;> simp_all
    · cases h
    · by_cases hsa : e.kind = .sa
      · simp only [if_pos hsa] at h; cases h
      · simp only [if_neg hsa, hs.noStates hsa] at h; cases h
    · simp only [if_neg hk, hs.noStates hk]

theorem setThetas_wrong (r : WFRef e.n) {t : List ℝ} (ht : t.length ≠ e.numTheta) (s : WFObj e) (hs : WFInv e r s) :
    setThetas t s = (.error .valueError, s) := by
  unfold setThetas
  rw [WFM.bind_get]
  rw [if_pos (by rw [hs.thetas, hs.thetaLen]; exact ht)]
  rfl

theorem follows_readH (hv : ValidKappa e.kappaIdx) (r : WFRef e.n) :
    Follows (e := e) r readH r (oneTransform r.orb e.hAo) := by
  intro s hs
  cases hc : s.hMo with
  | some h =>
    refine ⟨s, ?_, hs, rfl, rfl⟩
    unfold readH
    rw [WFM.bind_get]
    simp only [hc]
    rw [hs.hMo h hc]
    rfl
  | none =>
    obtain ⟨s1, a1, b1, c1, d1⟩ := follows_readCMo hv r s hs
    refine ⟨{ s1 with hMo := some (oneTransform r.orb e.hAo) }, ?_, ?_, c1, d1⟩
    · unfold readH
      rw [WFM.bind_get]
      simp only [hc]
      rw [WFM.bind_ok a1]
      rfl
    · exact { b1 with hMo := fun h hh => by cases hh; rfl }

theorem follows_readG (hv : ValidKappa e.kappaIdx) (r : WFRef e.n) :
    Follows (e := e) r readG r (twoTransform r.orb e.gAo) := by
  intro s hs
  cases hc : s.gMo with
  | some h =>
    refine ⟨s, ?_, hs, rfl, rfl⟩
    unfold readG
    rw [WFM.bind_get]
    simp only [hc]
    rw [hs.gMo h hc]
    rfl
  | none =>
    obtain ⟨s1, a1, b1, c1, d1⟩ := follows_readCMo hv r s hs
    refine ⟨{ s1 with gMo := some (twoTransform r.orb e.gAo) }, ?_, ?_, c1, d1⟩
    · unfold readG
      rw [WFM.bind_get]
      simp only [hc]
      rw [WFM.bind_ok a1]
      rfl
    · exact { b1 with gMo := fun h hh => by cases hh; rfl }

theorem follows_readCI (r : WFRef e.n) : Follows (e := e) r readCI r (e.state r.thetas) := by
  intro s hs
  cases hc : s.ci with
  | some v =>
    have : some v = some (e.state r.thetas) := by
      rcases hs.ci with h | h
      · rw [← hc, h]
      · rw [hc] at h; cases h
    cases this
    refine ⟨s, ?_, hs, rfl, rfl⟩
    unfold readCI
    rw [WFM.bind_get]
    simp only [hc]
    rfl
  | none =>
    refine ⟨{ s with ci := some (e.state s.thetas) }, ?_, { hs with ci := Or.inl (by rw [hs.thetas]) }, rfl, rfl⟩
    unfold readCI
    rw [WFM.bind_get]
    simp only [hc]
    rw [WFM.bind_modify, ← hs.thetas]
    rfl

/-- Storing a value that the invariant allows. -/
theorem follows_modify {r : WFRef e.n} {f : WFObj e → WFObj e} (h : ∀ s, WFInv e r s → WFInv e r (f s))
    (ho : ∀ s, (f s).oldParams = s.oldParams ∧ (f s).eOptOld = s.eOptOld) : Follows (e := e) r (WFM.modify f) r () :=
  fun s hs => ⟨f s, rfl, h s hs, (ho s).1, (ho s).2⟩

theorem follows_store {α : Type} {r : WFRef e.n} {f : WFObj e → WFObj e} {v : α} (h : ∀ s, WFInv e r s → WFInv e r (f s))
    (ho : ∀ s, (f s).oldParams = s.oldParams ∧ (f s).eOptOld = s.eOptOld) :
    Follows (e := e) r (do WFM.modify f; return v) r v :=
  Follows.bind (follows_modify h ho) (Follows.pure r v)

theorem follows_readRdm1 (r : WFRef e.n) : Follows (e := e) r readRdm1 r (e.mkRdm1 (e.state r.thetas)) := by
  intro s hs
  cases hc : s.rdm1 with
  | some d =>
    refine ⟨s, ?_, hs, rfl, rfl⟩
    unfold readRdm1
    rw [WFM.bind_get]
    simp only [hc]
    rw [hs.rdm1 d hc]
    rfl
  | none =>
    have key : Follows (e := e) r (do
        let v ← readCI
        WFM.modify fun s => { s with rdm1 := some (e.mkRdm1 v) }
        return e.mkRdm1 v) r (e.mkRdm1 (e.state r.thetas)) :=
      (follows_readCI r).bind (by
          refine follows_store (fun s hs => ?_) (fun s => ⟨rfl, rfl⟩)
          exact { hs with rdm1 := fun h hh => by cases hh; rfl })
    obtain ⟨s', h1, h2⟩ := key s hs
    refine ⟨s', ?_, h2⟩
    rw [← h1]
    unfold readRdm1
    rw [WFM.bind_get]
    simp only [hc]

theorem follows_readRdm2 (r : WFRef e.n) :
    Follows (e := e) r readRdm2 r (e.mkRdm2 (e.state r.thetas) (e.mkRdm1 (e.state r.thetas))) := by
  intro s hs
  cases hc : s.rdm2 with
  | some d =>
    refine ⟨s, ?_, hs, rfl, rfl⟩
    unfold readRdm2
    rw [WFM.bind_get]
    simp only [hc]
    rw [hs.rdm2 d hc]
    rfl
  | none =>
    have key : Follows (e := e) r (do
        let v ← readCI
        let d1 ← readRdm1
        WFM.modify fun s => { s with rdm2 := some (e.mkRdm2 v d1) }
        return e.mkRdm2 v d1) r _ :=
      (follows_readCI r).bind ((follows_readRdm1 r).bind (by
          refine follows_store (fun s hs => ?_) (fun s => ⟨rfl, rfl⟩)
          exact { hs with rdm2 := fun h hh => by cases hh; rfl }))
    obtain ⟨s', h1, h2⟩ := key s hs
    refine ⟨s', ?_, h2⟩
    rw [← h1]
    unfold readRdm2
    rw [WFM.bind_get]
    simp only [hc]

/-- The three- and four-electron density matrices can be read. -/
def CanRdm (e : WFEnv) (r : WFRef e.n) : Prop := e.kind = .ucc ∨ (e.kind = .ups ∧ r.assigned = true)

theorem follows_readRdm3 (r : WFRef e.n) (hr : CanRdm e r) :
    Follows (e := e) r readRdm3 r (e.mkRdm3 (e.state r.thetas) (e.mkRdm1 (e.state r.thetas))
      (e.mkRdm2 (e.state r.thetas) (e.mkRdm1 (e.state r.thetas)))) := by
  intro s hs
  cases hc : s.rdm3 with
  | none =>
    have := hs.has3
    rw [hc] at this
    exact absurd hr (by unfold CanRdm; rw [← this]; simp)
  | some o =>
    cases o with
    | some d =>
      refine ⟨s, ?_, hs, rfl, rfl⟩
      unfold readRdm3
      rw [WFM.bind_get]
      simp only [hc]
      rw [hs.rdm3 d hc]
      rfl
    | none =>
      have key : Follows (e := e) r (do
          let v ← readCI
          let d1 ← readRdm1
          let d2 ← readRdm2
          WFM.modify fun s => { s with rdm3 := some (some (e.mkRdm3 v d1 d2)) }
          return e.mkRdm3 v d1 d2) r _ :=
        (follows_readCI r).bind ((follows_readRdm1 r).bind ((follows_readRdm2 r).bind (by
          refine follows_store (fun s hs => ?_) (fun s => ⟨rfl, rfl⟩)
          exact { hs with rdm3 := (fun h hh => by cases hh; rfl), has3 := by simp; exact hr })))
      obtain ⟨s', h1, h2⟩ := key s hs
      refine ⟨s', ?_, h2⟩
      rw [← h1]
      unfold readRdm3
      rw [WFM.bind_get]
      simp only [hc]

theorem follows_readRdm4 (r : WFRef e.n) (hr : CanRdm e r) :
    Follows (e := e) r readRdm4 r (e.mkRdm4 (e.state r.thetas) (e.mkRdm1 (e.state r.thetas))
      (e.mkRdm2 (e.state r.thetas) (e.mkRdm1 (e.state r.thetas)))
      (e.mkRdm3 (e.state r.thetas) (e.mkRdm1 (e.state r.thetas))
        (e.mkRdm2 (e.state r.thetas) (e.mkRdm1 (e.state r.thetas))))) := by
  intro s hs
  cases hc : s.rdm4 with
  | none =>
    have := hs.has4
    rw [hc] at this
    exact absurd hr (by unfold CanRdm; rw [← this]; simp)
  | some o =>
    cases o with
    | some d =>
      refine ⟨s, ?_, hs, rfl, rfl⟩
      unfold readRdm4
      rw [WFM.bind_get]
      simp only [hc]
      rw [hs.rdm4 d hc]
      rfl
    | none =>
      have key : Follows (e := e) r (do
          let v ← readCI
          let d1 ← readRdm1
          let d2 ← readRdm2
          let d3 ← readRdm3
          WFM.modify fun s => { s with rdm4 := some (some (e.mkRdm4 v d1 d2 d3)) }
          return e.mkRdm4 v d1 d2 d3) r _ :=
        (follows_readCI r).bind ((follows_readRdm1 r).bind ((follows_readRdm2 r).bind ((follows_readRdm3 r hr).bind
          (by
          refine follows_store (fun s hs => ?_) (fun s => ⟨rfl, rfl⟩)
          exact { hs with rdm4 := (fun h hh => by cases hh; rfl), has4 := by simp; exact hr }))))
      obtain ⟨s', h1, h2⟩ := key s hs
      refine ⟨s', ?_, h2⟩
      rw [← h1]
      unfold readRdm4
      rw [WFM.bind_get]
      simp only [hc]

theorem follows_readEnergy (hv : ValidKappa e.kappaIdx) (r : WFRef e.n) :
    Follows (e := e) r readEnergy r
      (r.reported.getD (e.energy (e.state r.thetas) (oneTransform r.orb e.hAo) (twoTransform r.orb e.gAo))) := by
  intro s hs
  cases hc : s.energy with
  | some d =>
    refine ⟨s, ?_, hs, rfl, rfl⟩
    unfold readEnergy
    rw [WFM.bind_get]
    simp only [hc]
    rw [hs.energy d hc]
    rfl
  | none =>
    have hn : r.reported = none := by
      cases hr : r.reported with
      | none => rfl
      | some E => rw [hs.reported E hr] at hc; cases hc
    rw [hn, Option.getD_none]
    have key : Follows (e := e) r (do
        let v ← readCI
        let h ← readH
        let g ← readG
        WFM.modify fun s => { s with energy := some (e.energy v h g) }
        return e.energy v h g) r _ :=
      (follows_readCI r).bind ((follows_readH hv r).bind ((follows_readG hv r).bind (by
          refine follows_store (fun s hs => ?_) (fun s => ⟨rfl, rfl⟩)
          exact { hs with
            energy := (fun h hh => by cases hh; rw [hn, Option.getD_none]), reported := fun E h => by rw [hn] at h; cases h })))
    obtain ⟨s', h1, h2⟩ := key s hs
    refine ⟨s', ?_, h2⟩
    rw [← h1]
    unfold readEnergy
    rw [WFM.bind_get]
    simp only [hc]

theorem follows_doStateCI (hv : ValidKappa e.kappaIdx) (r : WFRef e.n) (hsa : e.kind = .sa) :
    Follows (e := e) r doStateCI r
      (e.stateCI (e.state r.thetas) (oneTransform r.orb e.hAo) (twoTransform r.orb e.gAo)) :=
  (follows_readH hv r).bind ((follows_readG hv r).bind ((follows_readCI r).bind (by
          refine follows_store (fun s hs => ?_) (fun s => ⟨rfl, rfl⟩)
          exact { hs with states := (fun h hh => by cases hh; rfl), noStates := fun h => absurd hsa h })))

theorem follows_readStates (hv : ValidKappa e.kappaIdx) (r : WFRef e.n) (hsa : e.kind = .sa) :
    Follows (e := e) r readStates r
      (e.stateCI (e.state r.thetas) (oneTransform r.orb e.hAo) (twoTransform r.orb e.gAo)) := by
  intro s hs
  unfold readStates
  rw [if_neg (not_not.2 hsa)]
  cases hc : s.states with
  | some d =>
    refine ⟨s, ?_, hs, rfl, rfl⟩
    rw [WFM.bind_get]
    simp only [hc]
    rw [hs.states d hc]
    rfl
  | none =>
    obtain ⟨s', h1, h2⟩ := follows_doStateCI hv r hsa s hs
    refine ⟨s', ?_, h2⟩
    rw [← h1]
    rw [WFM.bind_get]
    simp only [hc]

/-- The reference of a new object. -/
def WFRef.start (e : WFEnv) : WFRef e.n where
  orb := e.mo
  kappa := List.replicate e.kappaIdx.length 0
  thetas := List.replicate e.numTheta 0
  assigned := false
  arr := false
  reported := none

theorem inv_init (hz : e.state (List.replicate e.numTheta 0) = e.csf) : WFInv e (WFRef.start e) (WFObj.init e) := by
  refine ⟨rfl, rfl, rfl, by simp [WFRef.start], rfl, rfl, by simp [WFRef.start], Or.inl ?_, fun _ h => ?_, fun _ h => ?_,
    fun _ h => ?_, fun _ h => ?_, ?_, ?_, fun _ h => ?_, fun _ h => ?_, fun _ h => ?_, fun _ h => (nomatch h), fun _ h => ?_, fun _ => rfl⟩
  · simp only [WFObj.init, WFRef.start, hz]
  · cases h
  · cases h
  · simp only [WFObj.init] at h; split_ifs at h <;> cases h
  · simp only [WFObj.init] at h; split_ifs at h <;> cases h
  · simp only [WFObj.init, WFRef.start]; split_ifs with hk <;> simp [hk]
  · simp only [WFObj.init, WFRef.start]; split_ifs with hk <;> simp [hk]
  · cases h
  · cases h
  · cases h
  · cases h

end SQ
