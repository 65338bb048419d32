import Verif.Lemmas.WaveFunction
import Verif.Lemmas.MatrixRotation

/-! # Lemmas: callbacks and optimizations -/

namespace SQ

open WFObj

variable {e : WFEnv}

/-! ### Callbacks -/

/-- The reference with the parameters of a callback. -/
noncomputable def WFRef.params (e : WFEnv) (p : List ℝ) (theta kappa : Bool) (r : WFRef e.n) : WFRef e.n :=
  let nk := if kappa then e.kappaIdx.length else 0
  let r := if kappa then r.setKappa e.kappaIdx (p.take nk) true else r
  if theta then r.setThetas (p.drop nk) else r

/-- The energy of the reference: from the density matrices in an orbital optimization (not in the
state-averaged class), otherwise from the state vector. -/
noncomputable def WFRef.E (e : WFEnv) (r : WFRef e.n) (kappa : Bool) : ℝ :=
  let v := e.state r.thetas
  let h := oneTransform r.orb e.hAo
  let g := twoTransform r.orb e.gAo
  if kappa ∧ e.kind ≠ .sa then e.energyRdm h g (e.mkRdm1 v) (e.mkRdm2 v (e.mkRdm1 v)) else e.energy v h g

/-- The gradient of the reference. -/
noncomputable def WFRef.G (e : WFEnv) (r : WFRef e.n) (theta kappa : Bool) : List ℝ :=
  let v := e.state r.thetas
  let h := oneTransform r.orb e.hAo
  let g := twoTransform r.orb e.gAo
  (if kappa then e.gradKappa h g (e.mkRdm1 v) (e.mkRdm2 v (e.mkRdm1 v)) else []) ++
    (if theta then e.gradTheta v r.thetas h g else [])

/-- The number of parameters of a callback. -/
def callSize (e : WFEnv) (theta kappa : Bool) : ℕ :=
  (if kappa then e.kappaIdx.length else 0) + (if theta then e.numTheta else 0)

theorem follows_setParams (hv : ValidKappa e.kappaIdx) (r : WFRef e.n) {p : List ℝ} {theta kappa : Bool}
    (hp : p.length = callSize e theta kappa) :
    Follows (e := e) r (WFObj.setParams p theta kappa) (r.params e p theta kappa) () := by
  unfold callSize at hp
  cases kappa with
  | false =>
    cases theta with
    | false => exact Follows.pure r ()
    | true => exact follows_setThetas r (by simpa using hp)
  | true =>
    have h1 : Follows (e := e) r (WFObj.setKappa (p.take e.kappaIdx.length) true)
        (r.setKappa e.kappaIdx (p.take e.kappaIdx.length) true) () :=
      follows_setKappa hv r (by simp at hp ⊢; omega) true
    cases theta with
    | false => exact h1.bind (Follows.pure _ ())
    | true => exact h1.bind (follows_setThetas _ (by rw [List.length_drop, hp]; simp))

theorem follows_callbackEnergy (hv : ValidKappa e.kappaIdx) (r : WFRef e.n) (kappa : Bool) :
    Follows (e := e) r (callbackEnergy kappa) r (r.E e kappa) := by
  unfold callbackEnergy WFRef.E
  split_ifs with h
  · exact (follows_readH hv r).bind ((follows_readG hv r).bind ((follows_readRdm1 r).bind ((follows_readRdm2 r).bind
      (Follows.pure r _))))
  · exact (follows_readCI r).bind ((follows_readH hv r).bind ((follows_readG hv r).bind (Follows.pure r _)))

theorem follows_gradCall (hv : ValidKappa e.kappaIdx) (r : WFRef e.n) {p : List ℝ} {theta kappa : Bool}
    (hp : p.length = callSize e theta kappa) :
    Follows (e := e) r (gradCall p theta kappa) (r.params e p theta kappa) ((r.params e p theta kappa).G e theta kappa) := by
  unfold gradCall
  refine (follows_setParams hv r hp).bind ?_
  generalize r.params e p theta kappa = r'
  have hk : ∀ {f : List ℝ → WFM e (List ℝ)} {v : List ℝ},
      Follows (e := e) r' (f (e.gradKappa (oneTransform r'.orb e.hAo) (twoTransform r'.orb e.gAo)
        (e.mkRdm1 (e.state r'.thetas)) (e.mkRdm2 (e.state r'.thetas) (e.mkRdm1 (e.state r'.thetas))))) r' v →
      Follows (e := e) r' (do
        let h ← readH
        let g ← readG
        let d1 ← readRdm1
        let d2 ← readRdm2
        let gk ← pure (e.gradKappa h g d1 d2)
        f gk) r' v := fun h =>
    (follows_readH hv r').bind ((follows_readG hv r').bind ((follows_readRdm1 r').bind ((follows_readRdm2 r').bind
      ((Follows.pure r' _).bind h))))
  have ht : ∀ {f : List ℝ → WFM e (List ℝ)} {v : List ℝ},
      Follows (e := e) r' (f (e.gradTheta (e.state r'.thetas) r'.thetas (oneTransform r'.orb e.hAo) (twoTransform r'.orb e.gAo)))
        r' v →
      Follows (e := e) r' (do
        let h ← readH
        let g ← readG
        let v ← readCI
        let s ← WFM.get
        let gt ← pure (e.gradTheta v s.thetas h g)
        f gt) r' v := fun h => by
    refine (follows_readH hv r').bind ((follows_readG hv r').bind ((follows_readCI r').bind ?_))
    intro s hs
    rw [WFM.bind_get, hs.thetas]
    exact (Follows.pure r' _).bind h s hs
  cases kappa with
  | false =>
    cases theta with
    | false => exact (Follows.pure r' []).bind ((Follows.pure r' []).bind (Follows.pure r' _))
    | true => exact (Follows.pure r' []).bind (ht (Follows.pure r' _))
  | true =>
    cases theta with
    | false => exact hk ((Follows.pure r' []).bind (Follows.pure r' _))
    | true => exact hk (ht (Follows.pure r' _))

/-- Two parameter vectors the energy callback does not tell apart. -/
def Close (a b : List ℝ) : Prop := ∀ x ∈ List.zipWith (· - ·) a b, |x| < 1 / 10 ^ 14

theorem energyCall_close {s : WFObj e} {p : List ℝ} {theta kappa : Bool} (hl : s.oldParams.length = p.length) (hp : p ≠ [])
    (hc : Close s.oldParams p) : energyCall p theta kappa s = (.ok s.eOptOld, s) := by
  unfold energyCall
  rw [WFM.bind_get]
  simp only [arrSub_eq hl]
  rw [if_neg (by rw [List.length_zipWith, hl, min_self]; exact fun h => hp (List.eq_nil_of_length_eq_zero h)),
    if_pos (by rw [List.all_eq_true]; exact fun x hx => by simpa using hc x hx)]
  rfl

theorem energyCall_fresh (hv : ValidKappa e.kappaIdx) {r : WFRef e.n} {s : WFObj e} (hs : WFInv e r s) {p : List ℝ}
    {theta kappa : Bool} (hl : s.oldParams.length = p.length) (hf : p.length = callSize e theta kappa)
    (hc : ¬Close s.oldParams p) :
    ∃ s', energyCall p theta kappa s = (.ok ((r.params e p theta kappa).E e kappa), s') ∧
      WFInv e (r.params e p theta kappa) s' ∧ s'.oldParams = p ∧ s'.eOptOld = (r.params e p theta kappa).E e kappa := by
  have hp : p ≠ [] := by
    rintro rfl
    apply hc
    intro x hx
    simp at hx
  have key : Follows (e := e) r (do WFObj.setParams p theta kappa; callbackEnergy kappa) (r.params e p theta kappa)
      ((r.params e p theta kappa).E e kappa) :=
    (follows_setParams hv r hf).bind (follows_callbackEnergy hv _ kappa)
  obtain ⟨s1, a1, b1, -⟩ := follows_setParams hv r hf s hs
  obtain ⟨s2, a2, b2, -⟩ := follows_callbackEnergy hv (r.params e p theta kappa) kappa s1 b1
  refine ⟨{ s2 with eOptOld := (r.params e p theta kappa).E e kappa, oldParams := p }, ?_, { b2 with }, rfl, rfl⟩
  unfold energyCall
  rw [WFM.bind_get]
  simp only [arrSub_eq hl]
  rw [if_neg (by rw [List.length_zipWith, hl, min_self]; exact fun h => hp (List.eq_nil_of_length_eq_zero h)), if_neg]
  · rw [WFM.bind_ok a1, WFM.bind_ok a2]
    rfl
  · intro h
    apply hc
    intro x hx
    have := List.all_eq_true.1 h x hx
    simpa using this

/-! ### Path independence -/

theorem zipWith_sub_add : ∀ {a b : List ℝ}, a.length = b.length → List.zipWith (· + ·) (List.zipWith (· - ·) a b) b = a := by
  intro a
  induction a with
  | nil => intro b _; simp
  | cons x a ih =>
    intro b h
    cases b with
    | nil => simp at h
    | cons y b => simp only [List.zipWith_cons_cons]; rw [ih (by simpa using h), sub_add_cancel]

/-- With commuting generators, the orbitals rotated back to zero parameters never change. -/
theorem setKappa_back (hc : CommutingKappa e.kappaIdx) {r : WFRef e.n} (hk : r.kappa.length = e.kappaIdx.length)
    {k : List ℝ} (hl : k.length = e.kappaIdx.length) (arr : Bool) :
    (r.setKappa e.kappaIdx k arr).orb * NormedSpace.exp (rotGen e.kappaIdx k) =
      r.orb * NormedSpace.exp (rotGen e.kappaIdx r.kappa) := by
  simp only [WFRef.setKappa]
  rw [Matrix.mul_assoc]
  congr 1
  have h1 : rotGen e.kappaIdx k = rotGen e.kappaIdx (List.zipWith (· - ·) k r.kappa) + rotGen e.kappaIdx r.kappa := by
    rw [← rotGen_add _ _ _ (by simp [hl, hk]) hk, zipWith_sub_add (hl.trans hk.symm)]
  rw [h1, ← Matrix.exp_add_of_commute, neg_add_cancel_left]
  exact ((Commute.refl _).neg_left).add_right ((rotGen_commute hc _ _).neg_left)

end SQ
