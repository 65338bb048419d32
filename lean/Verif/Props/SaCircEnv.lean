import Verif.Lemmas.SaCircEnv
import Verif.Props.CircEnv

/-! # C131: the state-averaged circuit wave function class as a whole -/

namespace SQ

open CircObj

theorem meanEnergy_ok {σ : Type} {el : σ → Dict ℝ → σ → Res ℝ} {L : List σ} {A : Dict ℝ} (hn : 0 < L.length) {f : σ → ℝ}
    (h : ∀ s ∈ L, el s A s = .ok (f s)) : meanEnergy el L A = .ok ((L.map f).sum / L.length) := by
  unfold meanEnergy
  rw [mapM_ok h, ok_bind, if_neg (by rw [List.length_map]; omega), List.length_map]
  rfl

/-- The reference states of an energy average. -/
theorem reference_states {ci : CIInfo} (hs : AnsatzSpace ci ci.nA) {L : List Csf} (hn : 0 < L.length) {amp : Csf → Vec ℝ}
    (h : ∀ s ∈ L, inner (stateOf ci (amp s)) (stateOf ci (amp s)) = 1) :
    Reference ci.nI ci.nA (L.map fun s => core (2 * ci.nI) (stateOf ci (amp s))) := by
  have := C30_reference hs hn (fun a => if h : a < L.length then amp L[a] else 0) fun a ha => by
    rw [dif_pos ha, dot_eq_inner hs.valid]
    exact h _ (List.getElem_mem ha)
  have e : rowStates ci L.length (fun a => if h : a < L.length then amp L[a] else 0) =
      L.map fun s => core (2 * ci.nI) (stateOf ci (amp s)) := by
    refine List.ext_getElem (by simp [rowStates]) fun i h1 h2 => ?_
    rw [List.length_map] at h2
    simp only [rowStates, List.getElem_map, List.getElem_range, dif_pos h2]
  rwa [e] at this

variable {D : SaCircData} {ansatz : List ℝ → List (PGate (2 * D.norb))} {st : AnsatzStruct} {Ts : List (FOp ℝ)}

/-- The states of the wave function with the amplitudes `amp`. -/
noncomputable def SaCircData.fulls (D : SaCircData) (amp : Csf → Vec ℝ) : List (Fock ℝ) :=
  D.states.map fun s => core (2 * D.ci.nI) (stateOf D.ci (amp s))

/-- What the functions of the object mean at the device `dev` and the parameters `θ`. -/
structure SaCircMeans (D : SaCircData) (dev : Device (List (Gate (2 * D.norb)))) (amp : List ℝ → Csf → Vec ℝ) (θ : List ℝ) : Prop where
  rdm : avRdm1 D.tiny (D.value dev θ none) D.ci D.states.length D.states = .ok (D.env.mkRdm1 dev θ) ∧
    avRdm2 D.tiny (D.value dev θ none) D.ci D.states.length D.states = .ok (D.env.mkRdm2 dev θ (D.env.mkRdm1 dev θ))
  isRdm : IsRdm D.ci.nI D.ci.nA (D.fulls (amp θ)) (D.env.mkRdm1 dev θ) (D.env.mkRdm2 dev θ (D.env.mkRdm1 dev θ))
  energy : ∀ h g, D.runEnergy dev θ h g = .ok (mean (D.fulls (amp θ))
    (electronic (natMat h) (natTen g) (D.ci.nI + D.ci.nA + D.ci.nV)))
  callback : ∀ h g, D.runCallback dev θ h g = .ok (mean (D.fulls (amp θ))
    (electronic (natMat h) (natTen g) (D.ci.nI + D.ci.nA + D.ci.nV)))
  energyEnv : ∀ h g, D.env.energy dev θ h g = mean (D.fulls (amp θ))
    (electronic (natMat h) (natTen g) (D.ci.nI + D.ci.nA + D.ci.nV))

theorem mean_elems (hD : D.Ready ansatz st Ts) {amp : Csf → Vec ℝ} {el : Csf → Dict ℝ → Csf → Res ℝ}
    (hx : ExactElems D.ci amp D.states el) {h : ℕ → ℕ → ℝ} {g : ℕ → ℕ → ℕ → ℕ → ℝ} {H : Dict ℝ}
    (h2 : GenOp D.ci H) (h3 : ∀ x y, ActiveState D.ci.nI D.ci.nA x → ActiveState D.ci.nI D.ci.nA y →
      inner x (sumOp H y) = inner x (electronic h g (D.ci.nI + D.ci.nA + D.ci.nV) y)) :
    meanEnergy el D.states (getFolded D.ci.nI D.ci.nA D.ci.nV H) =
      .ok (mean (D.fulls amp) (electronic h g (D.ci.nI + D.ci.nA + D.ci.nV))) := by
  rw [meanEnergy_ok hD.nonempty fun s hs => hx.diag h2 hs]
  unfold mean SaCircData.fulls
  rw [List.map_map, List.length_map]
  congr 3
  exact List.map_congr_left fun s _ => h3 _ _ (emb_active D.ci _) (emb_active D.ci _)

theorem sacirc_means (hD : D.Ready ansatz st Ts) {dev : Device (List (Gate (2 * D.norb)))} {amp : List ℝ → Csf → Vec ℝ}
    {θ : List ℝ} (hx : ExactElems D.ci (amp θ) D.states (D.value dev θ none)) : SaCircMeans D dev amp θ := by
  obtain ⟨⟨R1, R2, r1, r2, hR⟩, hE⟩ := C117_averages (big := D.big) hD.tiny hD.big hD.nonempty hx
  have e1 : D.env.mkRdm1 dev θ = R1 := by
    show okOr _ (avRdm1 D.tiny (D.value dev θ none) D.ci D.states.length D.states) = R1
    rw [r1]; rfl
  have k2 : rdm2Loop (avEE D.tiny (D.value dev θ none) D.ci D.states.length D.states) R1 D.ci.nI D.ci.nA = .ok R2 := by
    have := r2
    unfold avRdm2 at this
    rw [r1] at this
    exact this
  have e2 : D.env.mkRdm2 dev θ R1 = R2 := by
    show okOr _ (rdm2Loop _ R1 _ _) = R2
    rw [k2]; rfl
  have hE' : ∀ h g, D.runEnergy dev θ h g = .ok (mean (D.fulls (amp θ))
    (electronic (natMat h) (natTen g) (D.ci.nI + D.ci.nA + D.ci.nV))) := fun h g => hE (natMat h) (natTen g)
  refine ⟨?_, ?_, hE', fun h g => ?_, fun h g => congrArg (okOr 0) (hE' h g)⟩
  · rw [e1, e2]
    exact ⟨r1, r2⟩
  · rw [e1, e2]
    exact hR
  · obtain ⟨H, h1, h2, h3⟩ := ham0_gen hD.tiny hD.big (natMat h) (natTen g) D.ci
    unfold SaCircData.runCallback
    rw [h1, ok_bind]
    exact mean_elems hD hx h2 h3

/-- The gradient of the ansatz parameters: the parameter-shift rule, with the folded Hamiltonian and averages over the states. -/
theorem sacirc_grad (hD : D.Ready ansatz st Ts) {dev : Device (List (Gate (2 * D.norb)))} {amp : List ℝ → Csf → Vec ℝ}
    (hc : ∀ θ, θ.length = D.names.length → ∀ s ∈ D.states, ExpChain (Ts.zip θ) (csfFock s) (stateOf D.ci (amp θ s)))
    {θ : List ℝ} (hl : θ.length = D.names.length)
    (hx : ∀ x : List ℝ, x.length = D.names.length → ExactElems D.ci (amp x) D.states (D.value dev θ (some x)))
    (h : Matrix (Fin D.n) (Fin D.n) ℝ) (g : Tensor4 (Fin D.n)) :
    ∃ G : List ℝ, D.runGrad dev θ h g = .ok G ∧ G.length = θ.length ∧ ∀ j x y, θ[j]? = some x → G[j]? = some y →
      HasDerivAt (fun t => mean (D.fulls (amp (θ.set j t)))
        (electronic (natMat h) (natTen g) (D.ci.nI + D.ci.nA + D.ci.nV))) y x := by
  obtain ⟨H, h1, h2, h3⟩ := ham0_gen hD.tiny hD.big (natMat h) (natTen g) D.ci
  set F : List ℝ → ℝ := fun x => mean (D.fulls (amp x))
    (electronic (natMat h) (natTen g) (D.ci.nI + D.ci.nA + D.ci.nV)) with hF
  have hval : ∀ x : List ℝ, x.length = θ.length →
      meanEnergy (D.value dev θ (some x)) D.states (getFolded D.ci.nI D.ci.nA D.ci.nV H) = .ok (F x) :=
    fun x hlx => mean_elems hD (hx x (hlx.trans hl)) h2 h3
  have hfold : ∀ x : List ℝ, x.length = θ.length → F x =
      (D.states.map fun s => expv (stateOf D.ci (amp x s)) (sumOp (getFolded D.ci.nI D.ci.nA D.ci.nV H))).sum / D.states.length := by
    intro x hlx
    obtain ⟨f1, f2⟩ := getFolded_inv h2.1 h2.2
    exact Except.ok.inj ((hval x hlx).symm.trans (meanEnergy_ok hD.nonempty (hx x (hlx.trans hl) _ f1 f2).1))
  obtain ⟨l1, g1, g2⟩ := hD.circuits.gens
  have hent : ∀ i ∈ List.range θ.length, ∃ v, (match D.names[i]? with
    | none => .error .indexError
    | some name =>
      match D.R.lookup name with
      | none => .error .keyError
      | some R => do
        let evals ← shiftEvals (fun x => meanEnergy (D.value dev θ (some x)) D.states (getFolded D.ci.nI D.ci.nA D.ci.nV H)) θ i R
        pure (shiftGradient evals R) : Res ℝ) = .ok v ∧ ∀ x, θ[i]? = some x → HasDerivAt (fun t => F (θ.set i t)) v x := by
    intro i hi
    have hi' : i < θ.length := List.mem_range.1 hi
    have hty : i < st.types.length := by rw [← hD.count, ← hl]; exact hi'
    obtain ⟨s, s1, s2⟩ := hD.shifts i _ (List.getElem?_eq_getElem hty)
    obtain ⟨r, T, hR, hT, hg⟩ := g2 i _ (List.getElem?_eq_getElem hty)
    have hch := fun c : Csf => chain_trig hg (Ts := Ts) (θs := θ) (k := i) (by rw [hl, hD.count, l1]) g1 hT (csfFock c)
    choose Y hY hch using hch
    have hr0 : 0 < 2 * r := by
      cases hr : 2 * r with
      | zero =>
        rw [hr] at hR
        have : ∀ ty, gradR ty ≠ some 0 := by intro ty; unfold gradR; split <;> simp
        exact absurd hR (this _)
      | succ m => omega
    have hsum : ∀ l : List Csf, TrigPoly (2 * r) fun s =>
        (l.map fun c => expv (Y c s) (sumOp (getFolded D.ci.nI D.ci.nA D.ci.nV H))).sum := by
      intro l
      induction l with
      | nil => exact TrigPoly.zero _
      | cons c l ih =>
        exact (((hY c).bilin (innerForm (sumOp (getFolded D.ci.nI D.ci.nA D.ci.nV H)))).add ih).congr fun s => by
          rw [List.map_cons, List.sum_cons]
          rfl
    have htrig : TrigPoly (2 * r) fun s => F (θ.set i s) := by
      refine ((hsum D.states).smul (1 / (D.states.length : ℝ))).congr fun s => ?_
      rw [hfold _ (by simp), div_eq_inv_mul, one_div]
      congr 2
      refine List.map_congr_left fun c hcs => ?_
      rw [expChain_unique (hc (θ.set i s) (by simpa using hl) c hcs) (hch c s)]
    obtain ⟨evals, e1, e2⟩ := C45_gradient hr0 (List.getElem?_eq_getElem hi') htrig
    rw [s1]
    simp only
    rw [s2, hR]
    simp only
    rw [shiftEvals_eq hval, e1]
    refine ⟨_, rfl, fun x hx => ?_⟩
    rw [List.getElem?_eq_getElem hi'] at hx
    cases hx
    exact e2
  obtain ⟨G, e1, e2⟩ := mapM_ok_exists _ _ hent
  refine ⟨G, ?_, by simpa using e2.length_eq.symm, fun j x y hx hy => ?_⟩
  · unfold SaCircData.runGrad
    rw [h1]
    exact e1
  · obtain ⟨b1, rfl⟩ := List.getElem?_eq_some_iff.1 hy
    obtain ⟨a1, -⟩ := List.getElem?_eq_some_iff.1 hx
    have := (List.forall₂_iff_get.1 e2).2 j (by simpa using a1) b1
    simp only [List.get_eq_getElem, List.getElem_range] at this
    exact this x hx

/-- C131: none of the functions the object calls raises, for all parameters, orbitals and ideal devices; the energy the optimizers
get and the averaged energy are the same. -/
theorem C131_total (hD : D.Ready ansatz st Ts) (hU : D.InUse ansatz) {dev : Device (List (Gate (2 * D.norb)))}
    (hI : Ideal dev ansatz) {θ : List ℝ} (hl : θ.length = D.names.length) :
    (avRdm1 D.tiny (D.value dev θ none) D.ci D.states.length D.states = .ok (D.env.mkRdm1 dev θ) ∧
      avRdm2 D.tiny (D.value dev θ none) D.ci D.states.length D.states = .ok (D.env.mkRdm2 dev θ (D.env.mkRdm1 dev θ))) ∧
    ∀ h g, D.runEnergy dev θ h g = .ok (D.env.energy dev θ h g) ∧ D.runCallback dev θ h g = .ok (D.env.energy dev θ h g) ∧
      D.runGrad dev θ h g = .ok (D.env.gradTheta dev θ h g) := by
  obtain ⟨amp, hc⟩ := sacirc_family hD hU
  have hm := sacirc_means hD ((hc θ hl).2.2.1 dev hI)
  refine ⟨hm.rdm, fun h g => ⟨okOr_eq (hm.energy h g), ?_, ?_⟩⟩
  · exact (hm.callback h g).trans (congrArg Except.ok (hm.energyEnv h g).symm)
  · obtain ⟨G, g1, -⟩ := sacirc_grad hD (fun x hx => (hc x hx).1) hl (fun x hx => (hc x hx).2.2.2 dev θ hI hl) h g
    exact okOr_eq g1

/-- C131: what was measured before has no influence: any two interfaces that have been constructed and used with ideal
devices and hold the same parameters return the same elements between the states. -/
theorem C131_history (hD : D.Ready ansatz st Ts) {dev dev' : Device (List (Gate (2 * D.norb)))}
    (hI : Ideal dev ansatz) (hI' : Ideal dev' ansatz) {q q' : QI}
    (hq : (D.on dev).Reached q) (hq' : (D.on dev').Reached q') (hf : q.flags.isEnabled = false)
    (hf' : q'.flags.isEnabled = false) (hp : q.params = q'.params) (hl : q.params.length = D.names.length)
    {A : Dict ℝ} (hA : WF A) (hr : ∀ kv ∈ A, ∀ o ∈ kv.1, o.1 < 2 * D.ci.nA) {s t : Csf} (hs : s ∈ D.states) (ht : t ∈ D.states) :
    (quantumExpectationCsfs (D.on dev) none D.opt false s A t q).1 =
      (quantumExpectationCsfs (D.on dev') none D.opt false s A t q').1 := by
  obtain ⟨c, -, -, c3⟩ := sacirc_state hD q.params (hl.trans hD.count)
  rw [c3 dev q none hI hq hf rfl A hA hr s hs t ht, c3 dev' q' none hI' hq' hf' hp.symm A hA hr s hs t ht]

theorem fulls_eq (D : SaCircData) (amp : Csf → Vec ℝ) :
    D.fulls amp = List.ofFn (D.full fun a => stateOf D.ci (amp (D.states.get a))) := by
  refine List.ext_getElem (by simp [SaCircData.fulls]) fun i h1 h2 => ?_
  simp [SaCircData.fulls, SaCircData.full]

theorem mean_fulls (D : SaCircData) (amp : Csf → Vec ℝ) (C : Matrix (Fin D.n) (Fin D.n) ℝ) :
    mean (D.fulls amp) (D.ham C) = D.energyOf C fun a => stateOf D.ci (amp (D.states.get a)) := by
  rw [fulls_eq]
  unfold mean SaCircData.energyOf
  rw [List.length_ofFn, List.map_ofFn, List.sum_ofFn]
  rfl

/-- C131: whatever has been assigned, read and changed before, with an ideal device the energy read is the mean of `⟨ψₐ|H|ψₐ⟩` with
`ψₐ` the given states transformed by the exponentials of the layout at the current parameters, and `H` the Hamiltonian over the
current orbitals; the density matrices read are the averaged ones of the `ψₐ`. -/
theorem C131_values (hD : D.Ready ansatz st Ts) (hU : D.InUse ansatz) (ops : List (CircOp D.env)) (hw : ∀ op ∈ ops, op.Fits)
    (s : CircObj D.env) (hs : s = ops.foldl (fun s op => op.run s) (CircObj.init D.env)) (hI : Ideal s.prim ansatz) :
    ∃ (C : Matrix (Fin D.n) (Fin D.n) ℝ) (ψ : Fin D.states.length → Fock ℝ) (R1 : Mat ℝ) (R2 : Arr4),
      C = (ops.foldl (fun r op => op.ref r) (CircRef.start D.env)).orb ∧ (readCMo s).1 = .ok C ∧
      (∀ a, ExpChain (Ts.zip s.params) (csfFock (D.states.get a)) (ψ a)) ∧
      (readEnergy s).1 = .ok (D.energyOf C ψ) ∧ (readRdm1 s).1 = .ok R1 ∧ (readRdm2 s).1 = .ok R2 ∧
      IsRdm D.ci.nI D.ci.nA (List.ofFn (D.full ψ)) R1 R2 := by
  obtain ⟨amp, hc⟩ := sacirc_family hD hU
  have hi : CircInv D.env _ s := hs ▸ circ_inv_ops (e := D.env) hD.kappa ops hw circ_inv_init
  obtain ⟨h1, -, -, h4, h5, h6, -, -, -⟩ := C118_reads (e := D.env) hD.kappa hw
  rw [← hs] at h1 h4 h5 h6
  generalize ops.foldl (fun r op => op.ref r) (CircRef.start D.env) = r at *
  have hl : r.thetas.length = D.names.length := hi.thetaLen
  rw [hi.prim] at hI
  obtain ⟨c1, -, c3, -⟩ := hc r.thetas hl
  have hm := sacirc_means hD (c3 r.prim hI)
  refine ⟨r.orb, fun a => stateOf D.ci (amp r.thetas (D.states.get a)), _, _, rfl, h1,
    fun a => by rw [hi.params]; exact c1 _ (List.get_mem _ _), ?_, h4, h5, ?_⟩
  · rw [h6]
    refine congrArg Except.ok ((hm.energyEnv _ _).trans ?_)
    refine Eq.trans ?_ (mean_fulls D (amp r.thetas) r.orb)
    rw [← hD.orbs]
    rfl
  · rw [← fulls_eq]
    exact hm.isRdm

/-- The states of `_do_state_ci`. -/
theorem sacirc_states (hD : D.Ready ansatz st Ts) {dev : Device (List (Gate (2 * D.norb)))} {amp : Csf → Vec ℝ} {θ : List ℝ}
    (hx : ExactElems D.ci amp D.states (D.value dev θ none))
    (ho : ∀ s ∈ D.states, ∀ t ∈ D.states, inner (stateOf D.ci (amp s)) (stateOf D.ci (amp t)) = inner (csfFock s) (csfFock t))
    (C : Matrix (Fin D.n) (Fin D.n) ℝ) :
    ∃ e0 es c0 cs, D.runStates dev θ (oneTransform C D.hAo) (twoTransform C D.gAo) = .ok ⟨e0 :: es, c0 :: cs⟩ ∧
      SubspaceEigenstates (D.ham C) (averagedStates D.ci amp D.states)
        ((c0 :: cs).map (superpose (averagedStates D.ci amp D.states))) (e0 :: es) := by
  have hr := natMat_real (transform_real hD.real C)
  have ho' : OrthonormalStates (averagedStates D.ci amp D.states) := fun i j => by
    unfold averagedStates emb
    rw [inner_core, ho _ (List.get_mem _ _) _ (List.get_mem _ _)]
    exact hD.ortho i j
  obtain ⟨⟨es, cs⟩, s1, s2⟩ := C116_states hD.tiny hD.big hD.eig hx ho' hr
  rw [← hD.orbs] at s2
  have n1 := s2.number.2
  have n2 := s2.number.1
  rw [List.length_map] at n2
  have hn := hD.nonempty
  cases es with
  | nil => simp only [List.length_nil] at n1; omega
  | cons e0 es =>
    cases cs with
    | nil => simp only [List.length_nil] at n2; omega
    | cons c0 cs => exact ⟨e0, es, c0, cs, s1, s2⟩

/-- The transition moment of the one-electron operator with the AO integrals `ao` over the orbitals `C`, between the
superpositions `c` and `c'` of the states `ψ`. -/
noncomputable def SaCircData.moment (D : SaCircData) (C ao : Matrix (Fin D.n) (Fin D.n) ℝ) (ψ : Fin D.states.length → Fock ℝ)
    (c c' : Fin D.states.length → ℝ) : ℝ :=
  inner (superpose (D.full ψ) c) (oneOp (natMat (oneTransform C ao)) D.n (superpose (D.full ψ) c'))

theorem natMat_one {n : ℕ} {ao : Matrix (Fin n) (Fin n) ℝ} (h : ∀ a b, ao a b = ao b a) (C : Matrix (Fin n) (Fin n) ℝ) (p q : ℕ) :
    natMat (oneTransform C ao) p q = natMat (oneTransform C ao) q p :=
  (natMat_real (transform_real (g := fun _ _ _ _ => 0) ⟨h, fun _ _ _ _ => rfl, fun _ _ _ _ => rfl⟩ C)).one p q

theorem runStrengths_ok (D : SaCircData) {a b c : Res (List ℝ)} {en x y z ε f : List ℝ} (ha : a = .ok x) (hb : b = .ok y)
    (hc : c = .ok z) (he : excitationEnergies D.states.length en = .ok ε) (hf : saStrengths D.states.length ε x y z = .ok f) :
    D.runStrengths (.ok en) a b c = .ok f := by
  subst ha hb hc
  show (excitationEnergies _ _ >>= _) = _
  rw [he]
  exact hf

theorem sacirc_moments (hD : D.Ready ansatz st Ts) {dev : Device (List (Gate (2 * D.norb)))} {amp : Csf → Vec ℝ} {θ : List ℝ}
    (hx : ExactElems D.ci amp D.states (D.value dev θ none)) {C : Matrix (Fin D.n) (Fin D.n) ℝ} {e0 : ℝ} {es : List ℝ}
    {c0 : Fin D.states.length → ℝ} {cs : List (Fin D.states.length → ℝ)}
    (hS : SubspaceEigenstates (D.ham C) (averagedStates D.ci amp D.states)
        ((c0 :: cs).map (superpose (averagedStates D.ci amp D.states))) (e0 :: es)) :
    (∀ ao : Matrix (Fin D.n) (Fin D.n) ℝ, (∀ a b, ao a b = ao b a) →
      D.env.transition dev θ (.ok (c0 :: cs)) (oneTransform C ao) =
        .ok (cs.map fun c => D.moment C ao (fun a => stateOf D.ci (amp (D.states.get a))) c c0)) ∧
    ((∀ k a b, D.dipole k a b = D.dipole k b a) → ∃ f : List ℝ,
      D.env.strengths (.ok (e0 :: es)) (D.env.transition dev θ (.ok (c0 :: cs)) (oneTransform C (D.dipole 0)))
        (D.env.transition dev θ (.ok (c0 :: cs)) (oneTransform C (D.dipole 1)))
        (D.env.transition dev θ (.ok (c0 :: cs)) (oneTransform C (D.dipole 2))) = .ok f ∧
        f.length = D.states.length - 1 ∧ (∀ x ∈ f, 0 ≤ x) ∧
        ∀ (k : ℕ) c e, cs[k]? = some c → es[k]? = some e →
          let t := fun i => D.moment C (D.dipole i) (fun a => stateOf D.ci (amp (D.states.get a))) c c0
          f[k]? = some (2 / 3 * (e - e0) * (t 0 ^ 2 + t 1 ^ 2 + t 2 ^ 2))) := by
  have hn1 := hS.number.1
  rw [List.length_map, List.length_cons] at hn1
  have tr : ∀ ao : Matrix (Fin D.n) (Fin D.n) ℝ, D.env.transition dev θ (.ok (c0 :: cs)) (oneTransform C ao) =
      transitionProperty D.tiny D.big (D.value dev θ none) D.ci D.states.length D.states (c0 :: cs)
          (natMat (oneTransform C ao)) := fun _ => rfl
  refine ⟨fun ao hao => ?_, fun hdip => ?_⟩
  · refine (tr ao).trans ?_
    rw [C116_transition hD.tiny hD.big hx (natMat_one hao C) hn1]
    unfold SaCircData.moment
    rw [← hD.orbs]
    rfl
  · obtain ⟨ε, tx, ty, tz, f, f1, f2, f3, f4, f5, f6, f7, f8⟩ := C116_strengths hD.tiny hD.big hx
      (natMat_one (hdip 0) C) (natMat_one (hdip 1) C) (natMat_one (hdip 2) C) hS
    refine ⟨f, ?_, f6, f7, fun k c e hk he => ?_⟩
    · exact runStrengths_ok D f2 f3 f4 f1 f5
    · have := f8 k c e hk he
      rw [← hD.orbs] at this
      exact this

/-- C131: whatever has been assigned, read, changed and optimized before, with an ideal device the energies of the states read are
those of the eigenstates of the Hamiltonian over the current orbitals in the span of the states at the current parameters; and
transition properties and oscillator strengths read then are those of these eigenstates. -/
theorem C131_states (hD : D.Ready ansatz st Ts) (hU : D.InUse ansatz) {s : CircObj D.env} (hs : CircHistory D.env s)
    (hI : Ideal s.prim ansatz) :
    ∃ (C : Matrix (Fin D.n) (Fin D.n) ℝ) (ψ : Fin D.states.length → Fock ℝ) (e0 : ℝ) (es : List ℝ)
        (c0 : Fin D.states.length → ℝ) (cs : List (Fin D.states.length → ℝ)),
      (readCMo s).1 = .ok C ∧ (∀ a, ExpChain (Ts.zip s.params) (csfFock (D.states.get a)) (ψ a)) ∧
      (readStates s).1 = .ok (.ok (e0 :: es)) ∧
      SubspaceEigenstates (D.ham C) (D.full ψ) ((c0 :: cs).map (superpose (D.full ψ))) (e0 :: es) ∧
      (∀ ao : Matrix (Fin D.n) (Fin D.n) ℝ, (∀ a b, ao a b = ao b a) →
        (transitionProp (e := D.env) ao (readStates s).2).1 = .ok (.ok (cs.map fun c => D.moment C ao ψ c c0))) ∧
      ((∀ k a b, D.dipole k a b = D.dipole k b a) → ∃ f : List ℝ, (oscillators (readStates s).2).1 = .ok (.ok f) ∧
        f.length = D.states.length - 1 ∧ (∀ x ∈ f, 0 ≤ x) ∧
        ∀ (k : ℕ) c e, cs[k]? = some c → es[k]? = some e → f[k]? = some (2 / 3 * (e - e0) *
          (D.moment C (D.dipole 0) ψ c c0 ^ 2 + D.moment C (D.dipole 1) ψ c c0 ^ 2 + D.moment C (D.dipole 2) ψ c c0 ^ 2))) := by
  obtain ⟨amp, hc⟩ := sacirc_family hD hU
  obtain ⟨C, h1, -, -, -, -, h6, -, h8⟩ := C118_history (e := D.env) hD.kappa hs
  have h6 := h6 rfl
  have hl : s.params.length = D.names.length := h8
  obtain ⟨a1, a2, a3, -⟩ := hc s.params hl
  have hx := a3 s.prim hI
  obtain ⟨e0, es, c0, cs, b1, b2⟩ := sacirc_states hD hx a2 C
  have eE : D.env.stateE s.prim s.params (oneTransform C D.env.hAo) (twoTransform C D.env.gAo) = .ok (e0 :: es) :=
    congrArg (Except.map StateCI.energies) b1
  have eC : D.env.stateC s.prim s.params (oneTransform C D.env.hAo) (twoTransform C D.env.gAo) = .ok (c0 :: cs) :=
    congrArg (Except.map StateCI.coeffs) b1
  obtain ⟨m1, m2⟩ := sacirc_moments hD hx b2
  have fresh : freshCoeffs s C = .ok (c0 :: cs) := eC
  have part := fun ao => C119_transition_partial (e := D.env) hD.kappa rfl hs ao
  refine ⟨C, fun a => stateOf D.ci (amp s.params (D.states.get a)), e0, es, c0, cs, h1, fun a => a1 _ (List.get_mem _ _),
    h6.trans (congrArg Except.ok eE), b2, fun ao hao => ?_, fun hdip => ?_⟩
  · obtain ⟨C', E, p1, -, p3, -⟩ := part ao
    obtain rfl : C = C' := Except.ok.inj (h1.symm.trans p1)
    rw [fresh] at p3
    exact p3.trans (congrArg Except.ok (m1 ao hao))
  · obtain ⟨C', E, p1, p2, -, p4⟩ := part 0
    obtain rfl : C = C' := Except.ok.inj (h1.symm.trans p1)
    have hE : E = .ok (e0 :: es) := (Except.ok.inj (p2.symm.trans h6)).trans eE
    obtain ⟨f, f1, f2, f3, f4⟩ := m2 hdip
    rw [fresh, hE] at p4
    exact ⟨f, p4.trans (congrArg Except.ok f1), f2, f3, f4⟩

/-- The energy at orbitals that are rotated. -/
theorem sacirc_kappa_energy {dev : Device (List (Gate (2 * D.norb)))} {amp : List ℝ → Csf → Vec ℝ} {θ : List ℝ}
    (hm : SaCircMeans D dev amp θ) (ho : D.n = D.ci.nI + D.ci.nA + D.ci.nV) (C : Matrix (Fin D.n) (Fin D.n) ℝ) :
    D.env.energy dev θ (oneTransform C D.hAo) (twoTransform C D.gAo) = orbitalEnergy D.hAo D.gAo (D.fulls (amp θ)) C := by
  rw [hm.energyEnv, ← ho]
  rfl

/-- The averaged energy after a rotation of the orbitals `C` by `t` along `dir`. -/
noncomputable def SaCircData.orbEnergyAt (D : SaCircData) (amp : Csf → Vec ℝ) (C : Matrix (Fin D.n) (Fin D.n) ℝ) (dir : List ℝ)
    (t : ℝ) : ℝ := orbitalEnergy D.hAo D.gAo (D.fulls amp) (C * NormedSpace.exp (-rotGen D.kappaIdx (dir.map (t * ·))))

/-- C131: whatever has been done before, with an ideal device the gradient the optimizers get at the current parameters
consists of the partial derivatives of the averaged energy: entry `i` of the orbital part is the derivative of the energy read
after assigning `t` to the `i`-th orbital parameter, entry `j` of the ansatz part of the energy read after assigning `t` to the
`j`-th ansatz parameter. -/
theorem C131_gradient (hD : D.Ready ansatz st Ts) (hU : D.InUse ansatz) (ops : List (CircOp D.env)) (hw : ∀ op ∈ ops, op.Fits)
    (s : CircObj D.env) (hs : s = ops.foldl (fun s op => op.run s) (CircObj.init D.env)) (hI : Ideal s.prim ansatz) :
    ∃ Gκ Gθ : List ℝ, (gradCall (s.kappa ++ s.params) true true s).1 = .ok (Gκ ++ Gθ) ∧
      Gκ.length = s.kappa.length ∧ Gθ.length = s.params.length ∧
      (∀ i x y, s.kappa[i]? = some x → Gκ[i]? = some y → ∀ arr, ∃ f : ℝ → ℝ,
        (∀ t, (readEnergy ((CircOp.setKappa (s.kappa.set i t) arr).run s)).1 = .ok (f t)) ∧ HasDerivAt f y x) ∧
      ∀ j x y, s.params[j]? = some x → Gθ[j]? = some y → ∃ f : ℝ → ℝ,
        (∀ t, (readEnergy ((CircOp.setThetas (s.params.set j t)).run s)).1 = .ok (f t)) ∧ HasDerivAt f y x := by
  obtain ⟨amp, hc⟩ := sacirc_family hD hU
  have hi : CircInv D.env _ s := hs ▸ circ_inv_ops (e := D.env) hD.kappa ops hw circ_inv_init
  generalize ops.foldl (fun r op => op.ref r) (CircRef.start D.env) = r at hi
  have hl : r.thetas.length = D.names.length := hi.thetaLen
  have hI' : Ideal r.prim ansatz := hi.prim ▸ hI
  obtain ⟨-, c2, c3, -⟩ := hc r.thetas hl
  have hm := sacirc_means hD (c3 r.prim hI')
  obtain ⟨r', hr'⟩ := cfollows_gradCall_same (e := D.env) hD.kappa hi.kappaLen hi.thetaLen
  have hG := hr'.fst hi
  have href : Reference D.ci.nI D.ci.nA (D.fulls (amp r.thetas)) :=
    reference_states hD.space hD.nonempty fun s hs => by
      rw [c2 s hs s hs]
      obtain ⟨a, rfl⟩ := List.get_of_mem hs
      rw [hD.ortho a a, if_pos rfl]
  obtain ⟨Gθ, t1, t2, t3⟩ := sacirc_grad hD (fun x hx => (hc x hx).1) hl (fun x hx => (hc x hx).2.2.2 r.prim r.thetas hI' hl) r.h r.g
  have et : D.env.gradTheta r.prim r.thetas r.h r.g = Gθ := congrArg (okOr []) t1
  rw [et] at hG
  rw [hi.kappa, hi.params]
  refine ⟨_, Gθ, hG, ?_, t2, fun i x y hx hy arr => ?_, fun j x y hx hy => ?_⟩
  · rw [hi.kappaLen]
    show (getOrbitalGradient _ _ _ _ _ _ _).length = _
    simp only [getOrbitalGradient, List.length_map]
    rfl
  · obtain ⟨hi1, rfl⟩ := List.getElem?_eq_some_iff.1 hx
    obtain ⟨hi2, rfl⟩ := List.getElem?_eq_some_iff.1 hy
    set G := D.env.gradKappa r.h r.g r.d1 r.d2 with hGdef
    have hlen : r.kappa.length = G.length := by
      rw [hi.kappaLen]
      show _ = (getOrbitalGradient _ _ _ _ _ _ _).length
      simp only [getOrbitalGradient, List.length_map]
      rfl
    have hdl : ((List.replicate G.length (0 : ℝ)).set i 1).length = r.kappa.length := by simp [hlen]
    have hder : HasDerivAt (fun t : ℝ => D.orbEnergyAt (amp r.thetas) r.orb ((List.replicate G.length 0).set i 1) t)
        (listDot ((List.replicate G.length 0).set i 1) G) 0 :=
      C123_gradient hD.orbs href hm.isRdm hD.real r.orb D.kappaIdx ((List.replicate G.length 0).set i 1)
    rw [listDot_single hi2] at hder
    refine ⟨fun t => D.orbEnergyAt (amp r.thetas) r.orb ((List.replicate G.length 0).set i 1) (t - r.kappa[i]), fun t => ?_, ?_⟩
    · have hk : (r.kappa.set i t).length = D.env.kappaIdx.length := by rw [List.length_set, hi.kappaLen]
      have h1 := (cfollows_setKappa (e := D.env) hD.kappa r hk arr).snd hi
      have hE := (cfollows_readEnergy (e := D.env) hD.kappa _).fst h1
      refine hE.trans ?_
      rw [show (r.setKappa (r.kappa.set i t)).reported = none from rfl, Option.getD_none]
      refine congrArg Except.ok ?_
      refine (sacirc_kappa_energy hm hD.orbs _).trans ?_
      unfold SaCircData.orbEnergyAt
      refine congrArg (orbitalEnergy D.hAo D.gAo (D.fulls (amp r.thetas))) ?_
      rw [← shift_single hi1 t, hlen]
      exact circ_shift_orb hdl _
    · refine HasDerivAt.comp_sub_const _ _ ?_
      rw [sub_self]
      exact hder
  · refine ⟨_, fun t => ?_, t3 j x y hx hy⟩
    have hl' : (r.thetas.set j t).length = D.env.numTheta := by rw [List.length_set, hi.thetaLen]
    have h1 := (cfollows_setThetas (e := D.env) r hl').snd hi
    have hE := (cfollows_readEnergy (e := D.env) hD.kappa _).fst h1
    refine hE.trans ?_
    rw [show (r.setThetas (r.thetas.set j t)).reported = none from rfl, Option.getD_none]
    congr 1
    have e1 : (r.setThetas (r.thetas.set j t)).thetas = r.thetas.set j t := if_pos hl'
    unfold CircRef.E
    rw [e1]
    exact (sacirc_means hD ((hc (r.thetas.set j t) hl').2.2.1 r.prim hI')).energyEnv _ _

theorem inv_remember {e : CircEnv} {r : CircRef e} {s : CircObj e} (h : CircInv e r s) (old : List ℝ) (E : ℝ) :
    CircInv e r { s with oldParams := old, eOptOld := E } :=
  ⟨h.prim, h.cMo, h.kappa, h.kappaOld, h.kappaLen, h.params, h.thetaLen, h.rdm1, h.rdm2, h.rdm3, h.rdm4, h.hMo, h.gMo, h.energy,
    h.reported, h.states⟩

/-- C131: the objective of the optimizers is the averaged energy: whatever parameters `old` were evaluated last, if `p` differs
from them by at least `1e-14` somewhere, the value returned for `p` is the energy read from the object afterwards. -/
theorem C131_objective (hD : D.Ready ansatz st Ts) (ops : List (CircOp D.env)) (hw : ∀ op ∈ ops, op.Fits)
    (s : CircObj D.env) (hs : s = ops.foldl (fun s op => op.run s) (CircObj.init D.env))
    (p old : List ℝ) (E0 : ℝ) (theta kappa : Bool)
    (hp : p.length = (if kappa then s.kappa.length else 0) + (if theta then s.params.length else 0))
    (ho : old.length = p.length) (hne : ∃ x ∈ List.zipWith (· - ·) old p, 1 / 10 ^ 14 ≤ |x|) :
    ∃ E, (energyCall p theta kappa { s with oldParams := old, eOptOld := E0 }).1 = .ok E ∧
      (readEnergy (energyCall p theta kappa { s with oldParams := old, eOptOld := E0 }).2).1 = .ok E := by
  have hi : CircInv D.env _ s := hs ▸ circ_inv_ops (e := D.env) hD.kappa ops hw circ_inv_init
  have hn := circ_ops_reported ops (CircRef.start D.env) rfl
  generalize ops.foldl (fun r op => op.ref r) (CircRef.start D.env) = r at hi hn
  rw [hi.kappa, hi.params, hi.kappaLen, hi.thetaLen] at hp
  obtain ⟨r', f1, f2, -⟩ := cfollows_setParams (e := D.env) hD.kappa hn hp
  have hi0 := inv_remember hi old E0
  obtain ⟨s1, a1, a2⟩ := f1 _ hi0
  have hcb : CFollows r' (callbackEnergy theta) r' r'.E := by
    unfold callbackEnergy
    rw [if_pos (show theta = true ∨ D.env.sa = true from Or.inr rfl)]
    refine (cfollows_readH hD.kappa r').bind ((cfollows_readG hD.kappa r').bind (cfollows_get fun s hs => ⟨s, ?_, hs⟩))
    rw [hs.prim, hs.params]
    rfl
  obtain ⟨s2, b1, b2⟩ := hcb s1 a2
  have harr : WFObj.arrSub old p = .ok (List.zipWith (· - ·) old p) := by
    unfold WFObj.arrSub
    rw [if_pos ho]
  obtain ⟨x, x1, x2⟩ := hne
  have hcall : energyCall p theta kappa { s with oldParams := old, eOptOld := E0 } =
      (.ok r'.E, { s2 with eOptOld := r'.E, oldParams := p }) := by
    unfold energyCall
    rw [if_pos (show D.env.sa = true from rfl), CircM.bind_get]
    simp only
    rw [harr]
    simp only
    rw [if_neg (fun h => by rw [List.length_eq_zero_iff.1 h] at x1; exact absurd x1 List.not_mem_nil),
      if_neg (fun h => by
        have := List.all_eq_true.1 h x x1
        simp only [decide_eq_true_eq] at this
        exact absurd this (not_lt.2 x2))]
    show CircM.bind _ _ _ = _
    unfold CircM.bind
    rw [a1]
    show CircM.bind _ _ _ = _
    unfold CircM.bind
    rw [b1]
    rfl
  rw [hcall]
  refine ⟨r'.E, rfl, ?_⟩
  have := (cfollows_readEnergy (e := D.env) hD.kappa r').fst (inv_remember b2 p r'.E)
  rw [f2] at this
  exact this

end SQ
