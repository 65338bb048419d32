import Verif.Lemmas.CircEnv
import Verif.Props.UpsEnv
import Verif.Props.CircuitCache

/-! # C130: the circuit wave function class as a whole -/

namespace SQ

open CircObj

variable {D : CircData} {ansatz : List ℝ → List (PGate (2 * D.norb))} {d : List Char} {st : AnsatzStruct} {Ts : List (FOp ℝ)}

/-- The states of the circuit for all parameters. -/
theorem circ_family (hD : D.Ready ansatz d st Ts) (hU : D.InUse ansatz) :
    ∃ c : List ℝ → Vec ℝ, ∀ θ, θ.length = D.names.length →
      ExpChain (Ts.zip θ) (ket (detSet d)) (stateOf D.ci (c θ)) ∧ dot D.ci.idx2det.length (c θ) (c θ) = 1 ∧
      (∀ dev, Ideal dev ansatz → ExactQuantum D.ci (c θ) (D.value dev θ none)) ∧
      ∀ dev θ', Ideal dev ansatz → θ'.length = D.names.length → ExactQuantum D.ci (c θ) (D.value dev θ' (some θ)) := by
  have : ∀ θ : List ℝ, ∃ c : Vec ℝ, θ.length = D.names.length →
      ExpChain (Ts.zip θ) (ket (detSet d)) (stateOf D.ci c) ∧ dot D.ci.idx2det.length c c = 1 ∧
      (∀ dev, Ideal dev ansatz → ExactQuantum D.ci c (D.value dev θ none)) ∧
      ∀ dev θ', Ideal dev ansatz → θ'.length = D.names.length → ExactQuantum D.ci c (D.value dev θ' (some θ)) := by
    intro θ
    by_cases hl : θ.length = D.names.length
    · obtain ⟨c, c1, c2, c3⟩ := circ_state hD θ (hl.trans hD.count)
      refine ⟨c, fun _ => ⟨c1, c2, fun dev hI A hA hr => ?_, fun dev θ' hI hl' A hA hr => ?_⟩⟩
      · obtain ⟨u1, u2, u3⟩ := hU dev θ none A hI hl
        exact c3 dev _ none hI u1 u2 u3 A hA.wf hr
      · obtain ⟨u1, u2, -⟩ := hU dev θ' (some θ) A hI hl'
        exact c3 dev _ (some θ) hI u1 u2 rfl A hA.wf hr
    · exact ⟨fun _ => 0, fun h => absurd h hl⟩
  choose c hc using this
  exact ⟨c, hc⟩

theorem shiftEvals_eq {E : List ℝ → Res ℝ} {F : List ℝ → ℝ} {θ : List ℝ} (h : ∀ x : List ℝ, x.length = θ.length → E x = .ok (F x))
    (i R : ℕ) : shiftEvals E θ i R = gradEvals F θ i R := by
  unfold shiftEvals gradEvals
  cases θ[i]? with
  | none => rfl
  | some s => exact mapM_ok fun j _ => h _ (by simp)

/-- What the functions of the object compute. -/
structure CircMeans (D : CircData) (dev : Device (List (Gate (2 * D.norb)))) (c : List ℝ → Vec ℝ) (θ : List ℝ) : Prop where
  rdm : circRdm1 D.tiny (D.value dev θ none) D.ci = .ok (D.env.mkRdm1 dev θ) ∧
    circRdm2 D.tiny (D.value dev θ none) D.ci = .ok (D.env.mkRdm2 dev θ (D.env.mkRdm1 dev θ)) ∧
    circRdm3 D.tiny (D.value dev θ none) D.ci =
      .ok (D.env.mkRdm3 dev θ (D.env.mkRdm1 dev θ) (D.env.mkRdm2 dev θ (D.env.mkRdm1 dev θ))) ∧
    circRdm4 D.tiny (D.value dev θ none) D.ci =
      .ok (D.env.mkRdm4 dev θ (D.env.mkRdm1 dev θ) (D.env.mkRdm2 dev θ (D.env.mkRdm1 dev θ))
        (D.env.mkRdm3 dev θ (D.env.mkRdm1 dev θ) (D.env.mkRdm2 dev θ (D.env.mkRdm1 dev θ))))
  isRdm : IsRdm D.ci.nI D.ci.nA [core (2 * D.ci.nI) (stateOf D.ci (c θ))] (D.env.mkRdm1 dev θ)
    (D.env.mkRdm2 dev θ (D.env.mkRdm1 dev θ))
  isRdm3 : IsRdmN D.ci.nI D.ci.nA [core (2 * D.ci.nI) (stateOf D.ci (c θ))] 3
    (D.env.mkRdm3 dev θ (D.env.mkRdm1 dev θ) (D.env.mkRdm2 dev θ (D.env.mkRdm1 dev θ)))
  isRdm4 : IsRdmN D.ci.nI D.ci.nA [core (2 * D.ci.nI) (stateOf D.ci (c θ))] 4
    (D.env.mkRdm4 dev θ (D.env.mkRdm1 dev θ) (D.env.mkRdm2 dev θ (D.env.mkRdm1 dev θ))
        (D.env.mkRdm3 dev θ (D.env.mkRdm1 dev θ) (D.env.mkRdm2 dev θ (D.env.mkRdm1 dev θ))))
  energy : ∀ h g, D.runEnergy dev θ h g = .ok (expv (core (2 * D.ci.nI) (stateOf D.ci (c θ)))
    (electronic (natMat h) (natTen g) (D.ci.nI + D.ci.nA + D.ci.nV)))
  energyEnv : ∀ h g, D.env.energy dev θ h g = expv (core (2 * D.ci.nI) (stateOf D.ci (c θ)))
    (electronic (natMat h) (natTen g) (D.ci.nI + D.ci.nA + D.ci.nV))

theorem circ_means (hD : D.Ready ansatz d st Ts) {dev : Device (List (Gate (2 * D.norb)))} {c : List ℝ → Vec ℝ} {θ : List ℝ}
    (hx : ExactQuantum D.ci (c θ) (D.value dev θ none)) : CircMeans D dev c θ := by
  obtain ⟨⟨R1, R2, r1, r2, hR⟩, hE⟩ := C107_circuit (big := D.big) hD.tiny hD.big hx
  obtain ⟨R3, R4, r3, r4, hR3, hR4⟩ := C108_circuit (big := D.big) hD.tiny hD.big hx
  have e1 : D.env.mkRdm1 dev θ = R1 := by
    show okOr _ (circRdm1 D.tiny (D.value dev θ none) D.ci) = R1
    rw [r1]; rfl
  have k2 : rdm2Loop (circEE D.tiny (D.value dev θ none) D.ci) R1 D.ci.nI D.ci.nA = .ok R2 := by
    have := r2
    unfold circRdm2 at this
    rw [r1] at this
    exact this
  have e2 : D.env.mkRdm2 dev θ R1 = R2 := by
    show okOr _ (rdm2Loop _ R1 _ _) = R2
    rw [k2]; rfl
  have k3 : rdm3Loop (circList D.tiny (D.value dev θ none) D.ci) R1 R2 D.ci.nI D.ci.nA = .ok R3 := by
    have := r3
    unfold circRdm3 at this
    rw [r1, r2] at this
    exact this
  have e3 : D.env.mkRdm3 dev θ R1 R2 = R3 := by
    show okOr _ (rdm3Loop _ R1 R2 _ _) = R3
    rw [k3]; rfl
  have k4 : rdm4Loop (circList D.tiny (D.value dev θ none) D.ci) R1 R2 R3 D.ci.nI D.ci.nA = .ok R4 := by
    have := r4
    unfold circRdm4 at this
    rw [r1, r2, r3] at this
    exact this
  have e4 : D.env.mkRdm4 dev θ R1 R2 R3 = R4 := by
    show okOr _ (rdm4Loop _ R1 R2 R3 _ _) = R4
    rw [k4]; rfl
  have hE' : ∀ h g, D.runEnergy dev θ h g = .ok (expv (core (2 * D.ci.nI) (stateOf D.ci (c θ)))
    (electronic (natMat h) (natTen g) (D.ci.nI + D.ci.nA + D.ci.nV))) := fun h g => hE (natMat h) (natTen g)
  refine ⟨?_, ?_, ?_, ?_, hE', fun h g => congrArg (okOr 0) (hE' h g)⟩
  · rw [e1, e2, e3, e4]
    exact ⟨r1, r2, r3, r4⟩
  · rw [e1, e2]
    exact hR
  · rw [e1, e2, e3]
    exact hR3
  · rw [e1, e2, e3, e4]
    exact hR4

/-- The gradient of the ansatz parameters: the parameter-shift rule, with the folded Hamiltonian. -/
theorem circ_grad (hD : D.Ready ansatz d st Ts) {dev : Device (List (Gate (2 * D.norb)))} {c : List ℝ → Vec ℝ}
    (hc : ∀ θ, θ.length = D.names.length → ExpChain (Ts.zip θ) (ket (detSet d)) (stateOf D.ci (c θ)))
    {θ : List ℝ} (hl : θ.length = D.names.length)
    (hx : ∀ x : List ℝ, x.length = D.names.length → ExactQuantum D.ci (c x) (D.value dev θ (some x)))
    (h : Matrix (Fin D.n) (Fin D.n) ℝ) (g : Tensor4 (Fin D.n)) :
    ∃ G : List ℝ, D.runGrad dev θ h g = .ok G ∧ G.length = θ.length ∧ ∀ j x y, θ[j]? = some x → G[j]? = some y →
      HasDerivAt (fun t => expv (core (2 * D.ci.nI) (stateOf D.ci (c (θ.set j t))))
        (electronic (natMat h) (natTen g) (D.ci.nI + D.ci.nA + D.ci.nV))) y x := by
  obtain ⟨H, h1, h2, h3⟩ := ham0_gen hD.tiny hD.big (natMat h) (natTen g) D.ci
  set F : List ℝ → ℝ := fun x => expv (core (2 * D.ci.nI) (stateOf D.ci (c x)))
    (electronic (natMat h) (natTen g) (D.ci.nI + D.ci.nA + D.ci.nV)) with hF
  have hval : ∀ x : List ℝ, x.length = θ.length →
      D.value dev θ (some x) (getFolded D.ci.nI D.ci.nA D.ci.nV H) = .ok (F x) := by
    intro x hlx
    have := qexp_emb (hx x (hlx.trans hl)) h2
    rw [h3 _ _ (emb_active D.ci _) (emb_active D.ci _)] at this
    exact this
  have hfold : ∀ x : List ℝ, x.length = θ.length → F x =
      expv (stateOf D.ci (c x)) (sumOp (getFolded D.ci.nI D.ci.nA D.ci.nV H)) := by
    intro x hlx
    obtain ⟨f1, f2⟩ := getFolded_inv h2.1 h2.2
    exact Except.ok.inj ((hval x hlx).symm.trans (hx x (hlx.trans hl) _ f1 fun kv hk o ho => (f2 kv hk).1 o ho))
  obtain ⟨l1, g1, g2⟩ := hD.circuits.gens
  have hent : ∀ i ∈ List.range θ.length, ∃ v, (match D.names[i]? with
    | none => .error .indexError
    | some name =>
      match D.R.lookup name with
      | none => .error .keyError
      | some R => do
        let evals ← shiftEvals (fun x => D.value dev θ (some x) (getFolded D.ci.nI D.ci.nA D.ci.nV H)) θ i R
        pure (shiftGradient evals R) : Res ℝ) = .ok v ∧ ∀ x, θ[i]? = some x → HasDerivAt (fun t => F (θ.set i t)) v x := by
    intro i hi
    have hi' : i < θ.length := List.mem_range.1 hi
    have hty : i < st.types.length := by rw [← hD.count, ← hl]; exact hi'
    obtain ⟨s, s1, s2⟩ := hD.shifts i _ (List.getElem?_eq_getElem hty)
    obtain ⟨r, T, hR, hT, hg⟩ := g2 i _ (List.getElem?_eq_getElem hty)
    obtain ⟨Y, hY, hch⟩ := chain_trig hg (Ts := Ts) (θs := θ) (k := i) (by rw [hl, hD.count, l1]) g1 hT (ket (detSet d) : Fock ℝ)
    have hr0 : 0 < 2 * r := by
      cases hr : 2 * r with
      | zero =>
        rw [hr] at hR
        have : ∀ ty, gradR ty ≠ some 0 := by intro ty; unfold gradR; split <;> simp
        exact absurd hR (this _)
      | succ m => omega
    have htrig : TrigPoly (2 * r) fun s => F (θ.set i s) :=
      (hY.bilin (innerForm (sumOp (getFolded D.ci.nI D.ci.nA D.ci.nV H)))).congr fun s => by
        rw [hfold _ (by simp), expChain_unique (hc (θ.set i s) (by simpa using hl)) (hch s)]
        rfl
    obtain ⟨evals, e1, e2⟩ := C45_gradient hr0 (List.getElem?_eq_getElem hi') htrig
    rw [s1]
    simp only
    rw [s2, hR]
    simp only
    rw [shiftEvals_eq hval, e1]
    refine ⟨_, rfl, fun x hx => ?_⟩
    rw [List.getElem?_eq_getElem hi'] at hx
    cases hx
    exact e2
  obtain ⟨G, e1, e2⟩ := mapM_ok_exists _ _ hent
  refine ⟨G, ?_, by simpa using e2.length_eq.symm, fun j x y hx hy => ?_⟩
  · unfold CircData.runGrad
    rw [h1]
    exact e1
  · obtain ⟨b1, rfl⟩ := List.getElem?_eq_some_iff.1 hy
    obtain ⟨a1, -⟩ := List.getElem?_eq_some_iff.1 hx
    have := (List.forall₂_iff_get.1 e2).2 j (by simpa using a1) b1
    simp only [List.get_eq_getElem, List.getElem_range] at this
    exact this x hx

/-- C130: none of the functions the object calls raises, for all parameters, orbitals and ideal devices. -/
theorem C130_total (hD : D.Ready ansatz d st Ts) (hU : D.InUse ansatz) {dev : Device (List (Gate (2 * D.norb)))}
    (hI : Ideal dev ansatz) {θ : List ℝ} (hl : θ.length = D.names.length) :
    (circRdm1 D.tiny (D.value dev θ none) D.ci = .ok (D.env.mkRdm1 dev θ) ∧
      circRdm2 D.tiny (D.value dev θ none) D.ci = .ok (D.env.mkRdm2 dev θ (D.env.mkRdm1 dev θ)) ∧
      circRdm3 D.tiny (D.value dev θ none) D.ci =
        .ok (D.env.mkRdm3 dev θ (D.env.mkRdm1 dev θ) (D.env.mkRdm2 dev θ (D.env.mkRdm1 dev θ))) ∧
      circRdm4 D.tiny (D.value dev θ none) D.ci =
        .ok (D.env.mkRdm4 dev θ (D.env.mkRdm1 dev θ) (D.env.mkRdm2 dev θ (D.env.mkRdm1 dev θ))
          (D.env.mkRdm3 dev θ (D.env.mkRdm1 dev θ) (D.env.mkRdm2 dev θ (D.env.mkRdm1 dev θ))))) ∧
    ∀ h g, D.runEnergy dev θ h g = .ok (D.env.energy dev θ h g) ∧ D.runGrad dev θ h g = .ok (D.env.gradTheta dev θ h g) := by
  obtain ⟨c, hc⟩ := circ_family hD hU
  have hm := circ_means hD ((hc θ hl).2.2.1 dev hI)
  refine ⟨hm.rdm, fun h g => ⟨okOr_eq (hm.energy h g), ?_⟩⟩
  obtain ⟨G, g1, -⟩ := circ_grad hD (fun x hx => (hc x hx).1) hl (fun x hx => (hc x hx).2.2.2 dev θ hI hl) h g
  exact okOr_eq g1

/-- C130: what was measured before has no influence: any two interfaces that have been constructed and used with ideal
devices and hold the same parameters return the same expectation values. -/
theorem C130_history (hD : D.Ready ansatz d st Ts) {dev dev' : Device (List (Gate (2 * D.norb)))}
    (hI : Ideal dev ansatz) (hI' : Ideal dev' ansatz) {q q' : QI}
    (hq : (D.on dev).ReachedSimply q) (hq' : (D.on dev').ReachedSimply q') (hf : q.flags.isEnabled = false)
    (hf' : q'.flags.isEnabled = false) (hp : q.params = q'.params) (hl : q.params.length = D.names.length)
    {A : Dict ℝ} (hA : WF A) (hr : ∀ kv ∈ A, ∀ o ∈ kv.1, o.1 < 2 * D.ci.nA) :
    (quantumExpectation (D.on dev) none A q).1 = (quantumExpectation (D.on dev') none A q').1 := by
  obtain ⟨c, -, -, c3⟩ := circ_state hD q.params (hl.trans hD.count)
  rw [c3 dev q none hI hq hf rfl A hA hr, c3 dev' q' none hI' hq' hf' hp.symm A hA hr]

/-- C130: whatever has been assigned, read and changed before, with an ideal device the energy read is `⟨ψ|H|ψ⟩` with `ψ` the
reference determinant transformed by the exponentials of the layout at the current parameters, and `H` the Hamiltonian over the
current orbitals; the density matrices read are those of `ψ`. -/
theorem C130_values (hD : D.Ready ansatz d st Ts) (hU : D.InUse ansatz) (ops : List (CircOp D.env)) (hw : ∀ op ∈ ops, op.Fits)
    (s : CircObj D.env) (hs : s = ops.foldl (fun s op => op.run s) (CircObj.init D.env)) (hI : Ideal s.prim ansatz) :
    ∃ (C : Matrix (Fin D.n) (Fin D.n) ℝ) (ψ : Fock ℝ) (R1 : Mat ℝ) (R2 : Arr4) (R3 R4 : ArrN),
      C = (ops.foldl (fun r op => op.ref r) (CircRef.start D.env)).orb ∧ (readCMo s).1 = .ok C ∧
      ExpChain (Ts.zip s.params) (ket (detSet d)) ψ ∧
      (readEnergy s).1 = .ok (D.energyOf C ψ) ∧ (readRdm1 s).1 = .ok R1 ∧ (readRdm2 s).1 = .ok R2 ∧
      (readRdm3 s).1 = .ok R3 ∧ (readRdm4 s).1 = .ok R4 ∧
      IsRdm D.ci.nI D.ci.nA [core (2 * D.ci.nI) ψ] R1 R2 ∧ IsRdmN D.ci.nI D.ci.nA [core (2 * D.ci.nI) ψ] 3 R3 ∧
      IsRdmN D.ci.nI D.ci.nA [core (2 * D.ci.nI) ψ] 4 R4 := by
  obtain ⟨c, hc⟩ := circ_family hD hU
  have hi : CircInv D.env _ s := hs ▸ circ_inv_ops (e := D.env) hD.kappa ops hw circ_inv_init
  obtain ⟨h1, -, -, h4, h5, h6, h7, -, -⟩ := C118_reads (e := D.env) hD.kappa hw
  rw [← hs] at h1 h4 h5 h6 h7
  obtain ⟨h8, h9⟩ := h7 rfl
  generalize ops.foldl (fun r op => op.ref r) (CircRef.start D.env) = r at *
  have hl : r.thetas.length = D.names.length := hi.thetaLen
  rw [hi.prim] at hI
  obtain ⟨c1, -, c3, -⟩ := hc r.thetas hl
  have hm := circ_means hD (c3 r.prim hI)
  refine ⟨r.orb, stateOf D.ci (c r.thetas), _, _, _, _, rfl, h1, by rw [hi.params]; exact c1, ?_, h4, h5, h8, h9, hm.isRdm,
    hm.isRdm3, hm.isRdm4⟩
  rw [h6]
  congr 1
  refine (hm.energyEnv _ _).trans ?_
  rw [← hD.orbs]
  rfl

theorem circ_setKappa_same {e : CircEnv} (r : CircRef e) : (r.setKappa r.kappa).orb = r.orb := by
  simp only [CircRef.setKappa]
  rw [rotGen_zero, neg_zero, NormedSpace.exp_zero, mul_one]
  intro x hx
  rw [List.zipWith_self] at hx
  obtain ⟨y, -, rfl⟩ := List.mem_map.1 hx
  exact sub_self y

theorem circ_shift_orb {e : CircEnv} {r : CircRef e} {dir : List ℝ} (h : dir.length = r.kappa.length) (t : ℝ) :
    (r.setKappa (shiftBy r.kappa dir t)).orb = r.orb * NormedSpace.exp (-rotGen e.kappaIdx (dir.map (t * ·))) := by
  simp only [CircRef.setKappa]
  rw [shift_sub h]

/-- The energy at orbitals that are rotated. -/
theorem circ_kappa_energy {dev : Device (List (Gate (2 * D.norb)))} {c : List ℝ → Vec ℝ} {θ : List ℝ} (hm : CircMeans D dev c θ)
    (ho : D.n = D.ci.nI + D.ci.nA + D.ci.nV) (C : Matrix (Fin D.n) (Fin D.n) ℝ) :
    D.env.energy dev θ (oneTransform C D.hAo) (twoTransform C D.gAo) =
      orbitalEnergy D.hAo D.gAo [core (2 * D.ci.nI) (stateOf D.ci (c θ))] C := by
  rw [hm.energyEnv, ← ho]
  unfold orbitalEnergy
  rw [mean_one]
  rfl

/-- The gradient the optimizers get at the parameters the object has. -/
theorem cfollows_gradCall_same {e : CircEnv} (hv : ValidKappa e.kappaIdx) {r : CircRef e}
    (hk : r.kappa.length = e.kappaIdx.length) (ht : r.thetas.length = e.numTheta) :
    ∃ r', CFollows r (gradCall (r.kappa ++ r.thetas) true true) r'
      (e.gradKappa r.h r.g r.d1 r.d2 ++ e.gradTheta r.prim r.thetas r.h r.g) := by
  have h1 : (r.kappa ++ r.thetas).take e.kappaIdx.length = r.kappa := by rw [← hk, List.take_left]
  have h2 : (r.kappa ++ r.thetas).drop e.kappaIdx.length = r.thetas := by rw [← hk, List.drop_left]
  set r1 := r.setKappa r.kappa with hr1
  set r2 := r1.setThetas r.thetas with hr2
  have t2 : r2.thetas = r.thetas := if_pos ht
  have hh : r2.h = r.h := by
    show oneTransform r1.orb _ = _
    rw [circ_setKappa_same]; rfl
  have hg : r2.g = r.g := by
    show twoTransform r1.orb _ = _
    rw [circ_setKappa_same]; rfl
  have hd1 : r2.d1 = r.d1 := by
    unfold CircRef.d1
    rw [t2]; rfl
  have hd2 : r2.d2 = r.d2 := by
    unfold CircRef.d2
    rw [t2, hd1]; rfl
  refine ⟨r2, ?_⟩
  have hset : CFollows r (CircObj.setParams (r.kappa ++ r.thetas) true true) r2 () := by
    unfold CircObj.setParams
    simp only [if_true]
    rw [h1, h2]
    exact (cfollows_setKappa hv r hk true).bind (cfollows_setThetas r1 ht)
  unfold gradCall
  refine hset.bind ?_
  simp only [if_true]
  refine (cfollows_readH hv r2).bind ((cfollows_readG hv r2).bind ((cfollows_readRdm1 r2).bind
    ((cfollows_readRdm2 r2).bind ((CFollows.pure r2 _).bind ((cfollows_readH hv r2).bind ((cfollows_readG hv r2).bind
      (cfollows_get fun s hs => ⟨s, ?_, hs⟩)))))))
  rw [hs.prim, hs.params, hh, hg, hd1, hd2, t2]
  rfl

/-- The energy of the vector `c` after a rotation of the orbitals `C` by `t` along `dir`. -/
noncomputable def CircData.orbEnergyAt (D : CircData) (c : Vec ℝ) (C : Matrix (Fin D.n) (Fin D.n) ℝ) (dir : List ℝ) (t : ℝ) : ℝ :=
  orbitalEnergy D.hAo D.gAo [core (2 * D.ci.nI) (stateOf D.ci c)]
    (C * NormedSpace.exp (-rotGen D.kappaIdx (dir.map (t * ·))))

/-- C130: whatever has been done before, with an ideal device the gradient the optimizers get at the current parameters
consists of the partial derivatives of the energy: entry `i` of the orbital part is the derivative of the energy read after
assigning `t` to the `i`-th orbital parameter, entry `j` of the ansatz part of the energy read after assigning `t` to the
`j`-th ansatz parameter. -/
theorem C130_gradient (hD : D.Ready ansatz d st Ts) (hU : D.InUse ansatz) (ops : List (CircOp D.env)) (hw : ∀ op ∈ ops, op.Fits)
    (s : CircObj D.env) (hs : s = ops.foldl (fun s op => op.run s) (CircObj.init D.env)) (hI : Ideal s.prim ansatz) :
    ∃ Gκ Gθ : List ℝ, (gradCall (s.kappa ++ s.params) true true s).1 = .ok (Gκ ++ Gθ) ∧
      Gκ.length = s.kappa.length ∧ Gθ.length = s.params.length ∧
      (∀ i x y, s.kappa[i]? = some x → Gκ[i]? = some y → ∀ arr, ∃ f : ℝ → ℝ,
        (∀ t, (readEnergy ((CircOp.setKappa (s.kappa.set i t) arr).run s)).1 = .ok (f t)) ∧ HasDerivAt f y x) ∧
      ∀ j x y, s.params[j]? = some x → Gθ[j]? = some y → ∃ f : ℝ → ℝ,
        (∀ t, (readEnergy ((CircOp.setThetas (s.params.set j t)).run s)).1 = .ok (f t)) ∧ HasDerivAt f y x := by
  obtain ⟨c, hc⟩ := circ_family hD hU
  have hi : CircInv D.env _ s := hs ▸ circ_inv_ops (e := D.env) hD.kappa ops hw circ_inv_init
  generalize ops.foldl (fun r op => op.ref r) (CircRef.start D.env) = r at hi
  have hl : r.thetas.length = D.names.length := hi.thetaLen
  have hI' : Ideal r.prim ansatz := hi.prim ▸ hI
  obtain ⟨-, c2, c3, -⟩ := hc r.thetas hl
  have hm := circ_means hD (c3 r.prim hI')
  obtain ⟨r', hr'⟩ := cfollows_gradCall_same (e := D.env) hD.kappa hi.kappaLen hi.thetaLen
  have hG := hr'.fst hi
  have href : Reference D.ci.nI D.ci.nA [core (2 * D.ci.nI) (stateOf D.ci (c r.thetas))] :=
    C30_reference hD.space Nat.one_pos (fun _ => c r.thetas) fun _ _ => c2
  obtain ⟨Gθ, t1, t2, t3⟩ := circ_grad hD (fun x hx => (hc x hx).1) hl (fun x hx => (hc x hx).2.2.2 r.prim r.thetas hI' hl) r.h r.g
  have et : D.env.gradTheta r.prim r.thetas r.h r.g = Gθ := congrArg (okOr []) t1
  rw [et] at hG
  rw [hi.kappa, hi.params]
  refine ⟨_, Gθ, hG, ?_, t2, fun i x y hx hy arr => ?_, fun j x y hx hy => ?_⟩
  · rw [hi.kappaLen]
    show (getOrbitalGradient _ _ _ _ _ _ _).length = _
    simp only [getOrbitalGradient, List.length_map]
    rfl
  · obtain ⟨hi1, rfl⟩ := List.getElem?_eq_some_iff.1 hx
    obtain ⟨hi2, rfl⟩ := List.getElem?_eq_some_iff.1 hy
    set G := D.env.gradKappa r.h r.g r.d1 r.d2 with hGdef
    have hlen : r.kappa.length = G.length := by
      rw [hi.kappaLen]
      show _ = (getOrbitalGradient _ _ _ _ _ _ _).length
      simp only [getOrbitalGradient, List.length_map]
      rfl
    have hdl : ((List.replicate G.length (0 : ℝ)).set i 1).length = r.kappa.length := by simp [hlen]
    have hder : HasDerivAt (fun t : ℝ => D.orbEnergyAt (c r.thetas) r.orb ((List.replicate G.length 0).set i 1) t)
        (listDot ((List.replicate G.length 0).set i 1) G) 0 :=
      C123_gradient hD.orbs href hm.isRdm hD.real r.orb D.kappaIdx ((List.replicate G.length 0).set i 1)
    rw [listDot_single hi2] at hder
    refine ⟨fun t => D.orbEnergyAt (c r.thetas) r.orb ((List.replicate G.length 0).set i 1) (t - r.kappa[i]), fun t => ?_, ?_⟩
    · have hk : (r.kappa.set i t).length = D.env.kappaIdx.length := by rw [List.length_set, hi.kappaLen]
      have h1 := (cfollows_setKappa (e := D.env) hD.kappa r hk arr).snd hi
      have hE := (cfollows_readEnergy (e := D.env) hD.kappa _).fst h1
      refine hE.trans ?_
      rw [show (r.setKappa (r.kappa.set i t)).reported = none from rfl, Option.getD_none]
      refine congrArg Except.ok ?_
      refine (circ_kappa_energy hm hD.orbs _).trans ?_
      unfold CircData.orbEnergyAt
      refine congrArg (orbitalEnergy D.hAo D.gAo [core (2 * D.ci.nI) (stateOf D.ci (c r.thetas))]) ?_
      rw [← shift_single hi1 t, hlen]
      exact circ_shift_orb hdl _
    · refine HasDerivAt.comp_sub_const _ _ ?_
      rw [sub_self]
      exact hder
  · refine ⟨_, fun t => ?_, t3 j x y hx hy⟩
    have hl' : (r.thetas.set j t).length = D.env.numTheta := by rw [List.length_set, hi.thetaLen]
    have h1 := (cfollows_setThetas (e := D.env) r hl').snd hi
    have hE := (cfollows_readEnergy (e := D.env) hD.kappa _).fst h1
    refine hE.trans ?_
    rw [show (r.setThetas (r.thetas.set j t)).reported = none from rfl, Option.getD_none]
    congr 1
    have e1 : (r.setThetas (r.thetas.set j t)).thetas = r.thetas.set j t := if_pos hl'
    unfold CircRef.E
    rw [e1]
    exact (circ_means hD ((hc (r.thetas.set j t) hl').2.2.1 r.prim hI')).energyEnv _ _

theorem cfollows_setParams {e : CircEnv} (hv : ValidKappa e.kappaIdx) {r : CircRef e} (hr : r.reported = none) {p : List ℝ}
    {theta kappa : Bool}
    (hp : p.length = (if kappa then e.kappaIdx.length else 0) + (if theta then e.numTheta else 0)) :
    ∃ r', CFollows r (CircObj.setParams p theta kappa) r' () ∧ r'.reported = none ∧ r'.prim = r.prim := by
  cases kappa <;> cases theta
  · exact ⟨r, CFollows.pure r (), hr, rfl⟩
  · refine ⟨_, cfollows_setThetas r (t := p) (by simpa using hp), rfl, rfl⟩
  · refine ⟨_, (cfollows_setKappa hv r (k := p.take e.kappaIdx.length) ?_ true).bind (CFollows.pure _ ()), rfl, rfl⟩
    simp only [if_true] at hp
    rw [List.length_take]
    simp at hp
    omega
  · simp only [if_true] at hp
    refine ⟨_, (cfollows_setKappa hv r (k := p.take e.kappaIdx.length) ?_ true).bind
      (cfollows_setThetas _ (t := p.drop e.kappaIdx.length) ?_), rfl, rfl⟩
    · rw [List.length_take]; omega
    · rw [List.length_drop]; omega

/-- C130: the objective of the optimizers is the energy: the value returned for parameters `p` (of the orbitals, of the ansatz,
or both) is the energy read from the object afterwards. -/
theorem C130_objective (hD : D.Ready ansatz d st Ts) (hU : D.InUse ansatz) (ops : List (CircOp D.env)) (hw : ∀ op ∈ ops, op.Fits)
    (s : CircObj D.env) (hs : s = ops.foldl (fun s op => op.run s) (CircObj.init D.env)) (hI : Ideal s.prim ansatz)
    (p : List ℝ) (theta kappa : Bool)
    (hp : p.length = (if kappa then s.kappa.length else 0) + (if theta then s.params.length else 0)) :
    ∃ E, (energyCall p theta kappa s).1 = .ok E ∧ (readEnergy (energyCall p theta kappa s).2).1 = .ok E := by
  obtain ⟨c, hc⟩ := circ_family hD hU
  have hi : CircInv D.env _ s := hs ▸ circ_inv_ops (e := D.env) hD.kappa ops hw circ_inv_init
  have hn := circ_ops_reported ops (CircRef.start D.env) rfl
  generalize ops.foldl (fun r op => op.ref r) (CircRef.start D.env) = r at hi hn
  rw [hi.kappa, hi.params, hi.kappaLen, hi.thetaLen] at hp
  obtain ⟨r', f1, f2, f3⟩ := cfollows_setParams (e := D.env) hD.kappa hn hp
  have hi' := f1.snd hi
  have hl : r'.thetas.length = D.names.length := hi'.thetaLen
  have hI' : Ideal r'.prim ansatz := by rw [f3, ← hi.prim]; exact hI
  obtain ⟨-, c2, c3, -⟩ := hc r'.thetas hl
  have hm := circ_means hD (c3 r'.prim hI')
  have href : Reference D.ci.nI D.ci.nA [core (2 * D.ci.nI) (stateOf D.ci (c r'.thetas))] :=
    C30_reference hD.space Nat.one_pos (fun _ => c r'.thetas) fun _ _ => c2
  have hcall : CFollows r (energyCall p theta kappa) r' r'.E := by
    unfold energyCall
    rw [if_neg (show ¬ D.env.sa = true from fun h => (nomatch h))]
    refine f1.bind ?_
    unfold callbackEnergy
    by_cases ht : theta = true ∨ D.env.sa = true
    · rw [if_pos ht]
      refine (cfollows_readH hD.kappa r').bind ((cfollows_readG hD.kappa r').bind (cfollows_get fun s hs => ⟨s, ?_, hs⟩))
      rw [hs.prim, hs.params]
      rfl
    · rw [if_neg ht]
      refine (cfollows_readH hD.kappa r').bind ((cfollows_readG hD.kappa r').bind ((cfollows_readRdm1 r').bind
        ((cfollows_readRdm2 r').bind ?_)))
      have : D.env.energyRdm r'.h r'.g r'.d1 r'.d2 = r'.E := by
        refine (C31_energy (nV := D.ci.nV) href hm.isRdm _ _).trans ?_
        rw [mean_one]
        exact (hm.energyEnv r'.h r'.g).symm
      rw [this]
      exact CFollows.pure r' _
  refine ⟨r'.E, hcall.fst hi, ?_⟩
  have := (cfollows_readEnergy (e := D.env) hD.kappa r').fst (hcall.snd hi)
  rw [f2] at this
  exact this

end SQ
