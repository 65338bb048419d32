import Verif.Spec.UpsEnv
import Verif.Props.OrbitalDerivative
import Verif.Props.HigherDensity

/-! # C127: the unitary product state class as a whole -/

namespace SQ

open WFObj

variable {D : UpsData} {Ts : List (FOp ℝ)}

theorem okOr_eq {α : Type} {d a : α} {x : Res α} (h : x = .ok a) : x = .ok (okOr d x) := by
  rw [h]; rfl

/-- C127: none of the functions the object calls raises: state, density matrices, energy and gradient are computed for all
parameters, orbitals and state vectors. -/
theorem C127_total (hD : D.Ready Ts) :
    (∀ θ, D.runState θ = .ok (D.env.state θ)) ∧
    (∀ v, upsRdm1 D.tiny D.th D.ci v = .ok (D.env.mkRdm1 v) ∧
      upsRdm2 D.tiny D.th D.ci v = .ok (D.env.mkRdm2 v (D.env.mkRdm1 v)) ∧
      upsRdm3 D.tiny D.th D.ci v = .ok (D.env.mkRdm3 v (D.env.mkRdm1 v) (D.env.mkRdm2 v (D.env.mkRdm1 v))) ∧
      upsRdm4 D.tiny D.th D.ci v = .ok (D.env.mkRdm4 v (D.env.mkRdm1 v) (D.env.mkRdm2 v (D.env.mkRdm1 v))
        (D.env.mkRdm3 v (D.env.mkRdm1 v) (D.env.mkRdm2 v (D.env.mkRdm1 v))))) ∧
    (∀ v h g, D.runEnergy v h g = .ok (D.env.energy v h g)) ∧
    ∀ θ (C : Matrix (Fin D.n) (Fin D.n) ℝ), θ.length = D.st.types.length →
      D.runGrad (D.env.state θ) θ (oneTransform C D.hAo) (twoTransform C D.gAo) =
        .ok (D.env.gradTheta (D.env.state θ) θ (oneTransform C D.hAo) (twoTransform C D.gAo)) ∧
      thetaGradient D.tiny D.big D.th D.ci (natMat (oneTransform C D.hAo)) (natTen (twoTransform C D.gAo)) D.st D.csf θ =
        .ok (D.env.gradTheta (D.env.state θ) θ (oneTransform C D.hAo) (twoTransform C D.gAo)) := by
  have hstate : ∀ θ, D.runState θ = .ok (D.env.state θ) := fun θ => by
    obtain ⟨w, h1, -⟩ := (C26_state hD.tiny hD.space hD.threads hD.layout θ D.csf).1
    exact okOr_eq h1
  refine ⟨hstate, fun v => ?_, fun v h g => ?_, fun θ C hl => ?_⟩
  · obtain ⟨R1, R2, r1, r2, -⟩ := C29_ups (tiny := D.tiny) hD.tiny hD.space hD.threads v
    obtain ⟨R3, R4, r3, r4, -⟩ := C108_ups (tiny := D.tiny) hD.tiny hD.space hD.threads v
    have e1 : D.env.mkRdm1 v = R1 := by
      show okOr _ (upsRdm1 D.tiny D.th D.ci v) = R1
      rw [r1]; rfl
    have k2 : rdm2Loop (evEEprod D.tiny D.th D.ci v) R1 D.ci.nI D.ci.nA = .ok R2 := by
      have := r2
      unfold upsRdm2 at this
      rw [r1] at this
      exact this
    have e2 : D.env.mkRdm2 v R1 = R2 := by
      show okOr _ (rdm2Loop _ R1 _ _) = R2
      rw [k2]; rfl
    have k3 : rdm3Loop (evList D.tiny D.th D.ci v) R1 R2 D.ci.nI D.ci.nA = .ok R3 := by
      have := r3
      unfold upsRdm3 at this
      rw [r1, r2] at this
      exact this
    have e3 : D.env.mkRdm3 v R1 R2 = R3 := by
      show okOr _ (rdm3Loop _ R1 R2 _ _) = R3
      rw [k3]; rfl
    have k4 : rdm4Loop (evList D.tiny D.th D.ci v) R1 R2 R3 D.ci.nI D.ci.nA = .ok R4 := by
      have := r4
      unfold upsRdm4 at this
      rw [r1, r2, r3] at this
      exact this
    have e4 : D.env.mkRdm4 v R1 R2 R3 = R4 := by
      show okOr _ (rdm4Loop _ R1 R2 R3 _ _) = R4
      rw [k4]; rfl
    rw [e1, e2, e3, e4]
    exact ⟨r1, r2, r3, r4⟩
  · obtain ⟨w, h1, -⟩ := C70_hamiltonian (tiny := D.tiny) hD.tiny hD.big hD.space hD.threads (natMat h) (natTen g) v
    have : D.runEnergy v h g = .ok (dot D.ci.idx2det.length v w) := by
      unfold UpsData.runEnergy
      rw [h1]; rfl
    exact okOr_eq this
  · have hr := natMat_real (transform_real hD.real C)
    obtain ⟨grad, h1, -⟩ := C71_gradient (tiny := D.tiny) hD.tiny hD.big hD.space hD.threads hr.one hr.real hD.layout D.csf hl.symm
    have h2 : D.runGrad (D.env.state θ) θ (oneTransform C D.hAo) (twoTransform C D.gAo) = .ok grad := by
      have h3 := h1
      unfold thetaGradient at h3
      have := hstate θ
      unfold UpsData.runState at this
      rw [this] at h3
      exact h3
    refine ⟨okOr_eq h2, ?_⟩
    rw [h1, show D.env.gradTheta (D.env.state θ) θ (oneTransform C D.hAo) (twoTransform C D.gAo) = grad from
      congrArg (okOr []) h2]

/-- The state of the object's parameters, with the inactive orbitals. -/
noncomputable def UpsData.full (D : UpsData) (θ : List ℝ) : Fock ℝ := core (2 * D.ci.nI) (stateOf D.ci (D.env.state θ))

theorem mean_one (Ψ : Fock ℝ) (T : FOp ℝ) : mean [Ψ] T = inner Ψ (T Ψ) := by
  unfold mean
  simp

theorem ups_norm (hD : D.Ready Ts) (θ : List ℝ) :
    dot D.ci.idx2det.length (show Vec ℝ from D.env.state θ) (show Vec ℝ from D.env.state θ) = 1 := by
  obtain ⟨v', w', h1, h2, h3⟩ := C27_norm hD.tiny hD.space hD.threads hD.layout θ false D.csf D.csf
  have h0 : D.runState θ = .ok (D.env.state θ) := (C127_total hD).1 θ
  have e1 : D.env.state θ = v' := Except.ok.inj (h0.symm.trans h1)
  have e2 : D.env.state θ = w' := Except.ok.inj (h0.symm.trans h2)
  rw [← hD.norm, ← h3]
  show dot _ (D.env.state θ) (D.env.state θ) = _
  exact congrArg₂ (dot D.ci.idx2det.length) e1 e2

theorem ups_zero (D : UpsData) : D.env.state (List.replicate D.env.numTheta 0) = D.env.csf := by
  have : ∀ (l : List (String × List ℕ × ℝ)) (v : Vec ℝ), (∀ x ∈ l, x.2.2 = 0) →
      l.foldlM (upsStep (propVec D.tiny D.th D.ci) D.tiny D.ci.offset false) v = .ok v := by
    intro l
    induction l with
    | nil => intro v _; rfl
    | cons x l ih =>
      intro v h
      rw [List.foldlM_cons]
      have : upsStep (propVec D.tiny D.th D.ci) D.tiny D.ci.offset false v x = .ok v := by
        unfold upsStep
        rw [h x List.mem_cons_self, if_pos (by rw [abs_zero]; positivity)]
      rw [this]
      exact ih v fun y hy => h y (List.mem_cons_of_mem _ hy)
  have h : D.runState (List.replicate D.env.numTheta 0) = .ok D.csf := by
    unfold UpsData.runState upsVec constructUps pyOrder
    simp only [Bool.false_eq_true, if_false]
    refine this _ _ fun x hx => ?_
    have h1 := (List.of_mem_zip hx).2
    have h2 := (List.of_mem_zip h1).2
    exact List.eq_of_mem_replicate h2
  exact congrArg (okOr D.csf) h

theorem runEnergy_ok {v w : Vec ℝ} {h : Matrix (Fin D.n) (Fin D.n) ℝ} {g : Tensor4 (Fin D.n)}
    (h1 : applyHam D.tiny D.big D.th D.ci (natMat h) (natTen g) v = .ok w) :
    D.runEnergy v h g = .ok (dot D.ci.idx2det.length v w) := by
  unfold UpsData.runEnergy
  rw [h1]; rfl

/-- C127: the functions of the object are those of C30-C34 and C70 for the state of its ansatz. -/
theorem C127_physical (hD : D.Ready Ts) :
    Physical D.env D.ci.nI D.ci.nA D.ci.nV (fun θ => [D.full θ]) (fun d => d) (fun d => d) where
  n := hD.orbs
  real := hD.real
  ref := fun θ => C30_reference hD.space Nat.one_pos (fun _ => D.env.state θ) fun _ _ => ups_norm hD θ
  rdm := fun θ => by
    obtain ⟨R1, R2, r1, r2, h⟩ := C29_ups (tiny := D.tiny) hD.tiny hD.space hD.threads (D.env.state θ)
    obtain ⟨k1, k2, -⟩ := (C127_total hD).2.1 (D.env.state θ)
    have e1 : D.env.mkRdm1 (D.env.state θ) = R1 := Except.ok.inj (k1.symm.trans r1)
    have e2 : D.env.mkRdm2 (D.env.state θ) (D.env.mkRdm1 (D.env.state θ)) = R2 := Except.ok.inj (k2.symm.trans r2)
    simp only [e2]
    rw [e1]
    exact h
  energy := fun θ h g => by
    obtain ⟨w, h1, h2⟩ := C70_hamiltonian (tiny := D.tiny) hD.tiny hD.big hD.space hD.threads (natMat h) (natTen g) (D.env.state θ)
    have h3 : D.runEnergy (D.env.state θ) h g = .ok (dot D.ci.idx2det.length (show Vec ℝ from D.env.state θ) w) :=
      runEnergy_ok h1
    have h4 : D.env.energy (D.env.state θ) h g = dot D.ci.idx2det.length (show Vec ℝ from D.env.state θ) w :=
      congrArg (okOr 0) h3
    rw [h4, mean_one, h2]
    show _ = inner _ (electronic _ _ D.n _)
    rw [hD.orbs]
    rfl
  energyRdm := fun _ _ _ _ => rfl
  grad := fun _ _ _ _ => rfl

theorem ups_chain (hD : D.Ready Ts) (θ : List ℝ) :
    ExpChain (Ts.zip (θ.map effAngle)) (stateOf D.ci D.csf) (stateOf D.ci (D.env.state θ)) := by
  obtain ⟨w, h1, h2⟩ := (C26_state hD.tiny hD.space hD.threads hD.layout θ D.csf).1
  have h0 : D.runState θ = .ok (D.env.state θ) := (C127_total hD).1 θ
  have e1 : D.env.state θ = w := Except.ok.inj (h0.symm.trans h1)
  rw [e1]
  exact h2

/-- C127: whatever has been assigned and read before, the energy read from the object is `⟨ψ|H|ψ⟩`, with `ψ` the reference
transformed by the chain of exponentials of the layout at the current parameters and `H` the Hamiltonian over the current
orbitals; the density matrices read are those of `ψ`. -/
theorem C127_values (hD : D.Ready Ts) (ops : List WFOp) (hw : ∀ op ∈ ops, op.Fits D.env) (s : WFObj D.env)
    (hs : s = ops.foldl (fun s op => op.run s) (WFObj.init D.env)) :
    ∃ (C : Matrix (Fin D.n) (Fin D.n) ℝ) (ψ : Fock ℝ) (R1 : Mat ℝ) (R2 : Arr4),
      C = (ops.foldl (fun r op => op.ref D.env r) (WFRef.start D.env)).orb ∧ (readCMo s).1 = .ok C ∧
      ExpChain (Ts.zip (s.thetas.map effAngle)) (stateOf D.ci D.csf) ψ ∧
      (readEnergy s).1 = .ok (D.energyOf C ψ) ∧ (readRdm1 s).1 = .ok R1 ∧ (readRdm2 s).1 = .ok R2 ∧
      IsRdm D.ci.nI D.ci.nA [core (2 * D.ci.nI) ψ] R1 R2 := by
  obtain ⟨-, h2, h3, -, -, -, h7, h8, h9, -⟩ := C39_reads (e := D.env) hD.kappa (ups_zero D) ops hw _ s rfl hs
  generalize ops.foldl (fun r op => op.ref D.env r) (WFRef.start D.env) = r at *
  have hp := C127_physical hD
  refine ⟨r.orb, stateOf D.ci (D.env.state r.thetas), _, _, rfl, h3, ?_, ?_, h7, h8, hp.rdm r.thetas⟩
  · rw [h2]; exact ups_chain hD r.thetas
  · rw [h9, hp.energy, mean_one]
    rfl

theorem shift_single {k : List ℝ} {i : ℕ} (hi : i < k.length) (t : ℝ) :
    shiftBy k ((List.replicate k.length 0).set i 1) (t - k[i]) = k.set i t := by
  unfold shiftBy
  refine List.ext_getElem (by simp) fun j h1 h2 => ?_
  simp only [List.getElem_zipWith, List.getElem_set, List.getElem_replicate]
  by_cases h : i = j
  · subst h
    simp
  · simp [h]

theorem listDot_single {G : List ℝ} {i : ℕ} (hi : i < G.length) : listDot ((List.replicate G.length 0).set i 1) G = G[i] := by
  unfold listDot
  induction G generalizing i with
  | nil => simp at hi
  | cons x G ih =>
    cases i with
    | zero =>
      have : ∀ G : List ℝ, (List.zipWith (· * ·) (List.replicate G.length 0) G).sum = 0 := by
        intro G
        induction G with
        | nil => rfl
        | cons y G ih => simp [List.replicate_succ, ih]
      simp [List.replicate_succ, this]
    | succ i =>
      have := ih (i := i) (by simpa using hi)
      simp only [List.length_cons, List.replicate_succ, List.set_cons_succ, List.zipWith_cons_cons, List.sum_cons, zero_mul,
        zero_add, List.getElem_cons_succ]
      exact this

theorem params_same {e : WFEnv} {r : WFRef e.n} (hk : r.kappa.length = e.kappaIdx.length) :
    ((r.params e (r.kappa ++ r.thetas) true true).orb = r.orb ∧ (r.params e (r.kappa ++ r.thetas) true true).thetas = r.thetas) ∧
    (r.params e r.kappa false true).orb = r.orb ∧ (r.params e r.kappa false true).thetas = r.thetas := by
  have h : (r.setKappa e.kappaIdx r.kappa true).orb = r.orb := by
    simp only [WFRef.setKappa]
    rw [rotGen_zero, neg_zero, NormedSpace.exp_zero, mul_one]
    intro x hx
    rw [List.zipWith_self] at hx
    obtain ⟨y, -, rfl⟩ := List.mem_map.1 hx
    exact sub_self y
  have h1 : (r.kappa ++ r.thetas).take e.kappaIdx.length = r.kappa := by
    rw [← hk, List.take_left]
  have h2 : (r.kappa ++ r.thetas).drop e.kappaIdx.length = r.thetas := by
    rw [← hk, List.drop_left]
  have h3 : r.kappa.take e.kappaIdx.length = r.kappa := List.take_of_length_le (le_of_eq hk)
  refine ⟨⟨?_, ?_⟩, ?_, rfl⟩
  · show (r.setKappa e.kappaIdx ((r.kappa ++ r.thetas).take e.kappaIdx.length) true).orb = _
    rw [h1, h]
  · show (r.kappa ++ r.thetas).drop e.kappaIdx.length = _
    exact h2
  · show (r.setKappa e.kappaIdx (r.kappa.take e.kappaIdx.length) true).orb = _
    rw [h3, h]

/-- C127: whatever has been assigned and read before, the gradient the optimizer gets at the current parameters consists of
the partial derivatives of the energy: entry `i` of the orbital part is the derivative of the energy read after assigning
`t` to the `i`-th orbital parameter, entry `j` of the ansatz part of the energy read after assigning `t` to the `j`-th ansatz
parameter (angles below the cut-off 1e-28 count as zero). -/
theorem C127_gradient (hD : D.Ready Ts) (ops : List WFOp) (hw : ∀ op ∈ ops, op.Fits D.env) (s : WFObj D.env)
    (hs : s = ops.foldl (fun s op => op.run s) (WFObj.init D.env)) :
    ∃ Gκ Gθ : List ℝ, (gradCall (s.kappa ++ s.thetas) true true s).1 = .ok (Gκ ++ Gθ) ∧
      Gκ.length = s.kappa.length ∧ Gθ.length = s.thetas.length ∧
      (∀ i x d, s.kappa[i]? = some x → Gκ[i]? = some d → ∀ arr, ∃ f : ℝ → ℝ,
        (∀ t, (readEnergy ((WFOp.setKappa (s.kappa.set i t) arr).run s)).1 = .ok (f t)) ∧ HasDerivAt f d x) ∧
      ∀ j x d, s.thetas[j]? = some x → Gθ[j]? = some d → ∃ f : ℝ → ℝ,
        (∀ t, (10 : ℝ)⁻¹ ^ 28 ≤ |t| → (readEnergy ((WFOp.setThetas (s.thetas.set j t)).run s)).1 = .ok (f t)) ∧
        HasDerivAt f d (effAngle x) := by
  have hp := C127_physical hD
  have hi := inv_ops (e := D.env) hD.kappa (ups_zero D) ops hw
  rw [← hs] at hi
  obtain ⟨G, g1, g2, g3⟩ := C123_object hp hD.kappa (ups_zero D) ops hw s hs
  generalize ops.foldl (fun r op => op.ref D.env r) (WFRef.start D.env) = r at hi
  obtain ⟨⟨p1, p2⟩, p3, p4⟩ := params_same hi.kappaLen
  have hc : (r.kappa ++ r.thetas).length = callSize D.env true true := by
    rw [List.length_append, hi.kappaLen, hi.thetaLen]; rfl
  have hc' : r.kappa.length = callSize D.env false true := by
    rw [hi.kappaLen]; rfl
  have hG := follows_fst (follows_gradCall hD.kappa r hc) hi
  have hG' := follows_fst (follows_gradCall hD.kappa r hc') hi
  have hr := natMat_real (transform_real hD.real r.orb)
  obtain ⟨grad, t1, t2, t3⟩ := C71_gradient (tiny := D.tiny) hD.tiny hD.big hD.space hD.threads hr.one hr.real hD.layout D.csf
    (thetas := r.thetas) hi.thetaLen.symm
  have t0 := ((C127_total hD).2.2.2 r.thetas r.orb hi.thetaLen).2
  have hgrad : D.env.gradTheta (D.env.state r.thetas) r.thetas (oneTransform r.orb D.env.hAo) (twoTransform r.orb D.env.gAo) = grad :=
    Except.ok.inj (t0.symm.trans t1)
  have hGθ : (r.params D.env (r.kappa ++ r.thetas) true true).G D.env true true = G ++ grad := by
    rw [hi.kappa] at g1
    have := Except.ok.inj (g1.symm.trans hG')
    rw [this]
    unfold WFRef.G
    simp only [p1, p2, p3, p4, if_true, hgrad, Bool.false_eq_true, if_false, List.append_nil]
  refine ⟨G, grad, ?_, ?_, ?_, ?_, ?_⟩
  · rw [← hGθ, hi.kappa, hi.thetas]
    exact hG
  · rw [g2, hi.kappa, hi.kappaLen]
  · rw [t2, hi.thetas]
  · intro i x d hx hd arr
    have hlen : s.kappa.length = G.length := by rw [g2, hi.kappa, hi.kappaLen]
    obtain ⟨hi1, rfl⟩ := List.getElem?_eq_some_iff.1 hx
    obtain ⟨hi2, rfl⟩ := List.getElem?_eq_some_iff.1 hd
    obtain ⟨f, f1, f2⟩ := g3 ((List.replicate G.length 0).set i 1) arr (by simp [g2])
    refine ⟨fun t => f (t - s.kappa[i]), fun t => ?_, ?_⟩
    · rw [← f1, ← shift_single hi1 t, hlen]
    · rw [listDot_single hi2] at f2
      refine HasDerivAt.comp_sub_const _ _ ?_
      rw [sub_self]
      exact f2
  · intro j x d hx hd
    rw [hi.thetas] at hx
    obtain ⟨ψ, q1, q2⟩ := t3 j x d hx hd
    refine ⟨_, fun t ht => ?_, q2⟩
    have hl : (s.thetas.set j t).length = D.env.numTheta := by rw [List.length_set, hi.thetas, hi.thetaLen]
    have h1 := follows_snd (follows_setThetas r hl) hi
    have hE := follows_fst (follows_readEnergy hD.kappa _) h1
    refine hE.trans ?_
    rw [show (r.setThetas (s.thetas.set j t)).reported = none from rfl, Option.getD_none]
    congr 1
    have heff : effAngle t = t := if_neg (not_lt.2 ht)
    have hψ : stateOf D.ci (D.env.state (s.thetas.set j t)) = ψ t := by
      refine expChain_unique (ups_chain hD _) ?_
      rw [hi.thetas, List.map_set, heff]
      exact q1 t
    show D.env.energy (D.env.state (s.thetas.set j t)) (oneTransform r.orb D.env.hAo) (twoTransform r.orb D.env.gAo) = _
    rw [hp.energy, mean_one]
    show inner (core (2 * D.ci.nI) (stateOf D.ci (D.env.state (s.thetas.set j t)))) (electronic _ _ D.n (core (2 * D.ci.nI) (stateOf D.ci (D.env.state (s.thetas.set j t))))) = _
    rw [hψ, ← hD.orbs]
    rfl

end SQ
