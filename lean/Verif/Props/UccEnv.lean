import Verif.Lemmas.UccGrad
import Verif.Props.UpsEnv

/-! # C129: the UCC class as a whole -/

namespace SQ

open WFObj

variable {D : UccData} {Ts : List (FOp ℝ)}

theorem uccStep_ok : ¬ uccEps < 10 * (10 : ℝ)⁻¹ ^ 13 := by
  rw [uccEps_eq]
  norm_num

theorem uccRun_ok {h : Matrix (Fin D.n) (Fin D.n) ℝ} {g : Tensor4 (Fin D.n)} {c w : Vec ℝ} {θ grad : List ℝ}
    {T : Matrix (Fin D.ci.idx2det.length) (Fin D.ci.idx2det.length) ℝ}
    (h1 : applyHam D.tiny D.big D.th D.ci (natMat h) (natTen g) c = .ok w) (h2 : uccMat D.tiny D.ci D.st θ = .ok T)
    (h3 : uccGradLoop D.tiny D.ci D.st D.csf T w (dot D.ci.idx2det.length c w) (List.range θ.length)
      (List.replicate θ.length 0) = .ok grad) : D.runGrad c θ h g = .ok grad := by
  unfold UccData.runGrad
  rw [if_neg uccStep_ok, h1, ok_bind, h2, ok_bind, h3]

/-- C129: none of the functions the object calls raises: state, density matrices, energy and gradient are computed for all
parameters, orbitals and state vectors. -/
theorem C129_total (hD : D.Ready Ts) :
    (∀ θ, D.runState θ = .ok (D.env.state θ)) ∧
    (∀ v, upsRdm1 D.tiny D.th D.ci v = .ok (D.env.mkRdm1 v) ∧
      uccRdm2 D.tiny D.th D.ci v = .ok (D.env.mkRdm2 v (D.env.mkRdm1 v)) ∧
      uccRdm3 D.tiny D.th D.ci v = .ok (D.env.mkRdm3 v (D.env.mkRdm1 v) (D.env.mkRdm2 v (D.env.mkRdm1 v))) ∧
      uccRdm4 D.tiny D.th D.ci v = .ok (D.env.mkRdm4 v (D.env.mkRdm1 v) (D.env.mkRdm2 v (D.env.mkRdm1 v))
        (D.env.mkRdm3 v (D.env.mkRdm1 v) (D.env.mkRdm2 v (D.env.mkRdm1 v))))) ∧
    (∀ v h g, D.runEnergy v h g = .ok (D.env.energy v h g)) ∧
    ∀ θ (C : Matrix (Fin D.n) (Fin D.n) ℝ), θ.length = D.st.types.length →
      D.runGrad (D.env.state θ) θ (oneTransform C D.hAo) (twoTransform C D.gAo) =
        .ok (D.env.gradTheta (D.env.state θ) θ (oneTransform C D.hAo) (twoTransform C D.gAo)) := by
  have hstate : ∀ θ, D.runState θ = .ok (D.env.state θ) := fun θ => by
    obtain ⟨w, h1, -⟩ := C72_exponential hD.tiny hD.space hD.layout θ false D.csf
    exact okOr_eq h1
  refine ⟨hstate, fun v => ?_, fun v h g => ?_, fun θ C hl => ?_⟩
  · obtain ⟨R1, R2, r1, r2, -⟩ := C29_ucc (tiny := D.tiny) hD.tiny hD.space hD.threads v
    obtain ⟨R3, R4, r3, r4, -⟩ := C108_ucc (tiny := D.tiny) hD.tiny hD.space hD.threads v
    have e1 : D.env.mkRdm1 v = R1 := by
      show okOr _ (upsRdm1 D.tiny D.th D.ci v) = R1
      rw [r1]; rfl
    have k2 : rdm2Loop (evEElist D.tiny D.th D.ci v) R1 D.ci.nI D.ci.nA = .ok R2 := by
      have := r2
      unfold uccRdm2 at this
      rw [r1] at this
      exact this
    have e2 : D.env.mkRdm2 v R1 = R2 := by
      show okOr _ (rdm2Loop _ R1 _ _) = R2
      rw [k2]; rfl
    have k3 : rdm3Loop (evList D.tiny D.th D.ci v) R1 R2 D.ci.nI D.ci.nA = .ok R3 := by
      have := r3
      unfold uccRdm3 at this
      rw [r1, r2] at this
      exact this
    have e3 : D.env.mkRdm3 v R1 R2 = R3 := by
      show okOr _ (rdm3Loop _ R1 R2 _ _) = R3
      rw [k3]; rfl
    have k4 : rdm4Loop (evList D.tiny D.th D.ci v) R1 R2 R3 D.ci.nI D.ci.nA = .ok R4 := by
      have := r4
      unfold uccRdm4 at this
      rw [r1, r2, r3] at this
      exact this
    have e4 : D.env.mkRdm4 v R1 R2 R3 = R4 := by
      show okOr _ (rdm4Loop _ R1 R2 R3 _ _) = R4
      rw [k4]; rfl
    rw [e1, e2, e3, e4]
    exact ⟨r1, r2, r3, r4⟩
  · obtain ⟨w, h1, -⟩ := C70_hamiltonian (tiny := D.tiny) hD.tiny hD.big hD.space hD.threads (natMat h) (natTen g) v
    have : D.runEnergy v h g = .ok (dot D.ci.idx2det.length v w) := by
      unfold UccData.runEnergy
      rw [h1]; rfl
    exact okOr_eq this
  · have hr := natMat_real (transform_real hD.real C)
    obtain ⟨c, Hket, Tmat, grad, h1, h2, h3, h4, -⟩ := ucc_gradient (tiny := D.tiny) hD.tiny hD.big hD.space hD.threads hr.one
      hr.real hD.layout hD.offset hD.norm hl.symm rfl
    have e1 : D.env.state θ = c := Except.ok.inj ((hstate θ).symm.trans h1)
    have h5 : D.runGrad c θ (oneTransform C D.hAo) (twoTransform C D.gAo) = .ok grad := uccRun_ok h2 h3 h4
    have h6 : D.runGrad (D.env.state θ) θ (oneTransform C D.hAo) (twoTransform C D.gAo) = .ok grad :=
      (congrArg (fun z => D.runGrad z θ (oneTransform C D.hAo) (twoTransform C D.gAo)) e1).trans h5
    exact okOr_eq h6

/-- The state of the object's parameters, with the inactive orbitals. -/
noncomputable def UccData.full (D : UccData) (θ : List ℝ) : Fock ℝ := core (2 * D.ci.nI) (stateOf D.ci (D.env.state θ))

theorem ucc_norm (hD : D.Ready Ts) (θ : List ℝ) :
    dot D.ci.idx2det.length (show Vec ℝ from D.env.state θ) (show Vec ℝ from D.env.state θ) = 1 := by
  obtain ⟨v', w', h1, h2, h3⟩ := C72_norm hD.tiny hD.space hD.layout θ false D.csf D.csf
  have h0 : D.runState θ = .ok (D.env.state θ) := (C129_total hD).1 θ
  have e1 : D.env.state θ = v' := Except.ok.inj (h0.symm.trans h1)
  have e2 : D.env.state θ = w' := Except.ok.inj (h0.symm.trans h2)
  rw [← hD.norm, ← h3]
  show dot _ (D.env.state θ) (D.env.state θ) = _
  exact congrArg₂ (dot D.ci.idx2det.length) e1 e2

theorem ucc_zero (hD : D.Ready Ts) : D.env.state (List.replicate D.env.numTheta 0) = D.env.csf := by
  obtain ⟨A, h1, -, h3⟩ := ucc_matrix hD.tiny hD.space hD.layout (List.replicate D.st.types.length 0)
  have hA : A = 0 := by
    rw [uccOp_zero] at h1
    refine h1.unique hD.space.valid fun v => ⟨0, fun i => ?_, ?_⟩
    · rw [Matrix.zero_mulVec]; rfl
    · rw [stateOf_zero]; rfl
  have h : D.runState (List.replicate D.env.numTheta 0) = .ok D.csf := by
    refine (h3 false D.csf).trans ?_
    congr 1
    rw [hA]
    funext i
    unfold expmMultiply
    simp only [Bool.false_eq_true, if_false, NormedSpace.exp_zero, Matrix.one_mulVec]
    by_cases hi : i < D.ci.idx2det.length
    · rw [dif_pos hi]
    · rw [dif_neg hi, hD.inside i (not_lt.1 hi)]
  exact congrArg (okOr D.csf) h

theorem uccEnergy_ok {v w : Vec ℝ} {h : Matrix (Fin D.n) (Fin D.n) ℝ} {g : Tensor4 (Fin D.n)}
    (h1 : applyHam D.tiny D.big D.th D.ci (natMat h) (natTen g) v = .ok w) :
    D.runEnergy v h g = .ok (dot D.ci.idx2det.length v w) := by
  unfold UccData.runEnergy
  rw [h1]; rfl

/-- C129: the functions of the object are those of C30-C34 and C70 for the state of its ansatz. -/
theorem C129_physical (hD : D.Ready Ts) :
    Physical D.env D.ci.nI D.ci.nA D.ci.nV (fun θ => [D.full θ]) (fun d => d) (fun d => d) where
  n := hD.orbs
  real := hD.real
  ref := fun θ => C30_reference hD.space Nat.one_pos (fun _ => D.env.state θ) fun _ _ => ucc_norm hD θ
  rdm := fun θ => by
    obtain ⟨R1, R2, r1, r2, h⟩ := C29_ucc (tiny := D.tiny) hD.tiny hD.space hD.threads (D.env.state θ)
    obtain ⟨k1, k2, -⟩ := (C129_total hD).2.1 (D.env.state θ)
    have e1 : D.env.mkRdm1 (D.env.state θ) = R1 := Except.ok.inj (k1.symm.trans r1)
    have e2 : D.env.mkRdm2 (D.env.state θ) (D.env.mkRdm1 (D.env.state θ)) = R2 := Except.ok.inj (k2.symm.trans r2)
    simp only [e2]
    rw [e1]
    exact h
  energy := fun θ h g => by
    obtain ⟨w, h1, h2⟩ := C70_hamiltonian (tiny := D.tiny) hD.tiny hD.big hD.space hD.threads (natMat h) (natTen g) (D.env.state θ)
    have h3 : D.runEnergy (D.env.state θ) h g = .ok (dot D.ci.idx2det.length (show Vec ℝ from D.env.state θ) w) :=
      uccEnergy_ok h1
    have h4 : D.env.energy (D.env.state θ) h g = dot D.ci.idx2det.length (show Vec ℝ from D.env.state θ) w :=
      congrArg (okOr 0) h3
    rw [h4, mean_one, h2]
    show _ = inner _ (electronic _ _ D.n _)
    rw [hD.orbs]
    rfl
  energyRdm := fun _ _ _ _ => rfl
  grad := fun _ _ _ _ => rfl

theorem ucc_exp (hD : D.Ready Ts) (θ : List ℝ) :
    ExpTo (uccOp D.st.types Ts θ) 1 (stateOf D.ci D.csf) (stateOf D.ci (D.env.state θ)) := by
  obtain ⟨w, h1, h2⟩ := C72_exponential hD.tiny hD.space hD.layout θ false D.csf
  have h0 : D.runState θ = .ok (D.env.state θ) := (C129_total hD).1 θ
  have e1 : D.env.state θ = w := Except.ok.inj (h0.symm.trans h1)
  rw [e1]
  simpa using h2

/-- The energy of `ψ` over the orbitals `C`. -/
noncomputable def UccData.energyOf (D : UccData) (C : Matrix (Fin D.n) (Fin D.n) ℝ) (ψ : Fock ℝ) : ℝ :=
  inner (core (2 * D.ci.nI) ψ) (D.ham C (core (2 * D.ci.nI) ψ))

/-- C129: whatever has been assigned and read before, the energy read from the object is `⟨ψ|H|ψ⟩`, with `ψ` the exponential
of the UCC operator at the current parameters applied to the reference and `H` the Hamiltonian over the current orbitals; the
density matrices read are those of `ψ`. -/
theorem C129_values (hD : D.Ready Ts) (ops : List WFOp) (hw : ∀ op ∈ ops, op.Fits D.env) (s : WFObj D.env)
    (hs : s = ops.foldl (fun s op => op.run s) (WFObj.init D.env)) :
    ∃ (C : Matrix (Fin D.n) (Fin D.n) ℝ) (ψ : Fock ℝ) (R1 : Mat ℝ) (R2 : Arr4),
      C = (ops.foldl (fun r op => op.ref D.env r) (WFRef.start D.env)).orb ∧ (readCMo s).1 = .ok C ∧
      ExpTo (uccOp D.st.types Ts s.thetas) 1 (stateOf D.ci D.csf) ψ ∧
      (readEnergy s).1 = .ok (D.energyOf C ψ) ∧ (readRdm1 s).1 = .ok R1 ∧ (readRdm2 s).1 = .ok R2 ∧
      IsRdm D.ci.nI D.ci.nA [core (2 * D.ci.nI) ψ] R1 R2 := by
  obtain ⟨-, h2, h3, -, -, -, h7, h8, h9, -⟩ := C39_reads (e := D.env) hD.kappa (ucc_zero hD) ops hw _ s rfl hs
  generalize ops.foldl (fun r op => op.ref D.env r) (WFRef.start D.env) = r at *
  have hp := C129_physical hD
  refine ⟨r.orb, stateOf D.ci (D.env.state r.thetas), _, _, rfl, h3, ?_, ?_, h7, h8, hp.rdm r.thetas⟩
  · rw [h2]; exact ucc_exp hD r.thetas
  · rw [h9, hp.energy, mean_one]
    rfl

/-- C129: whatever has been assigned and read before, the gradient the optimizer gets at the current parameters consists of
the partial derivatives of the energy.  Entry `i` of the orbital part is exactly the derivative of the energy read after
assigning `t` to the `i`-th orbital parameter.  Entry `j` of the ansatz part is a forward difference with the step
`2 ^ -26`: it differs from the derivative of the energy read after assigning `t` to the `j`-th ansatz parameter by at most
`2 ^ -20 ‖H ψ‖`, with `ψ` the current state and `H` the Hamiltonian over the current orbitals (angles below the cut-off 1e-28
count as zero). -/
theorem C129_gradient (hD : D.Ready Ts) (ops : List WFOp) (hw : ∀ op ∈ ops, op.Fits D.env) (s : WFObj D.env)
    (hs : s = ops.foldl (fun s op => op.run s) (WFObj.init D.env)) :
    ∃ (C : Matrix (Fin D.n) (Fin D.n) ℝ) (ψ : Fock ℝ) (Gκ Gθ : List ℝ), (readCMo s).1 = .ok C ∧
      ExpTo (uccOp D.st.types Ts s.thetas) 1 (stateOf D.ci D.csf) ψ ∧
      (gradCall (s.kappa ++ s.thetas) true true s).1 = .ok (Gκ ++ Gθ) ∧
      Gκ.length = s.kappa.length ∧ Gθ.length = s.thetas.length ∧
      (∀ i x d, s.kappa[i]? = some x → Gκ[i]? = some d → ∀ arr, ∃ f : ℝ → ℝ,
        (∀ t, (readEnergy ((WFOp.setKappa (s.kappa.set i t) arr).run s)).1 = .ok (f t)) ∧ HasDerivAt f d x) ∧
      ∀ j x d, s.thetas[j]? = some x → Gθ[j]? = some d → ∃ (f : ℝ → ℝ) (d' : ℝ),
        (∀ t, (10 : ℝ)⁻¹ ^ 28 ≤ |t| → (readEnergy ((WFOp.setThetas (s.thetas.set j t)).run s)).1 = .ok (f t)) ∧
        HasDerivAt f d' (effAngle x) ∧ |d - d'| ≤ 1 / 2 ^ 20 * fockNorm (D.ham C (core (2 * D.ci.nI) ψ)) := by
  have hp := C129_physical hD
  have hi := inv_ops (e := D.env) hD.kappa (ucc_zero hD) ops hw
  rw [← hs] at hi
  obtain ⟨-, -, hmo, -⟩ := C39_reads (e := D.env) hD.kappa (ucc_zero hD) ops hw _ s rfl hs
  obtain ⟨G, g1, g2, g3⟩ := C123_object hp hD.kappa (ucc_zero hD) ops hw s hs
  generalize ops.foldl (fun r op => op.ref D.env r) (WFRef.start D.env) = r at hi hmo
  obtain ⟨⟨p1, p2⟩, p3, p4⟩ := params_same hi.kappaLen
  have hc : (r.kappa ++ r.thetas).length = callSize D.env true true := by
    rw [List.length_append, hi.kappaLen, hi.thetaLen]; rfl
  have hc' : r.kappa.length = callSize D.env false true := by
    rw [hi.kappaLen]; rfl
  have hG := follows_fst (follows_gradCall hD.kappa r hc) hi
  have hG' := follows_fst (follows_gradCall hD.kappa r hc') hi
  have hr := natMat_real (transform_real hD.real r.orb)
  have eH : D.ham r.orb = oneOp (natMat (oneTransform r.orb D.hAo)) (D.ci.nI + D.ci.nA + D.ci.nV)
      + (1 / 2 : ℝ) • twoOp (natTen (twoTransform r.orb D.gAo)) (D.ci.nI + D.ci.nA + D.ci.nV) := by
    rw [← hD.orbs]; rfl
  obtain ⟨c, Hket, Tmat, grad, t1, t2, t3, t4, t5, t6⟩ := ucc_gradient (tiny := D.tiny) hD.tiny hD.big hD.space hD.threads hr.one
    hr.real hD.layout hD.offset hD.norm (thetas := r.thetas) hi.thetaLen.symm eH
  have e1 : D.env.state r.thetas = c := Except.ok.inj (((C129_total hD).1 r.thetas).symm.trans t1)
  have hrun : D.runGrad c r.thetas (oneTransform r.orb D.hAo) (twoTransform r.orb D.gAo) = .ok grad :=
    uccRun_ok t2 t3 t4
  have t0 := (C129_total hD).2.2.2 r.thetas r.orb hi.thetaLen
  have hgrad : D.env.gradTheta (D.env.state r.thetas) r.thetas (oneTransform r.orb D.env.hAo) (twoTransform r.orb D.env.gAo) = grad :=
    Except.ok.inj (t0.symm.trans ((congrArg (fun z => D.runGrad z r.thetas (oneTransform r.orb D.hAo)
      (twoTransform r.orb D.gAo)) e1).trans hrun))
  have hGθ : (r.params D.env (r.kappa ++ r.thetas) true true).G D.env true true = G ++ grad := by
    rw [hi.kappa] at g1
    have := Except.ok.inj (g1.symm.trans hG')
    rw [this]
    unfold WFRef.G
    simp only [p1, p2, p3, p4, if_true, hgrad, Bool.false_eq_true, if_false, List.append_nil]
  refine ⟨r.orb, stateOf D.ci c, G, grad, hmo, ?_, ?_, ?_, ?_, ?_, ?_⟩
  · rw [hi.thetas, ← e1]
    exact ucc_exp hD r.thetas
  · rw [← hGθ, hi.kappa, hi.thetas]
    exact hG
  · rw [g2, hi.kappa, hi.kappaLen]
  · rw [t5, hi.thetas]
  · intro i x d hx hd arr
    have hlen : s.kappa.length = G.length := by rw [g2, hi.kappa, hi.kappaLen]
    obtain ⟨hi1, rfl⟩ := List.getElem?_eq_some_iff.1 hx
    obtain ⟨hi2, rfl⟩ := List.getElem?_eq_some_iff.1 hd
    obtain ⟨f, f1, f2⟩ := g3 ((List.replicate G.length 0).set i 1) arr (by simp [g2])
    refine ⟨fun t => f (t - s.kappa[i]), fun t => ?_, ?_⟩
    · rw [← f1, ← shift_single hi1 t, hlen]
    · rw [listDot_single hi2] at f2
      refine HasDerivAt.comp_sub_const _ _ ?_
      rw [sub_self]
      exact f2
  · intro j x d hx hd
    rw [hi.thetas] at hx
    obtain ⟨ψ, d', q1, q2, q3⟩ := t6 j x d hx hd
    refine ⟨_, d', fun t ht => ?_, q2, q3⟩
    have hl : (s.thetas.set j t).length = D.env.numTheta := by rw [List.length_set, hi.thetas, hi.thetaLen]
    have h1 := follows_snd (follows_setThetas r hl) hi
    have hE := follows_fst (follows_readEnergy hD.kappa _) h1
    refine hE.trans ?_
    rw [show (r.setThetas (s.thetas.set j t)).reported = none from rfl, Option.getD_none]
    congr 1
    have heff : effAngle t = t := if_neg (not_lt.2 ht)
    have hψ : D.env.state (s.thetas.set j t) = ψ t := by
      have := q1 t
      rw [heff, ← hi.thetas] at this
      exact Except.ok.inj (((C129_total hD).1 _).symm.trans this)
    show D.env.energy (D.env.state (s.thetas.set j t)) (oneTransform r.orb D.env.hAo) (twoTransform r.orb D.env.gAo) = _
    rw [hp.energy, mean_one]
    exact congrArg (fun z : Vec ℝ => D.energyOf r.orb (stateOf D.ci z)) hψ

end SQ
