import Verif.Spec.SaEnv
import Verif.Props.UpsEnv
import Verif.Props.StateAverage

/-! # C128: the state-averaged class as a whole -/

namespace SQ

open WFObj

theorem rows_ok {n : ℕ} {r : Res (Mat ℝ)} {s : ℕ → Res (Vec ℝ)} (h : RowsAgree n r s) (hs : ∀ a < n, ∃ v, s a = .ok v) :
    ∃ M, r = .ok M ∧ ∀ a < n, s a = .ok (M a) := by
  rcases h with h | ⟨e, -, a, ha, h2⟩
  · exact h
  · obtain ⟨v, hv⟩ := hs a ha
    rw [hv] at h2
    cases h2

theorem foldl_sum (f : ℕ → ℝ) (n : ℕ) : (List.range n).foldl (fun d a => d + f a) 0 = ∑ a ∈ Finset.range n, f a := by
  induction n with
  | zero => rfl
  | succ n ih => rw [List.range_succ, List.foldl_append, ih, Finset.sum_range_succ]; rfl

section
variable {tiny big : ℝ → Bool} {th : Threads} {ci : CIInfo} {nS : ℕ}

theorem saGradLoop_rows (ht : ∀ x, tiny x = true ↔ x = 0) (hb : ∀ x, big x = false ↔ x = 0) (hn : 0 < nS) (st : AnsatzStruct)
    (thetas : List ℝ) (is : List ℕ) : ∀ (bra ket : Mat ℝ) (G : ℕ → List ℝ),
    (∀ a < nS, gradLoop tiny th ci st thetas is (bra a) (ket a) = .ok (G a)) →
    ∃ L, saGradLoop tiny big th ci nS st thetas is bra ket = .ok L ∧ L.length = is.length ∧
      ∀ i : ℕ, L.getD i 0 = (∑ a ∈ Finset.range nS, (G a).getD i 0) / nS := by
  induction is with
  | nil =>
    intro bra ket G h
    refine ⟨[], rfl, rfl, fun i => ?_⟩
    have : ∀ a ∈ Finset.range nS, (G a).getD i 0 = 0 := fun a ha => by
      have := h a (Finset.mem_range.1 ha)
      unfold gradLoop at this
      rw [← Except.ok.inj this]; simp
    rw [Finset.sum_congr rfl this]; simp
  | cons i is ih =>
    intro bra ket G h
    have key : ∀ a, ∃ tmp b k rest, a < nS → gradAction (propVec tiny th ci) tiny ci.offset st i (ket a) = .ok tmp ∧
        propagateUnitary (propVec tiny th ci) tiny ci.offset st thetas i (bra a) = .ok b ∧
        propagateUnitary (propVec tiny th ci) tiny ci.offset st thetas i (ket a) = .ok k ∧
        gradLoop tiny th ci st thetas is b k = .ok rest ∧ G a = 2 * dot ci.idx2det.length (bra a) tmp :: rest := by
      intro a
      by_cases ha : a < nS
      · have := h a ha
        unfold gradLoop at this
        cases h1 : gradAction (propVec tiny th ci) tiny ci.offset st i (ket a) with
        | error e => rw [h1] at this; cases this
        | ok tmp =>
          rw [h1, ok_bind] at this
          cases h2 : propagateUnitary (propVec tiny th ci) tiny ci.offset st thetas i (bra a) with
          | error e => rw [h2] at this; cases this
          | ok b =>
            rw [h2, ok_bind] at this
            cases h3 : propagateUnitary (propVec tiny th ci) tiny ci.offset st thetas i (ket a) with
            | error e => rw [h3] at this; cases this
            | ok k =>
              rw [h3, ok_bind] at this
              cases h4 : gradLoop tiny th ci st thetas is b k with
              | error e => rw [h4] at this; cases this
              | ok rest =>
                rw [h4, ok_bind] at this
                exact ⟨tmp, b, k, rest, fun _ => ⟨rfl, rfl, rfl, h4, (Except.ok.inj this).symm⟩⟩
      · exact ⟨0, 0, 0, [], fun hc => absurd hc ha⟩
    choose tmp b k rest hk using key
    have hp := propMat_rows ht hb th ci hn
    obtain ⟨T, t1, t2⟩ := rows_ok (gradAction_rows hn hp tiny ci.offset st i ket) fun a ha => ⟨_, (hk a ha).1⟩
    obtain ⟨B, b1, b2⟩ := rows_ok (propagateUnitary_rows hn hp tiny ci.offset st thetas i bra) fun a ha => ⟨_, (hk a ha).2.1⟩
    obtain ⟨K, k1, k2⟩ := rows_ok (propagateUnitary_rows hn hp tiny ci.offset st thetas i ket) fun a ha => ⟨_, (hk a ha).2.2.1⟩
    have eT : ∀ a < nS, T a = tmp a := fun a ha => Except.ok.inj ((t2 a ha).symm.trans (hk a ha).1)
    have eB : ∀ a < nS, B a = b a := fun a ha => Except.ok.inj ((b2 a ha).symm.trans (hk a ha).2.1)
    have eK : ∀ a < nS, K a = k a := fun a ha => Except.ok.inj ((k2 a ha).symm.trans (hk a ha).2.2.1)
    obtain ⟨L, l1, l2, l3⟩ := ih B K rest fun a ha => by rw [eB a ha, eK a ha]; exact (hk a ha).2.2.2.1
    refine ⟨(List.range nS).foldl (fun d a => d + 2 * dot ci.idx2det.length (bra a) (T a) / nS) 0 :: L, ?_, by rw [List.length_cons, List.length_cons, l2], fun j => ?_⟩
    · unfold saGradLoop
      rw [t1, ok_bind, b1, ok_bind, k1, ok_bind, l1, ok_bind]
      rfl
    · cases j with
      | zero =>
        rw [List.getD_cons_zero, foldl_sum, Finset.sum_div]
        refine Finset.sum_congr rfl fun a ha => ?_
        have ha := Finset.mem_range.1 ha
        rw [(hk a ha).2.2.2.2, List.getD_cons_zero, eT a ha]
      | succ j =>
        rw [List.getD_cons_succ, l3]
        congr 1
        refine Finset.sum_congr rfl fun a ha => ?_
        rw [(hk a (Finset.mem_range.1 ha)).2.2.2.2, List.getD_cons_succ]

theorem saRows_length (nS : ℕ) (M : Mat ℝ) : (saRows nS M).length = nS := by simp [saRows]

theorem saRows_get (nS : ℕ) (M : Mat ℝ) {i : ℕ} (hi : i < (saRows nS M).length) : (saRows nS M)[i] = M i := by simp [saRows]

theorem subspace_rows {eig : EigLib} (ht : ExactTiny tiny) (hb : ExactBig big) (he : EigOK eig) (hs : AnsatzSpace ci ci.nA)
    (hth : th.Fair ci.idx2det.length) {h : ℕ → ℕ → ℝ} {g : ℕ → ℕ → ℕ → ℕ → ℝ} (hr : RealIntegrals h g)
    {n : ℕ} {L : List (Vec ℝ)} (hn : L.length = n) {M : Mat ℝ} (hM : ∀ i (hi : i < L.length), L[i] = M i)
    (ho : ∀ a b, a < n → b < n → dot ci.idx2det.length (M a) (M b) = if a = b then 1 else 0) :
    ∃ S, subspaceCI tiny big (saElem tiny th ci) eig ci n L h g = .ok S ∧
      SubspaceEigenstates (electronic h g (ci.nI + ci.nA + ci.nV)) (fun a : Fin n => core (2 * ci.nI) (stateOf ci (M a)))
        (S.coeffs.map (superpose fun a : Fin n => core (2 * ci.nI) (stateOf ci (M a)))) S.energies := by
  subst hn
  have e : (fun a : Fin L.length => core (2 * ci.nI) (stateOf ci (M a))) = averagedStates ci id L := by
    funext a
    show _ = emb ci (L.get a)
    rw [List.get_eq_getElem, hM]
    rfl
  rw [e]
  refine C116_states ht hb he (C116_vectors ht hs hth L) ((C116_orthonormal hs).2 fun i j => ?_) hr
  rw [id, id, List.get_eq_getElem, List.get_eq_getElem, hM, hM, ho i j i.2 j.2]
  simp only [Fin.ext_iff]

end

variable {D : SaData} {Ts : List (FOp ℝ)}

theorem SaData.Ready.tinyE (hD : D.Ready Ts) : ExactTiny D.tiny := fun x h => (hD.tiny x).1 h
theorem SaData.Ready.bigE (hD : D.Ready Ts) : ExactBig D.big := fun x h => (hD.big x).1 h

theorem upsMat_ok (hD : D.Ready Ts) (θ : List ℝ) (dagger : Bool) (M : Mat ℝ) :
    ∃ M', upsMat D.tiny D.big D.th D.ci D.nS D.st θ dagger M = .ok M' ∧
      ∀ a < D.nS, upsVec D.tiny D.th D.ci D.st θ dagger (M a) = .ok (M' a) := by
  refine rows_ok (constructUps_rows hD.some (propMat_rows hD.tiny hD.big D.th D.ci hD.some) D.tiny D.ci.offset D.st θ dagger M)
    fun a _ => ?_
  obtain ⟨⟨w, h1, -⟩, w', h2, -⟩ := C26_state hD.tinyE hD.space hD.threads hD.layout θ (M a)
  cases dagger with
  | false => exact ⟨w, h1⟩
  | true => exact ⟨w', h2⟩

theorem applyHamSA_ok (hD : D.Ready Ts) (h : ℕ → ℕ → ℝ) (g : ℕ → ℕ → ℕ → ℕ → ℝ) (M : Mat ℝ) :
    ∃ M', applyHamSA D.tiny D.big D.th D.ci D.nS h g M = .ok M' ∧
      ∀ a < D.nS, applyHam D.tiny D.big D.th D.ci h g (M a) = .ok (M' a) := by
  have hrow : ∀ a, ∃ w, applyHam D.tiny D.big D.th D.ci h g (M a) = .ok w := fun a => by
    obtain ⟨w, h1, -⟩ := C70_hamiltonian (tiny := D.tiny) hD.tinyE hD.bigE hD.space hD.threads h g (M a)
    exact ⟨w, h1⟩
  unfold applyHamSA
  unfold applyHam at hrow ⊢
  cases hH : hamiltonian0i0a D.tiny D.big h g D.ci.nI D.ci.nA with
  | error e =>
    obtain ⟨w, hw⟩ := hrow 0
    rw [hH] at hw
    cases hw
  | ok H =>
    rw [hH] at hrow
    exact rows_ok (propagateStateSA_rows hD.tiny hD.big D.th D.ci _ _ true false hD.some
      (fun _ _ => RowsAgree.err hD.some _) [.op H] M) fun a _ => hrow a

theorem sa_state (hD : D.Ready Ts) (θ : List ℝ) : D.runState θ = .ok (D.env.state θ) ∧
    ∀ a < D.nS, upsVec D.tiny D.th D.ci D.st θ false (D.csf a) = .ok ((show Mat ℝ from D.env.state θ) a) := by
  obtain ⟨M', h1, h2⟩ := upsMat_ok hD θ false D.csf
  have h3 : D.runState θ = .ok M' := h1
  have e : D.env.state θ = M' := congrArg (okOr D.csf) h3
  rw [e]
  exact ⟨h3, h2⟩

theorem sa_grad (hD : D.Ready Ts) {θ : List ℝ} (C : Matrix (Fin D.n) (Fin D.n) ℝ) (hl : θ.length = D.st.types.length) :
    ∃ (L : List ℝ) (G : ℕ → List ℝ),
      D.runGrad (D.env.state θ) θ (oneTransform C D.hAo) (twoTransform C D.gAo) = .ok L ∧ L.length = θ.length ∧
      (∀ i : ℕ, L.getD i 0 = (∑ a ∈ Finset.range D.nS, (G a).getD i 0) / D.nS) ∧
      ∀ a < D.nS, thetaGradient D.tiny D.big D.th D.ci (natMat (oneTransform C D.hAo)) (natTen (twoTransform C D.gAo)) D.st
        (D.csf a) θ = .ok (G a) := by
  have hr := natMat_real (transform_real hD.real C)
  have hG : ∀ a, ∃ G, thetaGradient D.tiny D.big D.th D.ci (natMat (oneTransform C D.hAo)) (natTen (twoTransform C D.gAo)) D.st
      (D.csf a) θ = .ok G := fun a => by
    obtain ⟨G, h1, -⟩ := C71_gradient (tiny := D.tiny) hD.tinyE hD.bigE hD.space hD.threads hr.one hr.real hD.layout (D.csf a) hl.symm
    exact ⟨G, h1⟩
  choose G hG using hG
  obtain ⟨b1, h1, h2⟩ := applyHamSA_ok hD (natMat (oneTransform C D.hAo)) (natTen (twoTransform C D.gAo)) (D.env.state θ)
  obtain ⟨b2, k1, k2⟩ := upsMat_ok hD θ true b1
  obtain ⟨L, l1, l2, l3⟩ := saGradLoop_rows (th := D.th) (ci := D.ci) hD.tiny hD.big hD.some D.st θ (List.range θ.length) b2 D.csf G
    fun a ha => by
      have h3 := hG a
      unfold thetaGradient at h3
      rw [(sa_state hD θ).2 a ha, ok_bind, h2 a ha, ok_bind, k2 a ha, ok_bind] at h3
      exact h3
  refine ⟨L, G, ?_, by rw [l2, List.length_range], l3, fun a _ => hG a⟩
  unfold SaData.runGrad
  rw [h1, ok_bind, k1, ok_bind, l1]

/-- C128: none of the functions the object calls raises: states, density matrices, energy and gradient are computed for all
parameters and orbitals; the energy of the callback is that of `sa_energy`. -/
theorem C128_total (hD : D.Ready Ts) :
    (∀ θ, D.runState θ = .ok (D.env.state θ)) ∧
    (∀ M, saRdm1 D.tiny D.big D.th D.ci D.nS M = .ok (D.env.mkRdm1 M) ∧
      saRdm2 D.tiny D.big D.th D.ci D.nS M = .ok (D.env.mkRdm2 M (D.env.mkRdm1 M))) ∧
    (∀ M h g, saEnergy D.tiny D.big D.th D.ci D.nS M (natMat h) (natTen g) = .ok (D.env.energy M h g) ∧
      saCallEnergy D.tiny D.big D.th D.ci D.nS M (natMat h) (natTen g) = .ok (D.env.energy M h g)) ∧
    ∀ θ (C : Matrix (Fin D.n) (Fin D.n) ℝ), θ.length = D.st.types.length →
      D.runGrad (D.env.state θ) θ (oneTransform C D.hAo) (twoTransform C D.gAo) =
        .ok (D.env.gradTheta (D.env.state θ) θ (oneTransform C D.hAo) (twoTransform C D.gAo)) := by
  refine ⟨fun θ => (sa_state hD θ).1, fun M => ?_, fun M h g => ?_, fun θ C hl => ?_⟩
  · obtain ⟨R1, R2, r1, r2, -⟩ := C29_sa (tiny := D.tiny) hD.tinyE hD.big hD.space hD.threads hD.some M
    have e1 : D.env.mkRdm1 M = R1 := congrArg (okOr _) r1
    have k2 : rdm2Loop (evEESA D.tiny D.big D.th D.ci D.nS M) R1 D.ci.nI D.ci.nA = .ok R2 := by
      have := r2
      unfold saRdm2 at this
      rw [r1] at this
      exact this
    have e2 : D.env.mkRdm2 M R1 = R2 := congrArg (okOr _) k2
    rw [e1, e2]
    exact ⟨r1, r2⟩
  · have h1 := C117_energy (tiny := D.tiny) hD.tinyE hD.big hD.space hD.threads hD.some M (natMat h) (natTen g)
    exact ⟨okOr_eq h1, (show saCallEnergy D.tiny D.big D.th D.ci D.nS M (natMat h) (natTen g) =
      saEnergy D.tiny D.big D.th D.ci D.nS M (natMat h) (natTen g) from rfl).trans (okOr_eq h1)⟩
  · obtain ⟨L, G, h1, -⟩ := sa_grad hD C hl
    exact okOr_eq h1

/-- The states of the object's parameters, with the inactive orbitals. -/
noncomputable def SaData.full (D : SaData) (θ : List ℝ) : List (Fock ℝ) := rowStates D.ci D.nS (show Mat ℝ from D.env.state θ)

theorem sa_ortho (hD : D.Ready Ts) (θ : List ℝ) (a b : ℕ) (ha : a < D.nS) (hb : b < D.nS) :
    dot D.ci.idx2det.length ((show Mat ℝ from D.env.state θ) a) ((show Mat ℝ from D.env.state θ) b) = if a = b then 1 else 0 := by
  obtain ⟨v', w', h1, h2, h3⟩ := C27_norm hD.tinyE hD.space hD.threads hD.layout θ false (D.csf a) (D.csf b)
  have e1 := Except.ok.inj (((sa_state hD θ).2 a ha).symm.trans h1)
  have e2 := Except.ok.inj (((sa_state hD θ).2 b hb).symm.trans h2)
  rw [e1, e2, h3, hD.ortho a b ha hb]

theorem sa_zero (D : SaData) : D.env.state (List.replicate D.env.numTheta 0) = D.env.csf := by
  have : ∀ (l : List (String × List ℕ × ℝ)) (v : Mat ℝ), (∀ x ∈ l, x.2.2 = 0) →
      l.foldlM (upsStep (propMat D.big D.th D.ci D.nS) D.tiny D.ci.offset false) v = .ok v := by
    intro l
    induction l with
    | nil => intro v _; rfl
    | cons x l ih =>
      intro v h
      rw [List.foldlM_cons]
      have : upsStep (propMat D.big D.th D.ci D.nS) D.tiny D.ci.offset false v x = .ok v := by
        unfold upsStep
        rw [h x List.mem_cons_self, if_pos (by rw [abs_zero]; positivity)]
      rw [this]
      exact ih v fun y hy => h y (List.mem_cons_of_mem _ hy)
  have h : D.runState (List.replicate D.env.numTheta 0) = .ok D.csf := by
    unfold SaData.runState upsMat constructUps pyOrder
    simp only [Bool.false_eq_true, if_false]
    refine this _ _ fun x hx => ?_
    have h1 := (List.of_mem_zip hx).2
    have h2 := (List.of_mem_zip h1).2
    exact List.eq_of_mem_replicate h2
  exact congrArg (okOr D.csf) h

/-- C128: the functions of the object are those of C30-C34, C117 for the states of its ansatz. -/
theorem C128_physical (hD : D.Ready Ts) :
    Physical D.env D.ci.nI D.ci.nA D.ci.nV D.full (fun d => d) (fun d => d) where
  n := hD.orbs
  real := hD.real
  ref := fun θ => C30_reference hD.space hD.some (D.env.state θ) fun a ha => by
    have := sa_ortho hD θ a a ha ha
    rw [if_pos rfl] at this
    exact this
  rdm := fun θ => by
    obtain ⟨R1, R2, r1, r2, h⟩ := C29_sa (tiny := D.tiny) hD.tinyE hD.big hD.space hD.threads hD.some (D.env.state θ)
    obtain ⟨k1, k2⟩ := (C128_total hD).2.1 (D.env.state θ)
    have e1 : D.env.mkRdm1 (D.env.state θ) = R1 := Except.ok.inj (k1.symm.trans r1)
    have e2 : D.env.mkRdm2 (D.env.state θ) (D.env.mkRdm1 (D.env.state θ)) = R2 := Except.ok.inj (k2.symm.trans r2)
    simp only [e2]
    rw [e1]
    exact h
  energy := fun θ h g => by
    have h1 := C117_energy (tiny := D.tiny) hD.tinyE hD.big hD.space hD.threads hD.some (D.env.state θ) (natMat h) (natTen g)
    have h2 : D.env.energy (D.env.state θ) h g = _ := congrArg (okOr 0) h1
    rw [h2, ← hD.orbs]
    rfl
  energyRdm := fun _ _ _ _ => rfl
  grad := fun _ _ _ _ => rfl

theorem sa_chain (hD : D.Ready Ts) (θ : List ℝ) (a : ℕ) (ha : a < D.nS) :
    ExpChain (Ts.zip (θ.map effAngle)) (stateOf D.ci (D.csf a)) (stateOf D.ci ((show Mat ℝ from D.env.state θ) a)) := by
  obtain ⟨w, h1, h2⟩ := (C26_state hD.tinyE hD.space hD.threads hD.layout θ (D.csf a)).1
  have e1 := Except.ok.inj (((sa_state hD θ).2 a ha).symm.trans h1)
  rw [e1]
  exact h2

theorem sa_energy (D : SaData) (θ : List ℝ) (C : Matrix (Fin D.n) (Fin D.n) ℝ) :
    mean (D.full θ) (D.ham C) = D.energyOf C fun a => stateOf D.ci ((show Mat ℝ from D.env.state θ) a) := by
  unfold SaData.full SaData.energyOf
  rw [mean_rowStates]

/-- C128: whatever has been assigned and read before, the energy read from the object is the mean of `⟨ψₐ|H|ψₐ⟩`, with `ψₐ`
the reference states transformed by the chain of exponentials of the layout at the current parameters and `H` the
Hamiltonian over the current orbitals; the density matrices read are the averaged ones of the `ψₐ`; and the energies and
coefficients of the states read are those of the eigenstates of `H` in the span of the `ψₐ`. -/
theorem C128_values (hD : D.Ready Ts) (ops : List WFOp) (hw : ∀ op ∈ ops, op.Fits D.env) (s : WFObj D.env)
    (hs : s = ops.foldl (fun s op => op.run s) (WFObj.init D.env)) :
    ∃ (C : Matrix (Fin D.n) (Fin D.n) ℝ) (ψ : ℕ → Fock ℝ) (R1 : Mat ℝ) (R2 : Arr4) (S : StateCI D.nS),
      C = (ops.foldl (fun r op => op.ref D.env r) (WFRef.start D.env)).orb ∧ (readCMo s).1 = .ok C ∧
      (∀ a < D.nS, ExpChain (Ts.zip (s.thetas.map effAngle)) (stateOf D.ci (D.csf a)) (ψ a)) ∧
      (readEnergy s).1 = .ok (D.energyOf C ψ) ∧ (readRdm1 s).1 = .ok R1 ∧ (readRdm2 s).1 = .ok R2 ∧
      IsRdm D.ci.nI D.ci.nA ((List.range D.nS).map fun a => core (2 * D.ci.nI) (ψ a)) R1 R2 ∧
      (readStates s).1 = .ok (.ok S) ∧
      SubspaceEigenstates (D.ham C) (fun a : Fin D.nS => core (2 * D.ci.nI) (ψ a))
        (S.coeffs.map (superpose fun a : Fin D.nS => core (2 * D.ci.nI) (ψ a))) S.energies := by
  obtain ⟨-, h2, h3, -, -, -, h7, h8, h9, -, h11⟩ := C39_reads (e := D.env) hD.kappa (sa_zero D) ops hw _ s rfl hs
  generalize ops.foldl (fun r op => op.ref D.env r) (WFRef.start D.env) = r at *
  have hp := C128_physical hD
  have hr := natMat_real (transform_real hD.real r.orb)
  obtain ⟨S, s1, s2⟩ := subspace_rows (tiny := D.tiny) (M := (show Mat ℝ from D.env.state r.thetas)) hD.tinyE hD.bigE hD.eig hD.space
    hD.threads hr (n := D.nS) (L := saRows D.nS (D.env.state r.thetas)) (saRows_length _ _)
    (fun i hi => saRows_get _ _ hi) (sa_ortho hD r.thetas)
  refine ⟨r.orb, fun a => stateOf D.ci ((show Mat ℝ from D.env.state r.thetas) a), _, _, S, rfl, h3, ?_, ?_, h7, h8, hp.rdm r.thetas, ?_, ?_⟩
  · rw [h2]; exact sa_chain hD r.thetas
  · rw [h9, hp.energy]
    exact congrArg Except.ok (sa_energy D r.thetas r.orb)
  · rw [h11 rfl]
    exact congrArg _ s1
  · rw [← hD.orbs] at s2
    exact s2

/-- C128: whatever has been assigned and read before, the gradient the optimizer gets at the current parameters consists of
the partial derivatives of the averaged energy: entry `i` of the orbital part is the derivative of the energy read after
assigning `t` to the `i`-th orbital parameter, entry `j` of the ansatz part of the energy read after assigning `t` to the
`j`-th ansatz parameter (angles below the cut-off 1e-28 count as zero). -/
theorem C128_gradient (hD : D.Ready Ts) (ops : List WFOp) (hw : ∀ op ∈ ops, op.Fits D.env) (s : WFObj D.env)
    (hs : s = ops.foldl (fun s op => op.run s) (WFObj.init D.env)) :
    ∃ Gκ Gθ : List ℝ, (gradCall (s.kappa ++ s.thetas) true true s).1 = .ok (Gκ ++ Gθ) ∧
      Gκ.length = s.kappa.length ∧ Gθ.length = s.thetas.length ∧
      (∀ i x d, s.kappa[i]? = some x → Gκ[i]? = some d → ∀ arr, ∃ f : ℝ → ℝ,
        (∀ t, (readEnergy ((WFOp.setKappa (s.kappa.set i t) arr).run s)).1 = .ok (f t)) ∧ HasDerivAt f d x) ∧
      ∀ j x d, s.thetas[j]? = some x → Gθ[j]? = some d → ∃ f : ℝ → ℝ,
        (∀ t, (10 : ℝ)⁻¹ ^ 28 ≤ |t| → (readEnergy ((WFOp.setThetas (s.thetas.set j t)).run s)).1 = .ok (f t)) ∧
        HasDerivAt f d (effAngle x) := by
  have hp := C128_physical hD
  have hi := inv_ops (e := D.env) hD.kappa (sa_zero D) ops hw
  rw [← hs] at hi
  obtain ⟨G, g1, g2, g3⟩ := C123_object hp hD.kappa (sa_zero D) ops hw s hs
  generalize ops.foldl (fun r op => op.ref D.env r) (WFRef.start D.env) = r at hi
  obtain ⟨⟨p1, p2⟩, p3, p4⟩ := params_same hi.kappaLen
  have hc : (r.kappa ++ r.thetas).length = callSize D.env true true := by
    rw [List.length_append, hi.kappaLen, hi.thetaLen]; rfl
  have hc' : r.kappa.length = callSize D.env false true := by
    rw [hi.kappaLen]; rfl
  have hG := follows_fst (follows_gradCall hD.kappa r hc) hi
  have hG' := follows_fst (follows_gradCall hD.kappa r hc') hi
  have hr := natMat_real (transform_real hD.real r.orb)
  obtain ⟨grad, Gs, t1, t2, t3, t4⟩ := sa_grad hD r.orb (θ := r.thetas) hi.thetaLen
  have hgrad : D.env.gradTheta (D.env.state r.thetas) r.thetas (oneTransform r.orb D.env.hAo) (twoTransform r.orb D.env.gAo) = grad :=
    congrArg (okOr []) t1
  have hGθ : (r.params D.env (r.kappa ++ r.thetas) true true).G D.env true true = G ++ grad := by
    rw [hi.kappa] at g1
    have := Except.ok.inj (g1.symm.trans hG')
    rw [this]
    unfold WFRef.G
    simp only [p1, p2, p3, p4, if_true, hgrad, Bool.false_eq_true, if_false, List.append_nil]
  refine ⟨G, grad, ?_, ?_, ?_, ?_, ?_⟩
  · rw [← hGθ, hi.kappa, hi.thetas]
    exact hG
  · rw [g2, hi.kappa, hi.kappaLen]
  · rw [t2, hi.thetas]
  · intro i x d hx hd arr
    have hlen : s.kappa.length = G.length := by rw [g2, hi.kappa, hi.kappaLen]
    obtain ⟨hi1, rfl⟩ := List.getElem?_eq_some_iff.1 hx
    obtain ⟨hi2, rfl⟩ := List.getElem?_eq_some_iff.1 hd
    obtain ⟨f, f1, f2⟩ := g3 ((List.replicate G.length 0).set i 1) arr (by simp [g2])
    refine ⟨fun t => f (t - s.kappa[i]), fun t => ?_, ?_⟩
    · rw [← f1, ← shift_single hi1 t, hlen]
    · rw [listDot_single hi2] at f2
      refine HasDerivAt.comp_sub_const _ _ ?_
      rw [sub_self]
      exact f2
  · intro j x d hx hd
    rw [hi.thetas] at hx
    have hj : j < r.thetas.length := (List.getElem?_eq_some_iff.1 hx).1
    have rows : ∀ a, ∃ ψ : ℝ → Fock ℝ, a < D.nS →
        (∀ t, ExpChain (Ts.zip ((r.thetas.map effAngle).set j t)) (stateOf D.ci (D.csf a)) (ψ t)) ∧
        HasDerivAt (fun t => inner (core (2 * D.ci.nI) (ψ t)) (D.ham r.orb (core (2 * D.ci.nI) (ψ t)))) ((Gs a).getD j 0)
          (effAngle x) := by
      intro a
      by_cases ha : a < D.nS
      · obtain ⟨g', q1, q2, q3⟩ := C71_gradient (tiny := D.tiny) hD.tinyE hD.bigE hD.space hD.threads hr.one hr.real hD.layout (D.csf a)
          (thetas := r.thetas) hi.thetaLen.symm
        obtain rfl : g' = Gs a := Except.ok.inj (q1.symm.trans (t4 a ha))
        obtain ⟨ψ, u1, u2⟩ := q3 j x ((Gs a).getD j 0) hx (by
          rw [List.getD_eq_getElem?_getD, List.getElem?_eq_getElem (by rw [q2]; exact hj), Option.getD_some])
        refine ⟨ψ, fun _ => ⟨u1, ?_⟩⟩
        rw [← hD.orbs] at u2
        exact u2
      · exact ⟨fun _ => 0, fun h => absurd h ha⟩
    choose ψ hψ using rows
    refine ⟨fun t => D.energyOf r.orb fun a => ψ a t, fun t ht => ?_, ?_⟩
    · have hl : (s.thetas.set j t).length = D.env.numTheta := by rw [List.length_set, hi.thetas, hi.thetaLen]
      have h1 := follows_snd (follows_setThetas r hl) hi
      have hE := follows_fst (follows_readEnergy hD.kappa _) h1
      refine hE.trans ?_
      rw [show (r.setThetas (s.thetas.set j t)).reported = none from rfl, Option.getD_none]
      congr 1
      have heff : effAngle t = t := if_neg (not_lt.2 ht)
      show D.env.energy (D.env.state (s.thetas.set j t)) (oneTransform r.orb D.env.hAo) (twoTransform r.orb D.env.gAo) = _
      rw [hp.energy]
      refine (sa_energy D (s.thetas.set j t) r.orb).trans ?_
      unfold SaData.energyOf
      congr 1
      refine Finset.sum_congr rfl fun a ha => ?_
      have ha := Finset.mem_range.1 ha
      have e : stateOf D.ci ((show Mat ℝ from D.env.state (s.thetas.set j t)) a) = ψ a t := by
        refine expChain_unique (sa_chain hD _ a ha) ?_
        rw [hi.thetas, List.map_set, heff]
        exact (hψ a ha).1 t
      exact congrArg (fun z => inner (core (2 * D.ci.nI) z) (D.ham r.orb (core (2 * D.ci.nI) z))) e
    · have hd' : d = (∑ a ∈ Finset.range D.nS, (Gs a).getD j 0) / D.nS := by
        rw [← t3, List.getD_eq_getElem?_getD, hd, Option.getD_some]
      rw [hd']
      unfold SaData.energyOf
      exact (HasDerivAt.fun_sum fun a ha => (hψ a (Finset.mem_range.1 ha)).2).div_const _

end SQ
