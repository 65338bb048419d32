import Verif.Lemmas.StateAverage
import Verif.Props.Sampler
import Verif.Lemmas.SwapBits

/-!
# C116, C117: states and averages of state-averaged wave functions

`L` is the list of states, `el` computes matrix elements of active operators between them; `ExactElems ci amp L el` says
that it does so exactly. `C116_vectors` and `C117_interface` show this for the two classes.
-/

namespace SQ

open Matrix

variable {tiny big : ℝ → Bool} {ci : CIInfo} {σ : Type} {amp : σ → Vec ℝ} {L : List σ} {el : σ → Dict ℝ → σ → Res ℝ}
  {eig : EigLib}

/-! ## C116 -/

/-- C116: `_do_state_ci` finds the eigenstates of the full electronic Hamiltonian within the span of the states. -/
theorem C116_states (ht : ExactTiny tiny) (hb : ExactBig big) (he : EigOK eig) (hx : ExactElems ci amp L el)
    (ho : OrthonormalStates (averagedStates ci amp L)) {h : ℕ → ℕ → ℝ} {g : ℕ → ℕ → ℕ → ℕ → ℝ} (hr : RealIntegrals h g) :
    ∃ S, subspaceCI tiny big el eig ci L.length L h g = .ok S ∧
      SubspaceEigenstates (electronic h g (ci.nI + ci.nA + ci.nV)) (averagedStates ci amp L)
        (S.coeffs.map (superpose (averagedStates ci amp L))) S.energies := by
  obtain ⟨H, h1, h2, h3⟩ := ham0_gen ht hb h g ci
  have hH : IsAdjoint (hamOp h g (ci.nI + ci.nA + ci.nV)) (hamOp h g (ci.nI + ci.nA + ci.nV)) :=
    C11_hermitian h g _ (fun p q _ _ => hr.one p q) fun p q r s _ _ _ _ => hr.real p q r s
  have hs : ∀ x y, ActiveState ci.nI ci.nA x → ActiveState ci.nI ci.nA y → inner x (sumOp H y) = inner y (sumOp H x) := by
    intro x y hx hy
    rw [h3 x y hx hy, h3 y x hy hx, ← hH, inner_comm]
  obtain ⟨M, m1, m2⟩ := stateHam_sem (el := el) (L := L) (A := getFolded ci.nI ci.nA ci.nV H)
    (f := fun s t => inner (emb ci (amp s)) (sumOp H (emb ci (amp t))))
    (fun s hs' t ht' => hx.elem h2 hs hs' ht') fun s _ t _ => hs _ _ (emb_active ci _) (emb_active ci _)
  have e : (fun i j => M i j : RMat L.length) = fun i j =>
      inner (averagedStates ci amp L i) (electronic h g (ci.nI + ci.nA + ci.nV) (averagedStates ci amp L j)) := by
    funext i j
    rw [m2 i j, h3 _ _ (emb_active ci _) (emb_active ci _)]
    rfl
  refine ⟨⟨(sortedPairs eig (fun i j => M i j : RMat L.length)).map fun p => p.1.re,
    (sortedPairs eig (fun i j => M i j : RMat L.length)).map fun p i => (p.2 i).re⟩, ?_, ?_⟩
  · unfold subspaceCI
    rw [h1, ok_bind, m1, ok_bind]
    rfl
  · rw [e]
    exact subspace_eigenstates he ho fun i j => by
      have := hH (averagedStates ci amp L j) (averagedStates ci amp L i)
      rw [inner_comm] at this
      exact this

/-- C116: `excitation_energies` are the differences to the lowest energy and not negative. -/
theorem C116_excitations {T : FOp ℝ} {n : ℕ} {Ψ : Fin n → Fock ℝ} {Φs : List (Fock ℝ)} {e0 : ℝ} {es : List ℝ}
    (hS : SubspaceEigenstates T Ψ Φs (e0 :: es)) :
    ∃ ε, excitationEnergies n (e0 :: es) = .ok ε ∧ ε = es.map (fun e => e - e0) ∧ ε.length = n - 1 ∧ ∀ x ∈ ε, 0 ≤ x := by
  have hn := hS.number.2
  rw [List.length_cons] at hn
  refine ⟨_, by unfold excitationEnergies; rw [if_neg (by omega)], rfl, by rw [List.length_map]; omega, ?_⟩
  intro x hx
  obtain ⟨e, he, rfl⟩ := List.mem_map.1 hx
  exact sub_nonneg.2 ((List.pairwise_cons.1 hS.ascending).1 e he)

/-- C116: `get_transition_property` returns the matrix elements of the one-electron operator between the first superposition
and each of the others, whatever the coefficients. -/
theorem C116_transition (ht : ExactTiny tiny) (hb : ExactBig big) (hx : ExactElems ci amp L el) {o : ℕ → ℕ → ℝ}
    (hsym : ∀ p q, o p q = o q p) {c0 : Fin L.length → ℝ} {cs : List (Fin L.length → ℝ)} (hc : cs.length + 1 = L.length) :
    transitionProperty tiny big el ci L.length L (c0 :: cs) o
      = .ok (cs.map fun c => inner (superpose (averagedStates ci amp L) c)
        (oneOp o (ci.nI + ci.nA + ci.nV) (superpose (averagedStates ci amp L) c0))) := by
  obtain ⟨O, h1, h2, h3⟩ := one0_gen ht hb o ci
  have hO := oneOp_adjoint hsym (ci.nI + ci.nA + ci.nV)
  have hs : ∀ x y, ActiveState ci.nI ci.nA x → ActiveState ci.nI ci.nA y → inner x (sumOp O y) = inner y (sumOp O x) := by
    intro x y hx hy
    rw [h3 x y hx hy, h3 y x hy hx, ← hO, inner_comm]
  obtain ⟨M, m1, m2⟩ := stateOp_sem (el := el) (L := L) (A := getFolded ci.nI ci.nA ci.nV O)
    (f := fun s t => inner (emb ci (amp s)) (sumOp O (emb ci (amp t)))) fun s hs' t ht' => hx.elem h2 hs hs' ht'
  have e : ∀ i j : Fin L.length, M i j =
      inner (averagedStates ci amp L i) (oneOp o (ci.nI + ci.nA + ci.nV) (averagedStates ci amp L j)) := by
    intro i j
    rw [m2 i j, h3 _ _ (emb_active ci _) (emb_active ci _)]
    rfl
  have val : ∀ a : Fin L.length → ℝ, (∑ k : Fin L.length, (∑ j : Fin L.length, a j * M j k) * c0 k) =
      inner (superpose (averagedStates ci amp L) a)
        (oneOp o (ci.nI + ci.nA + ci.nV) (superpose (averagedStates ci amp L) c0)) := by
    intro a
    rw [inner_superpose]
    simp only [mulVec, dotProduct, Finset.mul_sum, Finset.sum_mul, e]
    rw [Finset.sum_comm]
    exact Finset.sum_congr rfl fun i _ => Finset.sum_congr rfl fun j _ => mul_assoc _ _ _
  unfold transitionProperty
  rw [if_neg (by omega), h1, ok_bind, m1, ok_bind, show L.length - 1 = cs.length by omega]
  rw [mapM_ok (g := fun i => inner (superpose (averagedStates ci amp L) (cs.getD i 0))
    (oneOp o (ci.nI + ci.nA + ci.nV) (superpose (averagedStates ci amp L) c0))) fun i hi => by
      have hi := List.mem_range.1 hi
      simp only [List.getElem?_cons_succ, List.getElem?_cons_zero, List.getElem?_eq_getElem hi, val,
        List.getD_eq_getElem?_getD, Option.getD_some]]
  congr 1
  refine List.ext_getElem (by simp) fun i h1 h2 => ?_
  rw [List.length_map] at h2
  simp [List.getD_eq_getElem?_getD, List.getElem?_eq_getElem h2]

/-- C116: `get_oscillator_strenghts` returns `2/3 ε_k |⟨Φ_k|μ|Φ_0⟩|²` with the energies and states of C116, none of
them negative. -/
theorem C116_strengths (ht : ExactTiny tiny) (hb : ExactBig big) (hx : ExactElems ci amp L el) {T : FOp ℝ}
    {μx μy μz : ℕ → ℕ → ℝ} (hμx : ∀ p q, μx p q = μx q p) (hμy : ∀ p q, μy p q = μy q p) (hμz : ∀ p q, μz p q = μz q p)
    {c0 : Fin L.length → ℝ} {cs : List (Fin L.length → ℝ)} {e0 : ℝ} {es : List ℝ}
    (hS : SubspaceEigenstates T (averagedStates ci amp L) ((c0 :: cs).map (superpose (averagedStates ci amp L))) (e0 :: es)) :
    ∃ (ε tx ty tz f : List ℝ), excitationEnergies L.length (e0 :: es) = .ok ε ∧
      transitionProperty tiny big el ci L.length L (c0 :: cs) μx = .ok tx ∧
      transitionProperty tiny big el ci L.length L (c0 :: cs) μy = .ok ty ∧
      transitionProperty tiny big el ci L.length L (c0 :: cs) μz = .ok tz ∧
      saStrengths L.length ε tx ty tz = .ok f ∧ f.length = L.length - 1 ∧ (∀ x ∈ f, 0 ≤ x) ∧
      ∀ (k : ℕ) c e, cs[k]? = some c → es[k]? = some e →
        let t := fun μ : ℕ → ℕ → ℝ => inner (superpose (averagedStates ci amp L) c)
          (oneOp μ (ci.nI + ci.nA + ci.nV) (superpose (averagedStates ci amp L) c0))
        f[k]? = some (2 / 3 * (e - e0) * (t μx ^ 2 + t μy ^ 2 + t μz ^ 2)) := by
  obtain ⟨ε, e1, e2, e3, e4⟩ := C116_excitations hS
  have hn1 := hS.number.1
  have hn2 := hS.number.2
  rw [List.length_map, List.length_cons] at hn1
  rw [List.length_cons] at hn2
  refine ⟨ε, _, _, _, _, e1, C116_transition ht hb hx hμx hn1, C116_transition ht hb hx hμy hn1,
    C116_transition ht hb hx hμz hn1, by unfold saStrengths; rw [if_neg (by omega)], ?_, ?_, ?_⟩
  · simp only [List.length_map, List.length_zip, e3]
    omega
  · intro x hx'
    obtain ⟨⟨ε', a, b, c⟩, hm, rfl⟩ := List.mem_map.1 hx'
    have := e4 ε' (List.of_mem_zip hm).1
    dsimp only
    positivity
  · intro k c e hc he
    subst e2
    simp only [List.getElem?_map, List.getElem?_zip_eq_some, List.getElem?_eq_some_iff] at hc he ⊢
    obtain ⟨k1, rfl⟩ := hc
    obtain ⟨k2, rfl⟩ := he
    rw [List.getElem?_eq_getElem (by simp only [List.length_zip, List.length_map]; omega)]
    simp

/-- C116: the sum of the energies of the states is `num_states` times the state-averaged energy. -/
theorem C116_average {T : FOp ℝ} {Φs : List (Fock ℝ)} {es : List ℝ} (hn : 0 < L.length)
    (hS : SubspaceEigenstates T (averagedStates ci amp L) Φs es) :
    es.sum / L.length = mean (L.map fun s => emb ci (amp s)) T := by
  rw [hS.average]
  unfold mean
  rw [List.map_map, List.length_map]
  congr 1
  rw [← List.sum_ofFn]
  congr 1
  refine List.ext_getElem (by simp) fun i h1 h2 => ?_
  simp [averagedStates, expv]

/-- C116: the matrix elements of the class that works with vectors are exact. -/
theorem C116_vectors {th : Threads} (ht : ExactTiny tiny) (hs : AnsatzSpace ci ci.nA) (hth : th.Fair ci.idx2det.length)
    (L : List (Vec ℝ)) : ExactElems ci id L (saElem tiny th ci) := by
  intro A hN hr
  have hc : ci.ClosedOn (· < 2 * ci.nA) := by
    intro S S' h1 h2 h3 h4
    refine hs.closed S S' h1 (fun p hp => h2 p fun h => hp ?_) h3 h4
    dsimp only at h
    have := hs.fits
    omega
  have val : ∀ s t, saElem tiny th ci s A t = .ok (inner (stateOf ci s) (sumOp A (stateOf ci t))) := by
    intro s t
    obtain ⟨w, hw, ew⟩ := applyOp_closed (th := th) ht hs.valid hc (fun _ h => h) hth t hN hr
    unfold saElem expectationValue
    simp only [propagateState, propStep, List.length_singleton, Nat.one_ne_zero, if_false, List.reverse_singleton,
      List.foldlM_cons, List.foldlM_nil, Bool.false_eq_true, hw, ok_bind]
    rw [← ew, ← dot_eq_inner hs.valid]
    rfl
  exact ⟨fun s _ => val s s, fun _ s _ t _ => val s t⟩

/-- C116: the states are orthonormal if the vectors are. -/
theorem C116_orthonormal (hs : AnsatzSpace ci ci.nA) :
    OrthonormalStates (averagedStates ci amp L) ↔
      ∀ i j : Fin L.length, dot ci.idx2det.length (amp (L.get i)) (amp (L.get j)) = if i = j then 1 else 0 := by
  unfold OrthonormalStates averagedStates emb
  simp only [inner_core, ← dot_eq_inner hs.valid]

/-- C116: all the hypotheses hold for the class that works with vectors, whose rows are what the ansatz makes of
orthonormal rows; the energies are then found, and their mean is `sa_energy`. -/
theorem C116_class {th : Threads} (ht : ExactTiny tiny) (hb : ExactBig big) (he : EigOK eig) (hs : AnsatzSpace ci ci.nA)
    (hth : th.Fair ci.idx2det.length) {st : AnsatzStruct} {Ts : List (FOp ℝ)}
    (hL : Layout ci.offset ci.nA st.types st.indices Ts) (thetas : List ℝ) {rows : List (Vec ℝ)} (hn : 0 < rows.length)
    (ho : ∀ i j : Fin rows.length, dot ci.idx2det.length (rows.get i) (rows.get j) = if i = j then 1 else 0)
    {h : ℕ → ℕ → ℝ} {g : ℕ → ℕ → ℕ → ℕ → ℝ} (hr : RealIntegrals h g) :
    ∃ L, rows.mapM (constructUps (propVec tiny th ci) tiny ci.offset st thetas false) = .ok L ∧ L.length = rows.length ∧
      OrthonormalStates (averagedStates ci id L) ∧
      ∃ S, subspaceCI tiny big (saElem tiny th ci) eig ci L.length L h g = .ok S ∧
        SubspaceEigenstates (electronic h g (ci.nI + ci.nA + ci.nV)) (averagedStates ci id L)
          (S.coeffs.map (superpose (averagedStates ci id L))) S.energies ∧
        avEnergy tiny big (saElem tiny th ci) ci L.length L h g = .ok (S.energies.sum / L.length) := by
  have hU : ∀ v, ∃ v', constructUps (propVec tiny th ci) tiny ci.offset st thetas false v = .ok v' := fun v =>
    (C27_norm ht hs hth hL thetas false v v).imp fun v' h => h.choose_spec.1
  choose U hU using hU
  have hdot : ∀ v w, dot ci.idx2det.length (U v) (U w) = dot ci.idx2det.length v w := by
    intro v w
    obtain ⟨v', w', h1, h2, h3⟩ := C27_norm ht hs hth hL thetas false v w
    rw [hU] at h1 h2
    rw [Except.ok.inj h1, Except.ok.inj h2, h3]
  have ho' : OrthonormalStates (averagedStates ci id (rows.map U)) := by
    rw [C116_orthonormal hs]
    intro i j
    have hi : (i : ℕ) < rows.length := by simpa using i.2
    have hj : (j : ℕ) < rows.length := by simpa using j.2
    have := ho ⟨i, hi⟩ ⟨j, hj⟩
    simp only [List.get_eq_getElem, List.getElem_map, id] at this ⊢
    rw [hdot, this]
    simp [Fin.ext_iff]
  have hx := C116_vectors (th := th) ht hs hth (rows.map U)
  obtain ⟨S, s1, s2⟩ := C116_states ht hb he hx ho' hr
  refine ⟨rows.map U, mapM_ok fun v _ => hU v, by simp, ho', S, s1, s2, ?_⟩
  have hn' : 0 < (rows.map U).length := by simpa using hn
  obtain ⟨H, h1, h2, h3⟩ := ham0_gen ht hb h g ci
  unfold avEnergy
  rw [h1, ok_bind, averaged_sem hn' hx h2, C116_average hn' s2]
  unfold mean
  congr 3
  rw [List.map_map, List.map_map, List.map_map, List.map_map]
  refine List.map_congr_left fun v _ => ?_
  exact h3 _ _ (emb_active ci _) (emb_active ci _)

/-- Such a case: two determinants of two electrons in two orbitals, rotated by a spin-adapted single excitation. -/
example (ht : ExactTiny tiny) (hb : ExactBig big) (θ : ℝ) {h : ℕ → ℕ → ℝ} {g : ℕ → ℕ → ℕ → ℕ → ℝ}
    (hr : RealIntegrals h g) : ∃ (eig : EigLib) (ci : CIInfo) (L : List (Vec ℝ)) (S : StateCI L.length), L.length = 2 ∧
      ci.nA = 2 ∧ EigOK eig ∧ subspaceCI tiny big (saElem tiny .one ci) eig ci L.length L h g = .ok S ∧
      SubspaceEigenstates (electronic h g (ci.nI + ci.nA + ci.nV)) (averagedStates ci id L)
        (S.coeffs.map (superpose (averagedStates ci id L))) S.energies := by
  obtain ⟨eig, he⟩ := exists_eigOK
  obtain ⟨ci, h1, hs, hA⟩ := (C26_spaces 1 2 1 1 1 0).1 (by decide)
  have hlen : ci.idx2det.length = 4 := by
    have : (getIndexing 1 2 1 1 1).map (fun ci => ci.idx2det.length) = .ok 4 := by decide
    rw [h1] at this
    exact Except.ok.inj this
  have ho : ci.offset = 0 := by have := hs.fits; omega
  obtain ⟨L, -, l2, -, S, s1, s2, -⟩ := C116_class (th := .one) (st := ⟨["sa_single"], [[0, 1]]⟩) (Ts := [E 1 0 - E 0 1]) ht hb he hs trivial
    (by rw [ho]; exact .cons (.saSingle 0 1 (by rw [hA]; simp)) .nil)
    [θ] (rows := [fun i => if i = 0 then 1 else 0, fun i => if i = 3 then 1 else 0]) (by simp) (by
      rw [hlen]
      intro i j
      fin_cases i <;> fin_cases j <;> simp [dot, List.range_succ]) hr
  exact ⟨eig, ci, L, S, l2, hA, he, s1, s2⟩

/-! ## C117 -/

/-- C117: with exact matrix elements, `rdm1` and `rdm2` of the state-averaged circuit wave function are the density matrices
averaged over the states, and `sa_energy` is the average of the energies. -/
theorem C117_averages (ht : ExactTiny tiny) (hb : ExactBig big) (hn : 0 < L.length) (hx : ExactElems ci amp L el) :
    (∃ R1 R2, avRdm1 tiny el ci L.length L = .ok R1 ∧ avRdm2 tiny el ci L.length L = .ok R2 ∧
      IsRdm ci.nI ci.nA (L.map fun s => emb ci (amp s)) R1 R2) ∧
    ∀ h g, avEnergy tiny big el ci L.length L h g
      = .ok (mean (L.map fun s => emb ci (amp s)) (electronic h g (ci.nI + ci.nA + ci.nV))) := by
  refine ⟨?_, fun h g => ?_⟩
  · obtain ⟨R1, h1, h2⟩ := rdm1Loop_sem (Ψs := L.map fun s => emb ci (amp s)) (ev := avE tiny el ci L.length L)
      fun p q hp hq => by
        obtain ⟨A, a1, a2, a3⟩ := gen_Epq (tiny := tiny) ht hp hq
        unfold avE
        rw [a1, ok_bind, averaged_sem hn hx a2, a3]
    obtain ⟨R2, h3, h4⟩ := rdm2Loop_sem (ev := avEE tiny el ci L.length L) h2 fun p q r s hp hq hr hs' => by
      obtain ⟨A, a1, a2, a3⟩ := gen_Epq (tiny := tiny) ht hp hq
      obtain ⟨B, b1, b2, b3⟩ := gen_Epq (tiny := tiny) ht hr hs'
      obtain ⟨C, c1, c2, c3⟩ := a2.mul ht b2
      unfold avEE
      rw [a1, ok_bind, b1, ok_bind, c1, ok_bind, averaged_sem hn hx c2, c3, a3, b3]
    refine ⟨R1, R2, h1, ?_, h2, h4⟩
    unfold avRdm2 avRdm1
    rw [h1]
    exact h3
  · obtain ⟨H, h1, h2, h3⟩ := ham0_gen ht hb h g ci
    unfold avEnergy
    rw [h1, ok_bind, averaged_sem hn hx h2]
    unfold mean
    congr 3
    rw [List.map_map, List.map_map]
    exact List.map_congr_left fun s _ => h3 _ _ (emb_active ci _) (emb_active ci _)

/-- C117: an interface with an ideal device and no mitigation computes matrix elements exactly, whatever it evaluated
before; the states are what the ansatz of the state vector code makes of the given superpositions of determinants. -/
theorem C117_interface {th : Threads} {st : AnsatzStruct} {Ts Ts' : List (FOp ℝ)} {B : Bench ci.nA}
    {ansatz : List ℝ → List (PGate (2 * ci.nA))} (ht : ExactTiny tiny) (hs : AnsatzSpace ci ci.nA)
    (hth : th.Fair ci.idx2det.length) (hL : Layout 0 ci.nA st.types st.indices Ts)
    (hC : CircuitLayout ci.nA st.types st.indices Ts') (hB : B.Sound ansatz)
    (hA : LayoutAnsatz ci.nA st.types st.indices ansatz) {thetas : List ℝ} (hl : thetas.length = st.types.length)
    (ha : ∀ θ ∈ thetas, effAngle θ = θ) {L : List Csf} (hg : ∀ s ∈ L, Csf.Good ci.nA s ∧ s.Electrons)
    {start amp : Csf → Vec ℝ} (h0 : ∀ s ∈ L, csfFock s = stateOf ci (start s))
    (h1 : ∀ s ∈ L, constructUps (propVec tiny th ci) tiny ci.offset st thetas false (start s) = .ok (amp s))
    {el : Csf → Dict ℝ → Csf → Res ℝ} (hel : ∀ s ∈ L, ∀ A, ∀ t ∈ L, ∃ q opt, B.Reached q ∧ q.flags.isEnabled = false ∧
      q.params = thetas ∧ el s A t = (quantumExpectationCsfs B none opt false s A t q).1) :
    ExactElems ci amp L el := by
  intro A hN hr
  have run : ∀ s ∈ L, runPCircuit (ansatz thetas) (onRegister ci.nA (csfFock s)) = onRegister ci.nA (stateOf ci (amp s)) := by
    intro s hs'
    obtain ⟨w', gs, names, e1, e2, e3⟩ := C91_same_state ht hs hth hL hC thetas hl ha (fun k => thetas.getD k 0)
      (fun k θ hk => by simp [hk]) (start s)
    rw [h1 s hs'] at e1
    cases e1
    rw [layout_run hA thetas e2, h0 s hs', e3]
  have val : ∀ s ∈ L, ∀ t ∈ L, el s A t = .ok (1 / 2 * (inner (stateOf ci (amp s)) (sumOp A (stateOf ci (amp t)))
      + inner (stateOf ci (amp t)) (sumOp A (stateOf ci (amp s))))) := by
    intro s hs' t ht'
    obtain ⟨q, opt, q1, q2, q3, q4⟩ := hel s hs' A t ht'
    rw [q4]
    exact C113_csfs hB q1 q2 none opt false hN.1 (fun kv hk o ho => (hr kv hk).1 o ho)
      (fun d hd => ⟨(hg s hs').1.2 d hd, (hg s hs').2 d hd⟩) (fun d hd => ⟨(hg t ht').1.2 d hd, (hg t ht').2 d hd⟩)
      (hg s hs').1.1.ge (hg t ht').1.1.ge (fun h => by cases h) (below_stateOf ci _) (below_stateOf ci _)
      (by rw [Option.getD_none, q3]; exact run s hs') (by rw [Option.getD_none, q3]; exact run t ht')
  refine ⟨fun s hs' => ?_, fun hsym s hs' t ht' => ?_⟩
  · rw [val s hs' s hs']
    unfold expv
    congr 1
    ring
  · rw [val s hs' t ht', hsym _ _ (below_stateOf ci (amp t)) (below_stateOf ci (amp s))]
    congr 1
    ring

/-- C117: `sa_energy` of the class that works with vectors is the average of the energies of its rows. -/
theorem C117_energy {th : Threads} (ht : ExactTiny tiny) (hb : ∀ x, big x = false ↔ x = 0) (hs : AnsatzSpace ci ci.nA)
    (hth : th.Fair ci.idx2det.length) {nS : ℕ} (hn : 0 < nS) (M : Mat ℝ) (h : ℕ → ℕ → ℝ) (g : ℕ → ℕ → ℕ → ℕ → ℝ) :
    saEnergy tiny big th ci nS M h g = .ok (mean (rowStates ci nS M) (electronic h g (ci.nI + ci.nA + ci.nV))) := by
  obtain ⟨H, h1, h2, h3⟩ := ham0_gen (big := big) ht (fun x h => (hb x).1 h) h g ci
  classical
  have ht' : ∀ x : ℝ, (fun x : ℝ => decide (x = 0)) x = true ↔ x = 0 := fun x => by simp
  have hx := C116_vectors (tiny := fun x : ℝ => decide (x = 0)) (th := th) (fun x h => (ht' x).1 h) hs hth (saRows nS M)
  have hval : ∀ a < nS, expectationValue (fun x : ℝ => decide (x = 0)) th ci (fun _ _ => .error .valueError) true false (M a) [.op H] (M a)
      = .ok (expv (emb ci (M a)) (sumOp H)) := by
    intro a ha
    have := hx.diag h2 (s := M a) (List.mem_map.2 ⟨a, List.mem_range.2 ha, rfl⟩)
    rw [id] at this
    rw [← this]
    unfold saElem expectationValue propagateState propStep
    simp
  unfold saEnergy
  rw [h1, ok_bind]
  rcases C24_mean ht' hb th ci (fun _ _ => .error .valueError) (fun _ _ => .error .valueError) true hn
    (fun b M => Or.inr ⟨_, rfl, 0, hn, rfl⟩) M M [.op H] with ⟨val, v1, v2⟩ | ⟨e, -, a, ha, v2⟩
  · rw [v2, mean_rowStates]
    congr 2
    refine Finset.sum_congr rfl fun a ha => ?_
    have ha := Finset.mem_range.1 ha
    have := v1 a ha
    rw [hval a ha] at this
    rw [← Except.ok.inj this]
    exact h3 _ _ (emb_active ci _) (emb_active ci _)
  · rw [hval a ha] at v2
    cases v2

/-- C117: so the state-averaged energy and density matrices of the two classes agree. -/
theorem C117_same {th : Threads} (ht : ExactTiny tiny) (hb : ∀ x, big x = false ↔ x = 0) (hs : AnsatzSpace ci ci.nA)
    (hth : th.Fair ci.idx2det.length) (hn : 0 < L.length) (hx : ExactElems ci amp L el) {M : Mat ℝ}
    (hM : ∀ i (hi : i < L.length), M i = amp L[i]) :
    (∀ h g, avEnergy tiny big el ci L.length L h g = saEnergy tiny big th ci L.length M h g) ∧
    ∃ R1 R2 R1' R2', avRdm1 tiny el ci L.length L = .ok R1 ∧ avRdm2 tiny el ci L.length L = .ok R2 ∧
      saRdm1 tiny big th ci L.length M = .ok R1' ∧ saRdm2 tiny big th ci L.length M = .ok R2' ∧
      (∀ p q, p < ci.nA → q < ci.nA → R1 p q = R1' p q) ∧
      ∀ p q r s, p < ci.nA → q < ci.nA → r < ci.nA → s < ci.nA → R2 p q r s = R2' p q r s := by
  obtain ⟨⟨R1, R2, r1, r2, r3⟩, hen⟩ := C117_averages ht (fun x h => (hb x).1 h) hn hx
  obtain ⟨R1', R2', k1, k2, k3⟩ := C29_sa (big := big) ht hb hs hth hn M
  have e : rowStates ci L.length M = L.map fun s => emb ci (amp s) := by
    refine List.ext_getElem (by simp [rowStates]) fun i h1 h2 => ?_
    rw [List.length_map] at h2
    simp only [rowStates, List.getElem_map, List.getElem_range, hM i h2]
    rfl
  rw [e] at k3
  refine ⟨fun h g => by rw [hen, C117_energy ht hb hs hth hn M, e], R1, R2, R1', R2', r1, r2, k1, k2, fun p q hp hq => ?_, fun p q r s hp hq hr hs' => ?_⟩
  · rw [r3.one p q hp hq, k3.one p q hp hq]
  · rw [r3.two p q r s hp hq hr hs', k3.two p q r s hp hq hr hs']

/-- C117: the parameter-shift rule of the state-averaged circuit wave function, fed with the energies that the interface
returns at any time for the shifted parameters, is the derivative of the average over the states. -/
theorem C117_gradient {norb : ℕ} {B : Bench norb} {ansatz : List ℝ → List (PGate (2 * norb))} {types : List String}
    {indices : List (List ℕ)} {Ts : List (FOp ℝ)}
    (hC : CircuitLayout norb types indices Ts) (hB : B.Sound ansatz) (hA : LayoutAnsatz norb types indices ansatz)
    {L : List Csf} (hn : 0 < L.length) (hg : ∀ s ∈ L, Csf.Good norb s ∧ s.Electrons)
    {A : Dict ℝ} (hN : WF A) (hr : ∀ kv ∈ A, ∀ o ∈ kv.1, o.1 < 2 * norb)
    {el : List ℝ → Csf → Dict ℝ → Csf → Res ℝ}
    (hel : ∀ θs, θs.length = types.length → ∀ s ∈ L, ∃ q opt, B.Reached q ∧ q.flags.isEnabled = false ∧
      el θs s A s = (quantumExpectationCsfs B (some θs) opt false s A s q).1)
    : ∃ E : List ℝ → ℝ, (∀ θs, θs.length = types.length → meanEnergy (el θs) L A = .ok (E θs)) ∧
      ∀ (θs : List ℝ) (k : ℕ) (ty : String) (t : ℝ), θs.length = types.length → types[k]? = some ty → θs[k]? = some t →
      ∃ R evals, gradR ty = some R ∧ gradEvals E θs k R = .ok evals ∧
        (∀ s, ∃ Ys : List (Fock ℝ), List.Forall₂ (fun c y => ExpChain (Ts.zip (θs.set k s)) (csfFock c) y) L Ys ∧
          E (θs.set k s) = mean Ys (sumOp A)) ∧
        HasDerivAt (fun s => E (θs.set k s)) (shiftGradient evals R) t := by
  obtain ⟨l1, g1, g2⟩ := hC.gens
  have hbel : ∀ c : Csf, Csf.Good norb c → Below (2 * norb) (csfFock c) := by
    rintro ⟨cs, ds⟩ ⟨-, hd⟩
    unfold csfFock
    dsimp only at hd ⊢
    have : ∀ l : List (ℝ × List Char), (∀ x ∈ l, IsDet norb x.2) →
        Below (2 * norb) ((l.map fun cd => sgl (detSet cd.2) cd.1).sum : Fock ℝ) := by
      intro l
      induction l with
      | nil => intro _ S hS; simp at hS
      | cons x l ih =>
        intro hx S hS
        rw [List.map_cons, List.sum_cons, coeff_add] at hS
        by_cases h : coeff (sgl (detSet x.2) x.1 : Fock ℝ) S = 0
        · rw [h, zero_add] at hS
          exact ih (fun y hy => hx y (by simp [hy])) S hS
        · refine below_sgl (n := 2 * norb) ?_ x.1 S h
          intro p hp
          have := Finset.mem_range.1 (Finset.mem_filter.1 hp).1
          rwa [(hx x (by simp)).1] at this
    exact this _ fun x hx => hd _ (List.of_mem_zip hx).2
  have val : ∀ θs, θs.length = types.length → ∀ c ∈ L, ∃ y, ExpChain (Ts.zip θs) (csfFock c) y ∧
      el θs c A c = .ok (expv y (sumOp A)) := by
    intro θs hl c hcL
    obtain ⟨q, opt, q1, q2, q3⟩ := hel θs hl c hcL
    obtain ⟨gs, names, f1, -, -, f2⟩ := C90_layout hC fun j => θs.getD j 0
    obtain ⟨y, c1, c0, c2⟩ := f2 _ (hbel c (hg c hcL).1)
    have e : (List.range Ts.length).map (fun j => θs.getD j 0) = θs := by
      refine List.ext_getElem (by simp [hl, l1]) fun j h1 h2 => ?_
      rw [List.getElem_map, List.getElem_range, List.getD_eq_getElem?_getD, List.getElem?_eq_getElem h2]; rfl
    rw [e] at c1
    have hrun : runPCircuit (ansatz θs) (onRegister norb (csfFock c)) = onRegister norb y := by
      rw [layout_run hA _ f1, c2]
    have hd : ∀ d ∈ c.2, FullDet norb d := fun d hd => ⟨(hg c hcL).1.2 d hd, (hg c hcL).2 d hd⟩
    refine ⟨y, c1, ?_⟩
    rw [q3, C113_csfs hB q1 q2 (some θs) opt false hN hr hd hd (hg c hcL).1.1.ge (hg c hcL).1.1.ge
      (fun h => by cases h) c0 c0 hrun hrun]
    unfold expv
    congr 1
    ring
  set E : List ℝ → ℝ := fun θs => match meanEnergy (el θs) L A with
    | .ok v => v
    | .error _ => 0 with hEdef
  have mean_val : ∀ θs (f : Csf → Fock ℝ), (∀ c ∈ L, el θs c A c = .ok (expv (f c) (sumOp A))) →
      meanEnergy (el θs) L A = .ok (mean (L.map f) (sumOp A)) := by
    intro θs f hf
    unfold meanEnergy
    rw [mapM_ok hf, ok_bind, if_neg (by rw [List.length_map]; omega), List.length_map]
    unfold mean
    rw [List.map_map, List.length_map]
    rfl
  refine ⟨E, fun θs hl => ?_, ?_⟩
  · classical
    have := mean_val θs (fun c => if h : c ∈ L then (val θs hl c h).choose else 0) fun c hc => by
      rw [dif_pos hc]
      exact (val θs hl c hc).choose_spec.2
    rw [hEdef]
    dsimp only
    rw [this]
  intro θs k ty t hl hk ht
  obtain ⟨r, T, hR, hT, hgT⟩ := g2 k ty hk
  have hr0 : 0 < 2 * r := by
    cases hr : 2 * r with
    | zero =>
      rw [hr] at hR
      have : ∀ ty, gradR ty ≠ some 0 := by intro ty; unfold gradR; split <;> simp
      exact absurd hR (this ty)
    | succ m => omega
  have hch := fun c : Csf => chain_trig hgT (Ts := Ts) (θs := θs) (k := k) (by rw [hl, l1]) g1 hT (csfFock c)
  choose Y hY hc using hch
  have mval : ∀ s, E (θs.set k s) = mean (L.map fun c => Y c s) (sumOp A) := by
    intro s
    have := mean_val (θs.set k s) (fun c => Y c s) fun c hcL => by
      obtain ⟨y, y1, y2⟩ := val (θs.set k s) (by simpa using hl) c hcL
      rw [y2, expChain_unique y1 (hc c s)]
    rw [hEdef]
    dsimp only
    rw [this]
  have htrig : TrigPoly (2 * r) fun s => E (θs.set k s) := by
    have hsum : ∀ l : List Csf, TrigPoly (2 * r) fun s => (l.map fun c => expv (Y c s) (sumOp A)).sum := by
      intro l
      induction l with
      | nil => exact TrigPoly.zero _
      | cons c l ih =>
        exact (((hY c).bilin (innerForm (sumOp A))).add ih).congr fun s => by
          rw [List.map_cons, List.sum_cons]
          rfl
    refine ((hsum L).smul (1 / (L.length : ℝ))).congr fun s => ?_
    rw [mval s]
    unfold mean
    rw [List.map_map, List.length_map, div_eq_inv_mul, one_div]
    rfl
  obtain ⟨evals, h4, h5⟩ := C45_gradient hr0 ht htrig
  refine ⟨2 * r, evals, hR, h4, fun s => ⟨L.map fun c => Y c s, ?_, mval s⟩, h5⟩
  rw [List.forall₂_map_right_iff]
  exact List.forall₂_same.2 fun c _ => hc c s

/-- Such an interface with two states: a determinant and a superposition of two, in two orbitals. -/
example : ∃ (B : Bench 2) (ansatz : List ℝ → List (PGate (2 * 2))) (Ts : List (FOp ℝ)) (q : QI) (L : List Csf),
    CircuitLayout 2 ["sa_single", "double"] [[0, 1], [0, 1, 2, 3]] Ts ∧
    LayoutAnsatz 2 ["sa_single", "double"] [[0, 1], [0, 1, 2, 3]] ansatz ∧ B.Sound ansatz ∧
    B.save = true ∧ B.Reached q ∧ q.flags.isEnabled = false ∧ q.params.length = 2 ∧ L.length = 2 ∧
    ∀ s ∈ L, Csf.Good 2 s ∧ s.Electrons := by
  have h : CircuitLayout 2 ["sa_single", "double"] [[0, 1], [0, 1, 2, 3]]
      [E 1 0 - E 0 1, excite [2, 3] [1, 0] - excite [0, 1] [3, 2]] :=
    .cons (.saSingle 0 1 (by decide) (by decide)) (.cons (.double 0 1 2 3 (by decide) (by decide) (by decide) (by decide)) .nil)
  obtain ⟨map, hM⟩ := jwMapper_exists (2 * 2)
  set ansatz : List ℝ → List (PGate (2 * 2)) := fun p => (C90_layout h fun k => p.getD k 0).choose
  refine ⟨⟨exactDevice ansatz, .jordanWigner, map, (1, 1), hfCircuit 2 (1, 1), true, true⟩, ansatz, _,
    _, [([1], ["1100".toList]), ([(Real.sqrt 2)⁻¹, -(Real.sqrt 2)⁻¹], ["1001".toList, "0110".toList])], h,
    fun p => (C90_layout h fun k => p.getD k 0).choose_spec.imp fun _ h => h.1, ?_, rfl,
    ⟨true, 100, some 10, Flags.init (.bool false) (.bool false) (.bool false) (.bool false), 2, _, [], rfl, by simp, rfl⟩, rfl, rfl,
    rfl, ?_⟩
  · exact C114_sound (m := 1) (by decide) (by decide) (exactDevice_ideal ansatz) hM rfl rfl rfl
  · intro s hs
    simp only [List.mem_cons, List.not_mem_nil, or_false] at hs
    rcases hs with rfl | rfl
    · exact ⟨⟨rfl, by unfold IsDet; decide⟩, by unfold Csf.Electrons; decide⟩
    · exact ⟨⟨rfl, by unfold IsDet; decide⟩, by unfold Csf.Electrons; decide⟩

end SQ
