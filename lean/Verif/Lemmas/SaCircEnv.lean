import Verif.Spec.SaCircEnv
import Verif.Lemmas.CircEnv
import Verif.Props.StateAverage

/-! # The states a state-averaged circuit wave function prepares -/

namespace SQ

theorem expTo_iso {ci : CIInfo} {n : ℕ} (hs : AnsatzSpace ci n) {ty : String} {idx : List ℕ} {T : FOp ℝ}
    (h : Excitation ci.offset n ty idx T) (θ : ℝ) :
    ∃ U : Vec ℝ → Vec ℝ, (∀ v, ExpTo T θ (stateOf ci v) (stateOf ci (U v))) ∧
      ∀ v w, inner (stateOf ci (U v)) (stateOf ci (U w)) = inner (stateOf ci v) (stateOf ci w) := by
  obtain ⟨U, -, h2, h3⟩ := realises (tiny := fun x => decide (x = 0)) (th := .one) (fun x hx => by simpa using hx) hs
    (by simp [Threads.Fair]) h θ
  have g : GoodFacs [(θ, T, U)] := fun g hg => by
    rw [List.mem_singleton] at hg
    subst hg
    exact h2
  have h3' := fun v => h3 θ v
  choose V _ e using h3'
  refine ⟨V, fun v S => ?_, fun v w => ?_⟩
  · rw [e]
    exact h2.isExp θ _ S
  · rw [e, e]
    have := opOf_inner g (stateOf ci v) (stateOf ci w)
    rwa [opOf_single] at this

theorem chain_iso {ci : CIInfo} {n : ℕ} (hs : AnsatzSpace ci n) {types : List String} {indices : List (List ℕ)}
    {Ts : List (FOp ℝ)} (h : Layout ci.offset n types indices Ts) (θs : List ℝ) :
    ∃ U : Vec ℝ → Vec ℝ, (∀ v, ExpChain (Ts.zip θs) (stateOf ci v) (stateOf ci (U v))) ∧
      ∀ v w, inner (stateOf ci (U v)) (stateOf ci (U w)) = inner (stateOf ci v) (stateOf ci w) := by
  induction h generalizing θs with
  | nil => exact ⟨id, fun v => .nil _, fun _ _ => rfl⟩
  | cons h1 _ ih =>
    cases θs with
    | nil => exact ⟨id, fun v => .nil _, fun _ _ => rfl⟩
    | cons θ θs =>
      obtain ⟨U, e1, e2⟩ := expTo_iso hs h1 θ
      obtain ⟨W, e3, e4⟩ := ih θs
      exact ⟨W ∘ U, fun v => .cons (e1 v) (e3 _), fun v w => (e4 _ _).trans (e2 v w)⟩

variable {D : SaCircData} {ansatz : List ℝ → List (PGate (2 * D.norb))} {st : AnsatzStruct} {Ts : List (FOp ℝ)}

theorem SaCircData.Ready.offset (hD : D.Ready ansatz st Ts) : D.ci.offset = 0 := by
  have := hD.space.fits
  omega

theorem SaCircData.Ready.sound (hD : D.Ready ansatz st Ts) {dev : Device (List (Gate (2 * D.norb)))} (hI : Ideal dev ansatz) :
    (D.on dev).Sound ansatz := ⟨hD.pos, hI, hD.mapping, hD.jw, hD.electrons, hD.start⟩

/-- The states of the circuit: those given, transformed by the exponentials, with the same inner products; every evaluation gives
elements of the symmetric part of the operator between them. -/
theorem sacirc_state (hD : D.Ready ansatz st Ts) (θ : List ℝ) (hl : θ.length = st.types.length) :
    ∃ amp : Csf → Vec ℝ, (∀ s ∈ D.states, ExpChain (Ts.zip θ) (csfFock s) (stateOf D.ci (amp s))) ∧
      (∀ s ∈ D.states, ∀ t ∈ D.states, inner (stateOf D.ci (amp s)) (stateOf D.ci (amp t)) = inner (csfFock s) (csfFock t)) ∧
      ∀ (dev : Device (List (Gate (2 * D.norb)))) (q : QI) (x : Option (List ℝ)), Ideal dev ansatz →
        (D.on dev).Reached q → q.flags.isEnabled = false → x.getD q.params = θ →
        ∀ A, WF A → (∀ kv ∈ A, ∀ o ∈ kv.1, o.1 < 2 * D.ci.nA) → ∀ s ∈ D.states, ∀ t ∈ D.states,
          (quantumExpectationCsfs (D.on dev) x D.opt false s A t q).1 =
            .ok (1 / 2 * (inner (stateOf D.ci (amp s)) (sumOp A (stateOf D.ci (amp t)))
              + inner (stateOf D.ci (amp t)) (sumOp A (stateOf D.ci (amp s))))) := by
  have hmem : ∀ s : Csf, ∃ v : Vec ℝ, s ∈ D.states → csfFock s = stateOf D.ci v := fun s => by
    by_cases h : s ∈ D.states
    · obtain ⟨v, hv⟩ := hD.mem s h
      exact ⟨v, fun _ => hv⟩
    · exact ⟨fun _ => 0, fun h' => absurd h' h⟩
  choose v hv using hmem
  obtain ⟨U, u1, u2⟩ := chain_iso hD.space (by rw [hD.offset]; exact hD.layout) θ
  have hch : ∀ s ∈ D.states, ExpChain (Ts.zip θ) (csfFock s) (stateOf D.ci (U (v s))) := fun s hs => by
    rw [hv s hs]; exact u1 _
  refine ⟨fun s => U (v s), hch, fun s hs t ht => by rw [u2, ← hv s hs, ← hv t ht], ?_⟩
  intro dev q x hI hq hf hx A hA hr s hs t ht
  rw [← hD.norb] at hr
  obtain ⟨gs, names, f1, -, -, f2⟩ := C90_layout (norb := D.norb) (by rw [hD.norb]; exact hD.circuits) fun j => θ.getD j 0
  have l1 : st.types.length = Ts.length := (hD.circuits.gens).1
  have e : (List.range Ts.length).map (fun j => θ.getD j 0) = θ := by
    refine List.ext_getElem (by simp [hl, l1]) fun j h1 h2 => ?_
    rw [List.getElem_map, List.getElem_range, List.getD_eq_getElem?_getD, List.getElem?_eq_getElem h2]; rfl
  have hbel : ∀ w : Vec ℝ, Below (2 * D.norb) (stateOf D.ci w) := fun w => by rw [hD.norb]; exact below_stateOf D.ci w
  have run : ∀ s ∈ D.states, runPCircuit (ansatz θ) (onRegister D.norb (csfFock s)) = onRegister D.norb (stateOf D.ci (U (v s))) := by
    intro s hs
    obtain ⟨y, c1, c0, c2⟩ := f2 (csfFock s) (by rw [hv s hs]; exact hbel _)
    rw [e] at c1
    rw [layout_run hD.ansatz _ f1, c2, expChain_unique (hch s hs) c1]
  have hd : ∀ s ∈ D.states, ∀ d ∈ s.2, FullDet D.norb d := fun s hs d hd => ⟨(hD.good s hs).1.2 d hd, (hD.good s hs).2 d hd⟩
  exact C113_csfs (B := D.on dev) (ansatz := ansatz) (hD.sound hI) hq hf x D.opt false hA hr (hd s hs) (hd t ht)
    (hD.good s hs).1.1.ge (hD.good t ht).1.1.ge (fun h => by cases h) (hbel _) (hbel _)
    (by rw [hx]; exact run s hs) (by rw [hx]; exact run t ht)

/-- The states for all parameters. -/
theorem sacirc_family (hD : D.Ready ansatz st Ts) (hU : D.InUse ansatz) :
    ∃ amp : List ℝ → Csf → Vec ℝ, ∀ θ, θ.length = D.names.length →
      (∀ s ∈ D.states, ExpChain (Ts.zip θ) (csfFock s) (stateOf D.ci (amp θ s))) ∧
      (∀ s ∈ D.states, ∀ t ∈ D.states, inner (stateOf D.ci (amp θ s)) (stateOf D.ci (amp θ t)) = inner (csfFock s) (csfFock t)) ∧
      (∀ dev, Ideal dev ansatz → ExactElems D.ci (amp θ) D.states (D.value dev θ none)) ∧
      ∀ dev θ', Ideal dev ansatz → θ'.length = D.names.length → ExactElems D.ci (amp θ) D.states (D.value dev θ' (some θ)) := by
  have : ∀ θ : List ℝ, ∃ amp : Csf → Vec ℝ, θ.length = D.names.length →
      (∀ s ∈ D.states, ExpChain (Ts.zip θ) (csfFock s) (stateOf D.ci (amp s))) ∧
      (∀ s ∈ D.states, ∀ t ∈ D.states, inner (stateOf D.ci (amp s)) (stateOf D.ci (amp t)) = inner (csfFock s) (csfFock t)) ∧
      (∀ dev, Ideal dev ansatz → ExactElems D.ci amp D.states (D.value dev θ none)) ∧
      ∀ dev θ', Ideal dev ansatz → θ'.length = D.names.length → ExactElems D.ci amp D.states (D.value dev θ' (some θ)) := by
    intro θ
    by_cases hl : θ.length = D.names.length
    · obtain ⟨amp, c1, c2, c3⟩ := sacirc_state hD θ (hl.trans hD.count)
      have exact' : ∀ {el : Csf → Dict ℝ → Csf → Res ℝ},
          (∀ A, WF A → (∀ kv ∈ A, ∀ o ∈ kv.1, o.1 < 2 * D.ci.nA) → ∀ s ∈ D.states, ∀ t ∈ D.states, el s A t =
            .ok (1 / 2 * (inner (stateOf D.ci (amp s)) (sumOp A (stateOf D.ci (amp t)))
              + inner (stateOf D.ci (amp t)) (sumOp A (stateOf D.ci (amp s)))))) → ExactElems D.ci amp D.states el := by
        intro el hel A hN hr
        have hr' : ∀ kv ∈ A, ∀ o ∈ kv.1, o.1 < 2 * D.ci.nA := fun kv hk o ho => (hr kv hk).1 o ho
        refine ⟨fun s hs => ?_, fun hsym s hs t ht => ?_⟩
        · rw [hel A hN.1 hr' s hs s hs]
          unfold expv
          congr 1
          ring
        · rw [hel A hN.1 hr' s hs t ht, hsym _ _ (below_stateOf D.ci (amp t)) (below_stateOf D.ci (amp s))]
          congr 1
          ring
      refine ⟨amp, fun _ => ⟨c1, c2, fun dev hI => exact' ?_, fun dev θ' hI hl' => exact' ?_⟩⟩
      · intro A hA hr s hs t ht
        obtain ⟨u1, u2, u3⟩ := hU dev θ none s A t hI hl
        exact c3 dev _ none hI u1 u2 u3 A hA hr s hs t ht
      · intro A hA hr s hs t ht
        obtain ⟨u1, u2, -⟩ := hU dev θ' (some θ) s A t hI hl'
        exact c3 dev _ (some θ) hI u1 u2 rfl A hA hr s hs t ht
    · exact ⟨fun _ _ => 0, fun h => absurd h hl⟩
  choose amp h using this
  exact ⟨amp, h⟩

end SQ
