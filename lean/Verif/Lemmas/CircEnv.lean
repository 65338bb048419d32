import Verif.Spec.CircEnv
import Verif.Props.FromUps

/-! # The state a circuit wave function prepares, as a vector of the determinant space -/

namespace SQ

theorem expTo_vec {ci : CIInfo} {n : ℕ} (hs : AnsatzSpace ci n) {ty : String} {idx : List ℕ} {T : FOp ℝ}
    (h : Excitation ci.offset n ty idx T) (θ : ℝ) (v : Vec ℝ) :
    ∃ w : Vec ℝ, ExpTo T θ (stateOf ci v) (stateOf ci w) ∧ dot ci.idx2det.length w w = dot ci.idx2det.length v v := by
  obtain ⟨U, -, h2, h3⟩ := realises (tiny := fun x => decide (x = 0)) (th := .one) (fun x hx => by simpa using hx) hs
    (by simp [Threads.Fair]) h θ
  obtain ⟨w, -, e⟩ := h3 θ v
  have g : GoodFacs [(θ, T, U)] := fun g hg => by
    rw [List.mem_singleton] at hg
    subst hg
    exact h2
  refine ⟨w, fun S => ?_, ?_⟩
  · rw [e]
    exact h2.isExp θ _ S
  · rw [dot_eq_inner hs.valid, dot_eq_inner hs.valid, e]
    have := opOf_inner g (stateOf ci v) (stateOf ci v)
    rwa [opOf_single] at this

theorem chain_vec {ci : CIInfo} {n : ℕ} (hs : AnsatzSpace ci n) {types : List String} {indices : List (List ℕ)}
    {Ts : List (FOp ℝ)} (h : Layout ci.offset n types indices Ts) (θs : List ℝ) (v : Vec ℝ) :
    ∃ w : Vec ℝ, ExpChain (Ts.zip θs) (stateOf ci v) (stateOf ci w) ∧
      dot ci.idx2det.length w w = dot ci.idx2det.length v v := by
  induction h generalizing θs v with
  | nil => exact ⟨v, .nil _, rfl⟩
  | cons h1 _ ih =>
    cases θs with
    | nil => exact ⟨v, .nil _, rfl⟩
    | cons θ θs =>
      obtain ⟨u, e1, e2⟩ := expTo_vec hs h1 θ v
      obtain ⟨w, e3, e4⟩ := ih θs u
      exact ⟨w, .cons e1 e3, e4.trans e2⟩

variable {D : CircData} {ansatz : List ℝ → List (PGate (2 * D.norb))} {d : List Char} {st : AnsatzStruct} {Ts : List (FOp ℝ)}

theorem CircData.Ready.offset (hD : D.Ready ansatz d st Ts) : D.ci.offset = 0 := by
  have := hD.space.fits
  omega

theorem start_vec (hD : D.Ready ansatz d st Ts) {v : Vec ℝ} (hv : stateOf D.ci v = ket (detSet d)) :
    dot D.ci.idx2det.length v v = 1 := by
  rw [dot_eq_inner hD.space.valid, hv, show ∀ T : Finset ℕ, (ket T : Fock ℝ) = sgl T 1 from fun _ => rfl, inner_ket_left]
  simp [coeff, sgl]

/-- The state of the circuit: the determinant transformed by the exponentials, a normalised vector of the space; every
evaluation gives expectation values in it. -/
theorem circ_state (hD : D.Ready ansatz d st Ts) (θ : List ℝ) (hl : θ.length = st.types.length) :
    ∃ c : Vec ℝ, ExpChain (Ts.zip θ) (ket (detSet d)) (stateOf D.ci c) ∧ dot D.ci.idx2det.length c c = 1 ∧
      ∀ (dev : Device (List (Gate (2 * D.norb)))) (q : QI) (x : Option (List ℝ)), Ideal dev ansatz →
        (D.on dev).ReachedSimply q → q.flags.isEnabled = false → x.getD q.params = θ →
        ∀ A, WF A → (∀ kv ∈ A, ∀ o ∈ kv.1, o.1 < 2 * D.ci.nA) →
          (quantumExpectation (D.on dev) x A q).1 = .ok (expv (stateOf D.ci c) (sumOp A)) := by
  obtain ⟨v, hv⟩ := hD.mem
  obtain ⟨c, h1, h2⟩ := chain_vec hD.space (by rw [hD.offset]; exact hD.layout) θ v
  rw [hv] at h1
  refine ⟨c, h1, h2.trans (start_vec hD hv), fun dev q x hI hq hf hx A hA hr => ?_⟩
  rw [← hD.norb] at hr
  obtain ⟨gs, names, f1, -, -, f2⟩ := C90_layout (norb := D.norb) (by rw [hD.norb]; exact hD.circuits) fun j => θ.getD j 0
  obtain ⟨y, c1, c0, c2⟩ := f2 (ket (detSet d)) (by rw [← hv, hD.norb]; exact below_stateOf D.ci v)
  have l1 : st.types.length = Ts.length := (hD.circuits.gens).1
  have e : (List.range Ts.length).map (fun j => θ.getD j 0) = θ := by
    refine List.ext_getElem (by simp [hl, l1]) fun j h1 h2 => ?_
    rw [List.getElem_map, List.getElem_range, List.getD_eq_getElem?_getD, List.getElem?_eq_getElem h2]; rfl
  rw [e] at c1
  rw [expChain_unique h1 c1]
  obtain ⟨s, s1, s2⟩ := det_register hD.det
  refine C120_expectation (B := D.on dev) (ansatz := ansatz) ⟨hD.pos, hI, hD.mapping, hD.electrons⟩ hq hf x hA hr c0 s1 ?_
  unfold prepared
  rw [hx, show (D.on dev).state = D.bench.state from rfl, hD.start, s2, ← runLin_apply, map_smul, runLin_apply]
  change s • runPCircuit (ansatz θ) _ = _
  rw [layout_run hD.ansatz _ f1, c2]

end SQ
