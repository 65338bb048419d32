import Verif.Model.SaCircRoto
import Verif.Props.SaCircBuilt
import Verif.Props.StatesRoto

/-! # C144: RotoSolve as the state-averaged circuit wave function runs it -/

namespace SQ

variable {D : SaCircData} {ansatz : List ℝ → List (PGate (2 * D.norb))} {st : AnsatzStruct} {Ts : List (FOp ℝ)}

theorem sacirc_all (hD : D.Ready ansatz st Ts) (hU : D.InUse ansatz) {dev : Device (List (Gate (2 * D.norb)))}
    (hI : Ideal dev ansatz) (h : Matrix (Fin D.n) (Fin D.n) ℝ) (g : Tensor4 (Fin D.n)) :
    ∃ (amp : List ℝ → Csf → Vec ℝ) (A : Dict ℝ),
      (∀ θ, θ.length = D.names.length → ∀ s ∈ D.states, ExpChain (Ts.zip θ) (csfFock s) (stateOf D.ci (amp θ s))) ∧
      ∀ θ, θ.length = D.names.length →
        D.runAll dev θ h g = .ok (D.states.map fun s => expv (stateOf D.ci (amp θ s)) (sumOp A)) ∧
        D.runCallback dev θ h g = .ok (npMean (D.states.map fun s => expv (stateOf D.ci (amp θ s)) (sumOp A))) := by
  obtain ⟨amp, hc⟩ := sacirc_family hD hU
  obtain ⟨H, h1, h2, h3⟩ := ham0_gen hD.tiny hD.big (natMat h) (natTen g) D.ci
  obtain ⟨f1, f2⟩ := getFolded_inv h2.1 h2.2
  refine ⟨amp, getFolded D.ci.nI D.ci.nA D.ci.nV H, fun θ hl => (hc θ hl).1, fun θ hl => ?_⟩
  have hx := ((hc θ hl).2.2.1 dev hI _ f1 f2).1
  refine ⟨?_, ?_⟩
  · unfold SaCircData.runAll
    rw [h1, ok_bind]
    exact mapM_ok hx
  · unfold SaCircData.runCallback
    rw [h1, ok_bind, meanEnergy_ok hD.nonempty hx]
    unfold npMean
    rw [List.length_map]

theorem sacirc_states_trig (hD : D.Ready ansatz st Ts) (hU : D.InUse ansatz) {dev : Device (List (Gate (2 * D.norb)))}
    (hI : Ideal dev ansatz) (h : Matrix (Fin D.n) (Fin D.n) ℝ) (g : Tensor4 (Fin D.n)) (m : List (List ℝ) → ℕ → ℝ) (k : ℕ) (t : ℝ) :
    (D.statesRoto dev h g m k t).Trig D.states.length D.names.length := by
  obtain ⟨amp, A, hc, ha⟩ := sacirc_all hD hU hI h g
  have hf : ∀ θ : List ℝ, θ.length = D.names.length →
      (D.statesRoto dev h g m k t).f θ = D.states.map fun s => expv (stateOf D.ci (amp θ s)) (sumOp A) := fun θ hl => by
    show okOr [] (D.runAll dev θ h g) = _
    rw [(ha θ hl).1]
    rfl
  refine ⟨hD.nonempty, fun x hx => by rw [hf x hx, List.length_map], fun i name hn R hR x hx q hq => ?_⟩
  have hn : D.names[i]? = some name := hn
  have hR : D.R.lookup name = some R := hR
  obtain ⟨l1, g1, g2⟩ := hD.circuits.gens
  have hty : i < st.types.length := by
    rw [← hD.count]
    exact (List.getElem?_eq_some_iff.1 hn).1
  obtain ⟨s, s1, s2⟩ := hD.shifts i _ (List.getElem?_eq_getElem hty)
  obtain ⟨r, T, hr, hT, hg⟩ := g2 i _ (List.getElem?_eq_getElem hty)
  have e : R = 2 * r := by
    rw [hn] at s1
    cases s1
    rw [hR, hr] at s2
    exact Option.some.inj s2
  obtain ⟨Y, hY, hch⟩ := chain_trig hg (Ts := Ts) (θs := x) (k := i) (by rw [hx, hD.count, l1]) g1 hT (csfFock D.states[q])
  rw [e]
  refine (hY.bilin (innerForm (sumOp A))).congr fun u => ?_
  rw [hf _ (by simpa using hx), List.getD_eq_getElem?_getD, List.getElem?_map, List.getElem?_eq_getElem hq, Option.map_some,
    Option.getD_some, expChain_unique (hc (x.set i u) (by simpa using hx) _ (List.getElem_mem hq)) (hch u)]
  rfl

/-- C144: the energies of the states that the circuit class gives to RotoSolve exist for all parameters, one per state, and
their mean is the averaged energy. -/
theorem C144_objective (hD : D.Ready ansatz st Ts) (hU : D.InUse ansatz) {dev : Device (List (Gate (2 * D.norb)))}
    (hI : Ideal dev ansatz) (h : Matrix (Fin D.n) (Fin D.n) ℝ) (g : Tensor4 (Fin D.n)) {θ : List ℝ}
    (hl : θ.length = D.names.length) :
    ∃ es : List ℝ, D.runAll dev θ h g = .ok es ∧ es.length = D.states.length ∧ D.runCallback dev θ h g = .ok (npMean es) ∧
      D.runEnergy dev θ h g = .ok (npMean es) := by
  obtain ⟨amp, A, -, ha⟩ := sacirc_all hD hU hI h g
  obtain ⟨a1, a2⟩ := ha θ hl
  obtain ⟨c1, c2, -⟩ := (C131_total hD hU hI hl).2 h g
  exact ⟨_, a1, List.length_map _, a2, (c1.trans c2.symm).trans a2⟩

/-- C144: RotoSolve run by a state-averaged circuit wave function returns; the loops that bring an angle into the period end
after at most two rounds each. -/
theorem C144_circuit_returns (hD : D.Ready ansatz st Ts) (dev : Device (List (Gate (2 * D.norb))))
    (h : Matrix (Fin D.n) (Fin D.n) ℝ) (g : Tensor4 (Fin D.n)) {m : List (List ℝ) → ℕ → ℝ} (hm : FindsLowest m) (maxiter : ℕ)
    (threshold : ℝ) {θ : List ℝ} (hl : θ.length = D.names.length) (k : ℕ) :
    ∃ res, (D.statesRoto dev h g m maxiter threshold).minimize (k + 2) θ = .ok res := by
  refine C144_returns hm hl.symm (fun name hname => ?_) k
  obtain ⟨i, hi, rfl⟩ := List.getElem_of_mem (show name ∈ D.names from hname)
  have hty : i < st.types.length := hD.count ▸ hi
  obtain ⟨s, s1, s2⟩ := hD.shifts i _ (List.getElem?_eq_getElem hty)
  obtain ⟨r, T, hr, -⟩ := hD.circuits.gens.2.2 i _ (List.getElem?_eq_getElem hty)
  rw [List.getElem?_eq_getElem hi] at s1
  cases s1
  exact ⟨_, s2.trans hr⟩

/-- C144: run by a state-averaged circuit wave function on an ideal device, RotoSolve never raises the averaged energy from one
sweep to the next, if the minimization along one parameter finds the lowest point of the reconstructed function; the value
returned is the smallest seen. -/
theorem C144_circuit (hD : D.Ready ansatz st Ts) (hU : D.InUse ansatz) {dev : Device (List (Gate (2 * D.norb)))}
    (hI : Ideal dev ansatz) (h : Matrix (Fin D.n) (Fin D.n) ℝ) (g : Tensor4 (Fin D.n)) {m : List (List ℝ) → ℕ → ℝ}
    (hm : FindsLowest m) {maxiter fuel : ℕ} {threshold : ℝ} {θ : List ℝ} {res : RotoResult} (hl : θ.length = D.names.length)
    (hr : (D.statesRoto dev h g m maxiter threshold).minimize fuel θ = .ok res) :
    List.Pairwise (fun y z => ∃ e e', D.runEnergy dev y h g = .ok e ∧ D.runEnergy dev z h g = .ok e' ∧ e' ≤ e) (θ :: res.calls) ∧
      ∀ y ∈ res.calls, ∃ e, D.runEnergy dev y h g = .ok e ∧ res.fn ≤ e := by
  obtain ⟨p1, p2⟩ := C144_descent (n := D.states.length) hl.symm hm (hl.symm ▸ sacirc_states_trig hD hU hI h g m maxiter threshold) hr
  have hlen : ∀ y ∈ θ :: res.calls, y.length = D.names.length := fun y hy => by
    rcases List.mem_cons.1 hy with rfl | hy
    · exact hl
    · exact (StatesRoto.calls_length hr y hy).trans hl
  have val : ∀ y ∈ θ :: res.calls,
      D.runEnergy dev y h g = .ok (npMean ((D.statesRoto dev h g m maxiter threshold).f y)) := fun y hy => by
    obtain ⟨es, e1, -, -, e2⟩ := C144_objective hD hU hI h g (hlen y hy)
    have : (D.statesRoto dev h g m maxiter threshold).f y = es := by
      show okOr [] (D.runAll dev y h g) = es
      rw [e1]
      rfl
    rw [this, e2]
  refine ⟨?_, fun y hy => ⟨_, val y (List.mem_cons_of_mem _ hy), p2 y hy⟩⟩
  exact p1.imp_of_mem fun hy hz hle => ⟨_, _, val _ hy, val _ hz, hle⟩

/-- A state-averaged circuit wave function of two electrons in two orbitals, with two states and three parameters, and a
minimization along one parameter: RotoSolve returns, and the averaged energy of the result is not above that of the start. -/
example (mo : ℕ → Fin 2 → ℝ) : ∃ (D : SaCircData) (m : List (List ℝ) → ℕ → ℝ) (res : RotoResult),
    D.states.length = 2 ∧ 0 < D.names.length ∧ FindsLowest m ∧
    (D.statesRoto D.bench.dev D.hAo D.gAo m 50 (1 / 10 ^ 8)).minimize 2 (List.replicate D.names.length 0) = .ok res ∧
    ∀ y ∈ res.calls, ∃ e e', D.runEnergy D.bench.dev (List.replicate D.names.length 0) D.hAo D.gAo = .ok e ∧
      D.runEnergy D.bench.dev y D.hAo D.gAo = .ok e' ∧ e' ≤ e ∧ res.fn ≤ e' := by
  obtain ⟨s, c, D, ansatz, Ts, -, n1, n2, n3, hD, hU, hI⟩ := sacirc_ready_case mo
  obtain ⟨m, hm⟩ := findsLowest_exists
  have hl : (List.replicate D.names.length (0 : ℝ)).length = D.names.length := by simp
  obtain ⟨res, hr⟩ := C144_circuit_returns hD D.bench.dev D.hAo D.gAo hm 50 (1 / 10 ^ 8) hl 0
  obtain ⟨p1, p2⟩ := C144_circuit hD hU hI D.hAo D.gAo hm hl hr
  refine ⟨D, m, res, n2, ?_, hm, hr, fun y hy => ?_⟩
  · rw [hD.count]
    exact n3
  · obtain ⟨e, e', a, b, d⟩ := (List.pairwise_cons.1 p1).1 y hy
    obtain ⟨e2, b', d'⟩ := p2 y hy
    rw [b] at b'
    cases b'
    exact ⟨e, e', a, b, d, d'⟩

end SQ
