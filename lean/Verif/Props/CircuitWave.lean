import Verif.Model.CircuitWave
import Verif.Props.QuantumResponse

/-!
# C107: density matrices and energy of the circuit wave function
-/

namespace SQ

variable {tiny big : ℝ → Bool} {ci : CIInfo} {th : Threads} {c : Vec ℝ} {qev : Dict ℝ → Res ℝ}

theorem gen_Epq (ht : ExactTiny tiny) {p q : ℕ} (hp : p < ci.nA) (hq : q < ci.nA) :
    ∃ A, Epq tiny (ci.nI + p) (ci.nI + q) = .ok A ∧ GenOp ci A ∧ sumOp A = E (ci.nI + p) (ci.nI + q) := by
  obtain ⟨A, h1, h2, h3⟩ := den_Epq (tiny := tiny) ht (ci.nI + p) (ci.nI + q)
  exact ⟨A, h1, ⟨h2, keys_Epq (P := (· < 2 * (ci.nI + ci.nA + ci.nV))) (both_lt (by omega)) (both_lt (by omega)) A h1⟩,
    h3⟩

theorem circE_sem (ht : ExactTiny tiny) (hx : ExactQuantum ci c qev) {p q : ℕ} (hp : p < ci.nA) (hq : q < ci.nA) :
    circE tiny qev ci (ci.nI + p) (ci.nI + q)
      = .ok (mean [core (2 * ci.nI) (stateOf ci c)] (E (ci.nI + p) (ci.nI + q))) := by
  obtain ⟨A, h1, h2, h3⟩ := gen_Epq (tiny := tiny) ht hp hq
  unfold circE
  rw [h1, ok_bind, qexp_emb hx h2, mean_single, h3]
  rfl

theorem circEE_sem (ht : ExactTiny tiny) (hx : ExactQuantum ci c qev) {p q r s : ℕ} (hp : p < ci.nA) (hq : q < ci.nA)
    (hr : r < ci.nA) (hs : s < ci.nA) :
    circEE tiny qev ci (ci.nI + p) (ci.nI + q) (ci.nI + r) (ci.nI + s)
      = .ok (mean [core (2 * ci.nI) (stateOf ci c)] (E (ci.nI + p) (ci.nI + q) * E (ci.nI + r) (ci.nI + s))) := by
  obtain ⟨A, h1, h2, h3⟩ := gen_Epq (tiny := tiny) ht hp hq
  obtain ⟨B, g1, g2, g3⟩ := gen_Epq (tiny := tiny) ht hr hs
  obtain ⟨C, k1, k2, k3⟩ := h2.mul ht g2
  unfold circEE
  rw [h1, ok_bind, g1, ok_bind, k1, ok_bind, qexp_emb hx k2, mean_single, k3, h3, g3]
  rfl

/-- C107: on an interface that measures exactly, `rdm1` and `rdm2` are the density matrices of the prepared state and
the energy is the expectation value of the full Hamiltonian in it. -/
theorem C107_circuit (ht : ExactTiny tiny) (hb : ExactBig big) (hx : ExactQuantum ci c qev) :
    (∃ R1 R2, circRdm1 tiny qev ci = .ok R1 ∧ circRdm2 tiny qev ci = .ok R2 ∧
      IsRdm ci.nI ci.nA [emb ci c] R1 R2) ∧
    ∀ h g, circEnergy tiny big qev ci h g = .ok (expv (emb ci c) (electronic h g (ci.nI + ci.nA + ci.nV))) := by
  refine ⟨?_, fun h g => ?_⟩
  · obtain ⟨R1, h1, h2⟩ := rdm1Loop_sem (ev := circE tiny qev ci) fun p q hp hq => circE_sem ht hx hp hq
    obtain ⟨R2, h3, h4⟩ := rdm2Loop_sem (ev := circEE tiny qev ci) h2 fun p q r s hp hq hr hs' =>
      circEE_sem ht hx hp hq hr hs'
    refine ⟨R1, R2, h1, ?_, h2, h4⟩
    unfold circRdm2 circRdm1
    rw [h1]
    exact h3
  · obtain ⟨H, h1, h2, h3⟩ := ham0_gen ht hb h g ci
    unfold circEnergy
    rw [h1, ok_bind, qexp_emb hx h2, h3 _ _ (emb_active ci c) (emb_active ci c)]
    rfl

/-- C107: the objects that quantum linear response (C104, C105, C106) works on are as required there: orbital spaces and
rotations of the constructor (C38), density matrices and energy measured on the circuit. -/
theorem C107_proper (ht : ExactTiny tiny) (hb : ExactBig big) {numOrbs numElec cas0 cas1 : ℕ}
    (h : CasFits numOrbs numElec cas0 cas1) (hA : 0 < cas1) (inc : Bool) (na nb : ℤ) :
    let s := mkSpaces numOrbs numElec cas0 cas1
    let k := kappaLists s numOrbs inc
    ∃ ci, getIndexing s.numInactiveOrbs s.numActiveOrbs s.numVirtualOrbs na nb = .ok ci ∧
      ∀ c : Vec ℝ, dot ci.idx2det.length c c = 1 → ∀ qev, ExactQuantum ci c qev → ∀ h g, RealIntegrals h g →
        ∃ R1 R2 en, circRdm1 tiny qev ci = .ok R1 ∧ circRdm2 tiny qev ci = .ok R2 ∧
          circEnergy tiny big qev ci h g = .ok en ∧ ∀ U csf,
            let W : RespWf := ⟨ci, U, csf, c, h, g, R1, R2, en, s.activeOcc, s.activeUnocc, s.activeOccSpin,
              s.activeUnoccSpin, k.noActiveActive, k.noActiveActiveDagger⟩
            W.Proper ∧ W.energy = expv W.state W.ham ∧ ExactQuantum W.ci W.c qev := by
  intro s k
  obtain ⟨ci, h1, h2⟩ := C94_proper (th := .one) ht h hA inc na nb
  refine ⟨ci, h1, fun c hc qev hx hh g hg => ?_⟩
  obtain ⟨⟨R1, R2, r1, r2, r3⟩, en⟩ := C107_circuit ht hb hx
  refine ⟨R1, R2, _, r1, r2, en hh g, fun U csf => ?_⟩
  obtain ⟨R1', R2', -, -, hp⟩ := h2 c hc trivial
  have P := hp hh g hg U csf 0
  intro W
  refine ⟨⟨P.space, P.norm, r3, P.ints, P.kappa, P.dagger, P.act, P.actS, P.spin, P.nodup, P.nodupS⟩, ?_, hx⟩
  rfl

/-- An ideal simulator, for each state. -/
example (ci : CIInfo) (c : Vec ℝ) : ExactQuantum ci c fun A => .ok (expv (stateOf ci c) (sumOp A)) :=
  fun _ _ _ => rfl

/-- Four electrons in four orbitals, two of each active, with orbital rotations and excitations in the active space; the
circuit prepares the first determinant. -/
example : CasFits 4 4 2 2 ∧ 0 < 2 ∧ (kappaLists (mkSpaces 4 4 2 2) 4 false).noActiveActive ≠ [] ∧
    (mkSpaces 4 4 2 2).activeOcc = [1] ∧ (mkSpaces 4 4 2 2).activeUnocc = [2] ∧
    dot 4 (fun i => if i = 0 then (1 : ℝ) else 0) (fun i => if i = 0 then 1 else 0) = 1 := by
  refine ⟨⟨rfl, rfl, by decide, by decide, by decide⟩, by decide, by decide, by decide, by decide, ?_⟩
  norm_num [dot, List.range_succ]

end SQ
