import Verif.Lemmas.ExtendedUnitary
import Verif.Props.ResponseExtended

/-!
# C100: the objects of the program meet the hypotheses of the theorems on extended spaces
-/

namespace SQ

variable {tiny big : ℝ → Bool}

/-- C100: the wave function objects of the program meet the hypotheses of C100-C102: closed-shell reference
determinant, any layout of excitations, state, density matrices and energy of the stored angles.  The operator `U` is
the product of the exponentials of the generators on the whole orbital space. -/
theorem C100_rotates (ht : ExactTiny tiny) (hb : ExactBig big) {numOrbs numElec cas0 cas1 : ℕ}
    (h : CasFits numOrbs numElec cas0 cas1) (hA : 0 < cas1) (inc : Bool) :
    let s := mkSpaces numOrbs numElec cas0 cas1
    let k := kappaLists s numOrbs inc
    ∃ ci csf, getIndexing s.numInactiveOrbs s.numActiveOrbs s.numVirtualOrbs (cas0 / 2 : ℕ) (cas0 / 2 : ℕ) = .ok ci ∧
      reference ci (hfDet (2 * cas1) cas0) = .ok csf ∧
      ∀ (st : AnsatzStruct) (Ts : List (FOp ℝ)) (thetas : List ℝ) (h : Mat ℝ) (g : Arr4),
        Layout ci.nI ci.nA st.types st.indices Ts → Ts.length = thetas.length → RealIntegrals h g →
        ∃ c R1 R2 en, upsVec tiny .one ci st thetas false csf = .ok c ∧ upsRdm1 tiny .one ci c = .ok R1 ∧
          upsRdm2 tiny .one ci c = .ok R2 ∧ upsEnergy tiny big .one ci h g st csf thetas = .ok en ∧
          let W : ExtWf := ⟨⟨ci, upsVec tiny .one ci st thetas, csf, c, h, g, R1, R2, en, s.activeOcc, s.activeUnocc,
            s.activeOccSpin, s.activeUnoccSpin, k.noActiveActive, k.noActiveActiveDagger⟩, (cas0 / 2 : ℕ),
            (cas0 / 2 : ℕ), numElec, fun E => upsVec tiny .one E st thetas, kappaHfLike s numOrbs⟩
          W.Proper ∧ W.energy = expv W.state W.ham ∧
          ∃ U Ud, W.Rotates U Ud ∧ ∀ x, ExpChain (Ts.zip (thetas.map effAngle)) x (U x) := by
  intro s k
  obtain ⟨ci, csf, h1, h2, h3⟩ := C96_rotates (th := .one) ht hb h hA inc
  obtain ⟨s', -, rfl, -, -, -, ho, hu, -, -, -, hos, hus, -, -, -, -, -, -, -, hnA, hnI, hN⟩ := C38_orbitals h
  obtain ⟨-, -, -, -, hk⟩ := C38_kappa h inc
  have hf := h.enoughElec
  have hf2 := h.evenElec
  have hf3 := h.evenActive
  have hf4 := h.enoughActive
  have hA' : 0 < s.numActiveOrbs := by rw [hnA]; exact hA
  obtain ⟨ci', g1, hs, -⟩ := (C26_spaces s.numInactiveOrbs s.numActiveOrbs s.numVirtualOrbs (cas0 / 2 : ℕ)
    (cas0 / 2 : ℕ) 0).1 hA'
  rw [h1] at g1
  obtain rfl := Except.ok.inj g1
  obtain ⟨ci', g1, e1, e2, e3, e4, -, -, e5⟩ := C17_space hA' s.numInactiveOrbs s.numVirtualOrbs (cas0 / 2 : ℕ)
    (cas0 / 2 : ℕ)
  rw [h1] at g1
  obtain rfl := Except.ok.inj g1
  refine ⟨ci, csf, h1, h2, ?_⟩
  intro st Ts' thetas hh g hL' hlen' hreal
  obtain ⟨Ts, hL, hF⟩ := hL'.unshift
  have hlen : Ts.length = thetas.length := hF.length_eq.trans hlen'
  obtain ⟨c, R1, R2, en, q1, q2, q3, q4, q5, q6, q7, -⟩ := h3 st Ts thetas hh g (by rw [e4]; exact hL) hlen trivial
    hreal
  obtain ⟨gs, f1, f2⟩ := layout_facs ht hs (th := .one) trivial (by rw [e4]; exact hL) thetas
  obtain ⟨l1, l2⟩ := hL.length
  obtain ⟨u1, u2⟩ := ups_acts f1 (l1.trans hlen) (l2.trans hlen)
  have good := good_of_real f1
  have ext : ∀ order E, order = 1 ∨ order = 2 →
      getIndexingExtended ci.nI ci.nA ci.nV (cas0 / 2 : ℕ) (cas0 / 2 : ℕ) order = .ok E →
      ∃ gx : List Fac, GoodFacs gx ∧ gx.map (fun g => (g.2.1, g.1)) = Ts'.zip (thetas.map effAngle) ∧
        ActsAs E (upsVec tiny .one E st thetas false) (opOf gx) ∧
        ActsAs E (upsVec tiny .one E st thetas true) (opOf (invFacs gx)) := by
    intro order E ho hE
    obtain ⟨E', g1, hsE, off⟩ := (C26_spaces ci.nI ci.nA ci.nV (cas0 / 2 : ℕ) (cas0 / 2 : ℕ) order).2 (by omega)
      (by omega)
    rw [hE] at g1
    obtain rfl := Except.ok.inj g1
    obtain ⟨gx, x1, x2⟩ := layout_facs ht hsE (th := .one) trivial (by rw [off]; exact hL') thetas
    obtain ⟨y1, y2⟩ := ups_acts x1 (l1.trans hlen) (l2.trans hlen)
    exact ⟨gx, good_of_real x1, x2, y1, y2⟩
  obtain ⟨E1, hE1, -⟩ := (C26_spaces ci.nI ci.nA ci.nV (cas0 / 2 : ℕ) (cas0 / 2 : ℕ) 1).2 (by omega) (by omega)
  obtain ⟨gx, gx1, gx2, -⟩ := ext 1 E1 (.inl rfl) hE1
  have chain : ∀ x, ExpChain (Ts'.zip (thetas.map effAngle)) x (opOf gx x) := fun x => by
    rw [← gx2]; exact opOf_chain gx1 x
  have same : ∀ gy : List Fac, GoodFacs gy → gy.map (fun g => (g.2.1, g.1)) = Ts'.zip (thetas.map effAngle) →
      opOf gy = opOf gx ∧ opOf (invFacs gy) = opOf (invFacs gx) := by
    intro gy gy1 gy2
    have e : opOf gy = opOf gx := LinearMap.ext fun x => expChain_unique (by rw [← gy2]; exact opOf_chain gy1 x) (chain x)
    refine ⟨e, ?_⟩
    rw [← mul_one (opOf (invFacs gy)), ← (opOf_inv gx1).2, ← mul_assoc, ← e, (opOf_inv gy1).1, one_mul]
  set m := 2 * ci.nI with hm
  have lift : ∀ x, opOf gx (core m x) = core m (opOf gs x) := fun x =>
    expChain_unique (chain _) ((show ExpChain (Ts.zip (thetas.map effAngle)) x (opOf gs x) by
      rw [← f2]; exact opOf_chain good x).core hF _)
  have inv : ∀ x, opOf (invFacs gx) (opOf gx x) = x := fun x => by
    rw [← Module.End.mul_apply, (opOf_inv gx1).1]; rfl
  have liftD : ∀ x, opOf (invFacs gx) (core m x) = core m (opOf (invFacs gs) x) := fun x => by
    have : opOf gs (opOf (invFacs gs) x) = x := by rw [← Module.End.mul_apply, (opOf_inv good).2]; rfl
    rw [← inv (core m (opOf (invFacs gs) x)), lift, this]
  have nO : s.numInactiveOrbs = (numElec - cas0) / 2 := hnI
  have hN' : s.numInactiveOrbs + s.numActiveOrbs + s.numVirtualOrbs = numOrbs := hN
  have hnA' : s.numActiveOrbs = cas1 := hnA
  refine ⟨c, R1, R2, en, q1, q2, q3, q4, ⟨q5, ?_, ?_, q7, ?_, hk.1, ?_⟩, q6, opOf gx, opOf (invFacs gx), ?_, chain⟩
  · rw [e2]; exact e5
  · show RespWf.refDet _ = _
    ext p
    have := hos.2 p
    unfold RespWf.refDet
    simp only [Finset.mem_union, Finset.mem_range, List.mem_toFinset]
    rw [this]
    omega
  · intro p hp
    obtain ⟨⟨a1, a2, a3⟩, a4⟩ := (hk.2 p).1 hp
    have b1 := ho.2 p.1
    have b2 := hu.2 p.2
    show (p.1 < ci.nI ∨ p.1 ∈ s.activeOcc) ∧ (p.2 ∈ s.activeUnocc ∨ (ci.nI + ci.nA ≤ p.2 ∧
      p.2 < ci.nI + ci.nA + ci.nV)) ∧ NonRedundant ci.nI ci.nA p
    rw [b1, b2]
    unfold NonRedundant
    omega
  · show 0 < ci.nI + ci.nA + ci.nV
    omega
  · refine ⟨⟨?_, ?_, opOf_adj gx1, fun v => inv _, ?_⟩, ?_, ?_, ?_⟩
    · intro v
      obtain ⟨w, w1, w2⟩ := u1 v
      refine ⟨w, w1, ?_⟩
      show core m (stateOf ci w) = opOf gx (core m (stateOf ci v))
      rw [lift, w2]
    · intro v
      obtain ⟨w, w1, w2⟩ := u2 v
      refine ⟨w, w1, ?_⟩
      show core m (stateOf ci w) = opOf (invFacs gx) (core m (stateOf ci v))
      rw [liftD, w2]
    · obtain ⟨w, w1, w2⟩ := u1 csf
      show core m (stateOf ci c) = opOf gx (core m (stateOf ci csf))
      rw [show constructUps (propVec tiny .one ci) tiny ci.offset st thetas false csf = .ok c from q1] at w1
      obtain rfl := Except.ok.inj w1
      rw [lift, w2]
    · intro order E v ho' hE
      obtain ⟨gy, y1, y2, y3, -⟩ := ext order E ho' hE
      rw [← (same gy y1 y2).1]
      exact y3 v
    · intro order E v ho' hE
      obtain ⟨gy, y1, y2, -, y3⟩ := ext order E ho' hE
      rw [← (same gy y1 y2).2]
      exact y3 v
    · intro order E v ho' hE
      exact inv _

/-- Four electrons in four orbitals, two of each active, with one spin-adapted single in the layout. -/
example : CasFits 4 4 2 2 ∧ 0 < 2 ∧ Layout 1 2 ["sa_single"] [[0, 1]] [E 2 1 - E 1 2] := by
  refine ⟨⟨rfl, rfl, by decide, by decide, by decide⟩, by decide, ?_⟩
  exact .cons (.saSingle 0 1 (by simp)) .nil

end SQ
