import Verif.Lemmas.WaveFunctionRun
import Verif.Props.WaveFunction
import Mathlib.Analysis.Real.Pi.Bounds

/-! # C40, C41, C78: optimizations -/

namespace SQ

open WFObj

variable {e : WFEnv}

/-! ### C41 -/

/-- A call with what it returns (an energy as a list of one number). -/
noncomputable def callResult (theta kappa : Bool) : WFObj.Call → WFM e (List ℝ)
  | .energy p => do let E ← energyCall p theta kappa; return [E]
  | .grad p => gradCall p theta kappa

noncomputable def callResults (theta kappa : Bool) : List WFObj.Call → WFM e (List (List ℝ))
  | [] => pure []
  | c :: cs => do
    let o ← callResult theta kappa c
    let os ← callResults theta kappa cs
    return o :: os

/-- What a call should return, `E` and `G` being the objective and its gradient: the energy may be that of
a point less than `1e-14` away in each parameter. -/
def AnswerOf (E : List ℝ → ℝ) (G : List ℝ → List ℝ) : WFObj.Call → List ℝ → Prop
  | .energy p, out => ∃ q, q.length = p.length ∧ Close q p ∧ out = [E q]
  | .grad p, out => out = G p

/-- The objective does not depend on how its parameters were reached. -/
structure SamePath (e : WFEnv) (theta kappa : Bool) (r0 r : WFRef e.n) : Prop where
  kappaLen : r.kappa.length = e.kappaIdx.length
  thetas : theta = false → r.thetas = r0.thetas
  still : kappa = false → r.orb = r0.orb
  back : kappa = true → r.orb * NormedSpace.exp (rotGen e.kappaIdx r.kappa) =
    r0.orb * NormedSpace.exp (rotGen e.kappaIdx r0.kappa)

theorem samePath_params {theta kappa : Bool} (hc : kappa = true → CommutingKappa e.kappaIdx) {r0 r : WFRef e.n}
    (hr : SamePath e theta kappa r0 r) (h0 : r0.kappa.length = e.kappaIdx.length) {p : List ℝ}
    (hp : p.length = callSize e theta kappa) :
    SamePath e theta kappa r0 (r.params e p theta kappa) ∧ (r.params e p theta kappa).orb = (r0.params e p theta kappa).orb ∧
      (r.params e p theta kappa).thetas = (r0.params e p theta kappa).thetas := by
  unfold callSize at hp
  cases kappa with
  | false =>
    cases theta with
    | false => exact ⟨hr, hr.still rfl, hr.thetas rfl⟩
    | true => exact ⟨⟨hr.kappaLen, fun h => (nomatch h), hr.still, fun h => (nomatch h)⟩, hr.still rfl, rfl⟩
  | true =>
    have hl : (p.take e.kappaIdx.length).length = e.kappaIdx.length := by simp at hp ⊢; omega
    have b1 := setKappa_back (hc rfl) hr.kappaLen hl true
    have b2 := setKappa_back (hc rfl) h0 hl true
    have hu : ∀ {A B : Matrix (Fin e.n) (Fin e.n) ℝ}, A * NormedSpace.exp (rotGen e.kappaIdx (p.take e.kappaIdx.length)) =
        B * NormedSpace.exp (rotGen e.kappaIdx (p.take e.kappaIdx.length)) → A = B := by
      intro A B h
      exact (Matrix.isUnit_exp _).mul_right_cancel h
    have horb := hu (b1.trans ((hr.back rfl).trans b2.symm))
    cases theta with
    | false => exact ⟨⟨hl, hr.thetas, fun h => (nomatch h), fun _ => b1.trans (hr.back rfl)⟩, horb, hr.thetas rfl⟩
    | true => exact ⟨⟨hl, fun h => (nomatch h), fun h => (nomatch h), fun _ => b1.trans (hr.back rfl)⟩, horb, rfl⟩

/-- C41: whatever calls a minimizer makes, each energy is the objective at the parameters of the call, up
to `1e-14` in the parameters, and each gradient is the one at the parameters of the call. The objective is
the energy with the parameters set once, from the state at the beginning. Orbital parameters are included
if the rotations commute with each other. Parameters are assumed to be away from `1e20`. -/
theorem C41_calls (hv : ValidKappa e.kappaIdx) {theta kappa : Bool} (hc : kappa = true → CommutingKappa e.kappaIdx)
    {r0 : WFRef e.n} {s : WFObj e} (hs : WFInv e r0 s) (calls : List WFObj.Call)
    (hf : ∀ c ∈ calls, c.params.length = callSize e theta kappa ∧ ∃ x ∈ c.params, |x| < 10 ^ 19)
    (hs0 : s.oldParams = List.replicate (callSize e theta kappa) (10 ^ 20)) :
    ∃ outs s', callResults theta kappa calls s = (.ok outs, s') ∧
      List.Forall₂ (AnswerOf (fun p => (r0.params e p theta kappa).E e kappa)
        (fun p => (r0.params e p theta kappa).G e theta kappa)) calls outs := by
  have hfar : ∀ p : List ℝ, (∃ x ∈ p, |x| < 10 ^ 19) → p.length = callSize e theta kappa →
      ¬Close (List.replicate (callSize e theta kappa) (10 ^ 20)) p := by
    rintro p ⟨x, hx, h⟩ hl hcl
    obtain ⟨i, hi, rfl⟩ := List.getElem_of_mem hx
    have := hcl (10 ^ 20 - p[i]) (by
      rw [List.mem_iff_getElem]
      exact ⟨i, by simp; omega, by simp⟩)
    have h1 := abs_lt.1 this
    have h2 := abs_lt.1 h
    norm_num at h1 h2
    linarith
  have h0 := hs.kappaLen
  have hE : ∀ {r r' : WFRef e.n}, r.orb = r'.orb → r.thetas = r'.thetas → r.E e kappa = r'.E e kappa := by
    intro r r' h1 h2
    unfold WFRef.E
    rw [h1, h2]
  have hG : ∀ {r r' : WFRef e.n}, r.orb = r'.orb → r.thetas = r'.thetas → r.G e theta kappa = r'.G e theta kappa := by
    intro r r' h1 h2
    unfold WFRef.G
    rw [h1, h2]
  have gen : ∀ (calls : List WFObj.Call) (r : WFRef e.n) (s : WFObj e),
      (∀ c ∈ calls, c.params.length = callSize e theta kappa ∧ ∃ x ∈ c.params, |x| < 10 ^ 19) → WFInv e r s →
      SamePath e theta kappa r0 r →
      (s.oldParams = List.replicate (callSize e theta kappa) (10 ^ 20) ∨ (s.oldParams.length = callSize e theta kappa ∧
        s.eOptOld = (r0.params e s.oldParams theta kappa).E e kappa)) →
      ∃ outs s', callResults theta kappa calls s = (.ok outs, s') ∧
        List.Forall₂ (AnswerOf (fun p => (r0.params e p theta kappa).E e kappa)
          (fun p => (r0.params e p theta kappa).G e theta kappa)) calls outs := by
    intro calls
    induction calls with
    | nil => intro r s _ _ _ _; exact ⟨[], s, rfl, List.Forall₂.nil⟩
    | cons c calls ih =>
      intro r s hf hs hr hm
      obtain ⟨hl, hx⟩ := hf c (by simp)
      have hf' := fun c hc => hf c (List.mem_cons_of_mem _ hc)
      obtain ⟨g1, g2, g3⟩ := samePath_params hc hr h0 hl
      have fin : ∀ {o : List ℝ} {s1 : WFObj e} {r1 : WFRef e.n}, callResult theta kappa c s = (.ok o, s1) → WFInv e r1 s1 →
          SamePath e theta kappa r0 r1 →
          (s1.oldParams = List.replicate (callSize e theta kappa) (10 ^ 20) ∨ (s1.oldParams.length = callSize e theta kappa ∧
            s1.eOptOld = (r0.params e s1.oldParams theta kappa).E e kappa)) →
          AnswerOf (fun p => (r0.params e p theta kappa).E e kappa) (fun p => (r0.params e p theta kappa).G e theta kappa) c o →
          ∃ outs s', callResults theta kappa (c :: calls) s = (.ok outs, s') ∧
            List.Forall₂ (AnswerOf (fun p => (r0.params e p theta kappa).E e kappa)
              (fun p => (r0.params e p theta kappa).G e theta kappa)) (c :: calls) outs := by
        intro o s1 r1 a1 a2 a3 a4 a5
        obtain ⟨outs, s2, b1, b2⟩ := ih r1 s1 hf' a2 a3 a4
        refine ⟨o :: outs, s2, ?_, List.Forall₂.cons a5 b2⟩
        unfold callResults
        rw [WFM.bind_ok a1, WFM.bind_ok b1]
        rfl
      cases c with
      | grad p =>
        obtain ⟨s1, a1, a2, a3, a4⟩ := follows_gradCall hv r hl s hs
        refine fin (o := (r.params e p theta kappa).G e theta kappa) a1 a2 g1 ?_ (hG g2 g3)
        rw [a3, a4]
        exact hm
      | energy p =>
        simp only [WFObj.Call.params] at hl hx g1 g2 g3
        have hlen : s.oldParams.length = p.length := by
          rcases hm with hm | hm
          · rw [hm, hl, List.length_replicate]
          · rw [hm.1, hl]
        by_cases hcl : Close s.oldParams p
        · have hne : p ≠ [] := by
            rintro rfl
            obtain ⟨x, hx, -⟩ := hx
            simp at hx
          have a1 := energyCall_close (theta := theta) (kappa := kappa) hlen hne hcl
          refine fin (o := [s.eOptOld]) (s1 := s) (r1 := r) ?_ hs hr hm ?_
          · show (energyCall p theta kappa >>= fun E => pure [E] : WFM e (List ℝ)) s = _
            rw [WFM.bind_ok a1]
            rfl
          · rcases hm with hm | hm
            · rw [hm] at hcl
              exact absurd hcl (hfar p hx hl)
            · exact ⟨s.oldParams, hlen, hcl, by rw [hm.2]⟩
        · obtain ⟨s1, a1, a2, a3, a4⟩ := energyCall_fresh hv hs hlen hl hcl
          refine fin (o := [(r.params e p theta kappa).E e kappa]) (s1 := s1) ?_ a2 g1 (Or.inr ⟨by rw [a3, hl], ?_⟩) ?_
          · show (energyCall p theta kappa >>= fun E => pure [E] : WFM e (List ℝ)) s = _
            rw [WFM.bind_ok a1]
            rfl
          · rw [a4, a3, hE g2 g3]
          · refine ⟨p, rfl, ?_, by rw [hE g2 g3]⟩
            intro x hx
            rw [List.zipWith_self] at hx
            obtain ⟨y, -, rfl⟩ := List.mem_map.1 hx
            rw [sub_self, abs_zero]
            positivity
  exact gen calls r0 s hf hs ⟨hs.kappaLen, fun _ => rfl, fun _ => rfl, fun _ => rfl⟩ (Or.inl hs0)

theorem callResults_energy {theta kappa : Bool} {p : List ℝ} {E : ℝ} {calls : List WFObj.Call} {outs : List (List ℝ)} {s s1 s2 : WFObj e}
    (h1 : energyCall p theta kappa s = (.ok E, s1)) (h2 : callResults theta kappa calls s1 = (.ok outs, s2)) :
    callResults theta kappa (.energy p :: calls) s = (.ok ([E] :: outs), s2) := by
  unfold callResults
  have : callResult theta kappa (.energy p) s = (.ok [E], s1) := by
    show (energyCall p theta kappa >>= fun E => pure [E] : WFM e (List ℝ)) s = _
    rw [WFM.bind_ok h1]
    rfl
  rw [WFM.bind_ok this, WFM.bind_ok h2]
  rfl

/-- A call does not always leave the wave function at its parameters: an energy asked for again after a
gradient elsewhere is remembered, and the parameters stay those of the gradient. -/
theorem C41_memo_disagree (hv : ValidKappa e.kappaIdx) {r : WFRef e.n} {s : WFObj e} (hs : WFInv e r s) {p q : List ℝ}
    (hp : p.length = e.numTheta) (hq : q.length = e.numTheta) (h0 : s.oldParams = List.replicate e.numTheta (10 ^ 20))
    (hx : ∃ x ∈ p, |x| < 10 ^ 19) :
    ∃ outs s', callResults true false [.energy p, .grad q, .energy p] s = (.ok outs, s') ∧ s'.thetas = q := by
  have hp' : p.length = callSize e true false := by simp [callSize, hp]
  have hq' : q.length = callSize e true false := by simp [callSize, hq]
  have hc : ¬Close s.oldParams p := by
    obtain ⟨x, hx, h⟩ := hx
    intro hcl
    obtain ⟨i, hi, rfl⟩ := List.getElem_of_mem hx
    have := hcl (10 ^ 20 - p[i]) (by
      rw [h0, List.mem_iff_getElem]
      exact ⟨i, by simp; omega, by simp⟩)
    have h1 := abs_lt.1 this
    have h2 := abs_lt.1 h
    norm_num at h1 h2
    linarith
  obtain ⟨s1, a1, b1, c1, -⟩ := energyCall_fresh hv hs (by rw [h0, hp, List.length_replicate]) hp' hc
  obtain ⟨s2, a2, b2, c2, -⟩ := follows_gradCall hv _ hq' s1 b1
  have a3 := energyCall_close (s := s2) (p := p) (theta := true) (kappa := false) (by rw [c2, c1])
    (by rintro rfl; obtain ⟨x, hx, -⟩ := hx; simp at hx) (by
      rw [c2, c1]
      intro x hx
      rw [List.zipWith_self] at hx
      obtain ⟨y, -, rfl⟩ := List.mem_map.1 hx
      rw [sub_self, abs_zero]
      positivity)
  have h2 : callResults true false [.energy p] s2 = _ := callResults_energy a3 rfl
  have h3 : ∃ outs, callResults true false [.grad q, .energy p] s1 = (.ok outs, s2) := by
    unfold callResults
    have a2' : callResult true false (.grad q) s1 = _ := a2
    rw [WFM.bind_ok a2', WFM.bind_ok h2]
    exact ⟨_, rfl⟩
  obtain ⟨outs, h3⟩ := h3
  exact ⟨_, s2, callResults_energy a1 h3, by rw [b2.thetas]; rfl⟩

/-- Three orbitals, the first doubly occupied. -/
noncomputable def pathEnv : WFEnv where
  kind := .ups
  n := 3
  kappaIdx := [(0, 1), (0, 2), (1, 2)]
  numTheta := 0
  hAo := Matrix.diagonal ![0, 1, 0]
  gAo := fun _ _ _ _ => 0
  mo := 1
  V := Unit
  D1 := Unit
  D2 := Unit
  D3 := Unit
  D4 := Unit
  St := Unit
  csf := ()
  state := fun _ => ()
  mkRdm1 := fun _ => ()
  mkRdm2 := fun _ _ => ()
  mkRdm3 := fun _ _ _ => ()
  mkRdm4 := fun _ _ _ _ => ()
  energy := fun _ h _ => 2 * h 0 0
  energyRdm := fun h _ _ _ => 2 * h 0 0
  gradKappa := fun h _ _ _ => [4 * h 0 1, 4 * h 0 2, 0]
  gradTheta := fun _ _ _ _ => []
  stateCI := fun _ _ _ => ()

theorem pathEnv_orb :
    let R (a b c : ℝ) : Matrix (Fin 3) (Fin 3) ℝ := NormedSpace.exp (-rotGen [(0, 1), (0, 2), (1, 2)] [a, b, c])
    2 * oneTransform (1 * R (0 - 0) (0 - 0) (0 - 0)) (Matrix.diagonal ![0, 1, 0]) 0 0 = (0 : ℝ) ∧
    2 * oneTransform (1 * R (0 - 0) (0 - 0) (0 - 0) * R (Real.pi - 0) (0 - 0) (0 - 0) * R (Real.pi - Real.pi) (0 - 0) (Real.pi - 0) *
      R (0 - Real.pi) (0 - 0) (0 - Real.pi)) (Matrix.diagonal ![0, 1, 0]) 0 0 = Real.sin (Real.pi * √2) ^ 2 := by
  have h2 : √2 ^ 2 = 2 := Real.sq_sqrt (by norm_num)
  have hz : NormedSpace.exp (-rotGen [((0 : Fin 3), (1 : Fin 3)), (0, 2), (1, 2)] [0, 0, 0]) = 1 := by
    have : rotGen [((0 : Fin 3), (1 : Fin 3)), (0, 2), (1, 2)] [0, 0, 0] = 0 := by
      rw [rotGen_three]
      ext i j
      fin_cases i <;> fin_cases j <;> simp
    rw [this, neg_zero, NormedSpace.exp_zero]
  simp only [sub_zero, sub_self, zero_sub]
  rw [hz, exp_three_a, exp_three_c]
  have hd : (1 * 1 * Matrix.diagonal ![-1, -1, 1] * Matrix.diagonal ![1, -1, -1] : Matrix (Fin 3) (Fin 3) ℝ) =
      Matrix.diagonal ![-1, 1, -1] := by
    rw [Matrix.one_mul, Matrix.one_mul, Matrix.diagonal_mul_diagonal]
    congr 1
    ext i
    fin_cases i <;> simp
  rw [hd]
  constructor
  · simp [oneTransform, Matrix.diagonal_apply, Fin.sum_univ_three]
  · have : ∀ M : Matrix (Fin 3) (Fin 3) ℝ, oneTransform M (Matrix.diagonal ![0, 1, 0]) 0 0 = M 1 0 ^ 2 := by
      intro M
      simp [oneTransform, Matrix.diagonal_apply, Fin.sum_univ_three]
      ring
    rw [this, Matrix.diagonal_mul, exp_three_ac]
    simp
    field_simp
    rw [h2]

/-- With rotations that do not commute, the energy depends on the way the minimizer took: after two steps
away from zero and back to it, the energy is another one. -/
theorem C41_path_disagree : ∃ E E₁ E₂ E' s',
    callResults false true [.energy [0, 0, 0], .energy [Real.pi, 0, 0], .energy [Real.pi, 0, Real.pi], .energy [0, 0, 0]]
      { WFObj.init pathEnv with oldParams := List.replicate 3 (10 ^ 20) } = (.ok [[E], [E₁], [E₂], [E']], s') ∧ E ≠ E' := by
  have hv : ValidKappa pathEnv.kappaIdx := by
    show ValidKappa [((0 : Fin 3), (1 : Fin 3)), (0, 2), (1, 2)]
    refine ⟨by decide, by decide⟩
  have hi : WFInv pathEnv (WFRef.start pathEnv) { WFObj.init pathEnv with oldParams := List.replicate 3 (10 ^ 20) } :=
    { inv_init rfl with }
  have hpi := Real.pi_gt_three
  have far : ∀ {a b : List ℝ} {x : ℝ}, x ∈ List.zipWith (· - ·) a b → 1 ≤ |x| → ¬Close a b := by
    intro a b x hx h hc
    have := (hc x hx).trans_le (by norm_num : (1 : ℝ) / 10 ^ 14 ≤ 1)
    linarith
  obtain ⟨s1, a1, b1, c1, -⟩ := energyCall_fresh (theta := false) (kappa := true) (p := [0, 0, 0]) hv hi rfl rfl
    (far (x := 10 ^ 20 - 0) (by simp) (by norm_num))
  obtain ⟨s2, a2, b2, c2, -⟩ := energyCall_fresh (theta := false) (kappa := true) (p := [Real.pi, 0, 0]) hv b1 (by rw [c1]; rfl) rfl
    (far (x := 0 - Real.pi) (by rw [c1]; simp) (by rw [zero_sub, abs_neg, abs_of_pos (by linarith)]; linarith))
  obtain ⟨s3, a3, b3, c3, -⟩ := energyCall_fresh (theta := false) (kappa := true) (p := [Real.pi, 0, Real.pi]) hv b2 (by rw [c2]; rfl) rfl
    (far (x := 0 - Real.pi) (by rw [c2]; simp) (by rw [zero_sub, abs_neg, abs_of_pos (by linarith)]; linarith))
  obtain ⟨s4, a4, b4, c4, -⟩ := energyCall_fresh (theta := false) (kappa := true) (p := [0, 0, 0]) hv b3 (by rw [c3]; rfl) rfl
    (far (x := Real.pi - 0) (by rw [c3]; simp) (by rw [sub_zero, abs_of_pos (by linarith)]; linarith))
  refine ⟨_, _, _, _, s4, callResults_energy a1 (callResults_energy a2 (callResults_energy a3 (callResults_energy a4 rfl))), ?_⟩
  have h := pathEnv_orb
  intro heq
  have h3 := (h.1.symm.trans heq).trans h.2
  exact sin_pi_sqrt_two (pow_eq_zero_iff (by norm_num) |>.1 h3.symm)

/-- In an orbital optimization the point a minimizer returns is only used for the ansatz parameters: the
orbitals are those of the last call. -/
theorem C41_result_ignored (hv : ValidKappa e.kappaIdx) {r : WFRef e.n} {s : WFObj e} (hs : WFInv e r s)
    {m m' : List ℝ → List WFObj.Call × List ℝ × ℝ} (hm : KeepsSize m) (hc : ∀ p, (m p).1 = (m' p).1)
    (hx : ∀ p, (m p).2.1.drop e.kappaIdx.length = (m' p).2.1.drop e.kappaIdx.length) (hf : ∀ p, (m p).2.2 = (m' p).2.2) :
    WFObj.run1 true m s = WFObj.run1 true m' s := by
  unfold WFObj.run1
  rw [WFM.bind_get, WFM.bind_get]
  rcases startParams_cases (oo := true) (s := s) with ⟨x, h⟩ | ⟨p, h, hl⟩
  · rw [WFM.bind_error h, WFM.bind_error h]
  · rw [WFM.bind_ok h, WFM.bind_ok h]
    have hk : Followed e (minimizeCalls p.length (!true || s.thetas.length > 0) true (m p).1 s).2 :=
      keeps_minimizeCalls hv (fun _ c hc => by rw [hm p c hc, ← hs.kappaLen, ← hs.kappa]; exact hl rfl) s ⟨r, hs⟩
    match hmc : minimizeCalls p.length (!true || s.thetas.length > 0) true (m p).1 s with
    | (.error x, s1) =>
      refine (WFM.bind_error hmc).trans (WFM.bind_error ?_).symm
      rw [← hc]
      exact hmc
    | (.ok _, s1) =>
      refine (WFM.bind_ok hmc).trans (Eq.trans ?_ (WFM.bind_ok (by rw [← hc]; exact hmc)).symm)
      rw [hmc] at hk
      obtain ⟨r1, h1⟩ := hk
      change (WFM.get >>= _) s1 = (WFM.get >>= _) s1
      rw [WFM.bind_get, WFM.bind_get, h1.kappa, h1.kappaLen, hx, hf]

/-! ### C40 -/

/-- The states of an object: made, used, optimized, in any order; exceptions are caught. The minimizers
call with as many parameters as they are given. -/
inductive WFHistory (e : WFEnv) : WFObj e → Prop
  | init : WFHistory e (WFObj.init e)
  | op {s : WFObj e} (o : WFOp) : o.Fits e → WFHistory e s → WFHistory e (o.run s)
  | run2 {s : WFObj e} (oo : Bool) (tol : ℝ) (rs : List Round) : (∀ r ∈ rs, r.Fits e) → WFHistory e s →
      WFHistory e (WFObj.run2 oo tol rs s).2
  | run1 {s : WFObj e} (oo : Bool) (minimizer : List ℝ → List WFObj.Call × List ℝ × ℝ) : KeepsSize minimizer → WFHistory e s →
      WFHistory e (WFObj.run1 oo minimizer s).2

/-- C40, for `WaveFunctionUPS` and `WaveFunctionSAUPS` (and the coupled-cluster class without a two-step
optimization): at any time the orbital coefficients read are those the integrals belong to, and the state,
density matrices and state energies belong to the ansatz parameters and integrals read. Missing: the
two-step orbital optimization of `WaveFunctionUCC`, see `C40_ucc_disagree`. -/
theorem C40_history_partial (hv : ValidKappa e.kappaIdx) (hz : e.state (List.replicate e.numTheta 0) = e.csf)
    (hk : e.kind ≠ .ucc) {s : WFObj e} (hs : WFHistory e s) :
    ∃ c, (readCMo s).1 = .ok c ∧ (readH s).1 = .ok (oneTransform c e.hAo) ∧ (readG s).1 = .ok (twoTransform c e.gAo) ∧
      (readCI s).1 = .ok (e.state s.thetas) ∧ (readRdm1 s).1 = .ok (e.mkRdm1 (e.state s.thetas)) ∧
      (readRdm2 s).1 = .ok (e.mkRdm2 (e.state s.thetas) (e.mkRdm1 (e.state s.thetas))) ∧
      (e.kind = .sa → (readStates s).1 = .ok (e.stateCI (e.state s.thetas) (oneTransform c e.hAo) (twoTransform c e.gAo))) ∧
      s.kappa = s.kappaOld ∧ s.thetas.length = e.numTheta := by
  have : Followed e s := by
    induction hs with
    | init => exact ⟨_, inv_init hz⟩
    | op o ho _ ih => obtain ⟨r, hr⟩ := ih; exact ⟨_, inv_run hv hr ho⟩
    | run2 oo tol rs hf _ ih => exact keeps_run2 hv (Or.inl hk) tol hf _ ih
    | run1 oo m hm _ ih => exact keeps_run1 hv oo hm _ ih
  obtain ⟨r, hi⟩ := this
  rw [hi.thetas]
  exact ⟨r.orb, follows_fst (follows_readCMo hv r) hi, follows_fst (follows_readH hv r) hi,
    follows_fst (follows_readG hv r) hi, follows_fst (follows_readCI r) hi, follows_fst (follows_readRdm1 r) hi,
    follows_fst (follows_readRdm2 r) hi, fun hsa => follows_fst (follows_readStates hv r hsa) hi,
    hi.kappa.trans hi.kappaOld.symm, hi.thetaLen⟩

theorem rounds_value {oo : Bool} {tol : ℝ} : ∀ {rs : List Round} {eOld : ℝ} {s s' : WFObj e} {E : ℝ} {o : Option ℝ},
    rounds oo tol rs eOld o s = (.ok (some E), s') → (∃ r ∈ rs, E = r.kappaFun ∨ E = r.thetaFun) ∨ o = some E := by
  intro rs
  induction rs with
  | nil =>
    intro eOld s s' E o h
    cases h
    exact Or.inr rfl
  | cons r rs ih =>
    intro eOld s s' E o h
    unfold rounds at h
    rw [WFM.bind_get] at h
    obtain ⟨_, s1, -, h⟩ := WFM.ok_bind h
    obtain ⟨_, s2, -, h⟩ := WFM.ok_bind h
    rw [WFM.bind_get] at h
    by_cases hc : oo = true ∧ s2.kappa.length ≠ 0
    · rw [if_pos hc] at h
      obtain ⟨_, s3, -, h⟩ := WFM.ok_bind h
      obtain ⟨_, s4, -, h⟩ := WFM.ok_bind h
      split_ifs at h with ht
      · cases h
        exact Or.inl ⟨r, by simp, Or.inl rfl⟩
      · rcases ih h with ⟨r', hr', h'⟩ | h'
        · exact Or.inl ⟨r', by simp [hr'], h'⟩
        · cases h'
          exact Or.inl ⟨r, by simp, Or.inl rfl⟩
    · rw [if_neg hc] at h
      cases h
      exact Or.inl ⟨r, by simp, Or.inr rfl⟩

/-- The energy read after an optimization is the value the last minimizer returned. -/
theorem C40_reported (oo : Bool) {s s' : WFObj e} :
    (∀ tol rs, WFObj.run2 oo tol rs s = (.ok (), s') →
      ∃ r ∈ rs, (readEnergy s').1 = .ok r.kappaFun ∨ (readEnergy s').1 = .ok r.thetaFun) ∧
    (∀ minimizer, WFObj.run1 oo minimizer s = (.ok (), s') → ∃ p, (readEnergy s').1 = .ok (minimizer p).2.2) := by
  have read : ∀ {s : WFObj e} {E : ℝ}, s.energy = some E → (readEnergy s).1 = .ok E := by
    intro s E h
    unfold readEnergy
    rw [WFM.bind_get]
    simp only [h]
    rfl
  have fin : ∀ {s s' : WFObj e} {E : ℝ}, (do
      if e.kind = .sa then do let _ ← doStateCI
      WFM.modify fun s => { s with energy := some E } : WFM e Unit) s = (.ok (), s') → s'.energy = some E := by
    intro s s' E h
    split_ifs at h with hsa
    · obtain ⟨_, s1, -, h⟩ := WFM.ok_bind h
      cases h
      rfl
    · cases h
      rfl
  constructor
  · intro tol rs h
    unfold WFObj.run2 at h
    obtain ⟨o, s1, h1, h⟩ := WFM.ok_bind h
    cases o with
    | none => cases h
    | some E =>
      rw [read (fin h)]
      rcases rounds_value h1 with ⟨r, hr, hE | hE⟩ | hE
      · exact ⟨r, hr, Or.inl (by rw [hE])⟩
      · exact ⟨r, hr, Or.inr (by rw [hE])⟩
      · cases hE
  · intro m h
    unfold WFObj.run1 at h
    rw [WFM.bind_get] at h
    obtain ⟨p, s1, -, h⟩ := WFM.ok_bind h
    obtain ⟨_, s2, -, h⟩ := WFM.ok_bind h
    refine ⟨p, read ?_⟩
    cases oo with
    | true =>
      change (WFM.get >>= _) s2 = _ at h
      rw [WFM.bind_get] at h
      obtain ⟨_, s3, -, h⟩ := WFM.ok_bind h
      obtain ⟨_, s4, -, h⟩ := WFM.ok_bind h
      exact fin h
    | false =>
      obtain ⟨_, s3, -, h⟩ := WFM.ok_bind h
      exact fin h

/-- Two orbitals, one rotation, one doubly occupied orbital. -/
noncomputable def uccEnv : WFEnv where
  kind := .ucc
  n := 2
  kappaIdx := [(0, 1)]
  numTheta := 0
  hAo := Matrix.diagonal ![1, 2]
  gAo := fun _ _ _ _ => 0
  mo := 1
  V := Unit
  D1 := Unit
  D2 := Unit
  D3 := Unit
  D4 := Unit
  St := Unit
  csf := ()
  state := fun _ => ()
  mkRdm1 := fun _ => ()
  mkRdm2 := fun _ _ => ()
  mkRdm3 := fun _ _ _ => ()
  mkRdm4 := fun _ _ _ _ => ()
  energy := fun _ h _ => 2 * h 0 0
  energyRdm := fun h _ _ _ => 2 * h 0 0
  gradKappa := fun h _ _ _ => [4 * h 0 1]
  gradTheta := fun _ _ _ _ => []
  stateCI := fun _ _ _ => ()

theorem uccEnv_orb : oneTransform ((1 : Matrix (Fin 2) (Fin 2) ℝ) * NormedSpace.exp (-rotGen [(0, 1)] [Real.pi / 2 - 0]))
      (Matrix.diagonal ![1, 2]) ≠
    oneTransform ((1 : Matrix (Fin 2) (Fin 2) ℝ) * NormedSpace.exp (-rotGen [(0, 1)] [Real.pi / 2 - 0]) *
      NormedSpace.exp (-rotGen [(0, 1)] [Real.pi / 2 - 0])) (Matrix.diagonal ![1, 2]) := by
  intro h
  have := congrFun (congrFun h 0) 0
  rw [exp_rotGen_two] at this
  simp [oneTransform, Matrix.mul_apply, Fin.sum_univ_two] at this

/-- After a rotation by `π/2` found by the two-step optimization, `c_mo` of the coupled-cluster class is
rotated by `π`, and the integrals kept are not those of `c_mo`. -/
theorem C40_ucc_disagree : ∃ s', WFObj.run2 true 1 [⟨[], [], 0, [.energy [Real.pi / 2]], 4⟩] (WFObj.init uccEnv) = (.ok (), s') ∧
    ∃ c h, (readCMo s').1 = .ok c ∧ (readH s').1 = .ok h ∧ h ≠ oneTransform c uccEnv.hAo := by
  have hv : ValidKappa uccEnv.kappaIdx := ⟨List.nodup_singleton _, fun x hx => by
    have : x = ((0 : Fin 2), (1 : Fin 2)) := List.mem_singleton.1 hx
    subst this
    decide⟩
  have hi : WFInv uccEnv (WFRef.start uccEnv) (WFObj.init uccEnv) := inv_init rfl
  -- the ansatz part
  have hi1 : WFInv uccEnv (WFRef.start uccEnv) { WFObj.init uccEnv with oldParams := List.replicate 0 (10 ^ 20), eOptOld := 0 } :=
    { hi with }
  obtain ⟨s2, a2, b2, -⟩ := follows_setThetas (WFRef.start uccEnv) (t := []) rfl _ hi1
  set r2 := (WFRef.start uccEnv).setThetas (n := 2) []
  have hi3 : WFInv uccEnv r2 { s2 with oldParams := List.replicate 1 (10 ^ 20), eOptOld := 0 } := { b2 with }
  -- the orbital part
  have hc : ¬Close (List.replicate 1 (10 ^ 20)) [Real.pi / 2] := by
    intro h
    have := h (10 ^ 20 - Real.pi / 2) (by simp)
    have h1 := (abs_lt.1 this).2
    have h2 := Real.pi_le_four
    norm_num at h1
    linarith
  obtain ⟨s4, a4, b4, -⟩ := energyCall_fresh (theta := false) (kappa := true) (p := [Real.pi / 2]) hv hi3 rfl rfl hc
  have hH := energyCall_hasH (theta := false) (p := [Real.pi / 2]) hv hi3 rfl rfl hc (by decide)
  rw [a4] at hH
  simp only at hH
  set r4 := r2.params uccEnv [Real.pi / 2] false true
  have hk4 : r4.kappa = [Real.pi / 2] := rfl
  refine ⟨{ s4 with kappaOld := [0], energy := some 4 }, ?_, ?_⟩
  · have m1 : minimizeCalls (e := uccEnv) 0 true false [] (WFObj.init uccEnv) =
        (.ok (), { WFObj.init uccEnv with oldParams := List.replicate 0 (10 ^ 20), eOptOld := 0 }) := rfl
    have m2 : minimizeCalls (e := uccEnv) 1 false true [.energy [Real.pi / 2]] s2 = (.ok (), s4) := by
      unfold minimizeCalls
      rw [WFM.bind_modify]
      change (doCall (e := uccEnv) false true (.energy [Real.pi / 2]) >>= fun _ => pure ()) _ = _
      have : doCall (e := uccEnv) false true (.energy [Real.pi / 2])
          { s2 with oldParams := List.replicate 1 (10 ^ 20), eOptOld := 0 } = (.ok (), s4) := by
        unfold doCall
        simp only
        rw [WFM.bind_ok a4]
        rfl
      rw [WFM.bind_ok this]
      rfl
    have m3 : resetKappa2 s4 = (.ok (), { s4 with kappaOld := [0] }) := by
      have : s4.kappa.length = 1 := by rw [b4.kappa]; rfl
      unfold resetKappa2
      simp only [WFM.modify]
      rw [if_pos (show uccEnv.kind = .ucc from rfl), this]
      rfl
    have m4 : rounds (e := uccEnv) true 1 [⟨[], [], 0, [.energy [Real.pi / 2]], 4⟩] (10 ^ 12) none (WFObj.init uccEnv) =
        (.ok (some 4), { s4 with kappaOld := [0] }) := by
      unfold rounds
      rw [WFM.bind_get]
      refine (WFM.bind_ok m1).trans ?_
      simp only
      rw [WFM.bind_ok a2, WFM.bind_get, if_pos ⟨trivial, by rw [b2.kappa]; exact one_ne_zero⟩]
      refine (WFM.bind_ok m2).trans ?_
      rw [WFM.bind_ok m3, if_neg (by norm_num)]
      rfl
    unfold WFObj.run2
    rw [WFM.bind_ok m4]
    rfl
  · obtain ⟨h, hh⟩ := Option.isSome_iff_exists.1 hH
    have hc : readCMo { s4 with kappaOld := [0], energy := some 4 } = _ := readCMo_eq hv { s4 with kappaOld := [0], energy := some 4 }
      (by simp only [b4.kappa]; rfl) rfl
    refine ⟨_, h, by rw [hc], ?_, ?_⟩
    · unfold readH
      rw [WFM.bind_get]
      simp only [hh]
      rfl
    · rw [b4.hMo h hh]
      simp only [b4.cMo, b4.kappa, hk4]
      exact uccEnv_orb

/-! ### C78 -/

/-- The one-step optimization of a wave function with ansatz parameters whose orbital parameters are an
array always raises `ValueError`: the two kinds of parameters are added, not concatenated. -/
theorem C78_array_disagree (hv : ValidKappa e.kappaIdx) {r : WFRef e.n} {s : WFObj e} (hs : WFInv e r s)
    (ha : s.kappaArr = true) (ht : 0 < e.numTheta) {m : List ℝ → List WFObj.Call × List ℝ × ℝ} (hm : KeepsSize m)
    (hx : ∀ p, (m p).2.1.length = p.length) : (WFObj.run1 true m s).1 = .error .valueError := by
  have htl : s.thetas.length = e.numTheta := by rw [hs.thetas, hs.thetaLen]
  have hkl : s.kappa.length = e.kappaIdx.length := by rw [hs.kappa, hs.kappaLen]
  unfold WFObj.run1
  rw [WFM.bind_get]
  have hjoin : startParams true s = (joinParams true s.kappa s.thetas, s) := by
    unfold startParams
    rw [WFM.bind_get, if_pos rfl, if_pos (by omega), ha]
    cases joinParams true s.kappa s.thetas <;> rfl
  cases hj : joinParams true s.kappa s.thetas with
  | error x =>
    rw [hj] at hjoin
    rw [WFM.bind_error hjoin]
    unfold joinParams at hj
    rw [if_pos rfl] at hj
    unfold arrSub at hj
    split_ifs at hj
    split at hj
    · cases hj
    · rename_i d hd
      split at hd <;> cases hd
      cases hj
      rfl
  | ok p =>
    rw [hj] at hjoin
    rw [WFM.bind_ok hjoin]
    -- the number of parameters is that of one kind
    have hp : e.kappaIdx.length ≤ p.length ∧ p.length - e.kappaIdx.length ≠ e.numTheta := by
      unfold joinParams at hj
      rw [if_pos rfl] at hj
      cases hd : arrSub s.kappa (s.thetas.map (- ·)) with
      | error x => rw [hd] at hj; cases hj
      | ok d =>
        rw [hd] at hj
        cases hj
        obtain ⟨h1, h2⟩ := arrSub_length (by rw [List.length_map]; omega) hd
        rw [hkl] at h1 h2
        rw [List.length_map, htl] at h2
        refine ⟨h1, ?_⟩
        rcases h2 with h2 | ⟨h2, h3⟩ <;> omega
    have hset : ∀ {q : List ℝ} {s : WFObj e}, q.length = p.length → Followed e s →
        (WFObj.setParams q true true s).1 = .error .valueError := by
      rintro q s hq ⟨r, hs⟩
      obtain ⟨s1, a1, b1, -⟩ := follows_setKappa hv r (k := q.take e.kappaIdx.length) (by simp; omega) true s hs
      have a2 := setThetas_wrong _ (t := q.drop e.kappaIdx.length) (by simp; omega) s1 b1
      change (((WFObj.setKappa (q.take e.kappaIdx.length) true >>= fun _ => WFObj.setThetas (q.drop e.kappaIdx.length)) : WFM e Unit) s).1 = _
      rw [WFM.bind_ok a1, a2]
    have hcall : ∀ {c : WFObj.Call} {s : WFObj e}, c.params.length = p.length → Followed e s → s.oldParams.length = p.length →
        (doCall true true c s).1 = .error .valueError ∨ doCall true true c s = (.ok (), s) := by
      intro c s hc hs ho
      cases c with
      | grad q =>
        left
        change q.length = p.length at hc
        have h := hset hc hs
        match hq : WFObj.setParams q true true s with
        | (.ok _, s1) => rw [hq] at h; cases h
        | (.error x, s1) =>
          rw [hq] at h
          cases h
          have : gradCall q true true s = (.error .valueError, s1) := by
            unfold gradCall
            exact WFM.bind_error hq
          unfold doCall
          simp only
          rw [WFM.bind_error this]
      | energy q =>
        change q.length = p.length at hc
        by_cases hne : q = []
        · left
          have : energyCall q true true s = (.error .valueError, s) := by
            unfold energyCall
            rw [WFM.bind_get]
            simp only [arrSub_eq (ho.trans hc.symm)]
            rw [if_pos (by rw [hne]; simp)]
            rfl
          unfold doCall
          simp only
          rw [WFM.bind_error this]
        · by_cases hcl : Close s.oldParams q
          · right
            have := energyCall_close (theta := true) (kappa := true) (ho.trans hc.symm) hne hcl
            unfold doCall
            simp only
            rw [WFM.bind_ok this]
            rfl
          · left
            have h := hset hc hs
            match hq : WFObj.setParams q true true s with
            | (.ok _, s1) => rw [hq] at h; cases h
            | (.error x, s1) =>
              rw [hq] at h
              cases h
              have : energyCall q true true s = (.error .valueError, s1) := by
                unfold energyCall
                rw [WFM.bind_get]
                simp only [arrSub_eq (ho.trans hc.symm)]
                rw [if_neg (by
                  rw [List.length_zipWith, ho, hc, min_self, ← hc]
                  exact fun h => hne (List.eq_nil_of_length_eq_zero h)), if_neg]
                · rw [WFM.bind_error hq]
                · intro h
                  apply hcl
                  intro x hx
                  have := List.all_eq_true.1 h x hx
                  simpa using this
              unfold doCall
              simp only
              rw [WFM.bind_error this]
    have hcalls : ∀ (calls : List WFObj.Call) (s : WFObj e), (∀ c ∈ calls, c.params.length = p.length) → Followed e s →
        s.oldParams.length = p.length →
        ((calls.forM (doCall true true) : WFM e Unit) s).1 = .error .valueError ∨
          (calls.forM (doCall true true) : WFM e Unit) s = (.ok (), s) := by
      intro calls
      induction calls with
      | nil => intro s _ _ _; exact Or.inr rfl
      | cons c calls ih =>
        intro s hc hs ho
        change ((doCall true true c >>= fun _ => (calls.forM (doCall true true) : WFM e Unit)) s).1 = _ ∨
          (doCall true true c >>= fun _ => (calls.forM (doCall true true) : WFM e Unit)) s = _
        rcases hcall (hc c (by simp)) hs ho with h | h
        · left
          match hq : doCall true true c s with
          | (.ok _, s1) => rw [hq] at h; cases h
          | (.error x, s1) => rw [hq] at h; cases h; rw [WFM.bind_error hq]
        · rw [WFM.bind_ok h]
          exact ih s (fun c h => hc c (List.mem_cons_of_mem _ h)) hs ho
    have hb : (!true || decide (s.thetas.length > 0)) = true := by simp; omega
    have hmin : (minimizeCalls p.length true true (m p).1 s).1 = .error .valueError ∨
        minimizeCalls p.length true true (m p).1 s =
          (.ok (), { s with oldParams := List.replicate p.length (10 ^ 20), eOptOld := 0 }) := by
      unfold minimizeCalls
      rw [WFM.bind_modify]
      exact hcalls _ _ (fun c hc => hm p c hc) ⟨r, { hs with }⟩ (by simp)
    simp only [hb]
    rcases hmin with h | h
    · match hq : minimizeCalls p.length true true (m p).1 s with
      | (.ok _, s1) => rw [hq] at h; cases h
      | (.error x, s1) =>
        rw [hq] at h
        cases h
        rw [WFM.bind_error hq]
    · rw [WFM.bind_ok h, if_pos trivial, WFM.bind_get]
      have hs1 : WFInv e r { s with oldParams := List.replicate p.length (10 ^ 20), eOptOld := 0 } := { hs with }
      have a := setThetas_wrong r (t := (m p).2.1.drop s.kappa.length) (by rw [List.length_drop, hx, hkl]; exact hp.2) _ hs1
      rw [WFM.bind_error a]

/-- C78: the one-step optimization with orbitals cannot be run twice. After one in which the minimizer made
a call, a second one raises `ValueError` whatever its minimizer does. -/
theorem C78_twice_disagree (hv : ValidKappa e.kappaIdx) {r : WFRef e.n} {s s' : WFObj e} (hs : WFInv e r s)
    (ha : s.kappaArr = false) (ht : 0 < e.numTheta) {m m' : List ℝ → List WFObj.Call × List ℝ × ℝ} (hm : KeepsSize m)
    (h1 : ∀ p, ∃ c cs, (m p).1 = c :: cs ∧ ∃ x ∈ c.params, |x| < 10 ^ 19) (hok : WFObj.run1 true m s = (.ok (), s'))
    (hm' : KeepsSize m') (hx' : ∀ p, (m' p).2.1.length = p.length) : (WFObj.run1 true m' s').1 = .error .valueError := by
  have hF : Followed e s' := by
    have := keeps_run1 hv true hm s ⟨r, hs⟩
    rw [hok] at this
    exact this
  obtain ⟨r', hr'⟩ := hF
  refine C78_array_disagree hv hr' ?_ ht hm' hx'
  have htl : s.thetas.length = e.numTheta := by rw [hs.thetas, hs.thetaLen]
  have hkl : s.kappa.length = e.kappaIdx.length := by rw [hs.kappa, hs.kappaLen]
  unfold WFObj.run1 at hok
  rw [WFM.bind_get] at hok
  have hst : startParams true s = (.ok (s.kappa ++ s.thetas), s) := by
    unfold startParams
    rw [WFM.bind_get, if_pos rfl, if_pos (by omega), ha]
    rfl
  rw [WFM.bind_ok hst] at hok
  obtain ⟨_, s1, hc, hok⟩ := WFM.ok_bind hok
  have hb : (!true || decide (s.thetas.length > 0)) = true := by simp; omega
  rw [hb] at hc
  have hsize : (s.kappa ++ s.thetas).length = callSize e true true := by simp [callSize, htl, hkl]
  generalize hp : s.kappa ++ s.thetas = p at hc hok hsize
  -- the first call makes the parameters an array, the others keep them
  let P : WFObj e → Prop := fun s => (∃ r, WFInv e r s ∧ r.arr = true) ∧ s.oldParams.length = p.length
  have harr : ∀ (r : WFRef e.n) (q : List ℝ), (r.params e q true true).arr = true := fun r q => rfl
  have hcall : ∀ c : WFObj.Call, c.params.length = p.length → ∀ s2 s3 : WFObj e, Followed e s2 → s2.oldParams.length = p.length →
      doCall true true c s2 = (.ok (), s3) → (P s3 ∨ s3 = s2 ∧ ∃ q, c = .energy q ∧ Close s2.oldParams q) := by
    rintro c hcp s2 s3 ⟨r2, h2⟩ ho hd
    cases c with
    | grad q =>
      obtain ⟨s4, a, b, c, -⟩ := follows_gradCall (theta := true) (kappa := true) hv r2 (hcp.trans hsize) s2 h2
      unfold doCall at hd
      simp only at hd
      rw [WFM.bind_ok (show gradCall q true true s2 = _ from a)] at hd
      cases hd
      exact Or.inl ⟨⟨_, b, rfl⟩, by rw [c, ho]⟩
    | energy q =>
      change q.length = p.length at hcp
      by_cases hcl : Close s2.oldParams q
      · by_cases hne : q = []
        · have : callSize e true true = 0 := by rw [← hsize, ← hcp, hne]; rfl
          unfold callSize at this
          simp at this
          omega
        · have a := energyCall_close (theta := true) (kappa := true) (ho.trans hcp.symm) hne hcl
          unfold doCall at hd
          simp only at hd
          rw [WFM.bind_ok a] at hd
          cases hd
          exact Or.inr ⟨rfl, q, rfl, hcl⟩
      · obtain ⟨s4, a, b, c, -⟩ := energyCall_fresh (theta := true) (kappa := true) hv h2 (ho.trans hcp.symm) (hcp.trans hsize) hcl
        unfold doCall at hd
        simp only at hd
        rw [WFM.bind_ok a] at hd
        cases hd
        exact Or.inl ⟨⟨_, b, rfl⟩, by rw [c]; exact hcp⟩
  have hrest : ∀ (cs : List WFObj.Call), (∀ c ∈ cs, c.params.length = p.length) → ∀ s2 s3 : WFObj e, P s2 →
      (cs.forM (doCall true true) : WFM e Unit) s2 = (.ok (), s3) → P s3 := by
    intro cs
    induction cs with
    | nil => intro _ s2 s3 h2 h3; cases h3; exact h2
    | cons c cs ih =>
      intro hcs s2 s3 h2 h3
      obtain ⟨_, s4, h4, h5⟩ := WFM.ok_bind (m := doCall true true c) (f := fun _ => cs.forM (doCall true true)) h3
      obtain ⟨⟨r2, h2a, h2b⟩, h2c⟩ := h2
      refine ih (fun c h => hcs c (List.mem_cons_of_mem _ h)) s4 s3 ?_ h5
      rcases hcall c (hcs c (by simp)) s2 s4 ⟨r2, h2a⟩ h2c h4 with h | ⟨rfl, -⟩
      · exact h
      · exact ⟨⟨r2, h2a, h2b⟩, h2c⟩
  obtain ⟨c, cs, hcs, x, hxc, hx⟩ := h1 p
  have hsz : ∀ c' ∈ c :: cs, c'.params.length = p.length := fun c' h => hm p c' (by rw [hcs]; exact h)
  have hP : P s1 := by
    rw [hcs] at hc
    unfold minimizeCalls at hc
    rw [WFM.bind_modify] at hc
    obtain ⟨_, s2, h2, h3⟩ := WFM.ok_bind (m := doCall true true c) (f := fun _ => cs.forM (doCall true true)) hc
    refine hrest cs (fun c h => hsz c (by simp [h])) s2 s1 ?_ h3
    have hinv : WFInv e r { s with oldParams := List.replicate p.length (10 ^ 20), eOptOld := 0 } := { hs with }
    rcases hcall c (hsz c (by simp)) _ s2 ⟨r, hinv⟩ (by simp) h2 with h | ⟨-, q, rfl, hcl⟩
    · exact h
    · exfalso
      change x ∈ q at hxc
      obtain ⟨i, hi, rfl⟩ := List.getElem_of_mem hxc
      have hlen : q.length = p.length := hsz (.energy q) (by simp)
      have := hcl (10 ^ 20 - q[i]) (by
        rw [List.mem_iff_getElem]
        exact ⟨i, by simp; omega, by simp⟩)
      have g1 := abs_lt.1 this
      have g2 := abs_lt.1 hx
      norm_num at g1 g2
      linarith
  obtain ⟨⟨r1, hr1, hr1a⟩, -⟩ := hP
  have hA : HasArr s1 := hr1.kappaArr.trans hr1a
  have hfin : WFKeeps (e := e) HasArr (do
      if e.kind = .sa then do let _ ← doStateCI
      WFM.modify fun s => { s with energy := some (m p).2.2 } : WFM e Unit) := by
    split_ifs with hsa
    · exact keepsA_doStateCI.bind fun _ => fun _ h => h
    · exact fun _ h => h
  have := (WFKeeps.get fun s hs => ((keepsA_setThetas _).bind fun _ => WFKeeps.bind (fun _ h => h) fun _ => hfin) s hs :
    WFKeeps (e := e) HasArr (do
      let s ← WFM.get
      setThetas ((m p).2.1.drop s.kappa.length)
      resetKappa1
      if e.kind = .sa then do let _ ← doStateCI
      WFM.modify fun s => { s with energy := some (m p).2.2 })) s1 hA
  have h2 : s' = _ := (congrArg Prod.snd hok).symm
  rw [h2]
  exact this

/-! ### Cases meeting the hypotheses -/

example : ValidKappa uccEnv.kappaIdx ∧ CommutingKappa uccEnv.kappaIdx := by
  have : uccEnv.kappaIdx = [((0 : Fin 2), (1 : Fin 2))] := rfl
  constructor
  · exact ⟨List.nodup_singleton _, fun x hx => by
      obtain rfl : x = ((0 : Fin 2), (1 : Fin 2)) := List.mem_singleton.1 hx
      decide⟩
  · intro x hx y hy
    obtain rfl := List.mem_singleton.1 hx
    obtain rfl := List.mem_singleton.1 hy
    exact Commute.refl _

/-- Energies and gradients at two points, in an order in which one energy is remembered. -/
example : ∃ outs s', callResults false true [.energy [1], .grad [2], .energy [1], .energy [2]]
    { WFObj.init uccEnv with oldParams := List.replicate 1 (10 ^ 20) } = (.ok outs, s') ∧ outs.length = 4 := by
  have hi : WFInv uccEnv (WFRef.start uccEnv) { WFObj.init uccEnv with oldParams := List.replicate 1 (10 ^ 20) } :=
    { inv_init rfl with }
  obtain ⟨outs, s', h, h'⟩ := C41_calls (theta := false) (kappa := true) (r0 := WFRef.start uccEnv)
    ⟨List.nodup_singleton _, fun x hx => by
      obtain rfl : x = ((0 : Fin 2), (1 : Fin 2)) := List.mem_singleton.1 hx
      decide⟩ (fun _ x hx y hy => by
      obtain rfl := List.mem_singleton.1 hx
      obtain rfl := List.mem_singleton.1 hy
      exact Commute.refl _) hi [.energy [1], .grad [2], .energy [1], .energy [2]] (by
      intro c hc
      simp only [List.mem_cons, List.not_mem_nil, or_false] at hc
      rcases hc with rfl | rfl | rfl | rfl
      · exact ⟨rfl, 1, by simp [WFObj.Call.params], by norm_num⟩
      · exact ⟨rfl, 2, by simp [WFObj.Call.params], by norm_num⟩
      · exact ⟨rfl, 1, by simp [WFObj.Call.params], by norm_num⟩
      · exact ⟨rfl, 2, by simp [WFObj.Call.params], by norm_num⟩) rfl
  exact ⟨outs, s', h, h'.length_eq.symm⟩

/-- A history with an assignment and both kinds of optimizations. -/
example : WFHistory pathEnv (WFObj.run1 (e := pathEnv) true (fun p => ([.energy p, .grad p], p, 0)) (WFObj.run2 (e := pathEnv) true 1
    [⟨[], [], 0, [.grad [1, 2, 3]], 4⟩] ((WFOp.setKappa [1, 0, 0] false).run (WFObj.init pathEnv))).2).2 :=
  .run1 true _ (fun p c hc => by
    simp only [List.mem_cons, List.not_mem_nil, or_false] at hc
    rcases hc with rfl | rfl <;> rfl) (.run2 true 1 _ (fun r hr => by
    obtain rfl := List.mem_singleton.1 hr
    intro c hc
    obtain rfl := List.mem_singleton.1 hc
    rfl) (.op _ rfl .init))

/-- One orbital parameter given as an array and one ansatz parameter. -/
example : (WFObj.run1 (e := { uccEnv with numTheta := 1 }) true (fun p => ([.energy p], p, 0))
    (WFObj.setKappa [1] true (WFObj.init { uccEnv with numTheta := 1 })).2).1 = .error .valueError := by
  have hv : ValidKappa uccEnv.kappaIdx := ⟨List.nodup_singleton _, fun x hx => by
      obtain rfl : x = ((0 : Fin 2), (1 : Fin 2)) := List.mem_singleton.1 hx
      decide⟩
  obtain ⟨s', h1, h2, -⟩ := follows_setKappa (e := { uccEnv with numTheta := 1 }) hv (WFRef.start _) (k := [1]) rfl true _ (inv_init rfl)
  rw [h1]
  refine C78_array_disagree (e := { uccEnv with numTheta := 1 }) hv h2 h2.kappaArr (by decide) (fun p c hc => ?_) (fun p => rfl)
  obtain rfl := List.mem_singleton.1 hc
  rfl

/-- Reads between assignments. -/
example : (readEnergy ([WFOp.energy, .setKappa [Real.pi / 2] false, .hMo].foldl (fun s op => op.run s) (WFObj.init uccEnv))).1 = .ok 4 := by
  have hv : ValidKappa uccEnv.kappaIdx := ⟨List.nodup_singleton _, fun x hx => by
      obtain rfl : x = ((0 : Fin 2), (1 : Fin 2)) := List.mem_singleton.1 hx
      decide⟩
  have h := (C39_reads hv rfl [WFOp.energy, .setKappa [Real.pi / 2] false, .hMo] (by
    intro op hop
    simp only [List.mem_cons, List.not_mem_nil, or_false] at hop
    rcases hop with rfl | rfl | rfl
    · trivial
    · rfl
    · trivial) _ _ rfl rfl).2.2.2.2.2.2.2.2.1
  rw [h]
  congr 1
  have : 2 * oneTransform ((1 : Matrix (Fin 2) (Fin 2) ℝ) * NormedSpace.exp (-rotGen [(0, 1)] [Real.pi / 2 - 0]))
      (Matrix.diagonal ![1, 2]) 0 0 = 4 := by
    rw [sub_zero, exp_rotGen_two]
    simp [oneTransform, Matrix.mul_apply, Fin.sum_univ_two]
    norm_num
  exact this

end SQ
