import Verif.Lemmas.WaveFunction
import Verif.Lemmas.MatrixRotation

/-! # C39-C41, C77, C78: parameters, cached quantities and optimizations -/

namespace SQ

open WFObj

variable {e : WFEnv}

/-! ### C39 -/

/-- What a user does with a wave function object. -/
inductive WFOp
  | setKappa (k : List ℝ) (arr : Bool)
  | setThetas (t : List ℝ)
  | cMo | hMo | gMo | ci | rdm1 | rdm2 | rdm3 | rdm4 | energy | states

/-- The object after an operation; an exception is caught and the attributes stay as they are then. -/
noncomputable def WFOp.run (op : WFOp) (s : WFObj e) : WFObj e :=
  match op with
  | .setKappa k arr => (WFObj.setKappa k arr s).2
  | .setThetas t => (WFObj.setThetas t s).2
  | .cMo => (readCMo s).2
  | .hMo => (readH s).2
  | .gMo => (readG s).2
  | .ci => (readCI s).2
  | .rdm1 => (readRdm1 s).2
  | .rdm2 => (readRdm2 s).2
  | .rdm3 => (readRdm3 s).2
  | .rdm4 => (readRdm4 s).2
  | .energy => (readEnergy s).2
  | .states => (readStates s).2

/-- The effect on the reference: only assignments have one, and a wrong number of ansatz parameters is
refused. -/
noncomputable def WFOp.ref (e : WFEnv) (op : WFOp) (r : WFRef e.n) : WFRef e.n :=
  match op with
  | .setKappa k arr => r.setKappa e.kappaIdx k arr
  | .setThetas t => if t.length = e.numTheta then r.setThetas t else r
  | _ => r

/-- Orbital parameters are given in the right number. -/
def WFOp.Fits (e : WFEnv) : WFOp → Prop
  | .setKappa k _ => k.length = e.kappaIdx.length
  | _ => True

theorem follows_snd {α : Type} {r r' : WFRef e.n} {m : WFM e α} {v : α} (h : Follows r m r' v) {s : WFObj e} (hs : WFInv e r s) :
    WFInv e r' (m s).2 := by
  obtain ⟨s', h1, h2, -⟩ := h s hs
  rw [h1]
  exact h2

theorem follows_fst {α : Type} {r r' : WFRef e.n} {m : WFM e α} {v : α} (h : Follows r m r' v) {s : WFObj e} (hs : WFInv e r s) :
    (m s).1 = .ok v := by
  obtain ⟨s', h1, -⟩ := h s hs
  rw [h1]

theorem readRdm3_cannot {r : WFRef e.n} (hr : ¬CanRdm e r) {s : WFObj e} (hs : WFInv e r s) :
    readRdm3 s = (.error .attributeError, s) := by
  have h3 := hs.has3
  cases hc : s.rdm3 with
  | some o => rw [hc] at h3; exact absurd (by unfold CanRdm; rw [← h3]; rfl) hr
  | none =>
    unfold readRdm3
    rw [WFM.bind_get]
    simp only [hc]
    rfl

theorem readRdm4_cannot {r : WFRef e.n} (hr : ¬CanRdm e r) {s : WFObj e} (hs : WFInv e r s) :
    readRdm4 s = (.error .attributeError, s) := by
  have h3 := hs.has4
  cases hc : s.rdm4 with
  | some o => rw [hc] at h3; exact absurd (by unfold CanRdm; rw [← h3]; rfl) hr
  | none =>
    unfold readRdm4
    rw [WFM.bind_get]
    simp only [hc]
    rfl

theorem inv_run (hv : ValidKappa e.kappaIdx) {r : WFRef e.n} {s : WFObj e} (hs : WFInv e r s) {op : WFOp} (hop : op.Fits e) :
    WFInv e (op.ref e r) (op.run s) := by
  cases op with
  | setKappa k arr => exact follows_snd (follows_setKappa hv r hop arr) hs
  | setThetas t =>
    simp only [WFOp.ref, WFOp.run]
    split_ifs with ht
    · exact follows_snd (follows_setThetas r ht) hs
    · rw [setThetas_wrong r ht s hs]; exact hs
  | cMo => exact follows_snd (follows_readCMo hv r) hs
  | hMo => exact follows_snd (follows_readH hv r) hs
  | gMo => exact follows_snd (follows_readG hv r) hs
  | ci => exact follows_snd (follows_readCI r) hs
  | rdm1 => exact follows_snd (follows_readRdm1 r) hs
  | rdm2 => exact follows_snd (follows_readRdm2 r) hs
  | rdm3 =>
    by_cases hr : CanRdm e r
    · exact follows_snd (follows_readRdm3 r hr) hs
    · simp only [WFOp.run, WFOp.ref]; rw [readRdm3_cannot hr hs]; exact hs
  | rdm4 =>
    by_cases hr : CanRdm e r
    · exact follows_snd (follows_readRdm4 r hr) hs
    · simp only [WFOp.run, WFOp.ref]; rw [readRdm4_cannot hr hs]; exact hs
  | energy => exact follows_snd (follows_readEnergy hv r) hs
  | states =>
    by_cases hsa : e.kind = .sa
    · exact follows_snd (follows_readStates hv r hsa) hs
    · have : readStates s = (.error .attributeError, s) := by
        unfold readStates
        rw [if_pos hsa]
        rfl
      simp only [WFOp.run, WFOp.ref]; rw [this]; exact hs

theorem inv_ops (hv : ValidKappa e.kappaIdx) (hz : e.state (List.replicate e.numTheta 0) = e.csf) (ops : List WFOp)
    (hw : ∀ op ∈ ops, op.Fits e) :
    WFInv e (ops.foldl (fun r op => op.ref e r) (WFRef.start e)) (ops.foldl (fun s op => op.run s) (WFObj.init e)) := by
  have gen : ∀ (ops : List WFOp) (r : WFRef e.n) (s : WFObj e), (∀ op ∈ ops, op.Fits e) → WFInv e r s →
      WFInv e (ops.foldl (fun r op => op.ref e r) r) (ops.foldl (fun s op => op.run s) s) := by
    intro ops
    induction ops with
    | nil => intro r s _ hs; exact hs
    | cons op ops ih =>
      intro r s hw hs
      exact ih _ _ (fun o ho => hw o (List.mem_cons_of_mem _ ho)) (inv_run hv hs (hw op (by simp)))
  exact gen ops _ _ hw (inv_init hz)

theorem ops_reported : ∀ (ops : List WFOp) (r : WFRef e.n), r.reported = none →
    (ops.foldl (fun r op => op.ref e r) r).reported = none := by
  intro ops
  induction ops with
  | nil => intro r h; exact h
  | cons op ops ih =>
    intro r h
    apply ih
    cases op with
    | setThetas t =>
      simp only [WFOp.ref]
      split_ifs
      · rfl
      · exact h
    | setKappa k arr => rfl
    | _ => exact h

/-- C39: after any history of assignments and reads, every read returns the quantity computed from the
orbitals and the ansatz parameters of the reference, which knows no caches. -/
theorem C39_reads (hv : ValidKappa e.kappaIdx) (hz : e.state (List.replicate e.numTheta 0) = e.csf) (ops : List WFOp)
    (hw : ∀ op ∈ ops, op.Fits e) (r : WFRef e.n) (s : WFObj e)
    (hr : r = ops.foldl (fun r op => op.ref e r) (WFRef.start e)) (hs : s = ops.foldl (fun s op => op.run s) (WFObj.init e)) :
    let v := e.state r.thetas
    let h := oneTransform r.orb e.hAo
    let g := twoTransform r.orb e.gAo
    let d1 := e.mkRdm1 v
    let d2 := e.mkRdm2 v d1
    let d3 := e.mkRdm3 v d1 d2
    s.kappa = r.kappa ∧ s.thetas = r.thetas ∧ (readCMo s).1 = .ok r.orb ∧ (readH s).1 = .ok h ∧ (readG s).1 = .ok g ∧
    (readCI s).1 = .ok v ∧ (readRdm1 s).1 = .ok d1 ∧ (readRdm2 s).1 = .ok d2 ∧
    (readEnergy s).1 = .ok (e.energy v h g) ∧
    (CanRdm e r → (readRdm3 s).1 = .ok d3 ∧ (readRdm4 s).1 = .ok (e.mkRdm4 v d1 d2 d3)) ∧
    (e.kind = .sa → (readStates s).1 = .ok (e.stateCI v h g)) := by
  have hi := inv_ops hv hz ops hw
  have hn : r.reported = none := by rw [hr]; exact ops_reported ops _ rfl
  have hE := follows_fst (follows_readEnergy hv r) (inv_ops hv hz ops hw |> fun h => by rwa [← hr, ← hs] at h)
  rw [hn, Option.getD_none] at hE
  rw [← hr, ← hs] at hi
  exact ⟨hi.kappa, hi.thetas, follows_fst (follows_readCMo hv r) hi, follows_fst (follows_readH hv r) hi,
    follows_fst (follows_readG hv r) hi, follows_fst (follows_readCI r) hi, follows_fst (follows_readRdm1 r) hi,
    follows_fst (follows_readRdm2 r) hi, hE,
    fun hc => ⟨follows_fst (follows_readRdm3 r hc) hi, follows_fst (follows_readRdm4 r hc) hi⟩,
    fun hsa => follows_fst (follows_readStates hv r hsa) hi⟩

/-- The higher density matrices of a new `WaveFunctionUPS` cannot be read: the attributes are only made by
the first assignment of ansatz parameters. -/
theorem C39_fresh_disagree (hk : e.kind = .ups) : (readRdm3 (WFObj.init e)).1 = .error .attributeError ∧
    (readRdm4 (WFObj.init e)).1 = .error .attributeError := by
  have h : e.kind ≠ .ucc := by rw [hk]; decide
  constructor
  · unfold readRdm3
    rw [WFM.bind_get]
    simp only [WFObj.init, if_neg h]
    rfl
  · unfold readRdm4
    rw [WFM.bind_get]
    simp only [WFObj.init, if_neg h]
    rfl

/-- The number of orbital parameters is not checked: no parameters at all are accepted, and after that
every assignment of the right number raises. -/
theorem C39_length_disagree (hn : 2 ≤ e.kappaIdx.length) (s : WFObj e) :
    (WFObj.setKappa [] false s).1 = .ok () ∧
    ∀ k : List ℝ, k.length = e.kappaIdx.length → (WFObj.setKappa k false (WFObj.setKappa [] false s).2).1 = .error .valueError := by
  have h1 : WFObj.setKappa [] false s = (.ok (), { s with
      hMo := none, gMo := none, energy := none, states := if e.kind = .sa then none else s.states
      kappa := [], kappaArr := false, kappaOld := []
      cMo := s.cMo * NormedSpace.exp (-(0 : Matrix (Fin e.n) (Fin e.n) ℝ)) }) := by
    unfold WFObj.setKappa
    rw [WFM.bind_modify]
    have : ∀ s : WFObj e, s.kappa = [] →
        readCMo s = (.ok (s.cMo * NormedSpace.exp (-(0 : Matrix (Fin e.n) (Fin e.n) ℝ))), s) := by
      intro s h
      unfold readCMo
      rw [h, if_neg (by simp)]
    rw [WFM.bind_ok (this _ rfl)]
    rfl
  refine ⟨by rw [h1], fun k hk => ?_⟩
  rw [h1]
  unfold WFObj.setKappa
  rw [WFM.bind_modify]
  change (WFM.bind _ _ _).1 = _
  unfold WFM.bind
  have : ∀ s : WFObj e, s.kappa = k → s.kappaOld = [] → readCMo s = (.error .valueError, s) := by
    intro s h1 h2
    unfold readCMo
    rw [h1, h2, if_pos (by omega)]
    have : arrSub k [] = .error .valueError := by
      unfold arrSub
      rw [if_neg (by rw [List.length_nil]; omega)]
      match k, hk with
      | [], hk => rfl
      | [x], hk => simp at hk; omega
      | x :: y :: k, _ => rfl
    rw [this]
  rw [this _ rfl rfl]

/-! ### C77 -/

/-- C77: orbitals that are orthonormal in the overlap matrix `S` stay so whatever is assigned. -/
theorem C77_orthonormal (hv : ValidKappa e.kappaIdx) (hz : e.state (List.replicate e.numTheta 0) = e.csf)
    (ops : List WFOp) (hw : ∀ op ∈ ops, op.Fits e) {S : Matrix (Fin e.n) (Fin e.n) ℝ}
    (h0 : oneTransform e.mo S = 1) :
    ∃ c, (readCMo (ops.foldl (fun s op => op.run s) (WFObj.init e))).1 = .ok c ∧ oneTransform c S = 1 := by
  refine ⟨_, (C39_reads hv hz ops hw _ _ rfl rfl).2.2.1, ?_⟩
  have key : ∀ (ops : List WFOp) (r : WFRef e.n), ∃ U : Matrix (Fin e.n) (Fin e.n) ℝ, U.transpose * U = 1 ∧
      (ops.foldl (fun r op => op.ref e r) r).orb = r.orb * U := by
    intro ops
    induction ops with
    | nil => intro r; exact ⟨1, by simp, by simp⟩
    | cons op ops ih =>
      intro r
      obtain ⟨U, h1, h2⟩ := ih (op.ref e r)
      rw [List.foldl_cons, h2]
      cases op with
      | setKappa k arr =>
        refine ⟨NormedSpace.exp (-rotGen e.kappaIdx (List.zipWith (· - ·) k r.kappa)) * U, ?_, ?_⟩
        · rw [Matrix.transpose_mul, Matrix.mul_assoc, ← Matrix.mul_assoc _ _ U, (exp_rotGen_orthogonal _ _).2, Matrix.one_mul, h1]
        · simp only [WFOp.ref, WFRef.setKappa]
          rw [Matrix.mul_assoc]
      | setThetas t =>
        refine ⟨U, h1, ?_⟩
        simp only [WFOp.ref]
        split_ifs <;> rfl
      | _ => exact ⟨U, h1, rfl⟩
  obtain ⟨U, hU, hc⟩ := key ops (WFRef.start e)
  rw [hc]
  have ht : ∀ C : Matrix (Fin e.n) (Fin e.n) ℝ, oneTransform C S = C.transpose * S * C := by
    intro C
    ext i j
    simp only [oneTransform, Matrix.mul_apply, Matrix.transpose_apply, Finset.sum_mul]
    rw [Finset.sum_comm]
    exact Finset.sum_congr rfl fun b _ => Finset.sum_congr rfl fun a _ => by ring
  rw [ht] at h0 ⊢
  change (e.mo * U).transpose * S * (e.mo * U) = 1
  calc _ = U.transpose * (e.mo.transpose * S * e.mo) * U := by simp only [Matrix.transpose_mul, Matrix.mul_assoc]
    _ = 1 := by rw [h0, Matrix.mul_one, hU]

end SQ
