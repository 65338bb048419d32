import Verif.Lemmas.PauliAlgebra
import Verif.Spec.Trotter
import Verif.Lemmas.CircuitExp
import Mathlib.Analysis.ODE.ExistUnique
import Mathlib.Analysis.SpecialFunctions.Trigonometric.Deriv
import Mathlib.Topology.Algebra.Module.FiniteDimension
import Mathlib.Analysis.Normed.Module.FiniteDimension

/-! # Commuting evolutions make up the exponential -/

namespace SQ

variable {n : ℕ}

/-- A curve that solves `ψ' = A ψ`. -/
def Flow (A : QOp n) (ψ : ℝ → QState n) : Prop := ∀ t, HasDerivAt ψ (A (ψ t)) t

theorem flow_unique {A : QOp n} {φ ψ : ℝ → QState n} (h1 : Flow A φ) (h2 : Flow A ψ) (h0 : φ 0 = ψ 0) : φ = ψ := by
  set L : QState n →L[ℂ] QState n := LinearMap.toContinuousLinearMap A with hL
  refine ODE_solution_unique_univ (v := fun _ x => A x) (s := fun _ => Set.univ) (K := ‖L‖₊) (t₀ := 0) (fun t => ?_)
    (fun t => ⟨h1 t, trivial⟩) (fun t => ⟨h2 t, trivial⟩) h0
  exact (L.lipschitz).lipschitzOnWith

theorem hasDerivAt_op (A : QOp n) {ψ : ℝ → QState n} {ψ' : QState n} {t : ℝ} (h : HasDerivAt ψ ψ' t) :
    HasDerivAt (fun t => A (ψ t)) (A ψ') t := by
  have := ((LinearMap.toContinuousLinearMap A).restrictScalars ℝ).hasFDerivAt.comp_hasDerivAt t h
  exact this

theorem hasDerivAt_cos (f t : ℝ) : HasDerivAt (fun t : ℝ => ((Real.cos (f * t) : ℝ) : ℂ)) ((-(f * Real.sin (f * t)) : ℝ) : ℂ) t := by
  have h := (Real.hasDerivAt_cos (f * t)).comp t ((hasDerivAt_id t).const_mul f)
  have := h.ofReal_comp
  refine this.congr_deriv ?_
  push_cast; ring

theorem hasDerivAt_sin (f t : ℝ) : HasDerivAt (fun t : ℝ => ((Real.sin (f * t) : ℝ) : ℂ)) ((f * Real.cos (f * t) : ℝ) : ℂ) t := by
  have h := (Real.hasDerivAt_sin (f * t)).comp t ((hasDerivAt_id t).const_mul f)
  have := h.ofReal_comp
  refine this.congr_deriv ?_
  push_cast; ring

theorem flow_evolve {p : List Char} {c : ℂ} (hc : c.re = 0) {B : QOp n} (hB : Commute (pTerm n (p, c)) B) {ψ : ℝ → QState n}
    (h : Flow B ψ) : Flow (pTerm n (p, c) + B) fun t => evolve n (p, (Complex.I * c).re * t) (ψ t) := by
  set f := (Complex.I * c).re with hf
  have hc' : c = -Complex.I * f := by
    apply Complex.ext <;> simp [hf, hc]
  by_cases h0 : f = 0
  · have e : c = 0 := by rw [hc', h0]; simp
    have e1 : pTerm n (p, c) = 0 := by unfold pTerm; rw [e, zero_smul]
    have e2 : (fun t => evolve n (p, f * t) (ψ t)) = ψ := by
      funext t
      simp [evolve, h0]
    rw [e1, e2, zero_add]
    exact h
  intro t
  have hs : ∀ φ, pauliLin n p (B φ) = B (pauliLin n p φ) := by
    intro φ
    have := LinearMap.congr_fun hB.eq φ
    change c • pauliLin n p (B φ) = B (c • pauliLin n p φ) at this
    rw [map_smul] at this
    have hc0 : c ≠ 0 := by
      rw [hc']
      simp [h0]
    exact smul_right_injective _ hc0 this
  have hsq : ∀ φ, pauliLin n p (pauliLin n p φ) = φ := fun φ => LinearMap.congr_fun (pauli_sq (n := n) p) φ
  have d1 := (hasDerivAt_cos f t).smul (h t)
  have d2 := ((hasDerivAt_sin f t).const_mul Complex.I).smul (hasDerivAt_op (pauliLin n p) (h t))
  refine (d1.sub d2).congr_deriv ?_
  change _ = c • pauliLin n p (evolve n (p, f * t) (ψ t)) + B (evolve n (p, f * t) (ψ t))
  have ee : evolve n (p, f * t) (ψ t)
      = (Real.cos (f * t) : ℂ) • ψ t - (Complex.I * (Real.sin (f * t) : ℂ)) • pauliLin n p (ψ t) := rfl
  rw [ee, map_sub, map_sub, map_smul, map_smul, map_smul, map_smul, hsq, hs, hc', ← hs]
  funext b
  simp only [Pi.add_apply, Pi.sub_apply, Pi.smul_apply, smul_eq_mul]
  push_cast
  have hI : Complex.I * Complex.I = -1 := Complex.I_mul_I
  linear_combination (-(f : ℂ) * Complex.sin (↑f * ↑t) * ψ t b) * hI

theorem flow_run (obs : List (List Char × ℂ)) (hc : ∀ pc ∈ obs, pc.2.re = 0)
    (hcomm : ∀ x ∈ obs, ∀ y ∈ obs, Commute (pTerm n x) (pTerm n y)) : ∀ {B : QOp n} {ψ : ℝ → QState n}, Flow B ψ →
    (∀ x ∈ obs, Commute (pTerm n x) B) →
    Flow (obsLin n obs + B) fun t => runEvolutions n (obs.map fun pc => (pc.1, (Complex.I * pc.2).re * t)) (ψ t) := by
  induction obs with
  | nil =>
    intro B ψ h _
    simpa [obsLin, runEvolutions] using h
  | cons x o ih =>
    intro B ψ h hB
    have h1 := flow_evolve (p := x.1) (c := x.2) (hc x (by simp)) (hB x (by simp)) h
    have h2 := ih (fun y hy => hc y (by simp [hy])) (fun y hy z hz => hcomm y (by simp [hy]) z (by simp [hz])) h1
      (fun y hy => (hcomm y (by simp [hy]) x (by simp)).add_right (hB y (by simp [hy])))
    have e : obsLin n (x :: o) + B = obsLin n o + (pTerm n (x.1, x.2) + B) := by
      unfold obsLin
      rw [List.map_cons, List.sum_cons]
      abel
    rw [e]
    exact h2

/-- The evolutions of the terms of `τ`, in any order, are `1 + sin θ T + (1 - cos θ) T²` if `τ` is `T` on the register. -/
theorem evolutions_exp {enc : Fock ℝ →ₗ[ℝ] QState n} {obs gs : List (List Char × ℂ)} (hp : gs.Perm obs) {T : FOp ℝ}
    (h3 : T * (T * T) = -T) (hb : ∀ x, Below n x → Below n (T x)) (hx : ∀ X, Below n X → obsOp n obs (enc X) = enc (T X))
    (hl : ∀ pc ∈ obs, PauliLabel n pc.1) (hn : (obs.map Prod.fst).Nodup)
    {G : Set (QOp n)} (hm : ∀ g ∈ G, Mono n g) (hanti : ∀ g ∈ G, QAdj g (-g)) (hcom : ∀ g ∈ G, ∀ h ∈ G, Commute g h)
    (hG : obsLin n obs ∈ Submodule.span ℝ G) (θ : ℝ) {X : Fock ℝ} (hX : Below n X) :
    runEvolutions n (gs.map fun pc => (pc.1, (Complex.I * pc.2).re * θ)) (enc X)
      = enc (X + Real.sin θ • T X + (1 - Real.cos θ) • T (T X)) := by
  have hmem := terms_mem hl hn hm hG
  have f1 := flow_run gs (fun pc hpc => anti_imag (span_anti hanti _ (hmem pc (hp.subset hpc))))
    (fun x hx y hy => span_comm hcom _ (hmem x (hp.subset hx)) _ (hmem y (hp.subset hy)))
    (B := 0) (ψ := fun _ => enc X) (fun t => by simpa using hasDerivAt_const t (enc X)) (fun x _ => Commute.zero_right _)
  rw [add_zero] at f1
  have eL : obsLin n gs = obsLin n obs := (hp.map _).sum_eq
  rw [eL] at f1
  have f2 : Flow (obsLin n obs) fun t => enc X + ((Real.sin t : ℝ) : ℂ) • enc (T X) + ((1 - Real.cos t : ℝ) : ℂ) • enc (T (T X)) := by
    intro t
    have s := hasDerivAt_sin 1 t
    have c := hasDerivAt_cos 1 t
    simp only [one_mul] at s c
    have d := ((hasDerivAt_const t (enc X)).add (s.smul (hasDerivAt_const t (enc (T X))))).add
      (((hasDerivAt_const t (1 : ℂ)).sub c).smul (hasDerivAt_const t (enc (T (T X)))))
    have e3 : T (T (T X)) = -T X := LinearMap.congr_fun h3 X
    refine (d.congr_deriv ?_).congr_of_eventuallyEq (Filter.Eventually.of_forall fun u => ?_)
    · rw [map_add, map_add, map_smul, map_smul, obsLin_apply, obsLin_apply, obsLin_apply, hx X hX, hx _ (hb _ hX),
        hx _ (hb _ (hb _ hX)), e3, map_neg]
      funext b
      simp
      ring
    · simp
  have := congrFun (flow_unique f1 f2 (by
    funext b
    have : runEvolutions n (gs.map fun pc => (pc.1, (Complex.I * pc.2).re * 0)) (enc X) = enc X := by
      clear f1 eL hp
      induction gs with
      | nil => rfl
      | cons g gs ih =>
        simp only [runEvolutions, List.map_cons, List.foldl_cons] at ih ⊢
        have e : evolve n (g.1, (Complex.I * g.2).re * 0) (enc X) = enc X := by simp [evolve]
        rw [e, ih]
    change runEvolutions n (gs.map fun pc => (pc.1, (Complex.I * pc.2).re * 0)) (enc X) b = _
    rw [this]
    simp)) θ
  refine this.trans ?_
  rw [map_add, map_add, map_smul, map_smul]
  funext b
  simp

end SQ
