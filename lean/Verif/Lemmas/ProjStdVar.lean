import Verif.Lemmas.ProjStd
import Mathlib.Tactic.FinCases

/-!
# Lemmas: how far the entries of projected linear response scatter
-/

namespace SQ

open MeasureTheory ProbabilityTheory

variable {tiny : ℝ → Bool} {W : RespWf}
variable {Ω : Type} [MeasurableSpace Ω] {μ : Measure Ω} [IsProbabilityMeasure μ] {est : Dict ℝ → Ω → ℝ}

/-- The estimates behind the entry of an active pair are independent. -/
def IndepOps (μ : Measure Ω) (est : Dict ℝ → Ω → ℝ) (h0 : Dict ℝ)
    (o : Dict ℝ × Dict ℝ × (Dict ℝ × Dict ℝ) × (Dict ℝ × Dict ℝ)) : Prop :=
  iIndepFun ![est o.2.2.1.1, est o.2.2.1.2, est o.2.2.2.1, est o.2.2.2.2, est o.2.1, est h0] μ

theorem act_indep {L : QLR} {P : List (Dict ℝ × Dict ℝ)}
    (hP : List.Forall₂ (fun G p => expOps tiny W L.H0 G = .ok p) L.G P) {x y : Dict ℝ × ℕ}
    (hx : L.G[x.2]? = some x.1) (hy : L.G[y.2]? = some y.1)
    {o : Dict ℝ × Dict ℝ × (Dict ℝ × Dict ℝ) × (Dict ℝ × Dict ℝ)} (ho : projActOps tiny W L.H0 P x y = .ok o)
    (hi : IndependentActive tiny W L μ est y.1 x.1) : IndepOps μ est (W.fold L.H0) o := by
  have at_ : ∀ {z : Dict ℝ × ℕ} {p}, L.G[z.2]? = some z.1 → elemAt P z.2 = .ok p →
      ∃ HG, fmul tiny L.H0 z.1 = .ok HG ∧ p = (W.fold z.1, W.fold HG) := by
    intro z p hz hp
    have lz := (List.getElem?_eq_some_iff.1 hz).1
    have h := (List.forall₂_iff_get.1 hP).2 z.2 lz (hP.length_eq ▸ lz)
    rw [List.get_eq_getElem, List.get_eq_getElem, (List.getElem?_eq_some_iff.1 hz).2] at h
    rw [elemAt_lt (hP.length_eq ▸ lz)] at hp
    obtain rfl := Except.ok.inj hp
    unfold expOps at h
    obtain ⟨HG, h1, h⟩ := Res.of_bind h
    exact ⟨HG, h1, (Except.ok.inj h).symm⟩
  unfold projActOps at ho
  obtain ⟨d, hd, ho⟩ := Res.of_bind ho
  obtain ⟨a, ha, ho⟩ := Res.of_bind ho
  obtain ⟨s, hs, ho⟩ := Res.of_bind ho
  obtain ⟨pi, hpi, ho⟩ := Res.of_bind ho
  obtain ⟨pj, hpj, ho⟩ := Res.of_bind ho
  obtain rfl := Except.ok.inj ho
  obtain ⟨HGi, i1, rfl⟩ := at_ hy hpi
  obtain ⟨HGj, j1, rfl⟩ := at_ hx hpj
  exact hi HGi HGj d s i1 j1 hd hs

/-- The variances of the products in the entry of an active pair. -/
structure PairVars (μ : Measure Ω) (gi hi gj hj gg e : Ω → ℝ) : Prop where
  gge : MemLp (gg * e) 2 μ ∧ variance (gg * e) μ = varProd (∫ ω, gg ω ∂μ) (variance gg μ) (∫ ω, e ω ∂μ) (variance e μ)
  gihj : MemLp (gi * hj) 2 μ ∧
    variance (gi * hj) μ = varProd (∫ ω, gi ω ∂μ) (variance gi μ) (∫ ω, hj ω ∂μ) (variance hj μ)
  gjhi : MemLp (gj * hi) 2 μ ∧
    variance (gj * hi) μ = varProd (∫ ω, gj ω ∂μ) (variance gj μ) (∫ ω, hi ω ∂μ) (variance hi μ)
  gigj : MemLp (gi * gj) 2 μ ∧
    variance (gi * gj) μ = varProd (∫ ω, gi ω ∂μ) (variance gi μ) (∫ ω, gj ω ∂μ) (variance gj μ)
  gigje : MemLp (gi * gj * e) 2 μ ∧ variance (gi * gj * e) μ =
    ((∫ ω, gi ω ∂μ) ^ 2 + variance gi μ) * ((∫ ω, gj ω ∂μ) ^ 2 + variance gj μ) *
      ((∫ ω, e ω ∂μ) ^ 2 + variance e μ) - (∫ ω, gi ω ∂μ) ^ 2 * (∫ ω, gj ω ∂μ) ^ 2 * (∫ ω, e ω ∂μ) ^ 2
  cov : covariance gg (gi * gj) μ = 0

theorem pairVars {gi hi gj hj gg e : Ω → ℝ} (mgi : MemLp gi 2 μ) (mhi : MemLp hi 2 μ) (mgj : MemLp gj 2 μ)
    (mhj : MemLp hj 2 μ) (mgg : MemLp gg 2 μ) (me : MemLp e 2 μ) (h : iIndepFun ![gi, hi, gj, hj, gg, e] μ) :
    PairVars μ gi hi gj hj gg e := by
  have am : ∀ k, AEMeasurable (![gi, hi, gj, hj, gg, e] k) μ := by
    intro k
    fin_cases k
    · exact mgi.aemeasurable
    · exact mhi.aemeasurable
    · exact mgj.aemeasurable
    · exact mhj.aemeasurable
    · exact mgg.aemeasurable
    · exact me.aemeasurable
  have i45 : IndepFun gg e μ := h.indepFun (i := 4) (j := 5) (by decide)
  have i03 : IndepFun gi hj μ := h.indepFun (i := 0) (j := 3) (by decide)
  have i21 : IndepFun gj hi μ := h.indepFun (i := 2) (j := 1) (by decide)
  have i02 : IndepFun gi gj μ := h.indepFun (i := 0) (j := 2) (by decide)
  have i025 : IndepFun (gi * gj) e μ := h.indepFun_mul_left₀ am 0 2 5 (by decide) (by decide)
  have i024 : IndepFun (gi * gj) gg μ := h.indepFun_mul_left₀ am 0 2 4 (by decide) (by decide)
  have gij := prod_var mgi mgj i02
  have gije := prod_var gij.1 me i025
  refine ⟨prod_var mgg me i45, prod_var mgi mhj i03, prod_var mgj mhi i21, gij, ⟨gije.1, ?_⟩, ?_⟩
  · rw [gije.2, gij.2, show ∫ ω, (gi * gj) ω ∂μ = (∫ ω, gi ω ∂μ) * ∫ ω, gj ω ∂μ from
      i02.integral_mul_eq_mul_integral mgi.aestronglyMeasurable mgj.aestronglyMeasurable]
    ring
  · exact i024.symm.covariance_eq_zero mgg gij.1

theorem varProd_nonneg {m v n w : ℝ} (hv : 0 ≤ v) (hw : 0 ≤ w) : 0 ≤ varProd m v n w := by
  unfold varProd
  nlinarith [mul_nonneg (sq_nonneg m) hw, mul_nonneg (sq_nonneg n) hv, mul_nonneg hv hw]

theorem tripleVar_nonneg {a v b w c u : ℝ} (hv : 0 ≤ v) (hw : 0 ≤ w) (hu : 0 ≤ u) :
    0 ≤ (a ^ 2 + v) * (b ^ 2 + w) * (c ^ 2 + u) - a ^ 2 * b ^ 2 * c ^ 2 := by
  have h1 : a ^ 2 * b ^ 2 ≤ (a ^ 2 + v) * (b ^ 2 + w) :=
    mul_le_mul (by linarith) (by linarith) (sq_nonneg _) (by positivity)
  have h2 := mul_le_mul h1 (show c ^ 2 ≤ c ^ 2 + u by linarith) (sq_nonneg _) (by positivity)
  linarith

/-- The reported deviation of an active pair. -/
noncomputable def pairStd (μ : Measure Ω) (est : Dict ℝ → Ω → ℝ) (h0 : Dict ℝ)
    (o : Dict ℝ × Dict ℝ × (Dict ℝ × Dict ℝ) × (Dict ℝ × Dict ℝ)) : ℝ × ℝ × ℝ :=
  actStd (fun A => ∫ ω, est A ω ∂μ) (fun A => variance (est A) μ) (∫ ω, est h0 ω ∂μ) (variance (est h0) μ) o

/-- The entry of an active pair. -/
noncomputable def pairEntry (est : Dict ℝ → Ω → ℝ) (h0 : Dict ℝ)
    (o : Dict ℝ × Dict ℝ × (Dict ℝ × Dict ℝ) × (Dict ℝ × Dict ℝ)) (ω : Ω) : ℝ × ℝ × ℝ :=
  actEntry (fun A => est A ω) (est h0 ω) o

theorem pair_nonneg (h0 : Dict ℝ) (o : Dict ℝ × Dict ℝ × (Dict ℝ × Dict ℝ) × (Dict ℝ × Dict ℝ)) :
    0 ≤ (pairStd μ est h0 o).1 ∧ 0 ≤ (pairStd μ est h0 o).2.1 ∧ 0 ≤ (pairStd μ est h0 o).2.2 :=
  ⟨Real.sqrt_nonneg _, Real.sqrt_nonneg _, Real.sqrt_nonneg _⟩

theorem pair_bounds (hv : FiniteVariance μ est) {h0 : Dict ℝ}
    {o : Dict ℝ × Dict ℝ × (Dict ℝ × Dict ℝ) × (Dict ℝ × Dict ℝ)} (hi : IndepOps μ est h0 o) :
    variance (fun ω => (pairEntry est h0 o ω).1) μ ≤ 4 * (pairStd μ est h0 o).1 ^ 2 ∧
    variance (fun ω => (pairEntry est h0 o ω).2.1) μ ≤ 2 * (pairStd μ est h0 o).2.1 ^ 2 ∧
    variance (fun ω => (pairEntry est h0 o ω).2.2) μ = (pairStd μ est h0 o).2.2 ^ 2 := by
  obtain ⟨a, gg, ⟨gi, hi'⟩, gj, hj⟩ := o
  have pv := pairVars (hv gi) (hv hi') (hv gj) (hv hj) (hv gg) (hv h0) hi
  have n : ∀ A, 0 ≤ variance (est A) μ := fun A => variance_nonneg _ _
  have sge := (spread_self pv.gge.1).smul (-1) (by norm_num)
  have sgh := ((spread_self pv.gihj.1).smul (-(1 / 2)) (by norm_num)).weigh (q := 1 / 2)
    (t := 1 / 2 * variance (est gi * est hj) μ) (by norm_num) (by ring)
  have sgh' := ((spread_self pv.gjhi.1).smul (-(1 / 2)) (by norm_num)).weigh (q := 1 / 2)
    (t := 1 / 2 * variance (est gj * est hi') μ) (by norm_num) (by ring)
  have pgh := ((spread_self pv.gihj.1).smul (1 / 2) (by norm_num)).weigh (q := 1 / 2)
    (t := 1 / 2 * variance (est gi * est hj) μ) (by norm_num) (by ring)
  have pgh' := ((spread_self pv.gjhi.1).smul (1 / 2) (by norm_num)).weigh (q := 1 / 2)
    (t := 1 / 2 * variance (est gj * est hi') μ) (by norm_num) (by ring)
  have st := spread_self pv.gigje.1
  have st' := st.smul (-1) (by norm_num)
  have t0 := tripleVar_nonneg (a := ∫ ω, est gi ω ∂μ) (b := ∫ ω, est gj ω ∂μ) (c := ∫ ω, est h0 ω ∂μ) (n gi) (n gj) (n h0)
  refine ⟨?_, ?_, ?_⟩
  · have s := (((spread_self (hv a)).add sge).add (sgh.add sgh')).add st
    have e : (fun ω => (pairEntry est h0 (a, gg, (gi, hi'), gj, hj) ω).1) = fun ω => est a ω +
        -1 * (est gg * est h0) ω + (-(1 / 2) * (est gi * est hj) ω + -(1 / 2) * (est gj * est hi') ω) +
        (est gi * est gj * est h0) ω := by
      funext ω
      simp only [pairEntry, actEntry, Pi.mul_apply]
      ring
    rw [e]
    refine s.le.trans (le_of_eq ?_)
    unfold pairStd actStd
    dsimp only
    rw [Real.sq_sqrt, pv.gge.2, pv.gihj.2, pv.gjhi.2, pv.gigje.2]
    · ring
    · have := varProd_nonneg (m := ∫ ω, est gg ω ∂μ) (n := ∫ ω, est h0 ω ∂μ) (n gg) (n h0)
      have := varProd_nonneg (m := ∫ ω, est gi ω ∂μ) (n := ∫ ω, est hj ω ∂μ) (n gi) (n hj)
      have := varProd_nonneg (m := ∫ ω, est gj ω ∂μ) (n := ∫ ω, est hi' ω ∂μ) (n gj) (n hi')
      have := n a
      linarith
  · have s := (pgh'.add pgh).add st'
    have e : (fun ω => (pairEntry est h0 (a, gg, (gi, hi'), gj, hj) ω).2.1) = fun ω =>
        1 / 2 * (est gj * est hi') ω + 1 / 2 * (est gi * est hj) ω + -1 * (est gi * est gj * est h0) ω := by
      funext ω
      simp only [pairEntry, actEntry, Pi.mul_apply]
      ring
    rw [e]
    refine s.le.trans (le_of_eq ?_)
    unfold pairStd actStd
    dsimp only
    rw [Real.sq_sqrt, pv.gihj.2, pv.gjhi.2, pv.gigje.2]
    · ring
    · have := varProd_nonneg (m := ∫ ω, est gi ω ∂μ) (n := ∫ ω, est hj ω ∂μ) (n gi) (n hj)
      have := varProd_nonneg (m := ∫ ω, est gj ω ∂μ) (n := ∫ ω, est hi' ω ∂μ) (n gj) (n hi')
      linarith
  · have e : (fun ω => (pairEntry est h0 (a, gg, (gi, hi'), gj, hj) ω).2.2) = fun ω =>
        1 * est gg ω + -1 * (est gi * est gj) ω + 0 * est gg ω := by
      funext ω
      simp only [pairEntry, actEntry, Pi.mul_apply]
      ring
    rw [e, var_comb (hv gg) pv.gigj.1 (hv gg), pv.cov, pv.gigj.2]
    unfold pairStd actStd
    dsimp only
    rw [Real.sq_sqrt]
    · ring
    · have := varProd_nonneg (m := ∫ ω, est gi ω ∂μ) (n := ∫ ω, est gj ω ∂μ) (n gi) (n gj)
      have := n gg
      linarith

end SQ
