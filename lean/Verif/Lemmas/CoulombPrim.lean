import Verif.Lemmas.Coulomb

/-!
# Lemmas: Coulomb integrals of primitives
-/

namespace SQ

open MeasureTheory Real Set

/-- The Hermite expansion of a product of primitives along one axis, at another exponent. -/
noncomputable def hermSum (A B a b : ℝ) (i j : ℕ) (w X : ℝ) : ℝ :=
  ∑ t ∈ Finset.range (i + j + 1), expansionExact A B a b i j t * hg w t X

theorem hermSum_continuous (A B a b : ℝ) (i j : ℕ) : Continuous fun z : ℝ × ℝ => hermSum A B a b i j z.1 z.2 :=
  continuous_finsetSum _ fun t _ => continuous_const.mul (hg_continuous_both t)

theorem axis_potential {a b : ℝ} (h : 0 < a + b) (A B C : ℝ) (i j : ℕ) {w : ℝ} (hw : 0 ≤ w) :
    ∫ x, cart A a i x * cart B b j x * hg w 0 (C - x) =
      √(π / (a + b + w)) * hermSum A B a b i j ((a + b) * w / (a + b + w)) (productCenter A B a b - C) := by
  have e : ∀ x, cart A a i x * cart B b j x * hg w 0 (C - x) = ∑ t ∈ Finset.range (i + j + 1),
      expansionExact A B a b i j t * (hg (a + b) t (productCenter A B a b - x) * hg w 0 (C - x)) := by
    intro x
    rw [cart_product h.ne', Finset.sum_mul]
    exact Finset.sum_congr rfl fun t _ => by ring
  rw [integral_congr_ae (Filter.Eventually.of_forall e),
    integral_finsetSum _ fun t _ => (hg_mul_integrable h hw _ _ _ _).const_mul _]
  unfold hermSum
  rw [Finset.mul_sum]
  refine Finset.sum_congr rfl fun t _ => ?_
  rw [integral_const_mul, hg_gauss_integral h hw]
  ring

theorem sqrt_pi_div (c : ℝ) : √(π / c) = √π * √(1 / c) := by
  rw [sqrt_div pi_pos.le, sqrt_div zero_le_one, sqrt_one]; ring

theorem two_div_sqrt_pi : 2 / √π * √π ^ 3 = 2 * π := by
  have h : √π ≠ 0 := (sqrt_pos.2 pi_pos).ne'
  have h2 : √π ^ 2 = π := sq_sqrt pi_pos.le
  field_simp
  linarith

/-- The potential of a product of primitives as an integral over the exponent of a Gaussian. -/
theorem potential_laplace {a b : ℝ} (ha : 0 < a) (hb : 0 < b) (R₁ R₂ C : Fin 3 → ℝ) (l₁ l₂ : Fin 3 → ℕ) :
    (Integrable fun r => prim R₁ a l₁ r * prim R₂ b l₂ r * (dist3 r C)⁻¹) ∧
    ∫ r, prim R₁ a l₁ r * prim R₂ b l₂ r * (dist3 r C)⁻¹ =
      2 / √π * ∫ u in Ioi (0 : ℝ), ∏ d, ∫ x, cart (R₁ d) a (l₁ d) x * cart (R₂ d) b (l₂ d) x * hg (u ^ 2) 0 (C d - x) := by
  have e : ∀ r, prim R₁ a l₁ r * prim R₂ b l₂ r * (dist3 r C)⁻¹ = 2 / √π * ∫ u in Ioi (0 : ℝ),
      ∏ d, cart (R₁ d) a (l₁ d) (r d) * cart (R₂ d) b (l₂ d) (r d) * hg (u ^ 2) 0 (C d - r d) := by
    intro r
    rw [inv_dist]
    simp only [Finset.prod_mul_distrib]
    rw [integral_const_mul]
    unfold prim
    ring
  choose K hK hKb using fun d => cart_pair_bound ha hb (R₁ d) (R₂ d) (l₁ d) (l₂ d)
  have hcont : ∀ d, Continuous fun x => cart (R₁ d) a (l₁ d) x * cart (R₂ d) b (l₂ d) x := fun d =>
    (cart_continuous _ _ _).mul (cart_continuous _ _ _)
  have hsw := swap3 (fun d u x => cart (R₁ d) a (l₁ d) x * cart (R₂ d) b (l₂ d) x * hg (u ^ 2) 0 (C d - x))
    (fun d => ((hcont d).comp continuous_snd).mul ((hg_continuous_both 0).comp
      (by fun_prop : Continuous fun z : ℝ × ℝ => (z.1 ^ 2, C d - z.2))))
    (fun d u => (potential_bound (hcont d) (hK d) (half_pos ha) (hKb d) (C d) u).1) K hK (half_pos ha)
    (fun d u => (potential_bound (hcont d) (hK d) (half_pos ha) (hKb d) (C d) u).2)
  simp only [e]
  refine ⟨hsw.1.const_mul _, ?_⟩
  rw [integral_const_mul, hsw.2]

/-- The attraction integral of two primitives. -/
theorem nuclear_prim {a b : ℝ} (ha : 0 < a) (hb : 0 < b) (R₁ R₂ C : Fin 3 → ℝ) (l₁ l₂ : Fin 3 → ℕ) :
    ∫ r, prim R₁ a l₁ r * prim R₂ b l₂ r * (dist3 r C)⁻¹ =
      2 * π / (a + b) * ∫ s in (0 : ℝ)..1, ∏ d, hermSum (R₁ d) (R₂ d) a b (l₁ d) (l₂ d) ((a + b) * s ^ 2)
        (productCenter (R₁ d) (R₂ d) a b - C d) := by
  have hp : 0 < a + b := add_pos ha hb
  rw [(potential_laplace ha hb R₁ R₂ C l₁ l₂).2]
  have e : ∀ u : ℝ, ∏ d, ∫ x, cart (R₁ d) a (l₁ d) x * cart (R₂ d) b (l₂ d) x * hg (u ^ 2) 0 (C d - x) =
      √π ^ 3 * (√(1 / (a + b + u ^ 2)) ^ 3 * (fun w => ∏ d, hermSum (R₁ d) (R₂ d) a b (l₁ d) (l₂ d) w
        (productCenter (R₁ d) (R₂ d) a b - C d)) ((a + b) * u ^ 2 / (a + b + u ^ 2))) := by
    intro u
    simp only [axis_potential hp _ _ _ _ _ (sq_nonneg u), sqrt_pi_div, Finset.prod_mul_distrib, Finset.prod_const,
      Finset.card_univ, Fintype.card_fin]
    ring
  rw [integral_congr_ae (Filter.Eventually.of_forall e), integral_const_mul, coulomb_substitution hp (fun w => ∏ d, hermSum (R₁ d) (R₂ d) a b (l₁ d) (l₂ d) w
      (productCenter (R₁ d) (R₂ d) a b - C d)), ← mul_assoc, two_div_sqrt_pi]
  ring

/-! ## Two electrons -/

theorem dist3_comm (r r' : Fin 3 → ℝ) : dist3 r r' = dist3 r' r := by
  unfold dist3
  congr 1
  exact Finset.sum_congr rfl fun d _ => by ring

/-- The repulsion of two products of Hermite sums along one axis. -/
noncomputable def hermSum2 (A B a b : ℝ) (i j : ℕ) (A' B' a' b' : ℝ) (i' j' : ℕ) (w X : ℝ) : ℝ :=
  ∑ τ ∈ Finset.range (i' + j' + 1), ∑ t ∈ Finset.range (i + j + 1),
    expansionExact A B a b i j t * expansionExact A' B' a' b' i' j' τ * ((-1) ^ τ * hg w (t + τ) X)

theorem axis_repulsion {a b : ℝ} (h : 0 < a + b) (A B A' B' a' b' Q : ℝ) (i j i' j' : ℕ) {w : ℝ} (hw : 0 ≤ w) :
    ∫ x, cart A a i x * cart B b j x * hermSum A' B' a' b' i' j' w (Q - x) =
      √(π / (a + b + w)) * hermSum2 A B a b i j A' B' a' b' i' j' ((a + b) * w / (a + b + w))
        (productCenter A B a b - Q) := by
  have e : ∀ x, cart A a i x * cart B b j x * hermSum A' B' a' b' i' j' w (Q - x) =
      ∑ τ ∈ Finset.range (i' + j' + 1), ∑ t ∈ Finset.range (i + j + 1),
        expansionExact A B a b i j t * expansionExact A' B' a' b' i' j' τ *
          (hg (a + b) t (productCenter A B a b - x) * hg w τ (Q - x)) := by
    intro x
    rw [cart_product h.ne', hermSum, Finset.sum_mul_sum, Finset.sum_comm]
    exact Finset.sum_congr rfl fun τ _ => Finset.sum_congr rfl fun t _ => by ring
  have hi : ∀ t τ, Integrable fun x => expansionExact A B a b i j t * expansionExact A' B' a' b' i' j' τ *
      (hg (a + b) t (productCenter A B a b - x) * hg w τ (Q - x)) := fun t τ =>
    (hg_mul_integrable h hw _ _ _ _).const_mul _
  rw [integral_congr_ae (Filter.Eventually.of_forall e),
    integral_finsetSum _ fun τ _ => integrable_finsetSum _ fun t _ => hi t τ]
  unfold hermSum2
  rw [Finset.mul_sum]
  refine Finset.sum_congr rfl fun τ _ => ?_
  rw [integral_finsetSum _ fun t _ => hi t τ, Finset.mul_sum]
  refine Finset.sum_congr rfl fun t _ => ?_
  rw [integral_const_mul, hg_hg_integral h hw]
  ring

/-- The repulsion integral of four primitives as an integral over the exponent of a Gaussian. -/
theorem repulsion_laplace {a b a' b' : ℝ} (ha : 0 < a) (hb : 0 < b) (ha' : 0 < a') (hb' : 0 < b')
    (R₁ R₂ R₃ R₄ : Fin 3 → ℝ) (l₁ l₂ l₃ l₄ : Fin 3 → ℕ) :
    (Integrable fun r => prim R₁ a l₁ r * prim R₂ b l₂ r *
      ∫ r', prim R₃ a' l₃ r' * prim R₄ b' l₄ r' * (dist3 r r')⁻¹) ∧
    ∫ r, prim R₁ a l₁ r * prim R₂ b l₂ r * ∫ r', prim R₃ a' l₃ r' * prim R₄ b' l₄ r' * (dist3 r r')⁻¹ =
      2 / √π * ∫ u in Ioi (0 : ℝ), (π * √(1 / (a + b + (a' + b')))) ^ 3 *
        (√(1 / ((a + b) * (a' + b') / (a + b + (a' + b')) + u ^ 2)) ^ 3 *
        (fun w => ∏ d, hermSum2 (R₁ d) (R₂ d) a b (l₁ d) (l₂ d) (R₃ d) (R₄ d) a' b' (l₃ d) (l₄ d) w
          (productCenter (R₁ d) (R₂ d) a b - productCenter (R₃ d) (R₄ d) a' b'))
          ((a + b) * (a' + b') / (a + b + (a' + b')) * u ^ 2 /
            ((a + b) * (a' + b') / (a + b + (a' + b')) + u ^ 2))) := by
  have hp : 0 < a + b := add_pos ha hb
  have hq : 0 < a' + b' := add_pos ha' hb'
  set p := a + b with hpdef
  set q := a' + b' with hqdef
  -- the potential along one axis
  have hG : ∀ (d : Fin 3) (u x : ℝ), ∫ y, cart (R₃ d) a' (l₃ d) y * cart (R₄ d) b' (l₄ d) y * hg (u ^ 2) 0 (x - y) =
      √(π / (q + u ^ 2)) * hermSum (R₃ d) (R₄ d) a' b' (l₃ d) (l₄ d) (q * u ^ 2 / (q + u ^ 2))
        (productCenter (R₃ d) (R₄ d) a' b' - x) := fun d u x => axis_potential hq _ _ _ _ _ (sq_nonneg u)
  have e : ∀ r, prim R₁ a l₁ r * prim R₂ b l₂ r * ∫ r', prim R₃ a' l₃ r' * prim R₄ b' l₄ r' * (dist3 r r')⁻¹ =
      2 / √π * ∫ u in Ioi (0 : ℝ), ∏ d, (cart (R₁ d) a (l₁ d) (r d) * cart (R₂ d) b (l₂ d) (r d) *
        (√(π / (q + u ^ 2)) * hermSum (R₃ d) (R₄ d) a' b' (l₃ d) (l₄ d) (q * u ^ 2 / (q + u ^ 2))
          (productCenter (R₃ d) (R₄ d) a' b' - r d))) := by
    intro r
    simp only [dist3_comm r]
    rw [(potential_laplace ha' hb' R₃ R₄ r l₃ l₄).2]
    simp only [hG]
    simp only [Finset.prod_mul_distrib (f := fun d => cart (R₁ d) a (l₁ d) (r d) * cart (R₂ d) b (l₂ d) (r d))]
    rw [integral_const_mul]
    unfold prim
    rw [Finset.prod_mul_distrib]
    ring
  choose K hK hKb using fun d => cart_pair_bound ha' hb' (R₃ d) (R₄ d) (l₃ d) (l₄ d)
  have hcont : ∀ d, Continuous fun x => cart (R₃ d) a' (l₃ d) x * cart (R₄ d) b' (l₄ d) x := fun d =>
    (cart_continuous _ _ _).mul (cart_continuous _ _ _)
  have hGb : ∀ (d : Fin 3) (u x : ℝ), |√(π / (q + u ^ 2)) * hermSum (R₃ d) (R₄ d) a' b' (l₃ d) (l₄ d)
      (q * u ^ 2 / (q + u ^ 2)) (productCenter (R₃ d) (R₄ d) a' b' - x)| ≤ K d * √(π / (a' / 2 + u ^ 2)) := by
    intro d u x
    rw [← hG]
    exact (abs_integral_le_integral_abs).trans (potential_bound (hcont d) (hK d) (half_pos ha') (hKb d) x u).2
  have hGc : ∀ d, Continuous fun z : ℝ × ℝ => √(π / (q + z.1 ^ 2)) * hermSum (R₃ d) (R₄ d) a' b' (l₃ d) (l₄ d)
      (q * z.1 ^ 2 / (q + z.1 ^ 2)) (productCenter (R₃ d) (R₄ d) a' b' - z.2) := by
    intro d
    have hne : ∀ z : ℝ × ℝ, q + z.1 ^ 2 ≠ 0 := fun z => (by positivity : 0 < q + z.1 ^ 2).ne'
    refine Continuous.mul (Continuous.sqrt (Continuous.div (by fun_prop) (by fun_prop) hne)) ?_
    refine (hermSum_continuous _ _ _ _ _ _).comp (Continuous.prodMk (Continuous.div (by fun_prop) (by fun_prop) hne) ?_)
    fun_prop
  have hfi : ∀ d, Integrable fun x => cart (R₁ d) a (l₁ d) x * cart (R₂ d) b (l₂ d) x := fun d =>
    cart_cart_integrable hp _ _ _ _
  have hfc : ∀ d, Continuous fun x => cart (R₁ d) a (l₁ d) x * cart (R₂ d) b (l₂ d) x := fun d =>
    (cart_continuous _ _ _).mul (cart_continuous _ _ _)
  have hint : ∀ (d : Fin 3) (u : ℝ), Integrable fun x => cart (R₁ d) a (l₁ d) x * cart (R₂ d) b (l₂ d) x *
      (√(π / (q + u ^ 2)) * hermSum (R₃ d) (R₄ d) a' b' (l₃ d) (l₄ d) (q * u ^ 2 / (q + u ^ 2))
        (productCenter (R₃ d) (R₄ d) a' b' - x)) := by
    intro d u
    refine ((hfi d).abs.mul_const (K d * √(π / (a' / 2 + u ^ 2)))).mono' ?_ (Filter.Eventually.of_forall fun x => ?_)
    · exact ((hfc d).mul ((hGc d).comp (by fun_prop : Continuous fun x : ℝ => (u, x)))).aestronglyMeasurable
    · rw [norm_eq_abs, abs_mul]
      exact mul_le_mul_of_nonneg_left (hGb d u x) (abs_nonneg _)
  have hsw := swap3 (fun d u x => cart (R₁ d) a (l₁ d) x * cart (R₂ d) b (l₂ d) x *
      (√(π / (q + u ^ 2)) * hermSum (R₃ d) (R₄ d) a' b' (l₃ d) (l₄ d) (q * u ^ 2 / (q + u ^ 2))
        (productCenter (R₃ d) (R₄ d) a' b' - x)))
    (fun d => ((hfc d).comp continuous_snd).mul (hGc d)) hint
    (fun d => (∫ x, |cart (R₁ d) a (l₁ d) x * cart (R₂ d) b (l₂ d) x|) * K d)
    (fun d => mul_nonneg (integral_nonneg fun x => abs_nonneg _) (hK d)) (half_pos ha') (by
      intro d u
      rw [mul_assoc, ← integral_mul_const]
      refine integral_mono (hint d u).abs ((hfi d).abs.mul_const _) fun x => ?_
      simp only [abs_mul]
      refine mul_le_mul_of_nonneg_left ?_ (by positivity)
      rw [← abs_mul]
      exact hGb d u x)
  simp only [e]
  refine ⟨hsw.1.const_mul _, ?_⟩
  rw [integral_const_mul, hsw.2]
  have hα : 0 < p * q / (p + q) := by positivity
  have e2 : ∀ u : ℝ, ∏ d, ∫ x, cart (R₁ d) a (l₁ d) x * cart (R₂ d) b (l₂ d) x *
      (√(π / (q + u ^ 2)) * hermSum (R₃ d) (R₄ d) a' b' (l₃ d) (l₄ d) (q * u ^ 2 / (q + u ^ 2))
        (productCenter (R₃ d) (R₄ d) a' b' - x)) =
      (π * √(1 / (p + q))) ^ 3 * (√(1 / (p * q / (p + q) + u ^ 2)) ^ 3 *
        (fun w => ∏ d, hermSum2 (R₁ d) (R₂ d) a b (l₁ d) (l₂ d) (R₃ d) (R₄ d) a' b' (l₃ d) (l₄ d) w
          (productCenter (R₁ d) (R₂ d) a b - productCenter (R₃ d) (R₄ d) a' b'))
          (p * q / (p + q) * u ^ 2 / (p * q / (p + q) + u ^ 2))) := by
    intro u
    have hqu : 0 < q + u ^ 2 := by positivity
    have hw : 0 ≤ q * u ^ 2 / (q + u ^ 2) := by positivity
    have hpw : 0 < p + q * u ^ 2 / (q + u ^ 2) := by positivity
    have hα' : 0 < p * q / (p + q) + u ^ 2 := by positivity
    have e3 : ∀ d, ∫ x, cart (R₁ d) a (l₁ d) x * cart (R₂ d) b (l₂ d) x *
        (√(π / (q + u ^ 2)) * hermSum (R₃ d) (R₄ d) a' b' (l₃ d) (l₄ d) (q * u ^ 2 / (q + u ^ 2))
          (productCenter (R₃ d) (R₄ d) a' b' - x)) =
        (π * √(1 / (p + q))) * √(1 / (p * q / (p + q) + u ^ 2)) *
          hermSum2 (R₁ d) (R₂ d) a b (l₁ d) (l₂ d) (R₃ d) (R₄ d) a' b' (l₃ d) (l₄ d)
            (p * q / (p + q) * u ^ 2 / (p * q / (p + q) + u ^ 2))
            (productCenter (R₁ d) (R₂ d) a b - productCenter (R₃ d) (R₄ d) a' b') := by
      intro d
      have := axis_repulsion hp (R₁ d) (R₂ d) (R₃ d) (R₄ d) a' b' (productCenter (R₃ d) (R₄ d) a' b') (l₁ d) (l₂ d)
        (l₃ d) (l₄ d) hw
      rw [← hpdef] at this
      simp only [mul_left_comm _ (√(π / (q + u ^ 2)))]
      rw [integral_const_mul, this, ← mul_assoc]
      congr 1
      · rw [sqrt_pi_div, sqrt_pi_div, mul_mul_mul_comm, mul_self_sqrt pi_pos.le, ← sqrt_mul (by positivity), mul_assoc,
          ← sqrt_mul (by positivity)]
        congr 2
        field_simp
        ring
      · congr 1
        field_simp
        ring
    simp only [e3, Finset.prod_mul_distrib, Finset.prod_const, Finset.card_univ, Fintype.card_fin]
    ring
  rw [integral_congr_ae (Filter.Eventually.of_forall e2)]

/-- The repulsion integral of four primitives. -/
theorem repulsion_prim {a b a' b' : ℝ} (ha : 0 < a) (hb : 0 < b) (ha' : 0 < a') (hb' : 0 < b')
    (R₁ R₂ R₃ R₄ : Fin 3 → ℝ) (l₁ l₂ l₃ l₄ : Fin 3 → ℕ) :
    (Integrable fun r => prim R₁ a l₁ r * prim R₂ b l₂ r *
      ∫ r', prim R₃ a' l₃ r' * prim R₄ b' l₄ r' * (dist3 r r')⁻¹) ∧
    ∫ r, prim R₁ a l₁ r * prim R₂ b l₂ r * ∫ r', prim R₃ a' l₃ r' * prim R₄ b' l₄ r' * (dist3 r r')⁻¹ =
      2 * π ^ (5 / 2 : ℝ) / ((a + b) * (a' + b') * (a + b + (a' + b')) ^ (0.5 : ℝ)) *
        ∫ s in (0 : ℝ)..1, ∏ d, hermSum2 (R₁ d) (R₂ d) a b (l₁ d) (l₂ d) (R₃ d) (R₄ d) a' b' (l₃ d) (l₄ d)
          ((a + b) * (a' + b') / (a + b + (a' + b')) * s ^ 2)
          (productCenter (R₁ d) (R₂ d) a b - productCenter (R₃ d) (R₄ d) a' b') := by
  have hp : 0 < a + b := add_pos ha hb
  have hq : 0 < a' + b' := add_pos ha' hb'
  have h := repulsion_laplace ha hb ha' hb' R₁ R₂ R₃ R₄ l₁ l₂ l₃ l₄
  refine ⟨h.1, ?_⟩
  rw [h.2]
  clear h
  set p := a + b with hpdef
  set q := a' + b' with hqdef
  have hα : 0 < p * q / (p + q) := by positivity
  rw [integral_const_mul, coulomb_substitution hα (fun w =>
      ∏ d, hermSum2 (R₁ d) (R₂ d) a b (l₁ d) (l₂ d) (R₃ d) (R₄ d) a' b' (l₃ d) (l₄ d) w
        (productCenter (R₁ d) (R₂ d) a b - productCenter (R₃ d) (R₄ d) a' b')), ← mul_assoc, ← mul_assoc]
  congr 1
  have h1 : (p + q) ^ (0.5 : ℝ) = √(p + q) := by rw [sqrt_eq_rpow]; norm_num
  have h2 : π ^ (5 / 2 : ℝ) = π ^ 2 * √π := by
    rw [sqrt_eq_rpow, ← rpow_natCast, ← rpow_add pi_pos]; norm_num
  rw [h1, h2, sqrt_div zero_le_one, sqrt_one]
  have h3 : 0 < √(p + q) := sqrt_pos.2 (by positivity)
  have h4 : √(p + q) ^ 2 = p + q := sq_sqrt (by positivity)
  have h5 : √π ^ 2 = π := sq_sqrt pi_pos.le
  have h6 : 0 < √π := sqrt_pos.2 pi_pos
  field_simp
  rw [h4]
  linear_combination (-(p + q)) * h5

end SQ
