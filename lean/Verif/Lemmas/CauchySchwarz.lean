import Verif.Lemmas.Repulsion

/-!
# Lemmas: the Coulomb form is positive, and the Cauchy-Schwarz inequality
-/

namespace SQ

open MeasureTheory Real Set

/-- A product of two primitives with positive exponents. -/
structure PairPrim where
  R₁ : Fin 3 → ℝ
  R₂ : Fin 3 → ℝ
  a : ℝ
  b : ℝ
  l₁ : Fin 3 → ℕ
  l₂ : Fin 3 → ℕ
  ha : 0 < a
  hb : 0 < b

namespace PairPrim

variable (m n : PairPrim)

noncomputable def val (r : Fin 3 → ℝ) : ℝ := prim m.R₁ m.a m.l₁ r * prim m.R₂ m.b m.l₂ r

/-- The Coulomb form. -/
noncomputable def coul : ℝ := ∫ r, m.val r * ∫ r', n.val r' * (dist3 r r')⁻¹

noncomputable def smear (d : Fin 3) (u z : ℝ) : ℝ :=
  √(π / (m.a + m.b + 2 * u ^ 2)) * hermSum (m.R₁ d) (m.R₂ d) m.a m.b (m.l₁ d) (m.l₂ d)
    ((m.a + m.b) * (2 * u ^ 2) / (m.a + m.b + 2 * u ^ 2)) (productCenter (m.R₁ d) (m.R₂ d) m.a m.b - z)

noncomputable def axisForm (d : Fin 3) (u : ℝ) : ℝ :=
  π * √(1 / (m.a + m.b + (n.a + n.b))) *
    √(1 / ((m.a + m.b) * (n.a + n.b) / (m.a + m.b + (n.a + n.b)) + u ^ 2)) *
    hermSum2 (m.R₁ d) (m.R₂ d) m.a m.b (m.l₁ d) (m.l₂ d) (n.R₁ d) (n.R₂ d) n.a n.b (n.l₁ d) (n.l₂ d)
      ((m.a + m.b) * (n.a + n.b) / (m.a + m.b + (n.a + n.b)) * u ^ 2 /
        ((m.a + m.b) * (n.a + n.b) / (m.a + m.b + (n.a + n.b)) + u ^ 2))
      (productCenter (m.R₁ d) (m.R₂ d) m.a m.b - productCenter (n.R₁ d) (n.R₂ d) n.a n.b)

theorem coul_eq : m.coul n = 2 / √π * ∫ u in Ioi (0 : ℝ), ∏ d, m.axisForm n d u := by
  unfold coul val
  rw [(repulsion_laplace m.ha m.hb n.ha n.hb _ _ _ _ _ _ _ _).2]
  congr 1
  refine integral_congr_ae (Filter.Eventually.of_forall fun u => ?_)
  simp only [axisForm, Finset.prod_mul_distrib, Finset.prod_const, Finset.card_univ, Fintype.card_fin]
  ring

theorem smear_prod (d : Fin 3) (u z : ℝ) : m.smear d u z * n.smear d u z =
    ∑ τ ∈ Finset.range (n.l₁ d + n.l₂ d + 1), ∑ t ∈ Finset.range (m.l₁ d + m.l₂ d + 1),
      √(π / (m.a + m.b + 2 * u ^ 2)) * √(π / (n.a + n.b + 2 * u ^ 2)) *
      (expansionExact (m.R₁ d) (m.R₂ d) m.a m.b (m.l₁ d) (m.l₂ d) t *
        expansionExact (n.R₁ d) (n.R₂ d) n.a n.b (n.l₁ d) (n.l₂ d) τ) *
      (hg ((m.a + m.b) * (2 * u ^ 2) / (m.a + m.b + 2 * u ^ 2)) t (productCenter (m.R₁ d) (m.R₂ d) m.a m.b - z) *
        hg ((n.a + n.b) * (2 * u ^ 2) / (n.a + n.b + 2 * u ^ 2)) τ (productCenter (n.R₁ d) (n.R₂ d) n.a n.b - z)) := by
  unfold smear hermSum
  rw [mul_mul_mul_comm, Finset.sum_mul_sum, Finset.sum_comm, Finset.mul_sum]
  refine Finset.sum_congr rfl fun τ _ => ?_
  rw [Finset.mul_sum]
  exact Finset.sum_congr rfl fun t _ => by ring

theorem smear_exp_pos {u : ℝ} (hu : 0 < u) : 0 < (m.a + m.b) * (2 * u ^ 2) / (m.a + m.b + 2 * u ^ 2) := by
  have := m.ha; have := m.hb; positivity

theorem smear_integrable (d : Fin 3) {u : ℝ} (hu : 0 < u) : Integrable fun z => m.smear d u z * n.smear d u z := by
  simp only [smear_prod]
  exact integrable_finsetSum _ fun τ _ => integrable_finsetSum _ fun t _ =>
    (hg_mul_integrable (m.smear_exp_pos hu) (n.smear_exp_pos hu).le _ _ _ _).const_mul _

/-- The axis factor of the Coulomb form is an inner product. -/
theorem smear_integral (d : Fin 3) {u : ℝ} (hu : 0 < u) :
    ∫ z, m.smear d u z * n.smear d u z = √π / (2 * u) * m.axisForm n d u := by
  have ha := m.ha
  have hb := m.hb
  have ha' := n.ha
  have hb' := n.hb
  have hw := m.smear_exp_pos hu
  have hw' := n.smear_exp_pos hu
  simp only [smear_prod]
  have hi : ∀ t τ, Integrable fun z => √(π / (m.a + m.b + 2 * u ^ 2)) * √(π / (n.a + n.b + 2 * u ^ 2)) *
      (expansionExact (m.R₁ d) (m.R₂ d) m.a m.b (m.l₁ d) (m.l₂ d) t *
        expansionExact (n.R₁ d) (n.R₂ d) n.a n.b (n.l₁ d) (n.l₂ d) τ) *
      (hg ((m.a + m.b) * (2 * u ^ 2) / (m.a + m.b + 2 * u ^ 2)) t (productCenter (m.R₁ d) (m.R₂ d) m.a m.b - z) *
        hg ((n.a + n.b) * (2 * u ^ 2) / (n.a + n.b + 2 * u ^ 2)) τ
          (productCenter (n.R₁ d) (n.R₂ d) n.a n.b - z)) := fun t τ =>
    (hg_mul_integrable hw hw'.le _ _ _ _).const_mul _
  rw [integral_finsetSum _ fun τ _ => integrable_finsetSum _ fun t _ => hi t τ]
  unfold axisForm hermSum2
  rw [Finset.mul_sum, Finset.mul_sum]
  refine Finset.sum_congr rfl fun τ _ => ?_
  rw [integral_finsetSum _ fun t _ => hi t τ, Finset.mul_sum, Finset.mul_sum]
  refine Finset.sum_congr rfl fun t _ => ?_
  rw [integral_const_mul, hg_hg_integral hw hw'.le]
  generalize hp : m.a + m.b = p at *
  generalize hq : n.a + n.b = q at *
  have hp0 : 0 < p := by rw [← hp]; positivity
  have hq0 : 0 < q := by rw [← hq]; positivity
  have hα : 0 < p * q / (p + q) + u ^ 2 := by positivity
  have e1 : p * (2 * u ^ 2) / (p + 2 * u ^ 2) * (q * (2 * u ^ 2) / (q + 2 * u ^ 2)) /
      (p * (2 * u ^ 2) / (p + 2 * u ^ 2) + q * (2 * u ^ 2) / (q + 2 * u ^ 2)) =
      p * q / (p + q) * u ^ 2 / (p * q / (p + q) + u ^ 2) := by
    field_simp
    ring
  have e2 : √(π / (p + 2 * u ^ 2)) * √(π / (q + 2 * u ^ 2)) *
      √(π / (p * (2 * u ^ 2) / (p + 2 * u ^ 2) + q * (2 * u ^ 2) / (q + 2 * u ^ 2))) =
      √π / (2 * u) * (π * √(1 / (p + q)) * √(1 / (p * q / (p + q) + u ^ 2))) := by
    rw [sqrt_pi_div, sqrt_pi_div, sqrt_pi_div]
    have h1 : √(1 / (p + 2 * u ^ 2)) * √(1 / (q + 2 * u ^ 2)) *
        √(1 / (p * (2 * u ^ 2) / (p + 2 * u ^ 2) + q * (2 * u ^ 2) / (q + 2 * u ^ 2))) =
        1 / (2 * u) * (√(1 / (p + q)) * √(1 / (p * q / (p + q) + u ^ 2))) := by
      rw [← sqrt_mul (by positivity), ← sqrt_mul (by positivity), ← sqrt_mul (by positivity),
        show 1 / (2 * u) = √((1 / (2 * u)) ^ 2) from (sqrt_sq (by positivity)).symm, ← sqrt_mul (by positivity)]
      congr 1
      field_simp
      ring
    have h5 : √π * √π = π := mul_self_sqrt pi_pos.le
    calc _ = (√π * √π) * √π * (√(1 / (p + 2 * u ^ 2)) * √(1 / (q + 2 * u ^ 2)) *
        √(1 / (p * (2 * u ^ 2) / (p + 2 * u ^ 2) + q * (2 * u ^ 2) / (q + 2 * u ^ 2)))) := by ring
      _ = _ := by rw [h1, h5]; ring
  rw [e1]
  linear_combination (expansionExact (m.R₁ d) (m.R₂ d) m.a m.b (m.l₁ d) (m.l₂ d) t *
        expansionExact (n.R₁ d) (n.R₂ d) n.a n.b (n.l₁ d) (n.l₂ d) τ * ((-1) ^ τ *
      hg (p * q / (p + q) * u ^ 2 / (p * q / (p + q) + u ^ 2)) (t + τ)
        (productCenter (m.R₁ d) (m.R₂ d) m.a m.b - productCenter (n.R₁ d) (n.R₂ d) n.a n.b))) * e2

theorem form_eq {u : ℝ} (hu : 0 < u) :
    ∏ d, m.axisForm n d u = (2 * u / √π) ^ 3 * ∫ z : Fin 3 → ℝ, (∏ d, m.smear d u (z d)) * ∏ d, n.smear d u (z d) := by
  simp only [← Finset.prod_mul_distrib]
  rw [integral_fintype_prod_volume_eq_prod (fun d z => m.smear d u z * n.smear d u z)]
  simp only [smear_integral m n _ hu, Finset.prod_mul_distrib, Finset.prod_const, Finset.card_univ, Fintype.card_fin]
  have : √π ≠ 0 := (sqrt_pos.2 pi_pos).ne'
  rw [← mul_assoc, ← mul_pow, show 2 * u / √π * (√π / (2 * u)) = 1 by field_simp, one_pow, one_mul]

theorem form_integrable : IntegrableOn (fun u => ∏ d, m.axisForm n d u) (Ioi (0 : ℝ)) := by
  have ha := m.ha
  have hb := m.hb
  have ha' := n.ha
  have hb' := n.hb
  have hα : 0 < (m.a + m.b) * (n.a + n.b) / (m.a + m.b + (n.a + n.b)) := by positivity
  set α := (m.a + m.b) * (n.a + n.b) / (m.a + m.b + (n.a + n.b)) with hαd
  have hpos : ∀ u : ℝ, 0 < α + u ^ 2 := fun u => by positivity
  have h0 : IntegrableOn (fun u : ℝ => √(1 / (α + u ^ 2)) ^ 3) (Ioi 0) := by
    by_contra hni
    have := coulomb_substitution hα (fun _ => 1)
    simp only [mul_one, intervalIntegral.integral_const, sub_zero, smul_eq_mul] at this
    rw [integral_undef hni] at this
    have : 0 < 1 / α := by positivity
    linarith
  let G : ℝ → ℝ := fun w => ∏ d, (π * √(1 / (m.a + m.b + (n.a + n.b))) *
    hermSum2 (m.R₁ d) (m.R₂ d) m.a m.b (m.l₁ d) (m.l₂ d) (n.R₁ d) (n.R₂ d) n.a n.b (n.l₁ d) (n.l₂ d) w
      (productCenter (m.R₁ d) (m.R₂ d) m.a m.b - productCenter (n.R₁ d) (n.R₂ d) n.a n.b))
  have hG : Continuous G := by
    refine continuous_finsetProd _ fun d _ => continuous_const.mul ?_
    unfold hermSum2
    exact continuous_finsetSum _ fun τ _ => continuous_finsetSum _ fun t _ => continuous_const.mul
      (continuous_const.mul ((hg_continuous_both _).comp (by fun_prop : Continuous fun w : ℝ => (w,
        productCenter (m.R₁ d) (m.R₂ d) m.a m.b - productCenter (n.R₁ d) (n.R₂ d) n.a n.b))))
  obtain ⟨M, hM⟩ := (isCompact_Icc (a := (0 : ℝ)) (b := α)).exists_bound_of_continuousOn hG.continuousOn
  have e : ∀ u, ∏ d, m.axisForm n d u = √(1 / (α + u ^ 2)) ^ 3 * G (α * u ^ 2 / (α + u ^ 2)) := by
    intro u
    simp only [axisForm, G, Finset.prod_mul_distrib, Finset.prod_const, Finset.card_univ, Fintype.card_fin, ← hαd]
    ring
  simp only [e]
  refine Integrable.mono' (h0.const_mul M) ?_ (Filter.Eventually.of_forall fun u => ?_)
  · refine Continuous.aestronglyMeasurable (Continuous.mul (Continuous.pow (Continuous.sqrt
      (Continuous.div (by fun_prop) (by fun_prop) fun u => (hpos u).ne')) 3) (hG.comp
      (Continuous.div (by fun_prop) (by fun_prop) fun u => (hpos u).ne')))
  · rw [norm_mul, mul_comm, norm_of_nonneg (by positivity : 0 ≤ √(1 / (α + u ^ 2)) ^ 3)]
    refine mul_le_mul_of_nonneg_right (hM _ ⟨by positivity, ?_⟩) (by positivity)
    rw [div_le_iff₀ (hpos u)]
    nlinarith [sq_nonneg u, sq_nonneg α]

theorem coul_symm : m.coul n = n.coul m := by
  rw [coul_eq, coul_eq]
  congr 1
  refine setIntegral_congr_fun measurableSet_Ioi fun u hu => ?_
  rw [form_eq m n hu, form_eq n m hu]
  simp only [mul_comm]

end PairPrim

/-- The Coulomb form is positive semidefinite. -/
theorem coulomb_nonneg {ι : Type} [Fintype ι] (m : ι → PairPrim) (c : ι → ℝ) :
    0 ≤ ∑ i, ∑ j, c i * c j * (m i).coul (m j) := by
  have e : ∑ i, ∑ j, c i * c j * (m i).coul (m j) =
      2 / √π * ∫ u in Ioi (0 : ℝ), ∑ i, ∑ j, c i * c j * ∏ d, (m i).axisForm (m j) d u := by
    rw [integral_finsetSum _ fun i _ => integrable_finsetSum _ fun j _ => ((m i).form_integrable (m j)).const_mul _,
      Finset.mul_sum]
    refine Finset.sum_congr rfl fun i _ => ?_
    rw [integral_finsetSum _ fun j _ => ((m i).form_integrable (m j)).const_mul _, Finset.mul_sum]
    refine Finset.sum_congr rfl fun j _ => ?_
    rw [integral_const_mul, (m i).coul_eq]
    ring
  rw [e]
  refine mul_nonneg (by positivity) (setIntegral_nonneg measurableSet_Ioi fun u hu => ?_)
  have hu' : 0 < u := hu
  have hint : ∀ i j, Integrable fun z : Fin 3 → ℝ => c i * c j *
      ((∏ d, (m i).smear d u (z d)) * ∏ d, (m j).smear d u (z d)) := by
    intro i j
    simp only [← Finset.prod_mul_distrib]
    exact (Integrable.fintype_prod fun d => (m i).smear_integrable (m j) d hu').const_mul _
  have e2 : ∑ i, ∑ j, c i * c j * ∏ d, (m i).axisForm (m j) d u =
      (2 * u / √π) ^ 3 * ∫ z : Fin 3 → ℝ, (∑ i, c i * ∏ d, (m i).smear d u (z d)) ^ 2 := by
    have e3 : ∀ z : Fin 3 → ℝ, (∑ i, c i * ∏ d, (m i).smear d u (z d)) ^ 2 =
        ∑ i, ∑ j, c i * c j * ((∏ d, (m i).smear d u (z d)) * ∏ d, (m j).smear d u (z d)) := by
      intro z
      rw [sq, Finset.sum_mul_sum]
      exact Finset.sum_congr rfl fun i _ => Finset.sum_congr rfl fun j _ => by ring
    simp only [e3]
    rw [integral_finsetSum _ fun i _ => integrable_finsetSum _ fun j _ => hint i j, Finset.mul_sum]
    refine Finset.sum_congr rfl fun i _ => ?_
    rw [integral_finsetSum _ fun j _ => hint i j, Finset.mul_sum]
    refine Finset.sum_congr rfl fun j _ => ?_
    rw [integral_const_mul, (m i).form_eq (m j) hu']
    ring
  rw [e2]
  exact mul_nonneg (by positivity) (integral_nonneg fun z => sq_nonneg _)

/-- The Cauchy-Schwarz inequality of the Coulomb form on sums of products of primitives. -/
theorem coulomb_cauchy {ι κ : Type} [Fintype ι] [Fintype κ] (m : ι → PairPrim) (n : κ → PairPrim) (x : ι → ℝ) (y : κ → ℝ) :
    (∑ i, ∑ j, x i * y j * (m i).coul (n j)) ^ 2 ≤
      (∑ i, ∑ j, x i * x j * (m i).coul (m j)) * ∑ i, ∑ j, y i * y j * (n i).coul (n j) := by
  set X := ∑ i, ∑ j, x i * x j * (m i).coul (m j) with hX
  set Y := ∑ i, ∑ j, y i * y j * (n i).coul (n j) with hY
  set Z := ∑ i, ∑ j, x i * y j * (m i).coul (n j) with hZ
  have key : ∀ α β : ℝ, 0 ≤ α ^ 2 * X + 2 * α * β * Z + β ^ 2 * Y := by
    intro α β
    have h := coulomb_nonneg (Sum.elim m n) (Sum.elim (fun i => α * x i) fun j => β * y j)
    simp only [Fintype.sum_sum_type, Sum.elim_inl, Sum.elim_inr] at h
    refine h.trans_eq ?_
    simp only [Finset.sum_add_distrib]
    have e1 : ∑ i, ∑ j, α * x i * (α * x j) * (m i).coul (m j) = α ^ 2 * X := by
      rw [hX, Finset.mul_sum]
      refine Finset.sum_congr rfl fun i _ => ?_
      rw [Finset.mul_sum]
      exact Finset.sum_congr rfl fun j _ => by ring
    have e2 : ∑ i, ∑ j, α * x i * (β * y j) * (m i).coul (n j) = α * β * Z := by
      rw [hZ, Finset.mul_sum]
      refine Finset.sum_congr rfl fun i _ => ?_
      rw [Finset.mul_sum]
      exact Finset.sum_congr rfl fun j _ => by ring
    have e3 : ∑ j, ∑ i, β * y j * (α * x i) * (n j).coul (m i) = α * β * Z := by
      rw [hZ, Finset.sum_comm, Finset.mul_sum]
      refine Finset.sum_congr rfl fun i _ => ?_
      rw [Finset.mul_sum]
      exact Finset.sum_congr rfl fun j _ => by rw [(n j).coul_symm]; ring
    have e4 : ∑ i, ∑ j, β * y i * (β * y j) * (n i).coul (n j) = β ^ 2 * Y := by
      rw [hY, Finset.mul_sum]
      refine Finset.sum_congr rfl fun i _ => ?_
      rw [Finset.mul_sum]
      exact Finset.sum_congr rfl fun j _ => by ring
    rw [e1, e2, e3, e4]
    ring
  have hX0 : 0 ≤ X := coulomb_nonneg m x
  have hY0 : 0 ≤ Y := coulomb_nonneg n y
  rcases hX0.eq_or_lt with h0 | h0
  · have hk : ∀ α, 0 ≤ 2 * α * Z + Y := fun α => by
      have := key α 1
      rw [← h0] at this
      linarith
    have hz : Z = 0 := by
      by_contra hne
      have h1 := hk (-(Y + 1) / (2 * Z))
      rw [show 2 * (-(Y + 1) / (2 * Z)) * Z = -(Y + 1) by field_simp] at h1
      linarith
    rw [hz, ← h0]
    simp
  · have := key (-Z) X
    nlinarith [this]

/-! ## Contracted functions -/

/-- The products of primitives of two shells. -/
noncomputable def shellPair (s₁ s₂ : GShell) (h₁ : s₁.Positive) (h₂ : s₂.Positive) (a : Fin s₁.nbf) (b : Fin s₂.nbf)
    (x : Fin s₁.nprim × Fin s₂.nprim) : PairPrim :=
  ⟨s₁.center, s₂.center, s₁.exponents x.1, s₂.exponents x.2, s₁.angular a, s₂.angular b, h₁ _, h₂ _⟩

noncomputable def shellCoef (s₁ s₂ : GShell) (a : Fin s₁.nbf) (b : Fin s₂.nbf) (x : Fin s₁.nprim × Fin s₂.nprim) : ℝ :=
  s₁.norm a x.1 * s₁.coefficients x.1 * (s₂.norm b x.2 * s₂.coefficients x.2)

section

variable {s₁ s₂ s₃ s₄ : GShell} (h₁ : s₁.Positive) (h₂ : s₂.Positive) (h₃ : s₃.Positive) (h₄ : s₄.Positive)

theorem repulsionIntegral_form (a : Fin s₁.nbf) (b : Fin s₂.nbf) (c : Fin s₃.nbf) (d : Fin s₄.nbf) :
    repulsionIntegral boysExact s₁ s₂ s₃ s₄ a b c d =
      ∑ x, ∑ y, shellCoef s₁ s₂ a b x * shellCoef s₃ s₄ c d y *
        (shellPair s₁ s₂ h₁ h₂ a b x).coul (shellPair s₃ s₄ h₃ h₄ c d y) := by
  rw [repulsionIntegral_exact s₁ s₂ s₃ s₄ h₁ h₂ h₃ h₄, repulsion_pair s₁ s₂ s₃ s₄ h₁ h₂ h₃ h₄]
  simp only [Fintype.sum_prod_type, Finset.mul_sum]
  refine Finset.sum_congr rfl fun i _ => Finset.sum_congr rfl fun j _ => Finset.sum_congr rfl fun k _ =>
    Finset.sum_congr rfl fun l _ => ?_
  simp only [shellCoef, shellPair, PairPrim.coul, PairPrim.val]
  ring

include h₁ h₂ h₃ h₄

theorem repulsionIntegral_pair (a : Fin s₁.nbf) (b : Fin s₂.nbf) (c : Fin s₃.nbf) (d : Fin s₄.nbf) :
    repulsionIntegral boysExact s₁ s₂ s₃ s₄ a b c d = repulsionIntegral boysExact s₃ s₄ s₁ s₂ c d a b := by
  rw [repulsionIntegral_form h₁ h₂ h₃ h₄, repulsionIntegral_form h₃ h₄ h₁ h₂, Finset.sum_comm]
  refine Finset.sum_congr rfl fun x _ => Finset.sum_congr rfl fun y _ => ?_
  rw [PairPrim.coul_symm]
  ring

theorem repulsionIntegral_left (a : Fin s₁.nbf) (b : Fin s₂.nbf) (c : Fin s₃.nbf) (d : Fin s₄.nbf) :
    repulsionIntegral boysExact s₁ s₂ s₃ s₄ a b c d = repulsionIntegral boysExact s₂ s₁ s₃ s₄ b a c d := by
  rw [repulsionIntegral_exact s₁ s₂ s₃ s₄ h₁ h₂ h₃ h₄, repulsionIntegral_exact s₂ s₁ s₃ s₄ h₂ h₁ h₃ h₄]
  simp only [mul_comm (shellFunction s₁ a _)]

theorem repulsionIntegral_right (a : Fin s₁.nbf) (b : Fin s₂.nbf) (c : Fin s₃.nbf) (d : Fin s₄.nbf) :
    repulsionIntegral boysExact s₁ s₂ s₃ s₄ a b c d = repulsionIntegral boysExact s₁ s₂ s₄ s₃ a b d c := by
  rw [repulsionIntegral_exact s₁ s₂ s₃ s₄ h₁ h₂ h₃ h₄, repulsionIntegral_exact s₁ s₂ s₄ s₃ h₁ h₂ h₄ h₃]
  simp only [mul_comm (shellFunction s₃ c _)]

/-- The Cauchy-Schwarz inequality of the repulsion integrals. -/
theorem repulsionIntegral_cauchy (a : Fin s₁.nbf) (b : Fin s₂.nbf) (c : Fin s₃.nbf) (d : Fin s₄.nbf) :
    (repulsionIntegral boysExact s₁ s₂ s₃ s₄ a b c d) ^ 2 ≤
      repulsionIntegral boysExact s₁ s₂ s₁ s₂ a b a b * repulsionIntegral boysExact s₃ s₄ s₃ s₄ c d c d := by
  rw [repulsionIntegral_form h₁ h₂ h₃ h₄, repulsionIntegral_form h₁ h₂ h₁ h₂, repulsionIntegral_form h₃ h₄ h₃ h₄]
  exact coulomb_cauchy _ _ _ _

omit h₃ h₄ in
theorem repulsionIntegral_diag_nonneg (a : Fin s₁.nbf) (b : Fin s₂.nbf) :
    0 ≤ repulsionIntegral boysExact s₁ s₂ s₁ s₂ a b a b := by
  rw [repulsionIntegral_form h₁ h₂ h₁ h₂]
  exact coulomb_nonneg _ _

end

end SQ
