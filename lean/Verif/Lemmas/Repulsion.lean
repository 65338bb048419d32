import Verif.Lemmas.CoulombPrim

/-!
# Lemmas: attraction and repulsion integrals over shells
-/

namespace SQ

open MeasureTheory Real Set

theorem hg_scaled_continuous (c : ℝ) (t : ℕ) (X : ℝ) : Continuous fun s : ℝ => hg (c * s ^ 2) t X :=
  (hg_continuous_both t).comp (by fun_prop : Continuous fun s : ℝ => (c * s ^ 2, X))

/-- The sum over the table of Hermite Coulomb integrals as one integral. -/
theorem hermSum_table (c X Y Z : ℝ) (e f g : ℕ → ℝ) (n₁ n₂ n₃ L : ℕ) (h₁ : n₁ ≤ L) (h₂ : n₂ ≤ L) (h₃ : n₃ ≤ L) :
    ∑ t ∈ Finset.range (n₁ + 1), ∑ u ∈ Finset.range (n₂ + 1), ∑ v ∈ Finset.range (n₃ + 1),
      e t * f u * g v * hermiteCoulomb boysExact L L L c X Y Z t u v =
    ∫ s in (0 : ℝ)..1, (∑ t ∈ Finset.range (n₁ + 1), e t * hg (c * s ^ 2) t X) *
      (∑ u ∈ Finset.range (n₂ + 1), f u * hg (c * s ^ 2) u Y) *
      ∑ v ∈ Finset.range (n₃ + 1), g v * hg (c * s ^ 2) v Z := by
  have hterm : ∀ t u v, Continuous fun s : ℝ => e t * hg (c * s ^ 2) t X * (f u * hg (c * s ^ 2) u Y) *
      (g v * hg (c * s ^ 2) v Z) := fun t u v =>
    ((continuous_const.mul (hg_scaled_continuous c t X)).mul
      (continuous_const.mul (hg_scaled_continuous c u Y))).mul (continuous_const.mul (hg_scaled_continuous c v Z))
  simp only [← sum_three_factor]
  rw [intervalIntegral.integral_finsetSum fun t _ => (continuous_finsetSum _ fun u _ =>
    continuous_finsetSum _ fun v _ => hterm t u v).intervalIntegrable _ _]
  refine Finset.sum_congr rfl fun t ht => ?_
  rw [intervalIntegral.integral_finsetSum fun u _ => (continuous_finsetSum _ fun v _ =>
    hterm t u v).intervalIntegrable _ _]
  refine Finset.sum_congr rfl fun u hu => ?_
  rw [intervalIntegral.integral_finsetSum fun v _ => (hterm t u v).intervalIntegrable _ _]
  refine Finset.sum_congr rfl fun v hv => ?_
  rw [Finset.mem_range] at ht hu hv
  rw [hermiteCoulomb_exact _ _ _ _ _ _ _ _ _ _ (by omega) (by omega) (by omega), ← intervalIntegral.integral_const_mul]
  exact intervalIntegral.integral_congr fun s _ => by ring

theorem pairExpansion_eq (s₁ s₂ : GShell) (i : Fin s₁.nprim) (j : Fin s₂.nprim) (k : Fin s₁.nbf) (l : Fin s₂.nbf)
    (d : Fin 3) {t : ℕ} (ht : t ∈ Finset.range (s₁.angular k d + s₂.angular l d + 1)) :
    pairExpansion s₁ s₂ i j 0 d (s₁.angular k d, s₂.angular l d, t) =
      expansionExact (s₁.center d) (s₂.center d) (s₁.exponents i) (s₂.exponents j) (s₁.angular k d)
        (s₂.angular l d) t := by
  have h1 := angular_le s₁ k d
  have h2 := angular_le s₂ l d
  rw [Finset.mem_range] at ht
  exact (expansionCoefficients_eq _ _ _ _ _ _).1 _ _ _ (by omega) (by omega) (by omega)

theorem potential_integral (s₁ s₂ : GShell) (h₁ : s₁.Positive) (h₂ : s₂.Positive) (k : Fin s₁.nbf) (l : Fin s₂.nbf)
    (C : Fin 3 → ℝ) : ∫ r, shellFunction s₁ k r * shellFunction s₂ l r * (dist3 r C)⁻¹ =
      ∑ i, ∑ j, s₁.norm k i * s₁.coefficients i * (s₂.norm l j * s₂.coefficients j) *
        ∫ r, prim s₁.center (s₁.exponents i) (s₁.angular k) r * prim s₂.center (s₂.exponents j) (s₂.angular l) r *
          (dist3 r C)⁻¹ :=
  pair_integral s₁ s₂ k l _ _ (fun i j => (potential_laplace (h₁ i) (h₂ j) _ _ C _ _).1) fun _ _ => rfl

theorem nuclearIntegral_exact (nuclei : List ((Fin 3 → ℝ) × ℝ)) (s₁ s₂ : GShell) (h₁ : s₁.Positive)
    (h₂ : s₂.Positive) (k : Fin s₁.nbf) (l : Fin s₂.nbf) :
    nuclearIntegral boysExact nuclei s₁ s₂ k l =
      (nuclei.map fun nuc => -nuc.2 * ∫ r, shellFunction s₁ k r * shellFunction s₂ l r * (dist3 r nuc.1)⁻¹).sum := by
  have e : ∀ (nuc : (Fin 3 → ℝ) × ℝ), -nuc.2 * ∫ r, shellFunction s₁ k r * shellFunction s₂ l r * (dist3 r nuc.1)⁻¹ =
      ∑ i, ∑ j, s₁.coefficients i * s₂.coefficients j *
        ((let L := s₁.maxAng + s₂.maxAng
          let p := s₁.exponents i + s₂.exponents j
          let PC := fun d => productCenter (s₁.center d) (s₂.center d) (s₁.exponents i) (s₂.exponents j) - nuc.1 d
          let R := hermiteCoulomb boysExact L L L p (PC 0) (PC 1) (PC 2)
          let E := pairExpansion s₁ s₂ i j 0
          s₁.norm k i * nuc.2 * s₂.norm l j *
            ∑ t ∈ Finset.range (s₁.angular k 0 + s₂.angular l 0 + 1),
            ∑ u ∈ Finset.range (s₁.angular k 1 + s₂.angular l 1 + 1),
            ∑ v ∈ Finset.range (s₁.angular k 2 + s₂.angular l 2 + 1),
              E 0 (s₁.angular k 0, s₂.angular l 0, t) * E 1 (s₁.angular k 1, s₂.angular l 1, u) *
              E 2 (s₁.angular k 2, s₂.angular l 2, v) * R t u v) *
          (-2 * Real.pi / (s₁.exponents i + s₂.exponents j))) := by
    intro nuc
    rw [potential_integral s₁ s₂ h₁ h₂, Finset.mul_sum]
    refine Finset.sum_congr rfl fun i _ => ?_
    rw [Finset.mul_sum]
    refine Finset.sum_congr rfl fun j _ => ?_
    have hL := fun d => Nat.add_le_add (angular_le s₁ k d) (angular_le s₂ l d)
    simp only
    rw [hermSum_table _ _ _ _ _ _ _ _ _ _ _ (hL 0) (hL 1) (hL 2), nuclear_prim (h₁ i) (h₂ j)]
    have e2 : ∀ s : ℝ, ∏ d, hermSum (s₁.center d) (s₂.center d) (s₁.exponents i) (s₂.exponents j) (s₁.angular k d)
        (s₂.angular l d) ((s₁.exponents i + s₂.exponents j) * s ^ 2)
        (productCenter (s₁.center d) (s₂.center d) (s₁.exponents i) (s₂.exponents j) - nuc.1 d) =
        (∑ t ∈ Finset.range (s₁.angular k 0 + s₂.angular l 0 + 1),
          pairExpansion s₁ s₂ i j 0 0 (s₁.angular k 0, s₂.angular l 0, t) *
            hg ((s₁.exponents i + s₂.exponents j) * s ^ 2) t
              (productCenter (s₁.center 0) (s₂.center 0) (s₁.exponents i) (s₂.exponents j) - nuc.1 0)) *
        (∑ t ∈ Finset.range (s₁.angular k 1 + s₂.angular l 1 + 1),
          pairExpansion s₁ s₂ i j 0 1 (s₁.angular k 1, s₂.angular l 1, t) *
            hg ((s₁.exponents i + s₂.exponents j) * s ^ 2) t
              (productCenter (s₁.center 1) (s₂.center 1) (s₁.exponents i) (s₂.exponents j) - nuc.1 1)) *
        (∑ t ∈ Finset.range (s₁.angular k 2 + s₂.angular l 2 + 1),
          pairExpansion s₁ s₂ i j 0 2 (s₁.angular k 2, s₂.angular l 2, t) *
            hg ((s₁.exponents i + s₂.exponents j) * s ^ 2) t
              (productCenter (s₁.center 2) (s₂.center 2) (s₁.exponents i) (s₂.exponents j) - nuc.1 2)) := by
      intro s
      rw [Fin.prod_univ_three]
      unfold hermSum
      congr 1
      · congr 1
        · exact Finset.sum_congr rfl fun t ht => by rw [pairExpansion_eq s₁ s₂ i j k l 0 ht]
        · exact Finset.sum_congr rfl fun t ht => by rw [pairExpansion_eq s₁ s₂ i j k l 1 ht]
      · exact Finset.sum_congr rfl fun t ht => by rw [pairExpansion_eq s₁ s₂ i j k l 2 ht]
    rw [intervalIntegral.integral_congr fun s _ => e2 s]
    ring
  unfold nuclearIntegral
  simp only [e]
  induction nuclei with
  | nil => simp
  | cons nuc nuclei ih =>
    rw [List.map_cons, List.sum_cons, ← ih, ← Finset.sum_add_distrib]
    refine Finset.sum_congr rfl fun i _ => ?_
    rw [← Finset.sum_add_distrib]
    refine Finset.sum_congr rfl fun j _ => ?_
    rw [List.map_cons, List.sum_cons]
    ring

/-! ## Repulsion -/

/-- The sum over two tables of expansion coefficients and the Hermite Coulomb integrals as one integral. -/
theorem hermSum2_table (c X Y Z : ℝ) (e f g e' f' g' : ℕ → ℝ) (n₁ n₂ n₃ m₁ m₂ m₃ L : ℕ) (h₁ : n₁ + m₁ ≤ L)
    (h₂ : n₂ + m₂ ≤ L) (h₃ : n₃ + m₃ ≤ L) :
    ∑ τ ∈ Finset.range (m₁ + 1), ∑ ν ∈ Finset.range (m₂ + 1), ∑ φ ∈ Finset.range (m₃ + 1),
      ∑ t ∈ Finset.range (n₁ + 1), ∑ u ∈ Finset.range (n₂ + 1), ∑ v ∈ Finset.range (n₃ + 1),
      (-1) ^ (τ + ν + φ) * e' τ * f' ν * g' φ * e t * f u * g v *
        hermiteCoulomb boysExact L L L c X Y Z (t + τ) (u + ν) (v + φ) =
    ∫ s in (0 : ℝ)..1, (∑ τ ∈ Finset.range (m₁ + 1), ∑ t ∈ Finset.range (n₁ + 1),
        e t * e' τ * ((-1) ^ τ * hg (c * s ^ 2) (t + τ) X)) *
      (∑ ν ∈ Finset.range (m₂ + 1), ∑ u ∈ Finset.range (n₂ + 1),
        f u * f' ν * ((-1) ^ ν * hg (c * s ^ 2) (u + ν) Y)) *
      ∑ φ ∈ Finset.range (m₃ + 1), ∑ v ∈ Finset.range (n₃ + 1),
        g v * g' φ * ((-1) ^ φ * hg (c * s ^ 2) (v + φ) Z) := by
  have hterm : ∀ τ ν φ t u v, Continuous fun s : ℝ => e t * e' τ * ((-1) ^ τ * hg (c * s ^ 2) (t + τ) X) *
      (f u * f' ν * ((-1) ^ ν * hg (c * s ^ 2) (u + ν) Y)) * (g v * g' φ * ((-1) ^ φ * hg (c * s ^ 2) (v + φ) Z)) :=
    fun τ ν φ t u v =>
    ((continuous_const.mul (continuous_const.mul (hg_scaled_continuous c _ X))).mul
      (continuous_const.mul (continuous_const.mul (hg_scaled_continuous c _ Y)))).mul
      (continuous_const.mul (continuous_const.mul (hg_scaled_continuous c _ Z)))
  simp only [← sum_three_factor]
  rw [intervalIntegral.integral_finsetSum fun τ _ => (continuous_finsetSum _ fun ν _ =>
    continuous_finsetSum _ fun φ _ => continuous_finsetSum _ fun t _ => continuous_finsetSum _ fun u _ =>
    continuous_finsetSum _ fun v _ => hterm τ ν φ t u v).intervalIntegrable _ _]
  refine Finset.sum_congr rfl fun τ hτ => ?_
  rw [intervalIntegral.integral_finsetSum fun ν _ => (
    continuous_finsetSum _ fun φ _ => continuous_finsetSum _ fun t _ => continuous_finsetSum _ fun u _ =>
    continuous_finsetSum _ fun v _ => hterm τ ν φ t u v).intervalIntegrable _ _]
  refine Finset.sum_congr rfl fun ν hν => ?_
  rw [intervalIntegral.integral_finsetSum fun φ _ => (
    continuous_finsetSum _ fun t _ => continuous_finsetSum _ fun u _ =>
    continuous_finsetSum _ fun v _ => hterm τ ν φ t u v).intervalIntegrable _ _]
  refine Finset.sum_congr rfl fun φ hφ => ?_
  rw [intervalIntegral.integral_finsetSum fun t _ => (continuous_finsetSum _ fun u _ =>
    continuous_finsetSum _ fun v _ => hterm τ ν φ t u v).intervalIntegrable _ _]
  refine Finset.sum_congr rfl fun t ht => ?_
  rw [intervalIntegral.integral_finsetSum fun u _ => (continuous_finsetSum _ fun v _ =>
    hterm τ ν φ t u v).intervalIntegrable _ _]
  refine Finset.sum_congr rfl fun u hu => ?_
  rw [intervalIntegral.integral_finsetSum fun v _ => (hterm τ ν φ t u v).intervalIntegrable _ _]
  refine Finset.sum_congr rfl fun v hv => ?_
  rw [Finset.mem_range] at ht hu hv hτ hν hφ
  rw [hermiteCoulomb_exact _ _ _ _ _ _ _ _ _ _ (by omega) (by omega) (by omega), ← intervalIntegral.integral_const_mul]
  exact intervalIntegral.integral_congr fun s _ => by simp only [pow_add]; ring

theorem repulsion_pair (s₁ s₂ s₃ s₄ : GShell) (h₁ : s₁.Positive) (h₂ : s₂.Positive) (h₃ : s₃.Positive)
    (h₄ : s₄.Positive) (a : Fin s₁.nbf) (b : Fin s₂.nbf) (c : Fin s₃.nbf) (d : Fin s₄.nbf) :
    ∫ r, shellFunction s₁ a r * shellFunction s₂ b r *
        ∫ r', shellFunction s₃ c r' * shellFunction s₄ d r' * (dist3 r r')⁻¹ =
      ∑ i, ∑ j, s₁.norm a i * s₁.coefficients i * (s₂.norm b j * s₂.coefficients j) *
        ∑ k, ∑ l, s₃.norm c k * s₃.coefficients k * (s₄.norm d l * s₄.coefficients l) *
          ∫ r, prim s₁.center (s₁.exponents i) (s₁.angular a) r * prim s₂.center (s₂.exponents j) (s₂.angular b) r *
            ∫ r', prim s₃.center (s₃.exponents k) (s₃.angular c) r' *
              prim s₄.center (s₄.exponents l) (s₄.angular d) r' * (dist3 r r')⁻¹ := by
  have e : ∀ r, ∫ r', shellFunction s₃ c r' * shellFunction s₄ d r' * (dist3 r r')⁻¹ =
      ∑ k, ∑ l, s₃.norm c k * s₃.coefficients k * (s₄.norm d l * s₄.coefficients l) *
        ∫ r', prim s₃.center (s₃.exponents k) (s₃.angular c) r' *
          prim s₄.center (s₄.exponents l) (s₄.angular d) r' * (dist3 r r')⁻¹ := by
    intro r
    simp only [dist3_comm r]
    exact potential_integral s₃ s₄ h₃ h₄ c d r
  have e2 : ∀ i j r, prim s₁.center (s₁.exponents i) (s₁.angular a) r *
      prim s₂.center (s₂.exponents j) (s₂.angular b) r *
      (∫ r', shellFunction s₃ c r' * shellFunction s₄ d r' * (dist3 r r')⁻¹) =
      ∑ k, ∑ l, s₃.norm c k * s₃.coefficients k * (s₄.norm d l * s₄.coefficients l) *
        (prim s₁.center (s₁.exponents i) (s₁.angular a) r * prim s₂.center (s₂.exponents j) (s₂.angular b) r *
        ∫ r', prim s₃.center (s₃.exponents k) (s₃.angular c) r' *
          prim s₄.center (s₄.exponents l) (s₄.angular d) r' * (dist3 r r')⁻¹) := by
    intro i j r
    rw [e, Finset.mul_sum]
    refine Finset.sum_congr rfl fun k _ => ?_
    rw [Finset.mul_sum]
    exact Finset.sum_congr rfl fun l _ => by ring
  have hint : ∀ i j k l, Integrable fun r =>
      s₃.norm c k * s₃.coefficients k * (s₄.norm d l * s₄.coefficients l) *
        (prim s₁.center (s₁.exponents i) (s₁.angular a) r * prim s₂.center (s₂.exponents j) (s₂.angular b) r *
        ∫ r', prim s₃.center (s₃.exponents k) (s₃.angular c) r' *
          prim s₄.center (s₄.exponents l) (s₄.angular d) r' * (dist3 r r')⁻¹) := fun i j k l =>
    (repulsion_prim (h₁ i) (h₂ j) (h₃ k) (h₄ l) _ _ _ _ _ _ _ _).1.const_mul _
  refine pair_integral s₁ s₂ a b _ _ (fun i j => ?_) fun i j => ?_
  · simp only [e2]
    exact integrable_finsetSum _ fun k _ => integrable_finsetSum _ fun l _ => hint i j k l
  · simp only [e2]
    rw [integral_finsetSum _ fun k _ => integrable_finsetSum _ fun l _ => hint i j k l]
    refine Finset.sum_congr rfl fun k _ => ?_
    rw [integral_finsetSum _ fun l _ => hint i j k l]
    exact Finset.sum_congr rfl fun l _ => integral_const_mul _ _

theorem repulsionIntegral_exact (s₁ s₂ s₃ s₄ : GShell) (h₁ : s₁.Positive) (h₂ : s₂.Positive) (h₃ : s₃.Positive)
    (h₄ : s₄.Positive) (a : Fin s₁.nbf) (b : Fin s₂.nbf) (c : Fin s₃.nbf) (d : Fin s₄.nbf) :
    repulsionIntegral boysExact s₁ s₂ s₃ s₄ a b c d =
      ∫ r, shellFunction s₁ a r * shellFunction s₂ b r *
        ∫ r', shellFunction s₃ c r' * shellFunction s₄ d r' * (dist3 r r')⁻¹ := by
  rw [repulsion_pair s₁ s₂ s₃ s₄ h₁ h₂ h₃ h₄]
  unfold repulsionIntegral
  refine Finset.sum_congr rfl fun i _ => Finset.sum_congr rfl fun j _ => ?_
  rw [Finset.mul_sum]
  refine Finset.sum_congr rfl fun k _ => ?_
  rw [Finset.mul_sum]
  refine Finset.sum_congr rfl fun l _ => ?_
  simp only
  have hL : ∀ x, s₁.angular a x + s₂.angular b x + (s₃.angular c x + s₄.angular d x) ≤
      s₁.maxAng + s₂.maxAng + s₃.maxAng + s₄.maxAng := fun x => by
    have := angular_le s₁ a x
    have := angular_le s₂ b x
    have := angular_le s₃ c x
    have := angular_le s₄ d x
    omega
  rw [hermSum2_table _ _ _ _ _ _ _ _ _ _ _ _ _ _ _ _ _ (hL 0) (hL 1) (hL 2),
    (repulsion_prim (h₁ i) (h₂ j) (h₃ k) (h₄ l) _ _ _ _ _ _ _ _).2]
  have e2 : ∀ s : ℝ, ∏ x, hermSum2 (s₁.center x) (s₂.center x) (s₁.exponents i) (s₂.exponents j) (s₁.angular a x)
      (s₂.angular b x) (s₃.center x) (s₄.center x) (s₃.exponents k) (s₄.exponents l) (s₃.angular c x)
      (s₄.angular d x) ((s₁.exponents i + s₂.exponents j) * (s₃.exponents k + s₄.exponents l) /
        (s₁.exponents i + s₂.exponents j + (s₃.exponents k + s₄.exponents l)) * s ^ 2)
      (productCenter (s₁.center x) (s₂.center x) (s₁.exponents i) (s₂.exponents j) -
        productCenter (s₃.center x) (s₄.center x) (s₃.exponents k) (s₄.exponents l)) =
      ∏ x, ∑ τ ∈ Finset.range (s₃.angular c x + s₄.angular d x + 1),
        ∑ t ∈ Finset.range (s₁.angular a x + s₂.angular b x + 1),
          pairExpansion s₁ s₂ i j 0 x (s₁.angular a x, s₂.angular b x, t) *
          pairExpansion s₃ s₄ k l 0 x (s₃.angular c x, s₄.angular d x, τ) * ((-1) ^ τ *
            hg ((s₁.exponents i + s₂.exponents j) * (s₃.exponents k + s₄.exponents l) /
              (s₁.exponents i + s₂.exponents j + (s₃.exponents k + s₄.exponents l)) * s ^ 2) (t + τ)
              (productCenter (s₁.center x) (s₂.center x) (s₁.exponents i) (s₂.exponents j) -
                productCenter (s₃.center x) (s₄.center x) (s₃.exponents k) (s₄.exponents l))) := by
    intro s
    refine Finset.prod_congr rfl fun x _ => ?_
    unfold hermSum2
    refine Finset.sum_congr rfl fun τ hτ => Finset.sum_congr rfl fun t ht => ?_
    rw [pairExpansion_eq s₁ s₂ i j a b x ht, pairExpansion_eq s₃ s₄ k l c d x hτ]
  rw [intervalIntegral.integral_congr fun s _ => e2 s]
  simp only [Fin.prod_univ_three]
  ring

end SQ
