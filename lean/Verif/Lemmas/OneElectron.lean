import Mathlib.MeasureTheory.Integral.Pi
import Verif.Lemmas.Expansion

/-!
# Lemmas: one-electron integrals over contracted functions
-/

namespace SQ

open MeasureTheory Real

/-- A primitive Cartesian Gaussian in space. -/
noncomputable def prim (R : Fin 3 → ℝ) (α : ℝ) (l : Fin 3 → ℕ) (r : Fin 3 → ℝ) : ℝ := ∏ d, cart (R d) α (l d) (r d)

theorem prim_eq (R : Fin 3 → ℝ) (α : ℝ) (l : Fin 3 → ℕ) (r : Fin 3 → ℝ) :
    prim R α l r = (∏ d, (r d - R d) ^ l d) * exp (-α * ∑ d, (r d - R d) ^ 2) := by
  unfold prim cart
  rw [Finset.prod_mul_distrib, ← exp_sum, Finset.mul_sum]

theorem shellFunction_eq (s : GShell) (k : Fin s.nbf) (r : Fin 3 → ℝ) :
    shellFunction s k r = ∑ i, s.norm k i * s.coefficients i * prim s.center (s.exponents i) (s.angular k) r := by
  unfold shellFunction
  exact Finset.sum_congr rfl fun i _ => by rw [prim_eq]

theorem angular_le (s : GShell) (k : Fin s.nbf) (d : Fin 3) : s.angular k d ≤ s.maxAng := by
  unfold GShell.maxAng
  exact (Finset.le_sup (f := fun d => s.angular k d) (Finset.mem_univ d)).trans
    (Finset.le_sup (f := fun k : Fin s.nbf => Finset.univ.sup fun d => s.angular k d) (Finset.mem_univ k))

/-- Integrals over two contracted functions are sums of integrals over primitives. -/
theorem pair_integral (s₁ s₂ : GShell) (k : Fin s₁.nbf) (l : Fin s₂.nbf) (W : (Fin 3 → ℝ) → ℝ)
    (V : Fin s₁.nprim → Fin s₂.nprim → ℝ)
    (hint : ∀ i j, Integrable fun r => prim s₁.center (s₁.exponents i) (s₁.angular k) r *
      prim s₂.center (s₂.exponents j) (s₂.angular l) r * W r)
    (hV : ∀ i j, ∫ r, prim s₁.center (s₁.exponents i) (s₁.angular k) r *
      prim s₂.center (s₂.exponents j) (s₂.angular l) r * W r = V i j) :
    ∫ r, shellFunction s₁ k r * shellFunction s₂ l r * W r =
      ∑ i, ∑ j, s₁.norm k i * s₁.coefficients i * (s₂.norm l j * s₂.coefficients j) * V i j := by
  have e : ∀ r, shellFunction s₁ k r * shellFunction s₂ l r * W r =
      ∑ i, ∑ j, s₁.norm k i * s₁.coefficients i * (s₂.norm l j * s₂.coefficients j) *
        (prim s₁.center (s₁.exponents i) (s₁.angular k) r * prim s₂.center (s₂.exponents j) (s₂.angular l) r * W r) := by
    intro r
    rw [shellFunction_eq, shellFunction_eq, Finset.sum_mul_sum, Finset.sum_mul]
    refine Finset.sum_congr rfl fun i _ => ?_
    rw [Finset.sum_mul]
    exact Finset.sum_congr rfl fun j _ => by ring
  rw [integral_congr_ae (Filter.Eventually.of_forall e), integral_finset_sum]
  · refine Finset.sum_congr rfl fun i _ => ?_
    rw [integral_finset_sum]
    · exact Finset.sum_congr rfl fun j _ => by rw [integral_const_mul, hV]
    · exact fun j _ => (hint i j).const_mul _
  · exact fun i _ => integrable_finset_sum _ fun j _ => (hint i j).const_mul _

/-! ## Multipole moments -/

theorem prim_moment_integrand (R₁ R₂ O : Fin 3 → ℝ) (a b : ℝ) (l₁ l₂ m : Fin 3 → ℕ) (r : Fin 3 → ℝ) :
    prim R₁ a l₁ r * prim R₂ b l₂ r * ∏ d, (r d - O d) ^ m d =
      ∏ d, (cart (R₁ d) a (l₁ d) (r d) * cart (R₂ d) b (l₂ d) (r d) * (r d - O d) ^ m d) := by
  unfold prim
  rw [← Finset.prod_mul_distrib, ← Finset.prod_mul_distrib]

theorem prim_moment_integrable {a b : ℝ} (h : 0 < a + b) (R₁ R₂ O : Fin 3 → ℝ) (l₁ l₂ m : Fin 3 → ℕ) :
    Integrable fun r : Fin 3 → ℝ => prim R₁ a l₁ r * prim R₂ b l₂ r * ∏ d, (r d - O d) ^ m d := by
  simp only [prim_moment_integrand]
  exact Integrable.fintype_prod fun d => cart_pair_integrable h (R₁ d) (R₂ d) (O d) (l₁ d) (l₂ d) (m d)

theorem prim_moment_integral {a b : ℝ} (R₁ R₂ O : Fin 3 → ℝ) (l₁ l₂ m : Fin 3 → ℕ) :
    ∫ r : Fin 3 → ℝ, prim R₁ a l₁ r * prim R₂ b l₂ r * ∏ d, (r d - O d) ^ m d =
      ∏ d, ∫ x : ℝ, cart (R₁ d) a (l₁ d) x * cart (R₂ d) b (l₂ d) x * (x - O d) ^ m d := by
  simp only [prim_moment_integrand]
  exact integral_fintype_prod_volume_eq_prod
    (fun d x => cart (R₁ d) a (l₁ d) x * cart (R₂ d) b (l₂ d) x * (x - O d) ^ m d)

theorem sum_three_factor (f₀ f₁ f₂ : ℕ → ℝ) (S₀ S₁ S₂ : Finset ℕ) :
    ∑ t ∈ S₀, ∑ u ∈ S₁, ∑ v ∈ S₂, f₀ t * f₁ u * f₂ v = (∑ t ∈ S₀, f₀ t) * (∑ u ∈ S₁, f₁ u) * ∑ v ∈ S₂, f₂ v := by
  rw [Finset.sum_mul_sum, Finset.sum_mul]
  refine Finset.sum_congr rfl fun t _ => ?_
  rw [Finset.sum_mul]
  refine Finset.sum_congr rfl fun u _ => ?_
  rw [Finset.mul_sum]

theorem multipoleIntegral_exact (s₁ s₂ : GShell) (h₁ : s₁.Positive) (h₂ : s₂.Positive) (O : Fin 3 → ℝ)
    (m : Fin 3 → ℕ) (k : Fin s₁.nbf) (l : Fin s₂.nbf) :
    multipoleIntegral O m s₁ s₂ k l =
      ∫ r, shellFunction s₁ k r * shellFunction s₂ l r * ∏ d, (r d - O d) ^ m d := by
  have hpos : ∀ i j, 0 < s₁.exponents i + s₂.exponents j := fun i j => add_pos (h₁ i) (h₂ j)
  rw [pair_integral s₁ s₂ k l _ _ (fun i j => prim_moment_integrable (hpos i j) _ _ O _ _ m) fun i j =>
    prim_moment_integral _ _ O _ _ m]
  unfold multipoleIntegral
  refine Finset.sum_congr rfl fun i _ => Finset.sum_congr rfl fun j _ => ?_
  simp only [Fin.prod_univ_three, pairExpansion, Nat.add_zero]
  have ang₁ := angular_le s₁ k
  have ang₂ := angular_le s₂ l
  rw [← cart_pair_integral_table (hpos i j) _ _ (O 0) _ _ (m 0) _ _ (ang₁ 0) (ang₂ 0),
    ← cart_pair_integral_table (hpos i j) _ _ (O 1) _ _ (m 1) _ _ (ang₁ 1) (ang₂ 1),
    ← cart_pair_integral_table (hpos i j) _ _ (O 2) _ _ (m 2) _ _ (ang₁ 2) (ang₂ 2), ← sum_three_factor]
  rw [show ∀ a b c d e : ℝ, a * b * (e * (c * d)) = c * a * (d * b) * e by intros; ring]
  congr 1
  refine Finset.sum_congr rfl fun t _ => Finset.sum_congr rfl fun u _ => Finset.sum_congr rfl fun v _ => ?_
  ring

/-! ## Kinetic energy -/

/-- The second derivative of a Cartesian Gaussian. -/
noncomputable def cart2 (A a : ℝ) (i : ℕ) (x : ℝ) : ℝ :=
  4 * a ^ 2 * cart A a (i + 2) x - 2 * a * (2 * i + 1) * cart A a i x + (i : ℝ) * ((i : ℝ) - 1) * cart A a (i - 2) x

theorem cart_hasDeriv (A a : ℝ) (i : ℕ) (x : ℝ) :
    HasDerivAt (cart A a i) (i * cart A a (i - 1) x - 2 * a * cart A a (i + 1) x) x := by
  have h1 : HasDerivAt (fun x : ℝ => (x - A) ^ i) (i * (x - A) ^ (i - 1)) x := by
    simpa using ((hasDerivAt_id' x).sub_const A).fun_pow i
  have h2 : HasDerivAt (fun x : ℝ => exp (-a * (x - A) ^ 2)) (exp (-a * (x - A) ^ 2) * (-a * (2 * (x - A)))) x := by
    have := ((((hasDerivAt_id' x).sub_const A).fun_pow 2).const_mul (-a)).exp
    simpa using this
  refine (h1.mul h2).congr_deriv ?_
  unfold cart
  ring

theorem cart_hasDeriv2 (A a : ℝ) (i : ℕ) (x : ℝ) :
    HasDerivAt (fun x => i * cart A a (i - 1) x - 2 * a * cart A a (i + 1) x) (cart2 A a i x) x := by
  refine (((cart_hasDeriv A a (i - 1) x).const_mul (i : ℝ)).sub
    ((cart_hasDeriv A a (i + 1) x).const_mul (2 * a))).congr_deriv ?_
  unfold cart2
  rcases i with _ | _ | i
  · simp; ring
  · simp; ring
  · simp only [Nat.add_sub_cancel, show i + 1 + 1 - 1 = i + 1 from rfl, show i + 1 + 1 - 2 = i from rfl,
      show i + 1 + 1 + 1 - 1 = i + 1 + 1 from rfl, show i + 1 - 1 = i from rfl]
    push_cast
    ring

theorem cart_iteratedDeriv2 (A a : ℝ) (i : ℕ) (x : ℝ) : iteratedDeriv 2 (cart A a i) x = cart2 A a i x := by
  rw [iteratedDeriv_succ, iteratedDeriv_one]
  have : deriv (cart A a i) = fun x => i * cart A a (i - 1) x - 2 * a * cart A a (i + 1) x := by
    funext y; exact (cart_hasDeriv A a i y).deriv
  rw [this]
  exact (cart_hasDeriv2 A a i x).deriv

theorem cart_cart_integrable {a b : ℝ} (h : 0 < a + b) (A B : ℝ) (i j : ℕ) :
    Integrable fun x : ℝ => cart A a i x * cart B b j x := by
  simpa using cart_pair_integrable h A B 0 i j 0

theorem cart2_cart_integrable {a b : ℝ} (h : 0 < a + b) (A B : ℝ) (i j : ℕ) :
    Integrable fun x : ℝ => cart2 A a i x * cart B b j x := by
  have := (((cart_cart_integrable h A B (i + 2) j).const_mul (4 * a ^ 2)).sub
    ((cart_cart_integrable h A B i j).const_mul (2 * a * (2 * i + 1)))).add
    ((cart_cart_integrable h A B (i - 2) j).const_mul ((i : ℝ) * ((i : ℝ) - 1)))
  refine this.congr (Filter.Eventually.of_forall fun x => ?_)
  simp only [cart2, Pi.add_apply, Pi.sub_apply]
  ring

theorem cart_cart2_integrable {a b : ℝ} (h : 0 < a + b) (A B : ℝ) (i j : ℕ) :
    Integrable fun x : ℝ => cart A a i x * cart2 B b j x := by
  refine (cart2_cart_integrable (by linarith : 0 < b + a) B A j i).congr (Filter.Eventually.of_forall fun x => ?_)
  simp only
  ring

/-- The second derivative may be taken of either function. -/
theorem cart2_symm {a b : ℝ} (h : 0 < a + b) (A B : ℝ) (i j : ℕ) :
    ∫ x : ℝ, cart2 A a i x * cart B b j x = ∫ x : ℝ, cart A a i x * cart2 B b j x := by
  have hd : ∀ x : ℝ, HasDerivAt
      (fun x => (i * cart A a (i - 1) x - 2 * a * cart A a (i + 1) x) * cart B b j x -
        cart A a i x * (j * cart B b (j - 1) x - 2 * b * cart B b (j + 1) x))
      (cart2 A a i x * cart B b j x - cart A a i x * cart2 B b j x) x := by
    intro x
    refine (((cart_hasDeriv2 A a i x).mul (cart_hasDeriv B b j x)).sub
      ((cart_hasDeriv A a i x).mul (cart_hasDeriv2 B b j x))).congr_deriv ?_
    ring
  have i1 := cart2_cart_integrable h A B i j
  have i2 := cart_cart2_integrable h A B i j
  have hf : Integrable fun x => (i * cart A a (i - 1) x - 2 * a * cart A a (i + 1) x) * cart B b j x -
        cart A a i x * (j * cart B b (j - 1) x - 2 * b * cart B b (j + 1) x) := by
    have := (((cart_cart_integrable h A B (i - 1) j).const_mul (i : ℝ)).sub
      ((cart_cart_integrable h A B (i + 1) j).const_mul (2 * a))).sub
      (((cart_cart_integrable h A B i (j - 1)).const_mul (j : ℝ)).sub
      ((cart_cart_integrable h A B i (j + 1)).const_mul (2 * b)))
    refine this.congr (Filter.Eventually.of_forall fun x => ?_)
    simp only [Pi.sub_apply]
    ring
  have h0 := integral_eq_zero_of_hasDerivAt_of_integrable hd (i1.sub i2) hf
  rw [integral_sub i1 i2] at h0
  linarith

theorem cart_overlap {a b : ℝ} (h : 0 < a + b) (A B : ℝ) (i j la lb : ℕ) (hi : i ≤ la) (hj : j ≤ lb) :
    ∫ x : ℝ, cart A a i x * cart B b j x = expansionCoefficients A B a b la lb (i, j, 0) * √(π / (a + b)) := by
  have := cart_pair_integral h A B 0 i j 0
  simp only [pow_zero, mul_one] at this
  rw [this, Finset.sum_eq_single 0]
  · rw [momentExact_zero h, if_pos rfl, (expansionCoefficients_eq A B a b la lb).1 i j 0 hi hj (by omega)]
  · intro t _ ht
    rw [momentExact_zero h, if_neg ht, mul_zero]
  · simp

theorem cart2_overlap {a b : ℝ} (h : 0 < a + b) (A B : ℝ) (i j la lb : ℕ) (hi : i + 2 ≤ la) (hj : j ≤ lb) :
    ∫ x : ℝ, cart2 A a i x * cart B b j x =
      kineticD2 a (expansionCoefficients A B a b la lb) i j * √(π / (a + b)) := by
  have := integral_three (cart_cart_integrable h A B (i + 2) j) (cart_cart_integrable h A B i j)
    (cart_cart_integrable h A B (i - 2) j) (4 * a ^ 2) (-(2 * a * (2 * i + 1))) ((i : ℝ) * ((i : ℝ) - 1))
  rw [cart_overlap h A B _ _ la lb hi hj, cart_overlap h A B _ _ la lb (by omega : i ≤ la) hj,
    cart_overlap h A B _ _ la lb (by omega : i - 2 ≤ la) hj] at this
  unfold kineticD2
  rw [show ∀ x y z s : ℝ, (4 * a ^ 2 * x - 2 * a * (2 * i + 1) * y + (i : ℝ) * ((i : ℝ) - 1) * z) * s =
    4 * a ^ 2 * (x * s) + -(2 * a * (2 * i + 1)) * (y * s) + (i : ℝ) * ((i : ℝ) - 1) * (z * s) by intros; ring, ← this]
  refine integral_congr_ae (Filter.Eventually.of_forall fun x => ?_)
  simp only [cart2]
  ring

/-- The Laplacian of a primitive. -/
theorem laplacian_prim (R : Fin 3 → ℝ) (α : ℝ) (l : Fin 3 → ℕ) (r : Fin 3 → ℝ) :
    (∀ d, ContDiff ℝ 2 fun y => prim R α l (Function.update r d y)) ∧
    ∀ d, iteratedDeriv 2 (fun y => prim R α l (Function.update r d y)) (r d) =
      ∏ e, (if e = d then cart2 (R e) α (l e) (r e) else cart (R e) α (l e) (r e)) := by
  have e : ∀ d, (fun y => prim R α l (Function.update r d y)) =
      fun y => (∏ e ∈ Finset.univ.erase d, cart (R e) α (l e) (r e)) * cart (R d) α (l d) y := by
    intro d; funext y
    unfold prim
    rw [← Finset.prod_erase_mul _ _ (Finset.mem_univ d), Function.update_self]
    congr 1
    refine Finset.prod_congr rfl fun e he => ?_
    rw [Function.update_of_ne (Finset.ne_of_mem_erase he)]
  have hc : ∀ d, ContDiff ℝ 2 (cart (R d) α (l d)) := by
    intro d; unfold cart; fun_prop
  refine ⟨fun d => ?_, fun d => ?_⟩
  · rw [e]; exact contDiff_const.mul (hc d)
  · rw [e, iteratedDeriv_const_mul_field, cart_iteratedDeriv2, ← Finset.prod_erase_mul _ _ (Finset.mem_univ d),
      if_pos rfl]
    congr 1
    refine Finset.prod_congr rfl fun e he => ?_
    rw [if_neg (Finset.ne_of_mem_erase he)]

/-- The Laplacian of a contracted function. -/
theorem laplacian_shell (s : GShell) (k : Fin s.nbf) (r : Fin 3 → ℝ) :
    laplacian3 (shellFunction s k) r = ∑ i, s.norm k i * s.coefficients i *
      ∑ d, ∏ e, (if e = d then cart2 (s.center e) (s.exponents i) (s.angular k e) (r e)
        else cart (s.center e) (s.exponents i) (s.angular k e) (r e)) := by
  unfold laplacian3
  have : ∀ d, iteratedDeriv 2 (fun y => shellFunction s k (Function.update r d y)) (r d) =
      ∑ i, s.norm k i * s.coefficients i * ∏ e, (if e = d then cart2 (s.center e) (s.exponents i) (s.angular k e) (r e)
        else cart (s.center e) (s.exponents i) (s.angular k e) (r e)) := by
    intro d
    simp only [shellFunction_eq]
    rw [iteratedDeriv_fun_sum]
    · refine Finset.sum_congr rfl fun i _ => ?_
      rw [iteratedDeriv_const_mul_field, (laplacian_prim s.center (s.exponents i) (s.angular k) r).2 d]
    · intro i _
      exact (contDiff_const.mul ((laplacian_prim s.center (s.exponents i) (s.angular k) r).1 d)).contDiffAt
  simp only [this]
  rw [Finset.sum_comm]
  exact Finset.sum_congr rfl fun i _ => (Finset.mul_sum _ _ _).symm

/-- The integrand of the kinetic energy along one axis. -/
theorem kinetic_axis {a b : ℝ} (h : 0 < a + b) (R₁ R₂ : Fin 3 → ℝ) (l₁ l₂ : Fin 3 → ℕ) (d : Fin 3) :
    (Integrable fun r : Fin 3 → ℝ =>
      (∏ e, (if e = d then cart2 (R₁ e) a (l₁ e) (r e) else cart (R₁ e) a (l₁ e) (r e))) * prim R₂ b l₂ r) ∧
    ∫ r : Fin 3 → ℝ,
      (∏ e, (if e = d then cart2 (R₁ e) a (l₁ e) (r e) else cart (R₁ e) a (l₁ e) (r e))) * prim R₂ b l₂ r =
      ∏ e, ∫ x : ℝ, (if e = d then cart2 (R₁ e) a (l₁ e) x else cart (R₁ e) a (l₁ e) x) * cart (R₂ e) b (l₂ e) x := by
  unfold prim
  simp only [← Finset.prod_mul_distrib]
  refine ⟨?_, integral_fintype_prod_volume_eq_prod (fun e x =>
    (if e = d then cart2 (R₁ e) a (l₁ e) x else cart (R₁ e) a (l₁ e) x) * cart (R₂ e) b (l₂ e) x)⟩
  refine Integrable.fintype_prod (f := fun e x =>
    (if e = d then cart2 (R₁ e) a (l₁ e) x else cart (R₁ e) a (l₁ e) x) * cart (R₂ e) b (l₂ e) x) fun e => ?_
  by_cases he : e = d
  · simp only [if_pos he]; exact cart2_cart_integrable h _ _ _ _
  · simp only [if_neg he]; exact cart_cart_integrable h _ _ _ _

/-- The integral of the Laplacian of one function times another. -/
theorem laplacian_pair_integral (s₁ s₂ : GShell) (h₁ : s₁.Positive) (h₂ : s₂.Positive) (k : Fin s₁.nbf)
    (l : Fin s₂.nbf) :
    ∫ r, laplacian3 (shellFunction s₁ k) r * shellFunction s₂ l r =
      ∑ i, ∑ j, s₁.norm k i * s₁.coefficients i * (s₂.norm l j * s₂.coefficients j) *
        ∑ d, ∏ e, ∫ x : ℝ, (if e = d then cart2 (s₁.center e) (s₁.exponents i) (s₁.angular k e) x
          else cart (s₁.center e) (s₁.exponents i) (s₁.angular k e) x) *
            cart (s₂.center e) (s₂.exponents j) (s₂.angular l e) x := by
  have hpos : ∀ i j, 0 < s₁.exponents i + s₂.exponents j := fun i j => add_pos (h₁ i) (h₂ j)
  have e : ∀ r, laplacian3 (shellFunction s₁ k) r * shellFunction s₂ l r =
      ∑ i, ∑ j, s₁.norm k i * s₁.coefficients i * (s₂.norm l j * s₂.coefficients j) *
        ∑ d, (∏ e, (if e = d then cart2 (s₁.center e) (s₁.exponents i) (s₁.angular k e) (r e)
          else cart (s₁.center e) (s₁.exponents i) (s₁.angular k e) (r e))) *
            prim s₂.center (s₂.exponents j) (s₂.angular l) r := by
    intro r
    rw [laplacian_shell, shellFunction_eq, Finset.sum_mul_sum]
    refine Finset.sum_congr rfl fun i _ => Finset.sum_congr rfl fun j _ => ?_
    rw [← Finset.sum_mul]
    ring
  have hi : ∀ i j, Integrable fun r : Fin 3 → ℝ =>
      ∑ d, (∏ e, (if e = d then cart2 (s₁.center e) (s₁.exponents i) (s₁.angular k e) (r e)
          else cart (s₁.center e) (s₁.exponents i) (s₁.angular k e) (r e))) *
            prim s₂.center (s₂.exponents j) (s₂.angular l) r := fun i j =>
    integrable_finset_sum _ fun d _ => (kinetic_axis (hpos i j) _ _ _ _ d).1
  rw [integral_congr_ae (Filter.Eventually.of_forall e), integral_finset_sum]
  · refine Finset.sum_congr rfl fun i _ => ?_
    rw [integral_finset_sum]
    · refine Finset.sum_congr rfl fun j _ => ?_
      rw [integral_const_mul, integral_finset_sum _ fun d _ => (kinetic_axis (hpos i j) _ _ _ _ d).1]
      congr 1
      exact Finset.sum_congr rfl fun d _ => (kinetic_axis (hpos i j) _ _ _ _ d).2
    · exact fun j _ => (hi i j).const_mul _
  · exact fun i _ => integrable_finset_sum _ fun j _ => (hi i j).const_mul _

theorem laplacian_pair_symm (s₁ s₂ : GShell) (h₁ : s₁.Positive) (h₂ : s₂.Positive) (k : Fin s₁.nbf) (l : Fin s₂.nbf) :
    ∫ r, laplacian3 (shellFunction s₁ k) r * shellFunction s₂ l r =
      ∫ r, shellFunction s₁ k r * laplacian3 (shellFunction s₂ l) r := by
  have hpos : ∀ i j, 0 < s₁.exponents i + s₂.exponents j := fun i j => add_pos (h₁ i) (h₂ j)
  simp only [mul_comm (shellFunction s₁ k _)]
  rw [laplacian_pair_integral s₁ s₂ h₁ h₂, laplacian_pair_integral s₂ s₁ h₂ h₁, Finset.sum_comm]
  refine Finset.sum_congr rfl fun j _ => Finset.sum_congr rfl fun i _ => ?_
  rw [mul_comm (s₁.norm k i * s₁.coefficients i)]
  congr 1
  refine Finset.sum_congr rfl fun d _ => Finset.prod_congr rfl fun e _ => ?_
  by_cases he : e = d
  · simp only [if_pos he]
    rw [cart2_symm (hpos i j)]
    simp only [mul_comm]
  · simp only [if_neg he, mul_comm]

theorem kineticIntegral_exact (s₁ s₂ : GShell) (h₁ : s₁.Positive) (h₂ : s₂.Positive) (k : Fin s₁.nbf)
    (l : Fin s₂.nbf) :
    kineticIntegral s₁ s₂ k l = -(1 / 2) * ∫ r, shellFunction s₁ k r * laplacian3 (shellFunction s₂ l) r := by
  have hpos : ∀ i j, 0 < s₁.exponents i + s₂.exponents j := fun i j => add_pos (h₁ i) (h₂ j)
  rw [← laplacian_pair_symm s₁ s₂ h₁ h₂, laplacian_pair_integral s₁ s₂ h₁ h₂, Finset.mul_sum]
  unfold kineticIntegral
  refine Finset.sum_congr rfl fun i _ => ?_
  rw [Finset.mul_sum]
  refine Finset.sum_congr rfl fun j _ => ?_
  have hq : 0 ≤ π / (s₁.exponents i + s₂.exponents j) := (div_pos pi_pos (hpos i j)).le
  have hrt : (π / (s₁.exponents i + s₂.exponents j)) ^ (3 / 2 : ℝ) =
      √(π / (s₁.exponents i + s₂.exponents j)) * √(π / (s₁.exponents i + s₂.exponents j)) *
        √(π / (s₁.exponents i + s₂.exponents j)) := by
    rw [sqrt_eq_rpow, ← rpow_add_of_nonneg hq (by norm_num) (by norm_num),
      ← rpow_add_of_nonneg hq (by norm_num) (by norm_num)]
    norm_num
  have a₁ := angular_le s₁ k
  have a₂ := angular_le s₂ l
  have hS : ∀ e, ∫ x : ℝ, cart (s₁.center e) (s₁.exponents i) (s₁.angular k e) x *
      cart (s₂.center e) (s₂.exponents j) (s₂.angular l e) x = _ := fun e =>
    cart_overlap (hpos i j) (s₁.center e) (s₂.center e) (s₁.angular k e) (s₂.angular l e) (s₁.maxAng + 2)
      (s₂.maxAng + 2) (by have := a₁ e; omega) (by have := a₂ e; omega)
  have hD : ∀ e, ∫ x : ℝ, cart2 (s₁.center e) (s₁.exponents i) (s₁.angular k e) x *
      cart (s₂.center e) (s₂.exponents j) (s₂.angular l e) x = _ := fun e =>
    cart2_overlap (hpos i j) (s₁.center e) (s₂.center e) (s₁.angular k e) (s₂.angular l e) (s₁.maxAng + 2)
      (s₂.maxAng + 2) (by have := a₁ e; omega) (by have := a₂ e; omega)
  simp only [Fin.sum_univ_three, Fin.prod_univ_three, Fin.reduceEq, if_true, if_false, hS, hD, hrt, pairExpansion]
  ring

end SQ
