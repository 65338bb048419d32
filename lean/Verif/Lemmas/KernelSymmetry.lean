import Verif.Lemmas.Repulsion
import Verif.Lemmas.RepulsionDriver

/-!
# Lemmas: symmetries of the attraction and repulsion integrals for any Boys function
-/

namespace SQ

/-! ## A solution of the recursions -/

/-- The recursion along one axis. -/
noncomputable def axisRec (X : ℝ) (base : ℕ → ℝ) : ℕ → ℕ → ℝ
  | n, 0 => base n
  | n, 1 => X * base (n + 1)
  | n, t + 2 => ((t : ℝ) + 1) * axisRec X base (n + 1) t + X * axisRec X base (n + 1) (t + 1)

theorem axisRec_step (X : ℝ) (base : ℕ → ℝ) (n t : ℕ) :
    axisRec X base n (t + 1) = t * axisRec X base (n + 1) (t - 1) + X * axisRec X base (n + 1) t := by
  cases t with
  | zero => simp [axisRec]
  | succ t =>
    rw [axisRec]
    push_cast
    rfl

theorem axisRec_scale (X c : ℝ) (base : ℕ → ℝ) : ∀ (n t : ℕ),
    axisRec X (fun n => c * base n) n t = c * axisRec X base n t
  | n, 0 => rfl
  | n, 1 => by simp only [axisRec]; ring
  | n, t + 2 => by
    rw [axisRec, axisRec, axisRec_scale X c base (n + 1) t, axisRec_scale X c base (n + 1) (t + 1)]
    ring

theorem axisRec_neg (X : ℝ) (base : ℕ → ℝ) : ∀ (n t : ℕ), axisRec (-X) base n t = (-1) ^ t * axisRec X base n t
  | n, 0 => by simp [axisRec]
  | n, 1 => by simp [axisRec]
  | n, t + 2 => by
    rw [axisRec, axisRec, axisRec_neg X base (n + 1) t, axisRec_neg X base (n + 1) (t + 1), pow_add, pow_succ]
    ring

/-- The solution of the recursions of the Hermite Coulomb integrals. -/
noncomputable def coulombRec (F : ℕ → ℝ → ℝ) (p X Y Z : ℝ) (n t u v : ℕ) : ℝ :=
  axisRec X (fun n => axisRec Y (fun n => axisRec Z
    (fun n => (-2 * p) ^ n * F n (p * (X ^ 2 + Y ^ 2 + Z ^ 2))) n v) n u) n t

theorem coulombRec_spec (F : ℕ → ℝ → ℝ) (p X Y Z : ℝ) : CoulombRecursion F p X Y Z (coulombRec F p X Y Z) where
  zero := fun n => rfl
  stepX := fun n t u v => axisRec_step _ _ _ _
  stepY := fun n u v => axisRec_step _ _ _ _
  stepZ := fun n v => axisRec_step _ _ _ _

theorem coulombRec_neg (F : ℕ → ℝ → ℝ) (p X Y Z : ℝ) (n t u v : ℕ) :
    coulombRec F p (-X) (-Y) (-Z) n t u v = (-1) ^ (t + u + v) * coulombRec F p X Y Z n t u v := by
  unfold coulombRec
  simp only [axisRec_neg, neg_sq, axisRec_scale]
  rw [pow_add, pow_add]
  ring

/-! ## Exchanging the two functions of a pair -/

theorem raiseCoeff_shift (p x y : ℝ) (s : ℕ → ℝ) : raiseCoeff p x s = fun t => raiseCoeff p y s t + (x - y) * s t := by
  funext t
  unfold raiseCoeff
  ring

theorem raiseCoeff_linear (p x c : ℝ) (s s' : ℕ → ℝ) :
    raiseCoeff p x (fun t => s t + c * s' t) = fun t => raiseCoeff p x s t + c * raiseCoeff p x s' t := by
  funext t
  unfold raiseCoeff
  split_ifs <;> ring

theorem raiseCoeff_comm (p x y : ℝ) (s : ℕ → ℝ) :
    raiseCoeff p x (raiseCoeff p y s) = raiseCoeff p y (raiseCoeff p x s) := by
  rw [raiseCoeff_shift p x y s, raiseCoeff_linear, raiseCoeff_shift p x y (raiseCoeff p y s)]

theorem productCenter_swap (A B a b : ℝ) : productCenter B A b a = productCenter A B a b := by
  unfold productCenter
  rw [add_comm b a, add_comm (b * B)]

theorem expansionExact_swap (A B a b : ℝ) (i j : ℕ) : expansionExact B A b a j i = expansionExact A B a b i j := by
  unfold expansionExact
  rw [productCenter_swap, add_comm b a]
  have hc : Function.Commute (raiseCoeff (a + b) (productCenter A B a b - B))
      (raiseCoeff (a + b) (productCenter A B a b - A)) := fun s => raiseCoeff_comm _ _ _ s
  have := (hc.iterate_iterate j i) fun t => if t = 0 then Real.exp (-(a * b / (a + b)) * (A - B) ^ 2) else 0
  rw [← this]
  congr 2
  funext t
  rw [mul_comm b a, show (B - A) ^ 2 = (A - B) ^ 2 by ring]

/-! ## Integrals in terms of the recursions -/

section

variable (boys : ℕ → ℝ → ℝ)

theorem nuclearIntegral_table (nuclei : List ((Fin 3 → ℝ) × ℝ)) (s₁ s₂ : GShell) (k : Fin s₁.nbf) (l : Fin s₂.nbf) :
    nuclearIntegral boys nuclei s₁ s₂ k l = ∑ i, ∑ j, s₁.coefficients i * s₂.coefficients j *
      ((nuclei.map fun nuc =>
        let PC := fun d => productCenter (s₁.center d) (s₂.center d) (s₁.exponents i) (s₂.exponents j) - nuc.1 d
        let E := fun d => expansionExact (s₁.center d) (s₂.center d) (s₁.exponents i) (s₂.exponents j) (s₁.angular k d)
          (s₂.angular l d)
        s₁.norm k i * nuc.2 * s₂.norm l j *
          ∑ t ∈ Finset.range (s₁.angular k 0 + s₂.angular l 0 + 1),
          ∑ u ∈ Finset.range (s₁.angular k 1 + s₂.angular l 1 + 1),
          ∑ v ∈ Finset.range (s₁.angular k 2 + s₂.angular l 2 + 1),
            E 0 t * E 1 u * E 2 v *
              coulombRec boys (s₁.exponents i + s₂.exponents j) (PC 0) (PC 1) (PC 2) 0 t u v).sum *
        (-2 * Real.pi / (s₁.exponents i + s₂.exponents j))) := by
  unfold nuclearIntegral
  refine Finset.sum_congr rfl fun i _ => Finset.sum_congr rfl fun j _ => ?_
  congr 3
  refine List.map_congr_left fun nuc _ => ?_
  simp only
  congr 1
  have hL := fun d => Nat.add_le_add (angular_le s₁ k d) (angular_le s₂ l d)
  refine Finset.sum_congr rfl fun t ht => Finset.sum_congr rfl fun u hu => Finset.sum_congr rfl fun v hv => ?_
  rw [pairExpansion_eq s₁ s₂ i j k l 0 ht, pairExpansion_eq s₁ s₂ i j k l 1 hu, pairExpansion_eq s₁ s₂ i j k l 2 hv]
  rw [Finset.mem_range] at ht hu hv
  have h0 := hL 0
  have h1 := hL 1
  have h2 := hL 2
  rw [hermiteCoulomb_eq (coulombRec_spec boys _ _ _ _) _ _ _ _ _ _ (by omega) (by omega) (by omega)]

/-- The nuclear-attraction integral does not depend on the order of the functions. -/
theorem nuclearIntegral_symm (nuclei : List ((Fin 3 → ℝ) × ℝ)) (s₁ s₂ : GShell) (k : Fin s₁.nbf) (l : Fin s₂.nbf) :
    nuclearIntegral boys nuclei s₁ s₂ k l = nuclearIntegral boys nuclei s₂ s₁ l k := by
  rw [nuclearIntegral_table, nuclearIntegral_table, Finset.sum_comm]
  refine Finset.sum_congr rfl fun j _ => Finset.sum_congr rfl fun i _ => ?_
  simp only [productCenter_swap (s₁.center _), expansionExact_swap (s₁.center _), add_comm (s₂.exponents j),
    add_comm (s₂.angular l _)]
  congr 1
  · ring
  · congr 2
    refine List.map_congr_left fun nuc _ => ?_
    ring

theorem sum_swap33 {ι : Type} (A B C A' B' C' : Finset ι) (f : ι → ι → ι → ι → ι → ι → ℝ) :
    ∑ τ ∈ A, ∑ ν ∈ B, ∑ φ ∈ C, ∑ t ∈ A', ∑ u ∈ B', ∑ v ∈ C', f τ ν φ t u v =
      ∑ t ∈ A', ∑ u ∈ B', ∑ v ∈ C', ∑ τ ∈ A, ∑ ν ∈ B, ∑ φ ∈ C, f τ ν φ t u v := by
  have h1 : ∀ (A B C : Finset ι) (g : ι → ι → ι → ℝ), ∑ τ ∈ A, ∑ ν ∈ B, ∑ φ ∈ C, g τ ν φ =
      ∑ x ∈ A ×ˢ B ×ˢ C, g x.1 x.2.1 x.2.2 := by
    intro A B C g
    simp only [Finset.sum_product]
  simp only [h1]
  rw [Finset.sum_comm]

theorem sum_swap22 {α β γ δ : Type} [Fintype α] [Fintype β] [Fintype γ] [Fintype δ] (f : α → β → γ → δ → ℝ) :
    ∑ i, ∑ j, ∑ k, ∑ l, f i j k l = ∑ k, ∑ l, ∑ i, ∑ j, f i j k l := by
  have h1 : ∀ {α β : Type} [Fintype α] [Fintype β] (g : α → β → ℝ), ∑ i, ∑ j, g i j = ∑ x : α × β, g x.1 x.2 := by
    intro α β _ _ g
    rw [Fintype.sum_prod_type]
  rw [h1 fun i j => ∑ k, ∑ l, f i j k l, h1 fun k l => ∑ i, ∑ j, f i j k l]
  simp only [fun i j => h1 fun k l => f i j k l, fun k l => h1 fun i j => f i j k l]
  rw [Finset.sum_comm]

/-- The sum over Hermite Gaussians of one set of primitives. -/
noncomputable def hermiteRepulsion (m m' : Fin 3 → ℕ) (E K : Fin 3 → ℕ → ℝ) (R : ℕ → ℕ → ℕ → ℝ) : ℝ :=
  ∑ τ ∈ Finset.range (m' 0 + 1), ∑ ν ∈ Finset.range (m' 1 + 1), ∑ φ ∈ Finset.range (m' 2 + 1),
  ∑ t ∈ Finset.range (m 0 + 1), ∑ u ∈ Finset.range (m 1 + 1), ∑ v ∈ Finset.range (m 2 + 1),
    (-1) ^ (τ + ν + φ) * K 0 τ * K 1 ν * K 2 φ * E 0 t * E 1 u * E 2 v * R (t + τ) (u + ν) (v + φ)

theorem hermiteRepulsion_congr {m m' : Fin 3 → ℕ} {E E' K K' : Fin 3 → ℕ → ℝ} {R R' : ℕ → ℕ → ℕ → ℝ}
    (hE : ∀ x, ∀ t ∈ Finset.range (m x + 1), E x t = E' x t) (hK : ∀ x, ∀ t ∈ Finset.range (m' x + 1), K x t = K' x t)
    (hR : ∀ t u v, t ≤ m 0 + m' 0 → u ≤ m 1 + m' 1 → v ≤ m 2 + m' 2 → R t u v = R' t u v) :
    hermiteRepulsion m m' E K R = hermiteRepulsion m m' E' K' R' := by
  unfold hermiteRepulsion
  refine Finset.sum_congr rfl fun τ hτ => Finset.sum_congr rfl fun ν hν => Finset.sum_congr rfl fun φ hφ =>
    Finset.sum_congr rfl fun t ht => Finset.sum_congr rfl fun u hu => Finset.sum_congr rfl fun v hv => ?_
  rw [hE 0 t ht, hE 1 u hu, hE 2 v hv, hK 0 τ hτ, hK 1 ν hν, hK 2 φ hφ]
  rw [Finset.mem_range] at ht hu hv hτ hν hφ
  rw [hR _ _ _ (by omega) (by omega) (by omega)]

theorem hermiteRepulsion_swap {m m' : Fin 3 → ℕ} {E K : Fin 3 → ℕ → ℝ} {R R' : ℕ → ℕ → ℕ → ℝ}
    (hR : ∀ t u v, R' t u v = (-1) ^ (t + u + v) * R t u v) :
    hermiteRepulsion m m' E K R = hermiteRepulsion m' m K E R' := by
  unfold hermiteRepulsion
  rw [sum_swap33]
  refine Finset.sum_congr rfl fun t _ => Finset.sum_congr rfl fun u _ => Finset.sum_congr rfl fun v _ =>
    Finset.sum_congr rfl fun τ _ => Finset.sum_congr rfl fun ν _ => Finset.sum_congr rfl fun φ _ => ?_
  rw [hR, add_comm τ t, add_comm ν u, add_comm φ v]
  have e2 : (-1 : ℝ) ^ (t + u + v) * (-1) ^ (t + τ + (u + ν) + (v + φ)) = (-1) ^ (τ + ν + φ) := by
    rw [← pow_add, show t + u + v + (t + τ + (u + ν) + (v + φ)) = 2 * (t + u + v) + (τ + ν + φ) by ring, pow_add,
      pow_mul]
    simp
  rw [← e2]
  ring

/-- The expansion coefficients of a pair of primitives. -/
noncomputable def pairExact (s₁ s₂ : GShell) (i : Fin s₁.nprim) (j : Fin s₂.nprim) (a : Fin s₁.nbf) (b : Fin s₂.nbf)
    (x : Fin 3) (t : ℕ) : ℝ :=
  expansionExact (s₁.center x) (s₂.center x) (s₁.exponents i) (s₂.exponents j) (s₁.angular a x) (s₂.angular b x) t

/-- The centre of a pair of primitives. -/
noncomputable def pairCenter (s₁ s₂ : GShell) (i : Fin s₁.nprim) (j : Fin s₂.nprim) (x : Fin 3) : ℝ :=
  productCenter (s₁.center x) (s₂.center x) (s₁.exponents i) (s₂.exponents j)

theorem pairExact_swap (s₁ s₂ : GShell) (i : Fin s₁.nprim) (j : Fin s₂.nprim) (a : Fin s₁.nbf) (b : Fin s₂.nbf) :
    pairExact s₂ s₁ j i b a = pairExact s₁ s₂ i j a b := by
  funext x t
  unfold pairExact
  rw [expansionExact_swap]

theorem pairCenter_swap (s₁ s₂ : GShell) (i : Fin s₁.nprim) (j : Fin s₂.nprim) :
    pairCenter s₂ s₁ j i = pairCenter s₁ s₂ i j := by
  funext x
  exact productCenter_swap _ _ _ _

/-- The contribution of four primitives. -/
noncomputable def repulsionTerm (s₁ s₂ s₃ s₄ : GShell) (a : Fin s₁.nbf) (b : Fin s₂.nbf) (c : Fin s₃.nbf)
    (d : Fin s₄.nbf) (i : Fin s₁.nprim) (j : Fin s₂.nprim) (k : Fin s₃.nprim) (l : Fin s₄.nprim) : ℝ :=
  let p := s₁.exponents i + s₂.exponents j
  let q := s₃.exponents k + s₄.exponents l
  s₁.coefficients i * s₂.coefficients j * s₃.coefficients k * s₄.coefficients l *
    (hermiteRepulsion (fun x => s₁.angular a x + s₂.angular b x) (fun x => s₃.angular c x + s₄.angular d x)
        (pairExact s₁ s₂ i j a b) (pairExact s₃ s₄ k l c d)
        (coulombRec boys (p * q / (p + q)) (pairCenter s₁ s₂ i j 0 - pairCenter s₃ s₄ k l 0)
          (pairCenter s₁ s₂ i j 1 - pairCenter s₃ s₄ k l 1) (pairCenter s₁ s₂ i j 2 - pairCenter s₃ s₄ k l 2) 0) *
      (s₁.norm a i * s₂.norm b j * s₃.norm c k * s₄.norm d l) *
      (2 * Real.pi ^ (5 / 2 : ℝ) / (p * q * (p + q) ^ (0.5 : ℝ))))

theorem repulsionIntegral_table (s₁ s₂ s₃ s₄ : GShell) (a : Fin s₁.nbf) (b : Fin s₂.nbf) (c : Fin s₃.nbf)
    (d : Fin s₄.nbf) :
    repulsionIntegral boys s₁ s₂ s₃ s₄ a b c d =
      ∑ i, ∑ j, ∑ k, ∑ l, repulsionTerm boys s₁ s₂ s₃ s₄ a b c d i j k l := by
  have hL : ∀ x, s₁.angular a x + s₂.angular b x + (s₃.angular c x + s₄.angular d x) ≤
      s₁.maxAng + s₂.maxAng + s₃.maxAng + s₄.maxAng := fun x => by
    have := angular_le s₁ a x
    have := angular_le s₂ b x
    have := angular_le s₃ c x
    have := angular_le s₄ d x
    omega
  have h0 := hL 0
  have h1 := hL 1
  have h2 := hL 2
  refine Finset.sum_congr rfl fun i _ => Finset.sum_congr rfl fun j _ => Finset.sum_congr rfl fun k _ =>
    Finset.sum_congr rfl fun l _ => ?_
  refine congrArg (s₁.coefficients i * s₂.coefficients j * s₃.coefficients k * s₄.coefficients l * ·) ?_
  refine congrArg (· * (s₁.norm a i * s₂.norm b j * s₃.norm c k * s₄.norm d l) * _) ?_
  refine hermiteRepulsion_congr (m := fun x => s₁.angular a x + s₂.angular b x)
    (m' := fun x => s₃.angular c x + s₄.angular d x)
    (E := fun x t => pairExpansion s₁ s₂ i j 0 x (s₁.angular a x, s₂.angular b x, t))
    (K := fun x t => pairExpansion s₃ s₄ k l 0 x (s₃.angular c x, s₄.angular d x, t)) ?_ ?_ ?_
  · exact fun x t ht => pairExpansion_eq s₁ s₂ i j a b x ht
  · exact fun x t ht => pairExpansion_eq s₃ s₄ k l c d x ht
  · intro t u v ht hu hv
    exact hermiteCoulomb_eq (coulombRec_spec boys _ _ _ _) _ _ _ _ _ _ (ht.trans h0) (hu.trans h1) (hv.trans h2)

theorem repulsion_swap_left (s₁ s₂ s₃ s₄ : GShell) (a : Fin s₁.nbf) (b : Fin s₂.nbf) (c : Fin s₃.nbf)
    (d : Fin s₄.nbf) :
    repulsionIntegral boys s₁ s₂ s₃ s₄ a b c d = repulsionIntegral boys s₂ s₁ s₃ s₄ b a c d := by
  rw [repulsionIntegral_table, repulsionIntegral_table, Finset.sum_comm]
  refine Finset.sum_congr rfl fun j _ => Finset.sum_congr rfl fun i _ => Finset.sum_congr rfl fun k _ =>
    Finset.sum_congr rfl fun l _ => ?_
  unfold repulsionTerm
  simp only [pairCenter_swap s₁ s₂, pairExact_swap s₁ s₂, add_comm (s₂.exponents j), add_comm (s₂.angular b _)]
  ring

theorem repulsion_swap_right (s₁ s₂ s₃ s₄ : GShell) (a : Fin s₁.nbf) (b : Fin s₂.nbf) (c : Fin s₃.nbf)
    (d : Fin s₄.nbf) :
    repulsionIntegral boys s₁ s₂ s₃ s₄ a b c d = repulsionIntegral boys s₁ s₂ s₄ s₃ a b d c := by
  rw [repulsionIntegral_table, repulsionIntegral_table]
  refine Finset.sum_congr rfl fun i _ => Finset.sum_congr rfl fun j _ => ?_
  rw [Finset.sum_comm]
  refine Finset.sum_congr rfl fun l _ => Finset.sum_congr rfl fun k _ => ?_
  unfold repulsionTerm
  simp only [pairCenter_swap s₃ s₄, pairExact_swap s₃ s₄, add_comm (s₄.exponents l), add_comm (s₄.angular d _)]
  ring

theorem repulsion_swap_pair (s₁ s₂ s₃ s₄ : GShell) (a : Fin s₁.nbf) (b : Fin s₂.nbf) (c : Fin s₃.nbf)
    (d : Fin s₄.nbf) :
    repulsionIntegral boys s₁ s₂ s₃ s₄ a b c d = repulsionIntegral boys s₃ s₄ s₁ s₂ c d a b := by
  rw [repulsionIntegral_table, repulsionIntegral_table, sum_swap22]
  refine Finset.sum_congr rfl fun k _ => Finset.sum_congr rfl fun l _ => Finset.sum_congr rfl fun i _ =>
    Finset.sum_congr rfl fun j _ => ?_
  unfold repulsionTerm
  simp only
  rw [hermiteRepulsion_swap (R' := coulombRec boys ((s₃.exponents k + s₄.exponents l) *
    (s₁.exponents i + s₂.exponents j) / (s₃.exponents k + s₄.exponents l + (s₁.exponents i + s₂.exponents j)))
    (pairCenter s₃ s₄ k l 0 - pairCenter s₁ s₂ i j 0) (pairCenter s₃ s₄ k l 1 - pairCenter s₁ s₂ i j 1)
    (pairCenter s₃ s₄ k l 2 - pairCenter s₁ s₂ i j 2) 0)]
  · rw [mul_comm (s₁.exponents i + s₂.exponents j), add_comm (s₁.exponents i + s₂.exponents j)]
    ring
  · intro t u v
    rw [← coulombRec_neg, neg_sub, neg_sub, neg_sub, mul_comm (s₁.exponents i + s₂.exponents j),
      add_comm (s₁.exponents i + s₂.exponents j)]

theorem repulsion_sym8 (shells : List GShell) : Sym8 (repulsionIntegral boys) shells where
  left := fun p _ q _ r _ s _ a b c d => repulsion_swap_left boys p q r s a b c d
  right := fun p _ q _ r _ s _ a b c d => repulsion_swap_right boys p q r s a b c d
  pair := fun p _ q _ r _ s _ a b c d => repulsion_swap_pair boys p q r s a b c d

end

end SQ
