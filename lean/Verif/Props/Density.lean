import Verif.Lemmas.DensityHess

/-!
# C30-C34: density matrices of the full space, energy, orbital gradient, metric, Hessian

`mean Ψs T`, `Reference`, `IsRdm`, `comm`, `electronic`, `qOp`, `respOp`: Spec/Density.lean.
For a single state `Ψ` take `Ψs = [Ψ]`.
-/

namespace SQ

variable {nI nA nV : ℕ} {Ψs : List (Fock ℝ)} {rdm1 : Mat ℝ} {rdm2 : Arr4}

/-! ## C30 -/

/-- C30: `RDM1` and `RDM2` return the density matrix elements of the full space, for all orbital indices,
inactive, active and virtual. -/
theorem C30_full (hR : Reference nI nA Ψs) (h : IsRdm nI nA Ψs rdm1 rdm2) (p q r s : ℕ) :
    RDM1 p q nI nA rdm1 = mean Ψs (E p q) ∧ RDM2 p q r s nI nA rdm1 rdm2 = mean Ψs (e p q r s) :=
  ⟨RDM1_eq hR h.one p q, RDM2_eq hR h p q r s⟩

/-! ## C31 -/

/-- C31: `get_electronic_energy` is the mean expectation value of the full Hamiltonian. -/
theorem C31_energy (hR : Reference nI nA Ψs) (hd : IsRdm nI nA Ψs rdm1 rdm2) (h : Mat ℝ) (g : Arr4) :
    getElectronicEnergy h g nI nA rdm1 rdm2 = mean Ψs (electronic h g (nI + nA + nV)) := by
  have hN : nI + nA ≤ nI + nA + nV := by omega
  unfold getElectronicEnergy electronic
  simp only [RDM1_eq hR hd.one, RDM2_eq hR hd]
  rw [loop2_eq hN, loop4_eq hN, mean_add, mean_smul]
  · unfold oneOp twoOp
    simp only [mean_sum, mean_smul, Finset.mul_sum]
    congr 1
    refine Finset.sum_congr rfl fun p _ => Finset.sum_congr rfl fun q _ => Finset.sum_congr rfl fun r _ =>
      Finset.sum_congr rfl fun s _ => ?_
    ring
  · intro p q r s hp; rw [mean_e_empty1 hR _ _ _ hp, mul_zero]
  · intro p q r s hp; rw [mean_e_empty2 hR _ _ _ hp, mul_zero]
  · intro p q r s hp; rw [mean_e_empty3 hR _ _ _ hp, mul_zero]
  · intro p q r s hp; rw [mean_e_empty hR _ _ _ hp, mul_zero]
  · intro p q hp; rw [mean_E_empty' hR hp, mul_zero]
  · intro p q hp; rw [mean_E_empty hR hp, mul_zero]

/-! ## C32 -/

theorem rotate3 (N : ℕ) (f : ℕ → ℕ → ℕ → ℝ) :
    ∑ p ∈ Finset.range N, ∑ q ∈ Finset.range N, ∑ r ∈ Finset.range N, f p q r
      = ∑ p ∈ Finset.range N, ∑ q ∈ Finset.range N, ∑ r ∈ Finset.range N, f q r p := by
  conv_rhs => rw [Finset.sum_comm]
  refine Finset.sum_congr rfl fun q _ => ?_
  rw [Finset.sum_comm]

/-- `⟨[E_mn, H]⟩` with integrals symmetric under exchange of the electrons. -/
theorem mean_comm_H {h : Mat ℝ} {g : Arr4} (hg : ∀ p q r s, g p q r s = g r s p q) {N m n : ℕ}
    (hm : m < N) (hn : n < N) :
    mean Ψs (comm (E m n) (electronic h g N)) =
      ∑ p ∈ Finset.range N, h n p * mean Ψs (E m p) - ∑ p ∈ Finset.range N, h p m * mean Ψs (E p n)
      + (∑ p ∈ Finset.range N, ∑ q ∈ Finset.range N, ∑ r ∈ Finset.range N, g n p q r * mean Ψs (e m p q r)
        - ∑ p ∈ Finset.range N, ∑ q ∈ Finset.range N, ∑ r ∈ Finset.range N,
          g p m q r * mean Ψs (e p n q r)) := by
  unfold electronic
  rw [comm_add_right, comm_smul_right, mean_add, mean_smul, mean_comm_one Ψs h hm hn,
    mean_comm_two Ψs g hm hn]
  simp only [Finset.sum_sub_distrib, Finset.sum_add_distrib]
  have e1 : ∑ p ∈ Finset.range N, ∑ q ∈ Finset.range N, ∑ r ∈ Finset.range N, g p q n r * mean Ψs (e p q m r)
      = ∑ p ∈ Finset.range N, ∑ q ∈ Finset.range N, ∑ r ∈ Finset.range N, g n p q r * mean Ψs (e m p q r) := by
    rw [rotate3]
    refine Finset.sum_congr rfl fun p _ => Finset.sum_congr rfl fun q _ => Finset.sum_congr rfl fun r _ => ?_
    rw [hg, e_symm]
  have e2 : ∑ p ∈ Finset.range N, ∑ q ∈ Finset.range N, ∑ r ∈ Finset.range N, g p q r m * mean Ψs (e p q r n)
      = ∑ p ∈ Finset.range N, ∑ q ∈ Finset.range N, ∑ r ∈ Finset.range N, g p m q r * mean Ψs (e p n q r) := by
    rw [rotate3]
    refine Finset.sum_congr rfl fun p _ => Finset.sum_congr rfl fun q _ => Finset.sum_congr rfl fun r _ => ?_
    rw [hg, e_symm]
  rw [e1, e2]
  ring

theorem swap_sum {g : Arr4} (hg : ∀ p q r s, g p q r s = g q p s r) (N m n : ℕ) :
    ∑ p ∈ Finset.range N, ∑ q ∈ Finset.range N, ∑ r ∈ Finset.range N, g p m q r * mean Ψs (e p n q r)
      = ∑ p ∈ Finset.range N, ∑ q ∈ Finset.range N, ∑ r ∈ Finset.range N,
        g m p q r * mean Ψs (e n p q r) := by
  refine Finset.sum_congr rfl fun p _ => ?_
  rw [Finset.sum_comm]
  refine Finset.sum_congr rfl fun q _ => Finset.sum_congr rfl fun r _ => ?_
  rw [hg, mean_e_symm]

/-- The occupied-orbital loops of the code as sums over all orbitals. -/
theorem grad_loops (hR : Reference nI nA Ψs) {N : ℕ} (hN : nI + nA ≤ N) (c1 c2 : ℝ) (h : Mat ℝ) (g : Arr4)
    (m n : ℕ) :
    (loop (nI + nA) fun p => c1 * h n p * mean Ψs (E m p) - c1 * h p m * mean Ψs (E p n))
      + (loop (nI + nA) fun p => loop (nI + nA) fun q => loop (nI + nA) fun r =>
        c2 * g n p q r * mean Ψs (e m p q r) - c2 * g p m q r * mean Ψs (e p n q r)
        - c2 * g m p q r * mean Ψs (e n p q r) + c2 * g p n q r * mean Ψs (e p m q r))
    = c1 * (∑ p ∈ Finset.range N, h n p * mean Ψs (E m p) - ∑ p ∈ Finset.range N, h p m * mean Ψs (E p n))
      + c2 * (∑ p ∈ Finset.range N, ∑ q ∈ Finset.range N, ∑ r ∈ Finset.range N, g n p q r * mean Ψs (e m p q r)
        - ∑ p ∈ Finset.range N, ∑ q ∈ Finset.range N, ∑ r ∈ Finset.range N, g p m q r * mean Ψs (e p n q r)
        - ∑ p ∈ Finset.range N, ∑ q ∈ Finset.range N, ∑ r ∈ Finset.range N, g m p q r * mean Ψs (e n p q r)
        + ∑ p ∈ Finset.range N, ∑ q ∈ Finset.range N, ∑ r ∈ Finset.range N,
          g p n q r * mean Ψs (e p m q r)) := by
  rw [loop_eq hN, loop3_eq hN]
  · simp only [Finset.sum_sub_distrib, Finset.sum_add_distrib, Finset.mul_sum, mul_sub, mul_add, mul_assoc]
  · intro p q r hp; simp only [mean_e_empty1 hR _ _ _ hp, mean_e_empty2 hR _ _ _ hp]; ring
  · intro p q r hp; simp only [mean_e_empty3 hR _ _ _ hp]; ring
  · intro p q r hp; simp only [mean_e_empty hR _ _ _ hp]; ring
  · intro p hp; simp only [mean_E_empty hR hp, mean_E_empty' hR hp]; ring

/-- C32: entry `(m, n)` of `get_orbital_gradient` is `⟨[E_mn - E_nm, H]⟩`. -/
theorem C32_gradient (hR : Reference nI nA Ψs) (hd : IsRdm nI nA Ψs rdm1 rdm2) {h : Mat ℝ} {g : Arr4}
    (hi : RealIntegrals h g) {kappa : List (ℕ × ℕ)}
    (hk : ∀ mn ∈ kappa, mn.1 < nI + nA + nV ∧ mn.2 < nI + nA + nV) :
    getOrbitalGradient h g nI nA rdm1 rdm2 kappa = kappa.map fun mn =>
      mean Ψs (comm (E mn.1 mn.2 - E mn.2 mn.1) (electronic h g (nI + nA + nV))) := by
  refine List.map_congr_left fun mn hmn => ?_
  obtain ⟨h1, h2⟩ := hk mn hmn
  unfold orbitalGradientEntry
  have := grad_loops (Ψs := Ψs) hR (show nI + nA ≤ nI + nA + nV by omega) 2 1 h g mn.1 mn.2
  simp only [RDM1_eq hR hd.one, RDM2_eq hR hd, one_mul] at this ⊢
  rw [this, comm_sub_left, mean_sub, mean_comm_H hi.two h1 h2, mean_comm_H hi.two h2 h1]
  have e1 : ∀ a b : ℕ, ∑ p ∈ Finset.range (nI + nA + nV), h p a * mean Ψs (E p b)
      = ∑ p ∈ Finset.range (nI + nA + nV), h a p * mean Ψs (E b p) := fun a b =>
    Finset.sum_congr rfl fun p _ => by rw [hi.one, mean_E_symm]
  simp only [e1]
  ring

/-- C32: `get_orbital_gradient_response` is `⟨[q_mn, H]⟩` for all pairs, followed by `⟨[q_nm, H]⟩`. -/
theorem C32_response (hR : Reference nI nA Ψs) (hd : IsRdm nI nA Ψs rdm1 rdm2) {h : Mat ℝ} {g : Arr4}
    (hi : RealIntegrals h g) {kappa : List (ℕ × ℕ)}
    (hk : ∀ mn ∈ kappa, mn.1 < nI + nA + nV ∧ mn.2 < nI + nA + nV) :
    getOrbitalGradientResponse h g nI nA rdm1 rdm2 kappa =
      (kappa.map fun mn => mean Ψs (comm (qOp mn.1 mn.2) (electronic h g (nI + nA + nV))))
      ++ kappa.map fun mn => mean Ψs (comm (qOp mn.2 mn.1) (electronic h g (nI + nA + nV))) := by
  have key : ∀ m n, m < nI + nA + nV → n < nI + nA + nV →
      (Real.sqrt 2)⁻¹ * responseEntry h g nI nA rdm1 rdm2 m n
        = mean Ψs (comm (qOp m n) (electronic h g (nI + nA + nV))) := by
    intro m n h1 h2
    unfold responseEntry qOp
    have := grad_loops (Ψs := Ψs) hR (show nI + nA ≤ nI + nA + nV by omega) 1 (1 / 2) h g m n
    simp only [RDM1_eq hR hd.one, RDM2_eq hR hd, one_mul] at this ⊢
    rw [this, comm_smul_left, mean_smul, mean_comm_H hi.two h1 h2, swap_sum hi.real _ m n,
      swap_sum hi.real _ n m]
    ring
  unfold getOrbitalGradientResponse
  congr 1
  · exact List.map_congr_left fun mn hmn => key _ _ (hk mn hmn).1 (hk mn hmn).2
  · exact List.map_congr_left fun mn hmn => key _ _ (hk mn hmn).2 (hk mn hmn).1

/-! ## C33 -/

theorem inv_sqrt_sq : (Real.sqrt 2)⁻¹ * (Real.sqrt 2)⁻¹ = 1 / 2 := by
  rw [← mul_inv, Real.mul_self_sqrt (by norm_num)]; norm_num

/-- C33: the Sigma block is `⟨[q_k†, q_l]⟩` with `q_k = q_mn` for the pair `k = (n, m)`. -/
theorem C33_metric (hR : Reference nI nA Ψs)
    (h1 : ∀ p q, p < nA → q < nA → rdm1 p q = mean Ψs (E (nI + p) (nI + q))) (kappa : List (ℕ × ℕ)) :
    metricSigma nI nA rdm1 kappa = kappa.map fun k => kappa.map fun l =>
      mean Ψs (comm (qOp k.1 k.2) (qOp l.2 l.1)) := by
  refine List.map_congr_left fun k _ => List.map_congr_left fun l _ => ?_
  unfold metricSigmaEntry qOp
  rw [comm_smul_left, comm_smul_right, mean_smul, mean_smul, ← mul_assoc, inv_sqrt_sq, comm_E_E, mean_sub,
    mean_smul, mean_smul]
  simp only [RDM1_eq hR h1]
  rw [mean_E_symm Ψs l.2 k.2, mean_E_symm Ψs k.1 l.1]
  unfold delta
  split_ifs <;> ring

theorem comm_listsum_left {ι : Type*} (l : List ι) (f : ι → FOp ℝ) (C : FOp ℝ) :
    comm (l.map f).sum C = (l.map fun i => comm (f i) C).sum := by
  induction l with
  | nil => simp [comm]
  | cons i l ih => simp only [List.map_cons, List.sum_cons, comm_add_left, ih]

theorem comm_listsum_right {ι : Type*} (l : List ι) (f : ι → FOp ℝ) (C : FOp ℝ) :
    comm C (l.map f).sum = (l.map fun i => comm C (f i)).sum := by
  induction l with
  | nil => simp [comm]
  | cons i l ih => simp only [List.map_cons, List.sum_cons, comm_add_right, ih]

theorem mean_listsum (Ψs : List (Fock ℝ)) {ι : Type*} (l : List ι) (f : ι → FOp ℝ) :
    mean Ψs (l.map f).sum = (l.map fun i => mean Ψs (f i)).sum := by
  have := map_list_sum (meanL Ψs) (l.map f)
  rw [List.map_map] at this
  exact this

/-- C33: the orbital part of the norm of an excited state is `⟨[O†, O]⟩`, for pairs that do not rotate
active orbitals among each other. -/
theorem C33_norm (hR : Reference nI nA Ψs)
    (h1 : ∀ p q, p < nA → q < nA → rdm1 p q = mean Ψs (E (nI + p) (nI + q))) {kappa : List (ℕ × ℕ)}
    (hk : ∀ k ∈ kappa, NonRedundant nI nA k) (Z Y : ℕ → ℝ) :
    vectorNorm nI nA rdm1 kappa Z Y = mean Ψs (comm (respOp kappa Y Z) (respOp kappa Z Y)) := by
  unfold vectorNorm respOp
  rw [comm_listsum_left, mean_listsum, ← List.sum_map_mul_left]
  refine congrArg _ (List.map_congr_left fun k hkk => ?_)
  rw [comm_listsum_right, mean_listsum, ← List.sum_map_mul_left]
  refine congrArg _ (List.map_congr_left fun l hll => ?_)
  have hmem : ∀ {k : (ℕ × ℕ) × ℕ}, k ∈ kappa.zipIdx → k.1 ∈ kappa := fun {k} h =>
    List.fst_mem_of_mem_zipIdx h
  have c1 := hk _ (hmem hkk)
  have c2 := hk _ (hmem hll)
  obtain ⟨⟨m, n⟩, i⟩ := k
  obtain ⟨⟨t, u⟩, j⟩ := l
  unfold NonRedundant at c1 c2
  dsimp only at c1 c2 ⊢
  unfold qOp
  simp only [RDM1_eq hR h1, comm_add_left, comm_add_right, comm_smul_left, comm_smul_right, mean_add, mean_smul,
    comm_E_E, mean_sub]
  have z : ∀ a b, (a < nI ∧ nI ≤ b) ∨ nI + nA ≤ b → a ≠ b → mean Ψs (E a b) = 0 := by
    intro a b h hne
    rcases h with h | h
    · rw [mean_E_filled hR h.1, delta, if_neg hne, mul_zero]
    · rw [mean_E_empty hR h]
  have x1 : (delta n t : ℝ) * mean Ψs (E m u) = 0 := by
    unfold delta
    split_ifs with e
    · rw [z m u (by omega) (by omega), mul_zero]
    · rw [zero_mul]
  have x2 : (delta u m : ℝ) * mean Ψs (E t n) = 0 := by
    unfold delta
    split_ifs with e
    · rw [z t n (by omega) (by omega), mul_zero]
    · rw [zero_mul]
  have x3 : (delta m u : ℝ) * mean Ψs (E n t) = 0 := by rw [delta_symm, mean_E_symm]; exact x2
  have x4 : (delta t n : ℝ) * mean Ψs (E u m) = 0 := by rw [delta_symm, mean_E_symm]; exact x1
  rw [x1, x2, x3, x4, mean_E_symm Ψs u n, mean_E_symm Ψs t m]
  have hs := inv_sqrt_sq
  generalize (Real.sqrt 2)⁻¹ = c at hs
  have hδ : ∀ (a b : ℕ) (x : ℝ), (if a = b then x else 0) = (delta a b : ℝ) * x := fun a b x => by
    unfold delta; split_ifs <;> ring
  rw [delta_symm t m, delta_symm u n, hδ, hδ, hδ, hδ]
  linear_combination (-(Z i * Z j * (delta n u * mean Ψs (E m t) - delta m t * mean Ψs (E n u))
    + Y i * Y j * (delta m t * mean Ψs (E n u) - delta n u * mean Ψs (E m t)))) * hs

/-- C33: the orbital part of the property gradient is `⟨[O, X]⟩`. -/
theorem C33_property (hR : Reference nI nA Ψs)
    (h1 : ∀ p q, p < nA → q < nA → rdm1 p q = mean Ψs (E (nI + p) (nI + q))) {x : Mat ℝ}
    (hx : ∀ p q, x p q = x q p) {kappa : List (ℕ × ℕ)}
    (hk : ∀ mn ∈ kappa, mn.1 < nI + nA + nV ∧ mn.2 < nI + nA + nV) (Z Y : ℕ → ℝ) :
    propertyGradient nI nA rdm1 x kappa Z Y
      = mean Ψs (comm (respOp kappa Z Y) (oneOp x (nI + nA + nV))) := by
  unfold propertyGradient respOp
  rw [comm_listsum_left, mean_listsum, ← List.sum_map_mul_left]
  refine congrArg _ (List.map_congr_left fun k hkk => ?_)
  obtain ⟨a1, a2⟩ := hk k.1 (List.fst_mem_of_mem_zipIdx hkk)
  unfold qOp
  rw [comm_add_left, mean_add, comm_smul_left, comm_smul_left, comm_smul_left, comm_smul_left, mean_smul,
    mean_smul, mean_smul, mean_smul, mean_comm_one Ψs x a1 a2, mean_comm_one Ψs x a2 a1]
  simp only [RDM1_eq hR h1]
  rw [loop_eq (show nI + nA ≤ nI + nA + nV by omega)]
  · rw [Finset.sum_add_distrib]
    have e1 : ∀ a b : ℕ, ∑ p ∈ Finset.range (nI + nA + nV), x p a * mean Ψs (E p b)
        = ∑ p ∈ Finset.range (nI + nA + nV), x a p * mean Ψs (E b p) := fun a b =>
      Finset.sum_congr rfl fun p _ => by rw [hx, mean_E_symm]
    simp only [e1, mul_assoc, ← Finset.mul_sum]
    ring
  · intro p hp; simp only [mean_E_empty hR hp]; ring

/-! ## C34 -/

theorem sum3_d1 {N a : ℕ} (ha : a < N) (F : ℕ → ℕ → ℕ → ℝ) :
    ∑ p ∈ Finset.range N, ∑ q ∈ Finset.range N, ∑ r ∈ Finset.range N, delta p a * F p q r
      = ∑ q ∈ Finset.range N, ∑ r ∈ Finset.range N, F a q r := by
  simp only [← Finset.mul_sum]
  exact sum_delta_right ha fun p => ∑ q ∈ Finset.range N, ∑ r ∈ Finset.range N, F p q r

theorem sum3_d2 {N a : ℕ} (ha : a < N) (F : ℕ → ℕ → ℕ → ℝ) :
    ∑ p ∈ Finset.range N, ∑ q ∈ Finset.range N, ∑ r ∈ Finset.range N, delta q a * F p q r
      = ∑ p ∈ Finset.range N, ∑ r ∈ Finset.range N, F p a r := by
  simp only [← Finset.mul_sum]
  exact Finset.sum_congr rfl fun p _ => sum_delta_right ha fun q => ∑ r ∈ Finset.range N, F p q r

theorem sum3_d3 {N a : ℕ} (ha : a < N) (F : ℕ → ℕ → ℕ → ℝ) :
    ∑ p ∈ Finset.range N, ∑ q ∈ Finset.range N, ∑ r ∈ Finset.range N, delta r a * F p q r
      = ∑ p ∈ Finset.range N, ∑ q ∈ Finset.range N, F p q a :=
  Finset.sum_congr rfl fun p _ => Finset.sum_congr rfl fun q _ => sum_delta_right ha fun r => F p q r

/-- C34: entry of the Hessian block: `⟨[q_tu, [H, q_mn]]⟩`. No symmetry of the integrals is needed. -/
theorem C34_hessian (hR : Reference nI nA Ψs) (hd : IsRdm nI nA Ψs rdm1 rdm2) (h : Mat ℝ) (g : Arr4)
    {k1 k2 : List (ℕ × ℕ)} (hk1 : ∀ k ∈ k1, k.1 < nI + nA + nV ∧ k.2 < nI + nA + nV)
    (hk2 : ∀ k ∈ k2, k.1 < nI + nA + nV ∧ k.2 < nI + nA + nV) :
    hessianBlock h g nI nA rdm1 rdm2 k1 k2 = k1.map fun tu => k2.map fun mn =>
      mean Ψs (comm (qOp tu.1 tu.2) (comm (electronic h g (nI + nA + nV)) (qOp mn.1 mn.2))) := by
  refine List.map_congr_left fun tu htu => List.map_congr_left fun mn hmn => ?_
  obtain ⟨ht, hu⟩ := hk1 tu htu
  obtain ⟨hm, hn⟩ := hk2 mn hmn
  obtain ⟨t, u⟩ := tu
  obtain ⟨m, n⟩ := mn
  dsimp only at ht hu hm hn ⊢
  have hN : nI + nA ≤ nI + nA + nV := by omega
  generalize nI + nA + nV = N at *
  have e1 : comm (qOp t u) (comm (electronic h g N) (qOp m n)) =
      -((1 / 2 : ℝ) • (comm (E t u) (comm (E m n) (oneOp h N))
        + (1 / 2 : ℝ) • comm (E t u) (comm (E m n) (twoOp g N)))) := by
    rw [comm_anti (electronic h g N) (qOp m n)]
    unfold qOp electronic
    have hneg : ∀ A B : FOp ℝ, comm A (-B) = -comm A B := fun A B => by unfold comm; noncomm_ring
    rw [hneg]
    simp only [comm_smul_left, comm_smul_right, comm_add_right, smul_add, smul_smul, ← mul_assoc, inv_sqrt_sq]
    rw [mul_assoc (1 / 2 : ℝ), inv_sqrt_sq]
  rw [e1, mean_neg, mean_smul, mean_add, mean_smul, comm_oneOp h hm hn, comm_twoOp g hm hn,
    mean_comm_one Ψs _ ht hu, mean_comm_two Ψs _ ht hu]
  unfold hessianEntry
  have a1 : hessianA1 h nI nA rdm1 t u m n = -(∑ p ∈ Finset.range N, rot1 m n h u p * mean Ψs (E t p)
      - ∑ p ∈ Finset.range N, rot1 m n h p t * mean Ψs (E p u)) := by
    unfold hessianA1 rot1
    simp only [RDM1_eq hR hd.one]
    rw [loop_eq hN]
    · simp only [sub_mul, Finset.sum_sub_distrib, mul_assoc]
      rw [sum_delta_right hn fun p => h u m * mean Ψs (E t p), sum_delta_right hm fun p => h n t * mean Ψs (E p u)]
      simp only [← Finset.mul_sum, Finset.sum_neg_distrib, Finset.sum_ite_irrel, Finset.sum_const_zero]
      rw [delta_symm u m]
      unfold delta
      split_ifs <;> ring
    · intro p hp; simp only [mean_E_empty hR hp, mean_E_empty' hR hp]; simp
  have a2 : hessianA2 g nI nA rdm1 rdm2 t u m n = -∑ p ∈ Finset.range N, ∑ q ∈ Finset.range N,
      ∑ r ∈ Finset.range N, (rot2 m n g u p q r * mean Ψs (e t p q r) - rot2 m n g p t q r * mean Ψs (e p u q r)
        + rot2 m n g p q u r * mean Ψs (e p q t r) - rot2 m n g p q r t * mean Ψs (e p q r u)) := by
    unfold hessianA2 rot2
    simp only [RDM2_eq hR hd]
    rw [loop2_eq hN, loop3_eq hN]
    · simp only [sub_mul, add_mul, Finset.sum_sub_distrib, Finset.sum_add_distrib, mul_assoc]
      rw [sum3_d1 hn fun p q r => g u m q r * mean Ψs (e t p q r),
        sum3_d2 hm fun p q r => g u p n r * mean Ψs (e t p q r),
        sum3_d3 hn fun p q r => g u p q m * mean Ψs (e t p q r),
        sum3_d1 hm fun p q r => g n t q r * mean Ψs (e p u q r),
        sum3_d2 hm fun p q r => g p t n r * mean Ψs (e p u q r),
        sum3_d3 hn fun p q r => g p t q m * mean Ψs (e p u q r),
        sum3_d1 hm fun p q r => g n q u r * mean Ψs (e p q t r),
        sum3_d2 hn fun p q r => g p m u r * mean Ψs (e p q t r),
        sum3_d3 hn fun p q r => g p q u m * mean Ψs (e p q t r),
        sum3_d1 hm fun p q r => g n q r t * mean Ψs (e p q r u),
        sum3_d2 hn fun p q r => g p m r t * mean Ψs (e p q r u),
        sum3_d3 hm fun p q r => g p q n t * mean Ψs (e p q r u)]
      simp only [← Finset.mul_sum, Finset.sum_neg_distrib, Finset.sum_ite_irrel, Finset.sum_const_zero]
      rw [delta_symm u m]
      unfold delta
      split_ifs <;> ring
    · intro p q r hp; simp only [mean_e_empty1 hR _ _ _ hp, mean_e_empty2 hR _ _ _ hp]; simp
    · intro p q r hp; simp only [mean_e_empty2 hR _ _ _ hp, mean_e_empty3 hR _ _ _ hp]; simp
    · intro p q r hp; simp only [mean_e_empty hR _ _ _ hp, mean_e_empty3 hR _ _ _ hp]; simp
    · intro p q hp
      simp only [mean_e_empty1 hR _ _ _ hp, mean_e_empty2 hR _ _ _ hp, mean_e_empty3 hR _ _ _ hp]; ring
    · intro p q hp
      simp only [mean_e_empty hR _ _ _ hp, mean_e_empty2 hR _ _ _ hp, mean_e_empty3 hR _ _ _ hp]; ring
  rw [a1, a2]
  ring

end SQ
