import Verif.Lemmas.Excitations
import Verif.Lemmas.Fold
import Verif.Spec.Density
import Verif.Model.Density

/-! # Expectation values in states with filled inactive and empty virtual orbitals -/

namespace SQ

/-! ### `mean` is linear -/

theorem mean_add (Ψs : List (Fock ℝ)) (A B : FOp ℝ) : mean Ψs (A + B) = mean Ψs A + mean Ψs B := by
  unfold mean
  rw [← add_div, ← List.sum_map_add]
  congr 2
  refine List.map_congr_left fun Ψ _ => ?_
  rw [LinearMap.add_apply, inner_add_right]

theorem mean_smul (Ψs : List (Fock ℝ)) (c : ℝ) (A : FOp ℝ) : mean Ψs (c • A) = c * mean Ψs A := by
  unfold mean
  rw [← mul_div_assoc, ← List.sum_map_mul_left]
  congr 2
  refine List.map_congr_left fun Ψ _ => ?_
  rw [LinearMap.smul_apply, inner_smul_right]

/-- `mean` as a linear functional. -/
noncomputable def meanL (Ψs : List (Fock ℝ)) : FOp ℝ →ₗ[ℝ] ℝ where
  toFun := mean Ψs
  map_add' := mean_add Ψs
  map_smul' := mean_smul Ψs

theorem meanL_apply (Ψs : List (Fock ℝ)) (T : FOp ℝ) : meanL Ψs T = mean Ψs T := rfl

theorem mean_single (Ψ : Fock ℝ) (T : FOp ℝ) : mean [Ψ] T = inner Ψ (T Ψ) := by simp [mean]

theorem mean_adjoint (Ψs : List (Fock ℝ)) {A B : FOp ℝ} (h : IsAdjoint A B) : mean Ψs A = mean Ψs B := by
  unfold mean
  congr 2
  refine List.map_congr_left fun Ψ _ => ?_
  rw [← h, inner_comm]

theorem mean_congr {Ψs : List (Fock ℝ)} {A B : FOp ℝ} (h : ∀ Ψ ∈ Ψs, A Ψ = B Ψ) :
    mean Ψs A = mean Ψs B := by
  unfold mean
  congr 2
  exact List.map_congr_left fun Ψ hΨ => by rw [h Ψ hΨ]

/-! ### Orbitals of the reference -/

theorem cr_filled {x : Fock ℝ} {i : ℕ} (h : ∀ S, coeff x S ≠ 0 → i ∈ S) : cr i x = 0 := by
  apply fock_ext
  intro S'
  rw [coeff_zero]
  apply coeff_apply_eq_zero
  intro S hS
  rw [cr_single, if_pos (h S hS)]
  simp

theorem an_empty {x : Fock ℝ} {i : ℕ} (h : ∀ S, coeff x S ≠ 0 → i ∉ S) : an i x = 0 := by
  apply fock_ext
  intro S'
  rw [coeff_zero]
  apply coeff_apply_eq_zero
  intro S hS
  rw [an_single, if_neg (h S hS)]
  simp

variable {nI nA : ℕ}

theorem cr_an_filled {x : Fock ℝ} {i j : ℕ} (h : ∀ S, coeff x S ≠ 0 → i ∈ S) :
    (cr i * an j : FOp ℝ) x = (delta j i : ℝ) • x := by
  have h1 : (cr i * an j : FOp ℝ) = (if j = i then 1 else 0) - an j * cr i := by rw [an_cr]; abel
  rw [h1, LinearMap.sub_apply, Module.End.mul_apply, cr_filled h, map_zero, sub_zero]
  unfold delta
  split_ifs <;> simp

theorem E_filled {x : Fock ℝ} (hx : ActiveState nI nA x) {i : ℕ} (hi : i < nI) (p : ℕ) :
    (E i p : FOp ℝ) x = (2 * delta i p : ℝ) • x := by
  unfold E
  rw [LinearMap.add_apply, cr_an_filled fun S hS => (hx S hS).1 _ (by omega),
    cr_an_filled fun S hS => (hx S hS).1 _ (by omega), ← add_smul]
  congr 1
  unfold delta
  by_cases h : i = p
  · subst h; norm_num
  · rw [if_neg (by omega), if_neg (by omega), if_neg h]; norm_num

theorem E_empty {x : Fock ℝ} (hx : ActiveState nI nA x) {a : ℕ} (ha : nI + nA ≤ a) (p : ℕ) :
    (E p a : FOp ℝ) x = 0 := by
  unfold E
  rw [LinearMap.add_apply, Module.End.mul_apply, Module.End.mul_apply,
    an_empty fun S hS h => by have := (hx S hS).2 _ h; omega,
    an_empty fun S hS h => by have := (hx S hS).2 _ h; omega]
  simp

variable {Ψs : List (Fock ℝ)}

theorem mean_filled (hR : Reference nI nA Ψs) (T : FOp ℝ) {i : ℕ} (hi : i < nI) (p : ℕ) :
    mean Ψs (T * E i p) = 2 * delta i p * mean Ψs T := by
  rw [← mean_smul]
  refine mean_congr fun Ψ hΨ => ?_
  rw [Module.End.mul_apply, E_filled (hR.active Ψ hΨ) hi, map_smul, LinearMap.smul_apply]

theorem mean_empty (hR : Reference nI nA Ψs) (T : FOp ℝ) {a : ℕ} (ha : nI + nA ≤ a) (p : ℕ) :
    mean Ψs (T * E p a) = 0 := by
  have : mean Ψs (T * E p a) = mean Ψs ((0 : ℝ) • (1 : FOp ℝ)) := mean_congr fun Ψ hΨ => by
    rw [Module.End.mul_apply, E_empty (hR.active Ψ hΨ) ha, map_zero, zero_smul]; rfl
  rw [this, mean_smul, zero_mul]

theorem mean_E_filled (hR : Reference nI nA Ψs) {i : ℕ} (hi : i < nI) (p : ℕ) :
    mean Ψs (E i p) = 2 * delta i p := by
  have := mean_filled hR 1 hi p
  rwa [one_mul, hR.norm, mul_one] at this

theorem mean_E_empty (hR : Reference nI nA Ψs) {a : ℕ} (ha : nI + nA ≤ a) (p : ℕ) :
    mean Ψs (E p a) = 0 := by
  have := mean_empty hR 1 ha p
  rwa [one_mul] at this

theorem mean_E_symm (Ψs : List (Fock ℝ)) (p q : ℕ) : mean Ψs (E p q) = mean Ψs (E q p) :=
  mean_adjoint Ψs (adjoint_E p q)

theorem mean_e_symm (Ψs : List (Fock ℝ)) (p q r s : ℕ) : mean Ψs (e p q r s) = mean Ψs (e q p s r) :=
  mean_adjoint Ψs (adjoint_e p q r s)

theorem mean_EE (Ψs : List (Fock ℝ)) (p q r s : ℕ) :
    mean Ψs (E p q * E r s) = mean Ψs (e p q r s) + delta q r * mean Ψs (E p s) := by
  rw [E_mul_E, mean_add, mean_smul]

theorem mean_e_filled (hR : Reference nI nA Ψs) (p q s : ℕ) {r : ℕ} (hr : r < nI) :
    mean Ψs (e p q r s) = 2 * delta r s * mean Ψs (E p q) - delta q r * mean Ψs (E p s) := by
  have h := mean_EE Ψs p q r s
  rw [mean_filled hR _ hr] at h
  linarith

theorem mean_e_empty (hR : Reference nI nA Ψs) (p q r : ℕ) {s : ℕ} (hs : nI + nA ≤ s) :
    mean Ψs (e p q r s) = 0 := by
  have h := mean_EE Ψs p q r s
  rw [mean_empty hR _ hs, mean_E_empty hR hs] at h
  linarith

theorem mean_E_empty' (hR : Reference nI nA Ψs) {a : ℕ} (ha : nI + nA ≤ a) (p : ℕ) :
    mean Ψs (E a p) = 0 := by rw [mean_E_symm, mean_E_empty hR ha]

theorem mean_e_empty2 (hR : Reference nI nA Ψs) (p r s : ℕ) {q : ℕ} (hs : nI + nA ≤ q) :
    mean Ψs (e p q r s) = 0 := by rw [e_symm, mean_e_empty hR _ _ _ hs]

theorem mean_e_empty1 (hR : Reference nI nA Ψs) (q r s : ℕ) {p : ℕ} (hs : nI + nA ≤ p) :
    mean Ψs (e p q r s) = 0 := by rw [mean_e_symm, mean_e_empty2 hR _ _ _ hs]

theorem mean_e_empty3 (hR : Reference nI nA Ψs) (p q s : ℕ) {r : ℕ} (hs : nI + nA ≤ r) :
    mean Ψs (e p q r s) = 0 := by rw [mean_e_symm, mean_e_empty hR _ _ _ hs]

theorem mean_e_filled1 (hR : Reference nI nA Ψs) (q r s : ℕ) {p : ℕ} (hp : p < nI) :
    mean Ψs (e p q r s) = 2 * delta p q * mean Ψs (E r s) - delta s p * mean Ψs (E r q) := by
  rw [e_symm, mean_e_filled hR _ _ _ hp]

theorem mean_e_filled2 (hR : Reference nI nA Ψs) (p r s : ℕ) {q : ℕ} (hq : q < nI) :
    mean Ψs (e p q r s) = 2 * delta q p * mean Ψs (E s r) - delta r q * mean Ψs (E s p) := by
  rw [mean_e_symm, mean_e_filled1 hR _ _ _ hq]

theorem mean_e_filled4 (hR : Reference nI nA Ψs) (p q r : ℕ) {s : ℕ} (hs : s < nI) :
    mean Ψs (e p q r s) = 2 * delta s r * mean Ψs (E q p) - delta p s * mean Ψs (E q r) := by
  rw [mean_e_symm, mean_e_filled hR _ _ _ hs]

/-! ### `RDM1`, `RDM2` -/

variable {rdm1 : ℕ → ℕ → ℝ} {rdm2 : ℕ → ℕ → ℕ → ℕ → ℝ}

theorem RDM1_eq (hR : Reference nI nA Ψs) (h1 : ∀ p q, p < nA → q < nA → rdm1 p q = mean Ψs (E (nI + p) (nI + q)))
    (p q : ℕ) : RDM1 p q nI nA rdm1 = mean Ψs (E p q) := by
  unfold RDM1
  dsimp only
  by_cases hv : p ≥ nI + nA ∨ q ≥ nI + nA
  · rw [if_pos hv]
    rcases hv with h | h
    · rw [mean_E_empty' hR h]
    · rw [mean_E_empty hR h]
  rw [if_neg hv]
  push Not at hv
  by_cases ha : p ≥ nI ∧ q ≥ nI
  · rw [if_pos ha, h1 _ _ (by omega) (by omega)]
    congr 2 <;> omega
  rw [if_neg ha]
  by_cases hi : p < nI ∧ q < nI
  · rw [if_pos hi, mean_E_filled hR hi.1]
    unfold delta
    split_ifs <;> norm_num
  rw [if_neg hi]
  rcases Nat.lt_or_ge p nI with h | h
  · rw [mean_E_filled hR h, delta, if_neg (by omega), mul_zero]
  · rw [mean_E_symm, mean_E_filled hR (show q < nI by omega), delta, if_neg (by omega), mul_zero]

theorem RDM2_eq (hR : Reference nI nA Ψs) (h : IsRdm nI nA Ψs rdm1 rdm2) (p q r s : ℕ) :
    RDM2 p q r s nI nA rdm1 rdm2 = mean Ψs (e p q r s) := by
  have R1 : ∀ p q, nI ≤ p → nI ≤ q → p < nI + nA → q < nI + nA →
      rdm1 (p - nI) (q - nI) = mean Ψs (E p q) := by
    intro p q h1 h2 h3 h4
    rw [h.one _ _ (by omega) (by omega)]
    congr 2 <;> omega
  unfold RDM2
  dsimp only
  by_cases hv : p ≥ nI + nA ∨ q ≥ nI + nA ∨ r ≥ nI + nA ∨ s ≥ nI + nA
  · rw [if_pos hv]
    rcases hv with h | h | h | h
    · rw [mean_e_empty1 hR _ _ _ h]
    · rw [mean_e_empty2 hR _ _ _ h]
    · rw [mean_e_empty3 hR _ _ _ h]
    · rw [mean_e_empty hR _ _ _ h]
  rw [if_neg hv]
  push Not at hv
  by_cases ha : p ≥ nI ∧ q ≥ nI ∧ r ≥ nI ∧ s ≥ nI
  · rw [if_pos ha, h.two _ _ _ _ (by omega) (by omega) (by omega) (by omega)]
    congr 2 <;> omega
  rw [if_neg ha]
  by_cases hb : p < nI ∧ q ≥ nI ∧ r ≥ nI ∧ s < nI
  · rw [if_pos hb, mean_e_filled1 hR _ _ _ hb.1, delta, if_neg (show p ≠ q by omega), R1 q r (by omega)
      (by omega) (by omega) (by omega), mean_E_symm Ψs r q]
    unfold delta
    by_cases hps : p = s
    · rw [if_pos hps, if_pos hps.symm]; ring
    · rw [if_neg hps, if_neg (Ne.symm hps)]; ring
  rw [if_neg hb]
  by_cases hc : p ≥ nI ∧ q < nI ∧ r < nI ∧ s ≥ nI
  · rw [if_pos hc, mean_e_filled hR _ _ _ hc.2.2.1, R1 p s (by omega) (by omega) (by omega) (by omega)]
    unfold delta
    rw [if_neg (show r ≠ s by omega)]
    by_cases hps : q = r
    · rw [if_pos hps, if_pos hps]; ring
    · rw [if_neg hps, if_neg hps]; ring
  rw [if_neg hc]
  by_cases hd : p ≥ nI ∧ q ≥ nI ∧ r < nI ∧ s < nI
  · rw [if_pos hd, mean_e_filled hR _ _ _ hd.2.2.1, R1 p q (by omega) (by omega) (by omega) (by omega)]
    unfold delta
    rw [if_neg (show q ≠ r by omega)]
    split_ifs <;> ring
  rw [if_neg hd]
  by_cases hf : p < nI ∧ q < nI ∧ r ≥ nI ∧ s ≥ nI
  · rw [if_pos hf, mean_e_filled1 hR _ _ _ hf.1, R1 r s (by omega) (by omega) (by omega) (by omega)]
    unfold delta
    rw [if_neg (show s ≠ p by omega)]
    split_ifs <;> ring
  rw [if_neg hf]
  by_cases hg : p < nI ∧ q < nI ∧ r < nI ∧ s < nI
  · rw [if_pos hg, mean_e_filled hR _ _ _ hg.2.2.1, mean_E_filled hR hg.1, mean_E_filled hR hg.1]
    unfold delta
    split_ifs <;> first | (exfalso; omega) | norm_num
  rw [if_neg hg]
  rcases Nat.lt_or_ge r nI with hr | hr
  · rw [mean_e_filled hR _ _ _ hr]
    rcases Nat.lt_or_ge s nI with hs | hs
    · rcases Nat.lt_or_ge p nI with hp | hp
      · rw [mean_E_filled hR hp, mean_E_filled hR hp]
        unfold delta
        rw [if_neg (show p ≠ q by omega), if_neg (show q ≠ r by omega)]; ring
      · rw [mean_E_symm Ψs p q, mean_E_symm Ψs p s, mean_E_filled hR (show q < nI by omega), mean_E_filled hR hs]
        unfold delta
        rw [if_neg (show q ≠ p by omega), if_neg (show s ≠ p by omega)]; ring
    · unfold delta
      rw [if_neg (show r ≠ s by omega)]
      rcases Nat.lt_or_ge q nI with hq | hq
      · rw [mean_E_filled hR (show p < nI by omega) s]
        unfold delta
        rw [if_neg (show p ≠ s by omega)]; ring
      · rw [if_neg (show q ≠ r by omega)]; ring
  rcases Nat.lt_or_ge s nI with hs | hs
  · rw [mean_e_filled4 hR _ _ _ hs]
    unfold delta
    rw [if_neg (show s ≠ r by omega)]
    rcases Nat.lt_or_ge p nI with hp | hp
    · rw [mean_E_filled hR (show q < nI by omega) r]
      unfold delta
      rw [if_neg (show q ≠ r by omega)]; ring
    · rw [if_neg (show p ≠ s by omega)]; ring
  rcases Nat.lt_or_ge p nI with hp | hp
  · rw [mean_e_filled1 hR _ _ _ hp]
    unfold delta
    rw [if_neg (show p ≠ q by omega), if_neg (show s ≠ p by omega)]; ring
  · rw [mean_e_filled2 hR _ _ _ (show q < nI by omega)]
    unfold delta
    rw [if_neg (show q ≠ p by omega), if_neg (show r ≠ q by omega)]; ring

end SQ
