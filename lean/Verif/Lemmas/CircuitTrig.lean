import Verif.Lemmas.TrigState
import Verif.Lemmas.CircuitInner
import Verif.Props.Ansatz
import Verif.Props.Structures

/-! # Frequencies of the generators; energies of circuits along one angle -/

namespace SQ

theorem gens_commute {p q r s : ℕ} (h1 : p ≠ r) (h2 : p ≠ s) (h3 : q ≠ r) (h4 : q ≠ s) :
    (cr p * an q - cr q * an p : FOp ℝ) * (cr r * an s - cr s * an r)
      = (cr r * an s - cr s * an r) * (cr p * an q - cr q * an p) := by
  rw [sub_mul, mul_sub, mul_sub, sub_mul, mul_sub, mul_sub, pair_comm h3 h2, pair_comm h4 h1,
    pair_comm h1 h4, pair_comm h2 h3]
  abel

theorem sa_gen (a i : ℕ) : TrigGen 2 (E a i - E i a) := by
  have eT : (E a i - E i a : FOp ℝ) = cr (2 * a) * an (2 * i) - cr (2 * i) * an (2 * a) +
      (cr (2 * a + 1) * an (2 * i + 1) - cr (2 * i + 1) * an (2 * a + 1)) := by unfold E; abel
  rw [eT]
  exact trigGen_two (cube_single _ _) (cube_single _ _)
    (gens_commute (by omega) (by omega) (by omega) (by omega))

theorem TrigGen.expGen {R : ℕ} {T : FOp ℝ} (h : TrigGen R T) : ExpGen T := by
  obtain ⟨U, hU, -⟩ := h; exact ⟨U, hU⟩

theorem exc_gen {off n : ℕ} {ty : String} {idx : List ℕ} {T : FOp ℝ} (h : Excitation off n ty idx T) :
    ExpGen T ∧ ∀ R, gradR ty = some R → ∃ r, R = 2 * r ∧ TrigGen r T := by
  constructor
  · obtain ⟨ci, -, h2, h3⟩ := (C26_spaces off n 1 0 0 0).2 (by omega) (by omega)
    subst h3
    classical
    obtain ⟨m, s, Q, hf, -⟩ := exc_acts (tiny := fun x : ℝ => decide (x = 0)) (th := .one) (fun x hx => by simpa using hx) h2 trivial h
    exact ⟨_, hf.isExp⟩
  · intro R hR
    cases h with
    | spin k hk I A hI hA hr hs =>
      have : gradR (spinName k) = some 2 := by
        obtain ⟨h1, h2⟩ := hk
        interval_cases k <;> rfl
      rw [this] at hR
      cases hR
      have hadj := adjoint_excite (R := ℝ) (A.map (· + 2 * off)) (I.map (· + 2 * off)).reverse
      rw [List.reverse_reverse] at hadj
      exact ⟨1, rfl, trigGen_one (cube_excite _ _ _ hadj)⟩
    | saSingle i a hr =>
      cases hR
      exact ⟨2, rfl, sa_gen _ _⟩
    | saDouble1 => cases hR
    | saDouble2 => cases hR
    | saDouble3 => cases hR
    | saDouble4 => cases hR
    | saDouble5 => cases hR

theorem circ_gen {n : ℕ} {ty : String} {idx : List ℕ} {T : FOp ℝ} (h : CircuitExc n ty idx T) :
    ∃ r, gradR ty = some (2 * r) ∧ TrigGen r T := by
  cases h with
  | single i a hr h => exact ⟨1, rfl, trigGen_one (by simpa [excite] using cube_single a i)⟩
  | double i j a b hr hn h hs => exact ⟨1, rfl, trigGen_one (cube_double a b i j)⟩
  | saSingle i a h ha => exact ⟨2, rfl, sa_gen _ _⟩

theorem Layout.gens {off n : ℕ} {types : List String} {indices : List (List ℕ)} {Ts : List (FOp ℝ)}
    (h : Layout off n types indices Ts) : (∀ T ∈ Ts, ExpGen T) ∧ ∀ (k : ℕ) ty R, types[k]? = some ty → gradR ty = some R →
      ∃ r T, R = 2 * r ∧ Ts[k]? = some T ∧ TrigGen r T := by
  induction h with
  | nil => exact ⟨by simp, by simp⟩
  | cons h1 _ ih =>
    obtain ⟨g1, g2⟩ := exc_gen h1
    refine ⟨fun T hT => ?_, fun k ty R hk hR => ?_⟩
    · rcases List.mem_cons.1 hT with rfl | hT
      · exact g1
      · exact ih.1 T hT
    · cases k with
      | zero =>
        obtain rfl : _ = ty := by simpa using hk
        obtain ⟨r, e1, e2⟩ := g2 R hR
        exact ⟨r, _, e1, rfl, e2⟩
      | succ k => exact ih.2 k ty R (by simpa using hk) hR

theorem CircuitLayout.gens {n : ℕ} {types : List String} {indices : List (List ℕ)} {Ts : List (FOp ℝ)}
    (h : CircuitLayout n types indices Ts) : types.length = Ts.length ∧ (∀ T ∈ Ts, ExpGen T) ∧
      ∀ (k : ℕ) ty, types[k]? = some ty → ∃ r T, gradR ty = some (2 * r) ∧ Ts[k]? = some T ∧ TrigGen r T := by
  induction h with
  | nil => exact ⟨rfl, by simp, by simp⟩
  | cons h1 _ ih =>
    obtain ⟨r, g1, g2⟩ := circ_gen h1
    refine ⟨by simp [ih.1], fun T hT => ?_, fun k ty hk => ?_⟩
    · rcases List.mem_cons.1 hT with rfl | hT
      · exact g2.expGen
      · exact ih.2.1 T hT
    · cases k with
      | zero =>
        obtain rfl : _ = ty := by simpa using hk
        exact ⟨r, _, g1, rfl, g2⟩
      | succ k => exact ih.2.2 k ty (by simpa using hk)

/-- `x, y ↦ Re ⟨x|O|y⟩` on the register. -/
noncomputable def regForm (n : ℕ) (O : QState (2 * n) →ₗ[ℂ] QState (2 * n)) : Fock ℝ →ₗ[ℝ] Fock ℝ →ₗ[ℝ] ℝ :=
  LinearMap.mk₂ ℝ (fun x y => (∑ b, star (onRegister n x b) * O (onRegister n y) b).re)
    (fun x x' y => by
      have : onRegister n (x + x') = onRegister n x + onRegister n x' := by
        funext b; simp [onRegister, coeff_add]
      rw [this]; simp only [Pi.add_apply, star_add, add_mul, Finset.sum_add_distrib, Complex.add_re])
    (fun c x y => by
      have : onRegister n (c • x) = (c : ℂ) • onRegister n x := by
        funext b; simp [onRegister, coeff_smul]
      rw [this]
      simp only [Pi.smul_apply, smul_eq_mul, star_mul', mul_assoc, ← Finset.mul_sum]
      rw [show star (c : ℂ) = (c : ℂ) from Complex.conj_ofReal c, Complex.re_ofReal_mul])
    (fun x y y' => by
      have : onRegister n (y + y') = onRegister n y + onRegister n y' := by
        funext b; simp [onRegister, coeff_add]
      rw [this, map_add]; simp only [Pi.add_apply, mul_add, Finset.sum_add_distrib, Complex.add_re])
    (fun c x y => by
      have : onRegister n (c • y) = (c : ℂ) • onRegister n y := by
        funext b; simp [onRegister, coeff_smul]
      rw [this, map_smul]
      simp only [Pi.smul_apply, smul_eq_mul, mul_left_comm _ (c : ℂ), ← Finset.mul_sum]
      rw [Complex.re_ofReal_mul])

/-- `x, y ↦ ⟨x|H|y⟩`. -/
noncomputable def innerForm (H : FOp ℝ) : Fock ℝ →ₗ[ℝ] Fock ℝ →ₗ[ℝ] ℝ :=
  LinearMap.mk₂ ℝ (fun x y => inner x (H y)) (fun x x' y => inner_add_left x x' _) (fun c x y => inner_smul_left c x _)
    (fun x y y' => by rw [map_add, inner_add_right]) (fun c x y => by rw [map_smul, inner_smul_right]; rfl)

end SQ
