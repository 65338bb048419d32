import Verif.Lemmas.CircuitRun
import Verif.Lemmas.AnsatzChain

/-! # Overlaps on the register -/

namespace SQ

open Finset

theorem fock_sum (x : Fock ℝ) : x = ∑ S ∈ (x : Finset ℕ →₀ ℝ).support, (sgl S (coeff x S) : Fock ℝ) :=
  (Finsupp.sum_single (x : Finset ℕ →₀ ℝ)).symm

theorem below_mem {n : ℕ} {x : Fock ℝ} (hx : Below n x) {S : Finset ℕ} (h : S ∈ (x : Finset ℕ →₀ ℝ).support) :
    ∀ q ∈ S, q < n := hx S (by simpa [coeff] using Finsupp.mem_support_iff.1 h)

theorem sgl_smul (S : Finset ℕ) (c : ℝ) : (sgl S c : Fock ℝ) = c • ket S := by
  have : c • (ket S : Fock ℝ) = sgl S (c * 1) := Finsupp.smul_single' c S 1
  rw [this, mul_one]

theorem blocked_inner {n : ℕ} {x y : Fock ℝ} (hx : Below (2 * n) x) (hy : Below (2 * n) y) :
    inner (toBlocked n x) (toBlocked n y) = inner x y := by
  rw [fock_sum x, map_sum, inner_fsum_left, inner_fsum_left]
  refine sum_congr rfl fun S hS => ?_
  conv_lhs => rw [fock_sum y, map_sum, inner_fsum_right]
  conv_rhs => rw [fock_sum y, inner_fsum_right]
  refine sum_congr rfl fun T hT => ?_
  rw [sgl_smul S, sgl_smul T, map_smul, map_smul, inner_smul_left, inner_smul_left, inner_smul_right, inner_smul_right,
    C15_isometry n (below_mem hx hS) (below_mem hy hT)]

theorem below_blocked {n : ℕ} {x : Fock ℝ} (hx : Below (2 * n) x) : Below (2 * n) (toBlocked n x) :=
  below_op (fun S hS c => by
    rw [toBlocked_sgl]
    refine below_sgl (fun q hq => ?_) _
    obtain ⟨p, hp, rfl⟩ := mem_image.1 hq
    exact f2q_bound (hS p hp)) hx

theorem occupied_inj {n : ℕ} : Function.Injective (occupied (n := n)) := by
  intro b c h
  funext q
  have : ∀ b : Fin n → Bool, (q : ℕ) ∈ occupied b ↔ b q = true := by
    intro b
    simp only [occupied, mem_image, mem_filter, mem_univ, true_and]
    constructor
    · rintro ⟨p, hp, e⟩; rwa [Fin.ext e] at hp
    · intro h; exact ⟨q, h, rfl⟩
  rw [Bool.eq_iff_iff, ← this b, ← this c, h]

theorem occupied_chi {n : ℕ} {S : Finset ℕ} (hS : ∀ q ∈ S, q < n) : occupied (fun q : Fin n => chi S q) = S := by
  ext q
  simp only [occupied, mem_image, mem_filter, mem_univ, true_and, chi, decide_eq_true_eq]
  constructor
  · rintro ⟨p, hp, rfl⟩; exact hp
  · intro h; exact ⟨⟨q, hS q h⟩, h, rfl⟩

theorem inner_labels {n : ℕ} {X : Fock ℝ} (hX : Below n X) (Y : Fock ℝ) :
    inner X Y = ∑ b : Fin n → Bool, coeff X (occupied b) * coeff Y (occupied b) := by
  classical
  conv_lhs => rw [fock_sum X, inner_fsum_left]
  rw [← Finset.sum_image (f := fun S => coeff X S * coeff Y S) (g := occupied (n := n)) (fun _ _ _ _ h => occupied_inj h)]
  refine (Finset.sum_congr rfl fun S _ => ?_).trans (Finset.sum_subset (fun S hS => ?_) (fun S _ hS => ?_))
  · rw [sgl_smul, inner_smul_left]
    unfold ket
    rw [inner_ket_left]
  · exact mem_image.2 ⟨_, mem_univ _, occupied_chi (below_mem hX hS)⟩
  · have : coeff X S = 0 := by simpa [coeff] using Finsupp.notMem_support_iff.1 hS
    rw [this, zero_mul]

theorem register_inner {n : ℕ} {x y : Fock ℝ} (hx : Below (2 * n) x) (hy : Below (2 * n) y) :
    ∑ b, star (onRegister n x b) * onRegister n y b = ((inner x y : ℝ) : ℂ) := by
  rw [← blocked_inner hx hy, inner_labels (below_blocked hx)]
  push_cast
  refine sum_congr rfl fun b _ => ?_
  unfold onRegister
  simp

end SQ
