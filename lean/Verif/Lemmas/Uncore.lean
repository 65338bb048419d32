import Verif.Lemmas.Fold
import Mathlib.Data.Real.Basic

/-!
# The inverse of filling the inactive orbitals
-/

namespace SQ

/-- `|I,x⟩ ↦ |x⟩`, and zero when an inactive orbital is empty. -/
noncomputable def uncore (m : ℕ) : FOp ℝ :=
  liftOp fun S => if Finset.range m ⊆ S then ket ((S \ Finset.range m).image (· - m)) else 0

theorem withCore_iff (m : ℕ) (S T : Finset ℕ) :
    withCore m S = T ↔ Finset.range m ⊆ T ∧ S = (T \ Finset.range m).image (· - m) := by
  constructor
  · rintro rfl
    refine ⟨Finset.subset_union_left, ?_⟩
    ext p
    simp only [withCore, Finset.mem_image, Finset.mem_sdiff, Finset.mem_union, Finset.mem_range]
    constructor
    · intro h; exact ⟨m + p, ⟨Or.inr ⟨p, h, rfl⟩, by omega⟩, by omega⟩
    · rintro ⟨a, ⟨h | ⟨b, hb, rfl⟩, h2⟩, rfl⟩
      · exact absurd h h2
      · rwa [show m + b - m = b by omega]
  · rintro ⟨h, rfl⟩
    ext p
    simp only [withCore, Finset.mem_image, Finset.mem_sdiff, Finset.mem_union, Finset.mem_range]
    constructor
    · rintro (h' | ⟨a, ⟨b, ⟨hb, hb'⟩, rfl⟩, rfl⟩)
      · exact h (Finset.mem_range.2 h')
      · rwa [show m + (b - m) = b by omega]
    · intro h'
      by_cases k : p < m
      · exact Or.inl k
      · exact Or.inr ⟨p - m, ⟨p, ⟨h', k⟩, rfl⟩, by omega⟩

theorem uncore_adjoint (m : ℕ) : IsAdjoint (core m : FOp ℝ) (uncore m) := by
  intro x y
  have : (innerB (R := ℝ)).comp (core m) = (innerB (R := ℝ)).compl₂ (uncore m) := by
    apply fhom_ext; intro S
    apply fhom_ext; intro T
    simp only [LinearMap.comp_apply, LinearMap.compl₂_apply, innerB_apply, core_sgl, inner_single_single]
    unfold uncore
    rw [liftOp_single, one_smul]
    by_cases h : Finset.range m ⊆ T
    · rw [if_pos h, ket, inner_single_single]
      by_cases h' : withCore m S = T
      · rw [if_pos h', if_pos ((withCore_iff m S T).1 h').2]
      · rw [if_neg h', if_neg fun k => h' ((withCore_iff m S T).2 ⟨h, k⟩)]
    · rw [if_neg h, inner_zero_right, if_neg fun k => h ((withCore_iff m S T).1 k).1]
  exact congrArg (fun f => f x y) this

theorem uncore_core (m : ℕ) (x : Fock ℝ) : uncore m (core m x) = x := by
  apply fock_ext
  intro S
  have := uncore_adjoint m (ket S) (core m x)

  rw [inner_core] at this
  rw [← inner_ket_left, ← inner_ket_left]
  exact this.symm

end SQ
