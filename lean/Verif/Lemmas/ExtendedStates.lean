import Verif.Lemmas.ExtendedLoops

/-!
# Lemmas for linear response in the extended space: the operators `U G U†` and the states `U G |ref⟩`
-/

namespace SQ

section
variable {W : ExtWf} (hW : W.Proper) (letters : List Char)
include hW

theorem ExtWf.Proper.qq_ortho {k l : ℕ × ℕ} (hk : k ∈ W.hfLike) :
    inner (qOp k.2 k.1 (ket W.refDet)) (qOp l.2 l.1 (ket W.refDet)) = if k = l then 1 else 0 := by
  have href : ClosedRef (ket W.refDet) [k.1] [k.2] := by
    obtain ⟨h1, h2⟩ := hW.pair_filled hk
    refine ⟨by rw [inner_single_single, if_pos rfl, one_mul], fun a ha => ?_, fun i hi => ?_, fun i hi hn => ?_⟩
    · rw [List.mem_singleton.1 ha]; exact ⟨hW.ref_empty h2.1, hW.ref_empty h2.2⟩
    · rw [List.mem_singleton.1 hi]; exact ⟨hW.ref_filled h1.1, hW.ref_filled h1.2⟩
    · rw [List.mem_singleton.1 hi, List.mem_singleton] at hn
      rw [hn] at h1
      exact hW.disj _ h1.1 h2.1
  unfold qOp
  rw [LinearMap.smul_apply, LinearMap.smul_apply, inner_smul_left, inner_smul_right,
    href.inner_one (by simp) (by simp)]
  have : (Real.sqrt 2)⁻¹ * (Real.sqrt 2)⁻¹ = 1 / 2 := by
    rw [← mul_inv, Real.mul_self_sqrt (by norm_num)]; norm_num
  have e : (if k = l then (1 : ℝ) else 0) = delta k.2 l.2 * delta k.1 l.1 := by
    by_cases h : k = l
    · rw [h]; simp [delta]
    · rw [if_neg h]
      by_cases h' : k.2 = l.2
      · have : k.1 ≠ l.1 := fun h'' => h (Prod.ext h'' h')
        simp [delta, this]
      · simp [delta, h']
  rw [e]
  linear_combination 2 * delta k.2 l.2 * delta k.1 l.1 * this

/-- The states `q|ref⟩` and `G|ref⟩` are orthonormal and orthogonal to the reference. -/
theorem ExtWf.Proper.ref_ortho (adjs : ∀ T ∈ lrOps W.toRespWf letters, ∃ Td, IsAdjoint T Td) :
    (∀ (i j : ℕ) (S T : FOp ℝ), (W.refOps letters)[i]? = some S → (W.refOps letters)[j]? = some T →
      inner (S (ket W.refDet)) (T (ket W.refDet)) = if i = j then 1 else 0) ∧
    ∀ T ∈ W.refOps letters, inner (ket W.refDet) (T (ket W.refDet)) = 0 := by
  obtain ⟨o1, o2⟩ := lrOps_ortho hW.base letters
  have cross : ∀ {k : ℕ × ℕ} {T : FOp ℝ}, k ∈ W.hfLike → T ∈ lrOps W.toRespWf letters →
      inner (T (ket W.refDet)) (qOp k.2 k.1 (ket W.refDet)) = 0 := by
    intro k T hk hT
    obtain ⟨Td, ha⟩ := adjs T hT
    rw [ha, hW.act_kills_q letters hT ha hk, inner_zero_right]
  have split : ∀ {i : ℕ} {S : FOp ℝ}, (W.refOps letters)[i]? = some S →
      (∃ k, W.hfLike[i]? = some k ∧ S = qOp k.2 k.1 ∧ i < W.hfLike.length) ∨
      (W.hfLike.length ≤ i ∧ (lrOps W.toRespWf letters)[i - W.hfLike.length]? = some S) := by
    intro i S h
    unfold ExtWf.refOps at h
    by_cases hi : i < W.hfLike.length
    · rw [List.getElem?_append_left (by simpa using hi), List.getElem?_map, Option.map_eq_some_iff] at h
      obtain ⟨k, h1, h2⟩ := h
      exact .inl ⟨k, h1, h2.symm, hi⟩
    · rw [List.getElem?_append_right (by simpa using hi), List.length_map] at h
      exact .inr ⟨not_lt.1 hi, h⟩
  constructor
  · intro i j S T hS hT
    rcases split hS with ⟨k, h1, rfl, h3⟩ | ⟨h1, h2⟩ <;> rcases split hT with ⟨l, g1, rfl, g3⟩ | ⟨g1, g2⟩
    · rw [hW.qq_ortho (List.mem_of_getElem? h1)]
      have : k = l ↔ i = j := by
        constructor
        · rintro rfl
          exact (List.getElem?_inj h3 hW.nodup).1 (h1.trans g1.symm)
        · rintro rfl
          exact Option.some.inj (h1.symm.trans g1)
      simp only [this]
    · rw [inner_comm, cross (List.mem_of_getElem? h1) (List.mem_of_getElem? g2), if_neg (by omega)]
    · rw [cross (List.mem_of_getElem? g1) (List.mem_of_getElem? h2), if_neg (by omega)]
    · rw [o1 _ _ _ _ h2 g2]
      have : i - W.hfLike.length = j - W.hfLike.length ↔ i = j := by omega
      simp only [this]
  · intro T hT
    have hl := hW.refOps_led letters hT
    rw [inner_comm]
    exact hl.orth hW.disj (.inl fun _ => hW.ref_empty) _

/-- The operators `q` and `G` commute. -/
theorem ExtWf.Proper.ref_comm (spans : ∀ T ∈ lrOps W.toRespWf letters, PairSpan (· ∈ W.occS) (· ∈ W.unoccS) T)
    {S T : FOp ℝ} (hS : S ∈ W.refOps letters) (hT : T ∈ W.refOps letters) (x : Fock ℝ) : S (T x) = T (S x) := by
  have key : ∀ {T}, T ∈ W.refOps letters → PairSpan W.Filled W.Empty T := by
    intro T hT
    rcases List.mem_append.1 hT with h | h
    · obtain ⟨k, hk, rfl⟩ := List.mem_map.1 h
      obtain ⟨h1, h2⟩ := hW.pair_filled hk
      exact (PairSpan.E h2 h1).smul _
    · exact (spans T h).mono (fun _ => .inr) (fun _ => .inl)
  exact congrArg (fun A : FOp ℝ => A x) (PairSpan.comm hW.disj (key hS) (key hT)).eq

end

section
variable {W : ExtWf} {U Ud : FOp ℝ} {dbl : Bool} {I : ExtInfo} (hC : ExtCtx W U Ud dbl I)
include hC

theorem ExtCtx.dress {T Td : FOp ℝ} (h : IsAdjoint T Td) : IsAdjoint (U * T * Ud) (U * Td * Ud) := fun x y => by
  simp only [Module.End.mul_apply]
  rw [hC.adj, h, hC.adj.symm]

theorem ExtCtx.dress_state (T : FOp ℝ) : (U * T * Ud) W.state = U (T (ket W.refDet)) := by
  simp only [Module.End.mul_apply]
  rw [hC.state, (hC.cas _ hC.ref).2.2]

theorem ExtCtx.dress_inside (T : FOp ℝ) {x : Fock ℝ} (h : Inside I.ci x) : (U * T * Ud) (U x) = U (T x) := by
  simp only [Module.End.mul_apply]
  rw [(hC.all _ h).2.2]

theorem ExtCtx.inner_U {x y : Fock ℝ} (h : Inside I.ci y) : inner (U x) (U y) = inner x y := by
  rw [hC.adj, (hC.all _ h).2.2]

end

end SQ
