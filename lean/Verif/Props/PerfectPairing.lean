import Verif.Lemmas.PerfectPairing

/-!
# C73: the reference determinant and perfect pairing

`pairing`, `doubled`: Spec/OrbitalSpaces.lean.
-/

namespace SQ

variable {R : Type} [CommRing R]

/-- The start vector for a closed-shell determinant. -/
theorem reference_doubled {ci : CIInfo} {nI nA nV o : ℕ} (hA : 0 < nA) (hci : getIndexing nI nA nV o o = .ok ci)
    (f : List Bool) (hl : f.length = nA) (hc : f.count true = o) :
    ∃ v : Vec R, reference ci (doubled f) = .ok v ∧
      stateOf ci v = ket ((Finset.range (2 * nA)).filter fun p => f[p / 2]? = some true) := by
  obtain ⟨ci', h1, -, h3, -, -, hv, -⟩ := C17_space hA nI nV (o : ℤ) o
  obtain rfl : ci = ci' := by rw [hci] at h1; exact Except.ok.inj h1
  rw [getIndexing_eq hA] at h1
  set a := f.map fun b => if b then 1 else 0 with ha
  have hla : a.length = nA := by rw [ha, List.length_map, hl]
  have hm : detOf a a ∈ ci.idx2det := by
    rw [← Except.ok.inj h1]
    have : a ∈ genSpinStrings nA o := by
      rw [mem_gen]; exact ⟨hla, occ_bits f, by rw [ha, count_bits, hc]⟩
    exact mem_casDets.2 ⟨a, a, this, this, rfl⟩
  obtain ⟨i, hi, hd⟩ := List.mem_iff_getElem.1 hm
  have hfind : ci.find (bitsToNat (doubled f)) = some i := by
    rw [hv.inv, bits_detOf, List.getElem?_eq_getElem hi, hd]
  refine ⟨Function.update 0 i 1, ?_, ?_⟩
  · unfold reference
    rw [if_neg, hfind]
    intro h0
    have := congrArg List.length h0
    rw [doubled_length, hl, List.length_nil] at this
    omega
  · have h := stateOf_update (ci := ci) (0 : Vec R) hi 1
    rw [Pi.zero_apply, zero_add, stateOf_zero, zero_add] at h
    rw [h]
    have hD : ci.D i = (Finset.range (2 * nA)).filter fun p => f[p / 2]? = some true := by
      have hDi : ci.D i = decode ci.nA (detOf a a) := by
        unfold CIInfo.D
        rw [List.getD_eq_getElem _ _ hi, hd]
      rw [hDi, h3]
      ext p
      rw [Finset.mem_filter, Finset.mem_range]
      have hget : ∀ q, (a.getD q 0 = 1 ↔ f[q]? = some true) := by
        intro q
        rw [ha, List.getD_eq_getElem?_getD, List.getElem?_map]
        cases f[q]? with
        | none => simp
        | some b => cases b <;> simp
      have hlt : f[p / 2]? = some true → p < 2 * nA := by
        intro h
        obtain ⟨h, -⟩ := List.getElem?_eq_some_iff.1 h
        omega
      have hmd := mem_decode_detOf (n := nA) hla hla (occ_bits f) (occ_bits f) (p := p / 2)
      rcases Nat.mod_two_eq_zero_or_one p with h0 | h0
      · have := hmd.1
        rw [show 2 * (p / 2) = p by omega, hget] at this
        rw [this]; exact ⟨fun h => ⟨hlt h, h⟩, fun h => h.2⟩
      · have := hmd.2
        rw [show 2 * (p / 2) + 1 = p by omega, hget] at this
        rw [this]; exact ⟨fun h => ⟨hlt h, h⟩, fun h => h.2⟩
    rw [hD]

/-- C73: the Hartree-Fock start vector exists for every closed-shell active space with at least one
orbital, and is the determinant with the lowest orbitals doubly occupied. -/
theorem C73_hartree_fock {ci : CIInfo} {nI nA nV o : ℕ} (hA : 0 < nA) (ho : o ≤ nA)
    (hci : getIndexing nI nA nV o o = .ok ci) :
    ∃ v : Vec R, reference ci (hfDet (2 * nA) (2 * o)) = .ok v ∧ stateOf ci v = ket (Finset.range (2 * o)) := by
  rw [hfDet_eq ho]
  obtain ⟨v, h1, h2⟩ := reference_doubled (R := R) hA hci (List.replicate o true ++ List.replicate (nA - o) false)
    (by simp; omega) (by simp [List.count_replicate])
  refine ⟨v, h1, h2.trans ?_⟩
  congr 1
  ext p
  simp only [Finset.mem_filter, Finset.mem_range, List.getElem?_append, List.length_replicate, List.getElem?_replicate]
  split_ifs <;> simp <;> omega

/-- C73: the search for the perfect-pairing determinant ends without `ValueError` or `KeyError` and
yields filled-empty pairs of orbitals followed by all filled or all empty ones. -/
theorem C73_perfect_pairing {ci : CIInfo} {nI nA nV o : ℕ} (hA : 0 < nA) (ho : o ≤ nA)
    (hci : getIndexing nI nA nV o o = .ok ci) :
    ∃ det, ppDet (2 * nA) (2 * o) = .ok det ∧ det = doubled (pairing nA o) ∧ (pairing nA o).length = nA ∧
      (pairing nA o).count true = o ∧ ∃ v : Vec R, reference ci det = .ok v ∧
        stateOf ci v = ket ((Finset.range (2 * nA)).filter fun p => (pairing nA o)[p / 2]? = some true) := by
  obtain ⟨v, h1, h2⟩ := reference_doubled (R := R) hA hci (pairing nA o) (pairing_length ho) (pairing_count ho)
  exact ⟨_, ppDet_eq ho, rfl, pairing_length ho, pairing_count ho, v, h1, h2⟩

/-- C73: the columns of the orbital coefficients are exchanged in pairs (so their span is kept), columns
of inactive and virtual orbitals stay, and the orbitals that perfect pairing fills are exactly those that
were the occupied ones: the starting determinant is still the one with the given lowest orbitals filled. -/
theorem C73_columns {α : Type} {nI nA o : ℕ} (ho : o ≤ nA) (mo : ℕ → α) {det : List Bool}
    (hdet : ppDet (2 * nA) (2 * o) = .ok det) :
    ∃ σ : ℕ → ℕ, ppColumns nI (hfDet (2 * nA) (2 * o)) det mo = .ok (fun c => mo (σ c)) ∧
      (∀ c, σ (σ c) = c) ∧ (∀ c, ¬ (nI ≤ c ∧ c < nI + nA) → σ c = c) ∧
      ∀ c, nI ≤ c ∧ c < nI + nA → ((pairing nA o)[c - nI]? = some true ↔ nI ≤ σ c ∧ σ c < nI + o) := by
  obtain rfl : det = doubled (pairing nA o) := by rw [ppDet_eq ho] at hdet; exact (Except.ok.inj hdet).symm
  rw [hfDet_eq ho]
  set f := List.replicate o true ++ List.replicate (nA - o) false with hf
  set g := pairing nA o with hg
  have hlf : f.length = nA := by rw [hf]; simp; omega
  have hlg : g.length = nA := pairing_length ho
  have hl : f.length = g.length := by rw [hlf, hlg]
  have hfi : ∀ i, f[i]? = some true ↔ i < o := by
    intro i
    rw [hf]
    simp only [List.getElem?_append, List.length_replicate, List.getElem?_replicate]
    split_ifs <;> simp <;> omega
  have hff : ∀ i, f[i]? = some false ↔ o ≤ i ∧ i < nA := by
    intro i
    rw [hf]
    simp only [List.getElem?_append, List.length_replicate, List.getElem?_replicate]
    split_ifs <;> simp <;> omega
  have hbool : ∀ i < nA, g[i]? = some true ∨ g[i]? = some false := by
    intro i hi
    rw [List.getElem?_eq_getElem (by omega)]
    cases g[i] <;> simp
  have hH := fun c => mem_diffSpatial (nI := nI) hl (x := true) (y := false) (c := c)
  have hP := fun c => mem_diffSpatial (nI := nI) hl (x := false) (y := true) (c := c)
  have hlen : (sortedSpatial nI (differ (doubled f) (doubled g) true false)).length
      = (sortedSpatial nI (differ (doubled f) (doubled g) false true)).length := by
    rw [length_diffSpatial _ _ _ _ hl, length_diffSpatial _ _ _ _ hl]
    have := count_zip_diff f g hl
    rw [hg, pairing_count ho, ← hg] at this
    have hcf : f.count true = o := by rw [hf]; simp [List.count_replicate]
    omega
  have hn : (sortedSpatial nI (differ (doubled f) (doubled g) true false) ++
      sortedSpatial nI (differ (doubled f) (doubled g) false true)).Nodup := by
    refine List.nodup_append.2 ⟨nodup_sortedSpatial _ _, nodup_sortedSpatial _ _, ?_⟩
    intro x hx y hy hxy
    subst hxy
    rw [hH] at hx; rw [hP] at hy
    have := hx.2.1.symm.trans hy.2.1
    simp at this
  obtain ⟨σ, h1, h2, h3, h4, h5⟩ := assign_swap mo _ _ hn hlen
  refine ⟨σ, h1, h2, fun c hc => h5 c ?_ ?_, fun c hc => ?_⟩
  · rw [hH, hfi]; rintro ⟨a, b, -⟩; omega
  · rw [hP, hff]; rintro ⟨a, b, -⟩; omega
  · by_cases hfc : c - nI < o
    · rcases hbool (c - nI) (by omega) with hgc | hgc
      · have hnH : c ∉ sortedSpatial nI (differ (doubled f) (doubled g) true false) := by
          rw [hH, hgc]; simp
        have hnP : c ∉ sortedSpatial nI (differ (doubled f) (doubled g) false true) := by
          rw [hP, hff]; omega
        rw [h5 c hnH hnP, hgc]
        simp; omega
      · have := h3 c ((hH c).2 ⟨hc.1, (hfi _).2 hfc, hgc⟩)
        rw [hP, hff] at this
        rw [hgc]
        simp; omega
    · rcases hbool (c - nI) (by omega) with hgc | hgc
      · have := h4 c ((hP c).2 ⟨hc.1, (hff _).2 (by omega), hgc⟩)
        rw [hH, hfi] at this
        rw [hgc]
        simp; omega
      · have hnH : c ∉ sortedSpatial nI (differ (doubled f) (doubled g) true false) := by
          rw [hH, hfi]; omega
        have hnP : c ∉ sortedSpatial nI (differ (doubled f) (doubled g) false true) := by
          rw [hP, hgc]; simp
        rw [h5 c hnH hnP, hgc]
        simp; omega

example : pairing 5 2 = [true, false, true, false, false] := by decide
example : pairing 5 3 = [true, false, true, false, true] := by decide
example : ∃ ci, getIndexing 1 4 1 2 2 = .ok ci := ⟨_, getIndexing_eq (by decide) _ _ _ _⟩

end SQ
