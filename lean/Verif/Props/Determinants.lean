import Verif.Lemmas.Postselect
import Verif.Lemmas.Csfs

/-!
# C54-C56: post-selection, superposition circuits, matrix elements between CSFs
-/

namespace SQ

/-! ## C54 -/

/-- Keeping the outcomes in `keep` and scaling to total probability one: the entries are those of the
distribution in their order, each divided by the total; it fails iff something is kept with total zero. -/
def SelectsExactly (dist : Distr) (keep : ℕ → Prop) (r : Res Distr) : Prop :=
  ∃ kept : Distr, kept.Sublist dist ∧ (∀ kv ∈ dist, kv ∈ kept ↔ keep kv.1) ∧
    (kept = [] → r = .ok []) ∧
    (kept ≠ [] → (kept.map Prod.snd).sum = 0 → r = .error .zeroDivision) ∧
    ((kept.map Prod.snd).sum ≠ 0 → ∃ d, r = .ok d ∧ d.map Prod.fst = kept.map Prod.fst ∧
      (∀ k p, (k, p) ∈ d ↔ ∃ p', (k, p') ∈ kept ∧ p = p' / (kept.map Prod.snd).sum) ∧
      (d.map Prod.snd).sum = 1)

theorem postselection_selects (dist : Distr) (m : Mapper) (hm : m ≠ .other) (ne : ℕ × ℕ) (n : ℕ) (keep : ℕ → Prop)
    (hk : ∀ kv ∈ dist, (if m = .jordanWigner then keepJW ne n kv.1 else keepParity ne n kv.1) = true ↔ keep kv.1) :
    SelectsExactly dist keep (postselection dist m ne n) := by
  let f : ℕ × ℝ → Bool := fun kv => if m = .jordanWigner then keepJW ne n kv.1 else keepParity ne n kv.1
  have e : postselection dist m ne n
      = if dist.filter f ≠ [] ∧ ((dist.filter f).map Prod.snd).sum = 0 then .error .zeroDivision
        else .ok ((dist.filter f).map fun kv => (kv.1, kv.2 / ((dist.filter f).map Prod.snd).sum)) := by
    cases m with
    | other => exact absurd rfl hm
    | jordanWigner => rfl
    | parity => rfl
  refine ⟨dist.filter f, List.filter_sublist, fun kv hkv => ?_, fun h => ?_, fun h1 h2 => ?_, fun h => ?_⟩
  · rw [List.mem_filter]
    exact ⟨fun h => (hk kv hkv).1 h.2, fun h => ⟨hkv, (hk kv hkv).2 h⟩⟩
  · rw [e, if_neg (fun h' => h'.1 h), h]; rfl
  · rw [e, if_pos ⟨h1, h2⟩]
  · refine ⟨_, by rw [e, if_neg (fun h' => h h'.2)], ?_, ?_, ?_⟩
    · rw [List.map_map]; rfl
    · intro k p
      rw [List.mem_map]
      constructor
      · rintro ⟨⟨k', p'⟩, h1, h2⟩
        cases h2
        exact ⟨p', h1, rfl⟩
      · rintro ⟨p', h1, rfl⟩
        exact ⟨(k, p'), h1, rfl⟩
    · rw [List.map_map]
      have : ∀ (l : Distr) (s : ℝ), (l.map (Prod.snd ∘ fun kv : ℕ × ℝ => (kv.1, kv.2 / s))).sum = (l.map Prod.snd).sum / s := by
        intro l s
        induction l with
        | nil => simp
        | cons x l ih => simp only [List.map_cons, List.sum_cons, ih, Function.comp]; ring
      rw [this, div_self h]

/-- C54 for the Jordan-Wigner mapper: exactly the outcomes with `na` alpha and `nb` beta ones stay. -/
theorem C54_jw {m : ℕ} (dist : Distr) (hd : ∀ kv ∈ dist, kv.1 < 2 ^ (2 * m)) (na nb : ℕ) :
    SelectsExactly dist (fun v => alphaCount m v.testBit = na ∧ betaCount m v.testBit = nb)
      (postselection dist .jordanWigner (na, nb) (2 * m)) := by
  refine postselection_selects dist _ (by decide) _ _ _ fun kv hkv => ?_
  rw [if_pos rfl]
  exact keepJW_iff (hd kv hkv) na nb

/-- C54 for the parity mapper on `2 m - 2` qubits (two-qubit reduction) and equal electron numbers:
exactly the outcomes of determinants with these numbers stay. Missing: different electron numbers and the
mapper without reduction, for which the property fails (below). -/
theorem C54_parity_partial {m : ℕ} (hm : 1 < m) (dist : Distr) (hd : ∀ kv ∈ dist, kv.1 < 2 ^ (2 * m - 2)) (N : ℕ) :
    SelectsExactly dist (fun v => ∃ occ, ReducedParity m v occ ∧ alphaCount m occ = N ∧ betaCount m occ = N)
      (postselection dist .parity (N, N) (2 * m - 2)) := by
  refine postselection_selects dist _ (by decide) _ _ _ fun kv hkv => ?_
  rw [if_neg (by decide)]
  exact keepParity_iff hm (hd kv hkv) (by omega)

/-- Any other mapper is refused. -/
theorem C54_mapper (dist : Distr) (ne : ℕ × ℕ) (n : ℕ) : postselection dist .other ne n = .error .valueError := rfl

/-- For an even number of electrons the parity branch keeps the sector with alpha and beta exchanged. -/
theorem C54_parity_exchanged {m : ℕ} (hm : 1 < m) (dist : Distr) (hd : ∀ kv ∈ dist, kv.1 < 2 ^ (2 * m - 2))
    {na nb : ℕ} (hs : (na + nb) % 2 = 0) :
    SelectsExactly dist (fun v => ∃ occ, ReducedParity m v occ ∧ alphaCount m occ = nb ∧ betaCount m occ = na)
      (postselection dist .parity (na, nb) (2 * m - 2)) := by
  refine postselection_selects dist _ (by decide) _ _ _ fun kv hkv => ?_
  rw [if_neg (by decide)]
  exact keepParity_iff hm (hd kv hkv) hs

/-- Disagreement: with one alpha electron and no beta electron in two orbitals every outcome is dropped,
though `3` is the outcome of such a determinant. -/
theorem C54_parity_odd_disagree :
    (ReducedParity 2 3 (fun k => decide (k = 0)) ∧ alphaCount 2 (fun k => decide (k = 0)) = 1 ∧
      betaCount 2 (fun k => decide (k = 0)) = 0) ∧
    ∀ v < 4, keepParity (1, 0) 2 v = false := by
  unfold ReducedParity; decide

/-- Disagreement: for two alpha electrons the outcome of the determinant with two beta electrons is kept
and that of the determinant with two alpha electrons is dropped. -/
theorem C54_parity_even_disagree :
    (ReducedParity 2 1 (fun k => decide (k < 2)) ∧ alphaCount 2 (fun k => decide (k < 2)) = 2 ∧
      betaCount 2 (fun k => decide (k < 2)) = 0 ∧ keepParity (2, 0) 2 1 = false) ∧
    (ReducedParity 2 2 (fun k => decide (2 ≤ k)) ∧ alphaCount 2 (fun k => decide (2 ≤ k)) = 0 ∧
      betaCount 2 (fun k => decide (2 ≤ k)) = 2 ∧ keepParity (2, 0) 2 2 = true) := by
  unfold ReducedParity; decide

/-- Disagreement: without the two-qubit reduction all four outcomes of one orbital with one alpha and one
beta electron are kept, though only the outcome `1` belongs to it. -/
theorem C54_parity_full_disagree :
    (∀ v < 4, keepParity (1, 1) 2 v = true) ∧
    ∀ v < 4, ∀ occ, FullParity 1 v occ → alphaCount 1 occ = 1 → betaCount 1 occ = 1 → v = 1 := by
  refine ⟨by decide, ?_⟩
  intro v hv occ h ha hb
  have h0 := h 0 (by norm_num)
  have h1 := h 1 (by norm_num)
  have e1 : parityUpTo occ 0 = true := by rw [parity_alpha occ 0, ha]; rfl
  have e2 : parityUpTo occ 1 = false := by
    have := parity_total occ 0
    rw [ha, hb] at this
    exact this
  rw [e1] at h0
  rw [e2] at h1
  have : ∀ v < 4, v.testBit 0 = true → v.testBit 1 = false → v = 1 := by decide
  exact this v hv h0 h1

example : keepJW (1, 1) 4 0b0110 = true ∧ keepJW (1, 1) 4 0b0011 = false ∧
    alphaCount 2 (Nat.testBit 0b0110) = 1 ∧ betaCount 2 (Nat.testBit 0b0110) = 1 := by decide

example : ∀ kv ∈ ([(1, 0.25), (3, 0.75)] : Distr), kv.1 < 2 ^ (2 * 2 - 2) := by simp

example : keepParity (1, 1) 2 0b01 = true ∧ keepParity (2, 2) 2 0b11 = true ∧ keepParity (2, 2) 2 0b01 = false := by decide

/-! ## C55 -/

/-- C55: the circuit turns `|0...0⟩` into `(|det1⟩ + |det2⟩)/√2`, the qubits holding the alpha orbitals in
front of the beta orbitals. It is available iff `det2` occupies an orbital that is empty in `det1`; otherwise
`ValueError` is raised. -/
theorem C55_superposition {norb : ℕ} {det1 det2 : List Char} (h1 : IsDet norb det1) (h2 : IsDet norb det2) :
    ((∃ i : ℕ, det1[i]? = some '0' ∧ det2[i]? = some '1') →
      ∃ gs, superpositionReference det1 det2 norb .jordanWigner = .ok gs ∧
        runCircuit gs (zeroState (2 * norb))
          = ((Real.sqrt 2 : ℝ) : ℂ)⁻¹ • (basis (detBits norb det1) + basis (detBits norb det2))) ∧
    ((¬ ∃ i : ℕ, det1[i]? = some '0' ∧ det2[i]? = some '1') →
      superpositionReference det1 det2 norb .jordanWigner = .error .valueError) :=
  ⟨superposition_ok h1 h2, superposition_error (by rw [h1.1])⟩

/-- C55: the circuit of one determinant. -/
theorem C55_determinant {norb : ℕ} {det : List Char} (h : IsDet norb det) :
    ∃ gs, determinantReference det norb .jordanWigner = .ok gs ∧
      runCircuit gs (zeroState (2 * norb)) = basis (detBits norb det) := by
  obtain ⟨gs, e1, e2⟩ := emit_det norb (det := det) (by rw [h.1])
  exact ⟨gs, by unfold determinantReference; rw [if_neg (by decide), e1], e2⟩

/-- C55: other mappers are refused. -/
theorem C55_mapper (det1 det2 : List Char) (norb : ℕ) {m : Mapper} (hm : m ≠ .jordanWigner) :
    superpositionReference det1 det2 norb m = .error .typeError ∧ determinantReference det1 norb m = .error .typeError := by
  unfold superpositionReference determinantReference
  rw [if_pos hm, if_pos hm]
  exact ⟨rfl, rfl⟩

example : IsDet 2 "1100".toList ∧ IsDet 2 "0110".toList ∧
    ("1100".toList[2]? = some '0' ∧ "0110".toList[2]? = some '1') ∧
    (List.ofFn (detBits 2 "0110".toList)) = [false, true, true, false] := by
  unfold IsDet; decide

/-! ## C56 -/

/-- C56: with exact expectation values of the Hermitian `A` (the operator between the ansatz and its adjoint)
for prepared states, the value is the real part of `⟨bra|A|ket⟩`. The determinants may have any electron
numbers; with `reverse_csfs_order` bra and ket determinants must have the same number of electrons. -/
theorem C56_bilinear {norb : ℕ} (A : QState (2 * norb) →ₗ[ℂ] QState (2 * norb))
    (hA : ∀ φ ψ, qinner φ (A ψ) = (starRingEnd ℂ) (qinner ψ (A φ))) (E : List (Gate (2 * norb)) → ℝ)
    (hE : ∀ gs, E gs = (qinner (runCircuit gs (zeroState _)) (A (runCircuit gs (zeroState _)))).re)
    (r : Bool) (bra ket : List ℝ × List (List Char))
    (hb : ∀ d ∈ bra.2, IsDet norb d) (hk : ∀ d ∈ ket.2, IsDet norb d)
    (lb : bra.2.length ≤ bra.1.length) (lk : ket.2.length ≤ ket.1.length)
    (hr : r = true → ∀ d ∈ bra.2, ∀ d' ∈ ket.2, d.count '1' = d'.count '1') :
    expectationCsfs E .jordanWigner r bra ket
      = .ok (qinner (csfState norb bra.1 bra.2) (A (csfState norb ket.1 ket.2))).re :=
  csfs_ok A hA E hE r bra ket hb hk lb lk hr

/-- C56: for a real operator this is `⟨bra|A|ket⟩` itself. -/
theorem C56_real {norb : ℕ} (A : QState (2 * norb) →ₗ[ℂ] QState (2 * norb))
    (hA : ∀ b c, (qinner (basis b) (A (basis c))).im = 0) (c1 c2 : List ℝ) (d1 d2 : List (List Char)) :
    (qinner (csfState norb c1 d1) (A (csfState norb c2 d2))).im = 0 := by
  have him : ∀ {α : Type} (l : List α) (f : α → ℂ), (∀ x, (f x).im = 0) → (l.map f).sum.im = 0 := by
    intro α l f h
    induction l with
    | nil => simp
    | cons x l ih => simp [h, ih]
  unfold csfState
  rw [qinner_list_left]
  refine him _ _ fun x => ?_
  rw [qinner_list_right, Complex.im_ofReal_mul, him, mul_zero]
  intro y
  rw [Complex.im_ofReal_mul, hA, mul_zero]

/-- Disagreement: with `reverse_csfs_order` and determinants of different electron numbers the call raises. -/
theorem C56_reverse_disagree (E : List (Gate (2 * 1)) → ℝ) :
    expectationCsfs E .jordanWigner true ([1], ["10".toList]) ([1], ["11".toList]) = .error .valueError := by
  have e : sortedPair true "10".toList "11".toList = ("11".toList, "10".toList) := by decide
  have hs : superpositionReference "11".toList "10".toList 1 .jordanWigner = .error .valueError := by
    refine superposition_error (by decide) ?_
    rintro ⟨i, h1, h2⟩
    match i, h1, h2 with
    | 0, h1, _ => simp at h1
    | 1, h1, _ => simp at h1
    | i + 2, h1, _ => simp at h1
  unfold expectationCsfs
  rw [if_neg (by decide), if_neg (by simp)]
  change List.foldlM (m := Except PyErr) (fun (val : ℝ) (x : (List Char × List Char) × ℝ) => do
    let t ← csfsTerm E x
    return val + t) 0 (uniqueCombinations true [(1, "10".toList)] [(1, "11".toList)]) = _
  unfold uniqueCombinations
  simp only [List.flatMap_cons, List.flatMap_nil, List.map_cons, List.map_nil, List.append_nil, List.foldl_cons,
    List.foldl_nil, addWeight, List.any_nil, Bool.false_eq_true, if_false, List.nil_append, List.foldlM_cons, e]
  unfold csfsTerm
  rw [if_neg (by decide), hs]
  rfl

example : (∀ d ∈ ["1100".toList, "0011".toList], IsDet 2 d) ∧ (∀ d ∈ ["1001".toList], IsDet 2 d) ∧
    (∀ d ∈ ["1100".toList, "0011".toList], ∀ d' ∈ ["1001".toList], d.count '1' = d'.count '1') := by
  unfold IsDet; decide

example : (crossings "0110".toList).card = 1 ∧ (crossings "1001".toList).card = 0 := by decide

end SQ
