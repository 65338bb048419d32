import Verif.Lemmas.Boys
import Verif.Lemmas.CauchySchwarz
import Verif.Lemmas.KernelSymmetry
import Verif.Lemmas.Placement
import Verif.Props.Molecule
import Verif.Spec.MolIntegrals

/-!
# Lemmas: the shells of a molecule
-/

namespace SQ

open MeasureTheory Real

theorem bfIdx_range (shells : List Shell) (N : ℕ) (h : shells.flatMap Shell.bfIdx = List.range N) {i : ℕ} {s : Shell}
    (hi : shells[i]? = some s) :
    s.bfIdx = List.range' ((shells.take i).map fun s => s.bfIdx.length).sum s.bfIdx.length := by
  have hsplit : shells = shells.take i ++ s :: shells.drop (i + 1) := by
    obtain ⟨hil, rfl⟩ := List.getElem?_eq_some_iff.1 hi
    rw [← List.drop_eq_getElem_cons hil, List.take_append_drop]
  have h1 : List.range' 0 N = (shells.take i).flatMap Shell.bfIdx ++
      (s.bfIdx ++ (shells.drop (i + 1)).flatMap Shell.bfIdx) := by
    rw [← List.range_eq_range', ← h]
    conv_lhs => rw [hsplit]
    rw [List.flatMap_append, List.flatMap_cons]
  obtain ⟨k, hk, e1, e2⟩ := List.range'_eq_append_iff.1 h1
  obtain ⟨k', hk', e3, _⟩ := List.range'_eq_append_iff.1 e2.symm
  have l1 : k = ((shells.take i).map fun s => s.bfIdx.length).sum := by
    have := congrArg List.length e1
    rw [List.length_flatMap, List.length_range'] at this
    exact this.symm
  have l3 : k' = s.bfIdx.length := by rw [e3, List.length_range']
  rw [l1, l3] at e3
  simpa using e3

theorem toG_nbf (s : Shell) : s.toG.nbf = s.angular.length := rfl

theorem gshells_placed {read : String → Res (List BasisShell)} {m m' : Molecule} (h : setBasisSet read m = .ok m')
    (hb : ∀ s ∈ m'.shells, s.angular ≠ []) : Placed m'.gshells := by
  obtain ⟨h1, h2, -⟩ := C63_numbering read m m' h
  intro i s hi
  unfold Molecule.gshells at hi
  rw [List.getElem?_map, Option.map_eq_some_iff] at hi
  obtain ⟨t, ht, rfl⟩ := hi
  have hr := bfIdx_range m'.shells _ h1 ht
  have hmem := List.mem_of_getElem? ht
  have hne : t.bfIdx ≠ [] := fun he => hb t hmem (List.length_eq_zero_iff.1 (by rw [← h2 t hmem, he]; rfl))
  have e : ((m'.gshells.take i).map GShell.nbf).sum = ((m'.shells.take i).map fun s => s.bfIdx.length).sum := by
    unfold Molecule.gshells
    rw [← List.map_take, List.map_map]
    congr 1
    refine List.map_congr_left fun s hs => ?_
    simp only [Function.comp]
    rw [toG_nbf, h2 s (List.mem_of_mem_take hs)]
  rw [e]
  change t.bfIdx.headD 0 = _
  generalize ((m'.shells.take i).map fun s => s.bfIdx.length).sum = L at hr
  cases hb' : t.bfIdx with
  | nil => exact absurd hb' hne
  | cons x xs =>
    rw [hb', List.length_cons, List.range'_succ] at hr
    exact (List.cons.inj hr).1

theorem gshells_numbered {read : String → Res (List BasisShell)} {m m' : Molecule} (h : setBasisSet read m = .ok m')
    {a : ℕ} (ha : a < m'.numberBf) : ∃ (s : GShell) (k : Fin s.nbf), Numbered m'.gshells a s k := by
  obtain ⟨h1, h2, h3, -⟩ := C63_numbering read m m' h
  obtain ⟨i, ⟨t, ht, hat⟩, -⟩ := h3 a ha
  have hr := bfIdx_range m'.shells _ h1 ht
  rw [hr, List.mem_range'_1] at hat
  have hmem := List.mem_of_getElem? ht
  have e : ((m'.gshells.take i).map GShell.nbf).sum = ((m'.shells.take i).map fun s => s.bfIdx.length).sum := by
    unfold Molecule.gshells
    rw [← List.map_take, List.map_map]
    congr 1
    refine List.map_congr_left fun s hs => ?_
    simp only [Function.comp]
    rw [toG_nbf, h2 s (List.mem_of_mem_take hs)]
  refine ⟨t.toG, ⟨a - ((m'.shells.take i).map fun s => s.bfIdx.length).sum, ?_⟩, i, ?_, ?_⟩
  · rw [toG_nbf, ← h2 t hmem]; omega
  · unfold Molecule.gshells
    rw [List.getElem?_map, ht]; rfl
  · rw [e]
    simp only
    omega

/-- The number of a function determines the function. -/
theorem numbered_lt {read : String → Res (List BasisShell)} {m m' : Molecule} (h : setBasisSet read m = .ok m')
    {a : ℕ} {s : GShell} {k : Fin s.nbf} (hn : Numbered m'.gshells a s k) : a < m'.numberBf := by
  obtain ⟨h1, h2, -⟩ := C63_numbering read m m' h
  obtain ⟨i, hi, rfl⟩ := hn
  have hN : m'.numberBf = (m'.gshells.map GShell.nbf).sum := by
    have := congrArg List.length h1
    rw [List.length_range, List.length_flatMap] at this
    rw [← this]
    unfold Molecule.gshells
    rw [List.map_map]
    congr 1
    refine List.map_congr_left fun s hs => ?_
    simp only [Function.comp]
    rw [toG_nbf, h2 s hs]
  rw [hN]
  have hsplit : m'.gshells = m'.gshells.take i ++ s :: m'.gshells.drop (i + 1) := by
    obtain ⟨hil, rfl⟩ := List.getElem?_eq_some_iff.1 hi
    rw [← List.drop_eq_getElem_cons hil, List.take_append_drop]
  conv_rhs => rw [hsplit]
  rw [List.map_append, List.sum_append, List.map_cons, List.sum_cons]
  omega

section

variable {read : String → Res (List BasisShell)} {m m' : Molecule} (h : setBasisSet read m = .ok m')
  (hb : m'.PositiveBasis)

include h hb

theorem numbered_start {a : ℕ} {s : GShell} {k : Fin s.nbf} (hn : Numbered m'.gshells a s k) :
    ∃ i : ℕ, m'.gshells[i]? = some s ∧ a = s.start + k ∧ s.Positive ∧ m'.amplitude a = shellFunction s k := by
  obtain ⟨i, hi, ha⟩ := hn
  have hp := gshells_placed h fun s hs => (hb s hs).1
  have e := hp i s hi
  rw [← e] at ha
  refine ⟨i, hi, ha, ?_, ?_⟩
  · have hi' := hi
    unfold Molecule.gshells at hi'
    rw [List.getElem?_map, Option.map_eq_some_iff] at hi'
    obtain ⟨t, ht, rfl⟩ := hi'
    intro i
    exact (hb t (List.mem_of_getElem? ht)).2 _ (List.get_mem _ _)
  · funext r
    rw [ha]
    exact basisAmplitude_eq m'.gshells hp hi k r

omit h in
theorem gshells_positive {s : GShell} (hs : s ∈ m'.gshells) : s.Positive := by
  unfold Molecule.gshells at hs
  obtain ⟨t, ht, rfl⟩ := List.mem_map.1 hs
  intro i
  exact (hb t ht).2 _ (List.get_mem _ _)

/-- A matrix filled by the one-electron driver holds the kernel's value. -/
theorem driver_value (kernel : (s₁ s₂ : GShell) → Fin s₁.nbf → Fin s₂.nbf → ℝ)
    (hsym : ∀ s ∈ m'.gshells, ∀ t ∈ m'.gshells, ∀ k l, kernel s t k l = kernel t s l k)
    {a b : ℕ} {s t : GShell} {k : Fin s.nbf} {l : Fin t.nbf} (ha : Numbered m'.gshells a s k)
    (hb' : Numbered m'.gshells b t l) : oneElectronDriver kernel m'.gshells a b = kernel s t k l := by
  obtain ⟨i, hi, rfl, -, -⟩ := numbered_start h hb ha
  obtain ⟨j, hj, rfl, -, -⟩ := numbered_start h hb hb'
  exact oneElectronDriver_eq kernel _ (gshells_placed h fun s hs => (hb s hs).1) hsym hi hj k l

end

theorem multipole_symm (O : Fin 3 → ℝ) (order : Fin 3 → ℕ) {s t : GShell} (hs : s.Positive) (ht : t.Positive)
    (k : Fin s.nbf) (l : Fin t.nbf) : multipoleIntegral O order s t k l = multipoleIntegral O order t s l k := by
  rw [multipoleIntegral_exact s t hs ht, multipoleIntegral_exact t s ht hs]
  simp only [mul_comm (shellFunction s k _)]

theorem kinetic_symm {s t : GShell} (hs : s.Positive) (ht : t.Positive) (k : Fin s.nbf) (l : Fin t.nbf) :
    kineticIntegral s t k l = kineticIntegral t s l k := by
  rw [kineticIntegral_exact s t hs ht, ← laplacian_pair_symm s t hs ht, kineticIntegral_exact t s ht hs]
  simp only [mul_comm (shellFunction t l _)]

/-! ## Normalised primitives -/

theorem cartesianGaussian_eq (R : Fin 3 → ℝ) (α : ℝ) (l : Fin 3 → ℕ) : cartesianGaussian R α l = prim R α l := by
  funext r
  rw [prim_eq]
  rfl

/-- The square of the normalization constant of a primitive is the inverse of its squared norm. -/
theorem primitive_norm_sq {α : ℝ} (hα : 0 < α) (R : Fin 3 → ℝ) (l : Fin 3 → ℕ) :
    primitiveNormalization α (l 0) (l 1) (l 2) ^ 2 * ∫ r, prim R α l r * prim R α l r = 1 := by
  have h := (raw_self_integral R (fun _ : Fin 1 => α) (fun _ => 1) l fun _ => hα).2
  have e : ∀ r, rawFunction R (fun _ : Fin 1 => α) (fun _ => 1) l r * rawFunction R (fun _ : Fin 1 => α) (fun _ => 1) l r =
      primitiveNormalization α (l 0) (l 1) (l 2) ^ 2 * (prim R α l r * prim R α l r) := by
    intro r
    simp only [rawFunction, Fin.sum_univ_one, one_mul]
    ring
  simp only [e] at h
  rw [integral_const_mul] at h
  rw [h]
  simp only [Fin.sum_univ_one, one_mul, factorial2_oddFac]
  unfold primitiveNormalization
  simp only [factorial2_oddFac]
  have h0 := oddFac_pos (l 0)
  have h1 := oddFac_pos (l 1)
  have h2 := oddFac_pos (l 2)
  generalize oddFac (l 0) = x at *
  generalize oddFac (l 1) = y at *
  generalize oddFac (l 2) = z at *
  have hd : 0 < x * y * z := by positivity
  have s1 : ((2 / π) ^ (3 / 4 : ℝ)) * ((2 / π) ^ (3 / 4 : ℝ)) = 2 ^ (3 / 2 : ℝ) / π ^ (3 / 2 : ℝ) := by
    rw [← rpow_add (by positivity), ← div_rpow (by norm_num) pi_pos.le]; norm_num
  have s2 : α ^ ((2 * (l 0 : ℝ) + 2 * l 1 + 2 * l 2 + 3) / 4) * α ^ ((2 * (l 0 : ℝ) + 2 * l 1 + 2 * l 2 + 3) / 4) =
      α ^ ((l 0 : ℝ) + l 1 + l 2 + 3 / 2) := by
    rw [← rpow_add hα]; congr 1; ring
  have s3 : (x * y * z) ^ (1 / 2 : ℝ) * (x * y * z) ^ (1 / 2 : ℝ) = x * y * z := by
    rw [← rpow_add hd]; norm_num
  have s4 : (α + α) ^ ((l 0 : ℝ) + l 1 + l 2 + 3 / 2) =
      2 ^ (l 0 + l 1 + l 2) * 2 ^ (3 / 2 : ℝ) * α ^ ((l 0 : ℝ) + l 1 + l 2 + 3 / 2) := by
    rw [← two_mul, mul_rpow (by norm_num) hα.le, rpow_add (by norm_num : (0 : ℝ) < 2), ← rpow_natCast]
    push_cast
    ring
  have hα' : 0 < α ^ ((l 0 : ℝ) + l 1 + l 2 + 3 / 2) := rpow_pos_of_pos hα _
  have h32 : (0 : ℝ) < 2 ^ (3 / 2 : ℝ) := by positivity
  have hpi : 0 < π ^ (3 / 2 : ℝ) := rpow_pos_of_pos pi_pos _
  rw [s4, show ∀ A B : ℝ, A / B * (A / B) = A * A / (B * B) from fun A B => div_mul_div_comm _ _ _ _, s3,
    show ∀ A B C : ℝ, A * (B * C) * (A * (B * C)) = A * A * (B * B) * (C * C) from fun A B C => by ring, s1, s2]
  field_simp

theorem unitGaussian_eq {α : ℝ} (hα : 0 < α) (R : Fin 3 → ℝ) (l : Fin 3 → ℕ) (r : Fin 3 → ℝ) :
    unitGaussian R α l r = primitiveNormalization α (l 0) (l 1) (l 2) * cartesianGaussian R α l r := by
  have h := primitive_norm_sq hα R l
  have hp := primitiveNormalization_pos hα (l 0) (l 1) (l 2)
  unfold unitGaussian
  simp only [cartesianGaussian_eq, sq] at *
  have h' : ∫ r', prim R α l r' * prim R α l r' = (primitiveNormalization α (l 0) (l 1) (l 2))⁻¹ ^ 2 := by
    rw [inv_pow, sq]
    exact eq_inv_of_mul_eq_one_right h
  rw [h', sqrt_sq (inv_pos.2 hp).le, div_inv_eq_mul, mul_comm]

/-! ## Screening -/

theorem blockMax_ge {n m : ℕ} (B : Fin n → Fin m → Fin n → Fin m → ℝ) (a : Fin n) (b : Fin m) :
    B a b a b ≤ blockMax B := by
  unfold blockMax
  exact le_csSup (Set.finite_range _).bddAbove ⟨((a, b), (a, b)), rfl⟩

/-- The matrix bounds the diagonal integrals of its pairs of shells. -/
theorem cauchySchwarz_bound {shells : List GShell} (hpos : ∀ s ∈ shells, s.Positive) {i j : ℕ} {p q : GShell}
    (hi : shells[i]? = some p) (hj : shells[j]? = some q) (a : Fin p.nbf) (b : Fin q.nbf) :
    √(repulsionIntegral boysExact p q p q a b a b) ≤
      cauchySchwarzMatrix (repulsionIntegral boysExact) shells i j := by
  have hp := hpos p (List.mem_of_getElem? hi)
  have hq := hpos q (List.mem_of_getElem? hj)
  have entry : ∀ {p q : GShell} (a : Fin p.nbf) (b : Fin q.nbf),
      √(repulsionIntegral boysExact p q p q a b a b) ≤ cauchySchwarzEntry (repulsionIntegral boysExact) p q := by
    intro p q a b
    unfold cauchySchwarzEntry
    rw [show (0.5 : ℝ) = 1 / 2 by norm_num, ← sqrt_eq_rpow]
    exact sqrt_le_sqrt (blockMax_ge (repulsionIntegral boysExact p q p q) a b)
  rcases Nat.le_total i j with h | h
  · rw [(cauchySchwarzMatrix_eq (repulsionIntegral boysExact) hi hj h).1]
    exact entry a b
  · rw [(cauchySchwarzMatrix_eq (repulsionIntegral boysExact) hj hi h).2,
      repulsionIntegral_left hp hq hp hq, repulsionIntegral_right hq hp hp hq]
    exact entry b a

/-- A screened-out quadruple has integrals below the threshold. -/
theorem screened_small {shells : List GShell} (hpos : ∀ s ∈ shells, s.Positive) {i j k l : ℕ} {s₁ s₂ s₃ s₄ : GShell}
    (h₁ : shells[i]? = some s₁) (h₂ : shells[j]? = some s₂) (h₃ : shells[k]? = some s₃) (h₄ : shells[l]? = some s₄)
    (a : Fin s₁.nbf) (b : Fin s₂.nbf) (c : Fin s₃.nbf) (d : Fin s₄.nbf) {thr : ℝ}
    (hk : ¬ Kept (some (cauchySchwarzMatrix (repulsionIntegral boysExact) shells, thr)) i j k l) :
    |repulsionIntegral boysExact s₁ s₂ s₃ s₄ a b c d| < thr := by
  have p1 := hpos _ (List.mem_of_getElem? h₁)
  have p2 := hpos _ (List.mem_of_getElem? h₂)
  have p3 := hpos _ (List.mem_of_getElem? h₃)
  have p4 := hpos _ (List.mem_of_getElem? h₄)
  simp only [Kept, not_not] at hk
  refine lt_of_le_of_lt ?_ hk
  have hcs := abs_le_sqrt (repulsionIntegral_cauchy p1 p2 p3 p4 a b c d)
  rw [sqrt_mul (repulsionIntegral_diag_nonneg p1 p2 a b)] at hcs
  refine hcs.trans ?_
  have b1 := cauchySchwarz_bound hpos h₁ h₂ a b
  have b2 := cauchySchwarz_bound hpos h₃ h₄ c d
  exact mul_le_mul b1 b2 (sqrt_nonneg _) ((sqrt_nonneg _).trans b1)

/-! ## What `read_basis` returns -/

/-- A shell as every basis file gives it. -/
def BasisShell.Shaped (b : BasisShell) : Prop := b.angular ≠ [] ∧ b.coefficients.length = b.exponents.length

theorem cartesians_ne {w : String} {ang : List (ℕ × ℕ × ℕ)} (h : cartesians w = .ok ang) : ang ≠ [] := by
  unfold cartesians at h
  split_ifs at h <;> cases h <;> simp

theorem closeShell_shaped {s s' : ReadState} (h : closeShell s = .ok s') (hl : s.coefs.length = s.exps.length)
    (hd : ∀ b ∈ s.done, b.Shaped) : s'.coefs.length = s'.exps.length ∧ ∀ b ∈ s'.done, b.Shaped := by
  unfold closeShell at h
  by_cases c : s.left = 0
  · rw [if_pos c] at h
    cases ha : cartesians s.word with
    | error e => rw [ha] at h; cases h
    | ok ang =>
      rw [ha] at h
      cases h
      refine ⟨hl, fun b hb => ?_⟩
      rcases List.mem_append.1 hb with hb | hb
      · exact hd b hb
      · rw [List.mem_singleton.1 hb]
        exact ⟨cartesians_ne ha, hl⟩
  · rw [if_neg c] at h
    cases h
    exact ⟨hl, hd⟩

theorem readShells_shaped : ∀ (ls : List BasisLine) (s : ReadState) (out : List BasisShell),
    readShells ls s = .ok out → s.coefs.length = s.exps.length → (∀ b ∈ s.done, b.Shaped) → ∀ b ∈ out, b.Shaped
  | [], s, out, h, _, hd => by cases h; exact hd
  | .star :: ls, s, out, h, hl, hd => readShells_shaped ls s out h hl hd
  | .title _ :: _, s, out, h, _, hd => by cases h; exact hd
  | .header n w :: ls, s, out, h, hl, hd => by
    simp only [readShells] at h
    split_ifs at h with c1 c2
    · exact readShells_shaped ls _ out h rfl hd
    · cases hc : closeShell s with
      | error e => rw [hc] at h; cases h
      | ok s' =>
        rw [hc] at h
        obtain ⟨g1, g2⟩ := closeShell_shaped hc hl hd
        exact readShells_shaped ls s' out h g1 g2
  | .prim a c :: ls, s, out, h, hl, hd => by
    simp only [readShells] at h
    generalize hs : (if 0 < s.left then
        { s with exps := s.exps ++ [a], coefs := s.coefs ++ [c], left := s.left - 1 } else s : ReadState) = s1 at h
    have h1 : s1.coefs.length = s1.exps.length ∧ ∀ b ∈ s1.done, b.Shaped := by
      rw [← hs]
      split_ifs
      · exact ⟨by simp [hl], hd⟩
      · exact ⟨hl, hd⟩
    cases hc : closeShell s1 with
    | error e => rw [hc] at h; cases h
    | ok s' =>
      rw [hc] at h
      obtain ⟨g1, g2⟩ := closeShell_shaped hc h1.1 h1.2
      exact readShells_shaped ls s' out h g1 g2

theorem readBasis_shaped (atom : String) : ∀ (ls : List BasisLine) (out : List BasisShell),
    readBasis atom ls = .ok out → ∀ b ∈ out, b.Shaped
  | [], _, h => by cases h
  | .star :: ls, out, h => readBasis_shaped atom ls out h
  | .header _ _ :: ls, out, h => readBasis_shaped atom ls out h
  | .prim _ _ :: ls, out, h => readBasis_shaped atom ls out h
  | .title t :: ls, out, h => by
    simp only [readBasis] at h
    split_ifs at h with c
    · exact readShells_shaped ls _ out h rfl (by simp)
    · exact readBasis_shaped atom ls out h

end SQ
