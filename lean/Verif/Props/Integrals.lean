import Mathlib.Data.Nat.Factorial.DoubleFactorial
import Mathlib.Analysis.Complex.ExponentialBounds
import Verif.Lemmas.MolIntegrals

/-!
# Properties C59-C61, C83-C88: molecular integrals
-/

namespace SQ

open MeasureTheory Real

/-! ## C59 -/

/-- **C59.** The coefficients expand the product of two Cartesian Gaussians in Hermite Gaussians
`∂^t/∂P^t exp(-(a+b)(x-P)²)`, for all powers up to the requested ones and every point `x`; beyond `t = i + j` they
are zero. -/
theorem C59_expansion {a b : ℝ} (hab : a + b ≠ 0) (A B : ℝ) (la lb i j : ℕ) (hi : i ≤ la) (hj : j ≤ lb) :
    (∀ x, (x - A) ^ i * exp (-a * (x - A) ^ 2) * ((x - B) ^ j * exp (-b * (x - B) ^ 2)) =
      ∑ t ∈ Finset.range (i + j + 1), expansionCoefficients A B a b la lb (i, j, t) *
        hermiteGaussian (a + b) ((a * A + b * B) / (a + b)) x t) ∧
    ∀ t, i + j < t → expansionCoefficients A B a b la lb (i, j, t) = 0 := by
  obtain ⟨h1, h2⟩ := expansionCoefficients_eq A B a b la lb
  refine ⟨fun x => ?_, fun t ht => ?_⟩
  · refine (cart_product hab A B x i j).trans (Finset.sum_congr rfl fun t ht => ?_)
    rw [Finset.mem_range] at ht
    rw [h1 i j t hi hj (by omega), hermiteGaussian_eq]
    rfl
  · by_cases h : t ≤ la + lb
    · rw [h1 i j t hi hj h, expansionExact_zero ht]
    · exact h2 i j t fun hh => h hh.2.2

example (A B x : ℝ) : (x - A) ^ 2 * exp (-1 * (x - A) ^ 2) * ((x - B) ^ 1 * exp (-2 * (x - B) ^ 2)) =
    ∑ t ∈ Finset.range 4, expansionCoefficients A B 1 2 3 3 (2, 1, t) *
      hermiteGaussian (1 + 2) ((1 * A + 2 * B) / (1 + 2)) x t :=
  (C59_expansion (by norm_num) A B 3 3 2 1 (by norm_num) (by norm_num)).1 x

/-! ## C60 -/

/-- **C60.** The table holds the values that the recursions define: the recursions have a solution, and whatever
solves them is what the table returns at order zero, for every Boys function and all indices within the range asked
for. -/
theorem C60_table (F : ℕ → ℝ → ℝ) (p X Y Z : ℝ) :
    (∃ R, CoulombRecursion F p X Y Z R) ∧
    ∀ R, CoulombRecursion F p X Y Z R → ∀ lx ly lz t u v, t ≤ lx → u ≤ ly → v ≤ lz →
      hermiteCoulomb F lx ly lz p X Y Z t u v = R 0 t u v :=
  ⟨⟨_, coulombRec_spec F p X Y Z⟩, fun _ hR lx ly lz t u v ht hu hv => hermiteCoulomb_eq hR lx ly lz t u v ht hu hv⟩

/-- **C60, value.** With the exact Boys function the table holds `∫₀¹ ∂^t_X ∂^u_Y ∂^v_Z exp(-p s² |R|²) ds`. -/
theorem C60_exact (p X Y Z : ℝ) (lx ly lz t u v : ℕ) (ht : t ≤ lx) (hu : u ≤ ly) (hv : v ≤ lz) :
    hermiteCoulomb boysExact lx ly lz p X Y Z t u v =
      ∫ s in (0 : ℝ)..1, gaussianDeriv (p * s ^ 2) t X * gaussianDeriv (p * s ^ 2) u Y * gaussianDeriv (p * s ^ 2) v Z := by
  rw [hermiteCoulomb_exact p X Y Z lx ly lz t u v ht hu hv]
  simp only [gaussianDeriv_eq]

/-- The entry `(0, 0, 1)` is `-2 p Z F₁`. -/
example (F : ℕ → ℝ → ℝ) (p X Y Z : ℝ) :
    hermiteCoulomb F 2 2 2 p X Y Z 0 0 1 = Z * ((-2 * p) ^ 1 * F 1 (p * (X ^ 2 + Y ^ 2 + Z ^ 2))) := by
  obtain ⟨⟨R, hR⟩, h⟩ := C60_table F p X Y Z
  rw [h R hR 2 2 2 0 0 1 (by omega) (by omega) (by omega), hR.stepZ 0 0, hR.zero]
  simp

/-! ## C83, C84, C86: one-electron matrices -/

/-- A hydrogen-like molecule with two centres, an s shell of two primitives and a p shell. -/
noncomputable def twoCentre : Molecule :=
  ⟨0, [⟨"H", 0, 1, 1⟩, ⟨"H", 1, 1, 1⟩],
    [⟨0, [2, 1], [1, 1], [(0, 0, 0)], [0], ⟨"H", 0, 1, 1⟩⟩,
     ⟨0, [1], [1], [(1, 0, 0), (0, 1, 0), (0, 0, 1)], [1, 2, 3], ⟨"H", 0, 1, 1⟩⟩,
     ⟨1, [2, 1], [1, 1], [(0, 0, 0)], [4], ⟨"H", 1, 1, 1⟩⟩,
     ⟨1, [1], [1], [(1, 0, 0), (0, 1, 0), (0, 0, 1)], [5, 6, 7], ⟨"H", 1, 1, 1⟩⟩], 8⟩

/-- The molecule is what `_set_basis_set` makes of its atoms, and its basis is positive and proper. -/
theorem twoCentre_ok : setBasisSet (fun _ => .ok [⟨[2, 1], [1, 1], [(0, 0, 0)]⟩,
      ⟨[1], [1], [(1, 0, 0), (0, 1, 0), (0, 0, 1)]⟩]) ⟨0, [⟨"H", 0, 1, 1⟩, ⟨"H", 1, 1, 1⟩], [], 0⟩ = .ok twoCentre ∧
    twoCentre.PositiveBasis ∧ twoCentre.ProperContractions := by
  refine ⟨rfl, ?_, ?_⟩
  · simp [Molecule.PositiveBasis, twoCentre]
  · simp [Molecule.ProperContractions, twoCentre]

/-- **C83.** The multipole matrices hold the integrals of pairs of basis functions, as
`get_basis_function_amplitude` evaluates them, with powers of the distance from the centre of mass. The overlap
matrix is the one of order zero. -/
theorem C83_multipole (read : String → Res (List BasisShell)) (m m' : Molecule) (h : setBasisSet read m = .ok m')
    (hb : m'.PositiveBasis) (order : Fin 3 → ℕ) (a b : ℕ) (ha : a < m'.numberBf) (hb' : b < m'.numberBf) :
    multipoleMatrix m' order a b =
      ∫ r, m'.amplitude a r * m'.amplitude b r * ∏ d, (r d - centerOfMass m' d) ^ order d := by
  obtain ⟨s, k, hs⟩ := gshells_numbered h ha
  obtain ⟨t, l, ht⟩ := gshells_numbered h hb'
  unfold multipoleMatrix
  rw [driver_value h hb _ (fun s hs t ht k l => multipole_symm _ _ (gshells_positive hb hs) (gshells_positive hb ht) k l)
    hs ht]
  obtain ⟨-, -, -, p1, e1⟩ := numbered_start h hb hs
  obtain ⟨-, -, -, p2, e2⟩ := numbered_start h hb ht
  rw [multipoleIntegral_exact s t p1 p2, e1, e2]

theorem C83_overlap (read : String → Res (List BasisShell)) (m m' : Molecule) (h : setBasisSet read m = .ok m')
    (hb : m'.PositiveBasis) (a b : ℕ) (ha : a < m'.numberBf) (hb' : b < m'.numberBf) :
    overlapMatrix m' a b = ∫ r, m'.amplitude a r * m'.amplitude b r := by
  refine (C83_multipole read m m' h hb (fun _ => 0) a b ha hb').trans ?_
  simp

example : overlapMatrix twoCentre 0 6 = ∫ r, twoCentre.amplitude 0 r * twoCentre.amplitude 6 r :=
  C83_overlap _ _ _ twoCentre_ok.1 twoCentre_ok.2.1 0 6 (by simp [twoCentre]) (by simp [twoCentre])

/-- **C84.** The kinetic-energy matrix holds `-½ ∫ χ_a Δ χ_b`, and is symmetric. -/
theorem C84_kinetic (read : String → Res (List BasisShell)) (m m' : Molecule) (h : setBasisSet read m = .ok m')
    (hb : m'.PositiveBasis) (a b : ℕ) (ha : a < m'.numberBf) (hb' : b < m'.numberBf) :
    kineticMatrix m' a b = -(1 / 2) * ∫ r, m'.amplitude a r * laplacian3 (m'.amplitude b) r ∧
    kineticMatrix m' a b = kineticMatrix m' b a := by
  obtain ⟨s, k, hs⟩ := gshells_numbered h ha
  obtain ⟨t, l, ht⟩ := gshells_numbered h hb'
  have hsym : ∀ s ∈ m'.gshells, ∀ t ∈ m'.gshells, ∀ k l, kineticIntegral s t k l = kineticIntegral t s l k :=
    fun s hs t ht k l => kinetic_symm (gshells_positive hb hs) (gshells_positive hb ht) k l
  obtain ⟨-, -, -, p1, e1⟩ := numbered_start h hb hs
  obtain ⟨-, -, -, p2, e2⟩ := numbered_start h hb ht
  unfold kineticMatrix
  rw [driver_value h hb _ hsym hs ht, driver_value h hb _ hsym ht hs, kineticIntegral_exact s t p1 p2, e1, e2]
  refine ⟨rfl, ?_⟩
  rw [← kineticIntegral_exact s t p1 p2, kinetic_symm p1 p2]

example : kineticMatrix twoCentre 1 5 = -(1 / 2) * ∫ r, twoCentre.amplitude 1 r * laplacian3 (twoCentre.amplitude 5) r :=
  (C84_kinetic _ _ _ twoCentre_ok.1 twoCentre_ok.2.1 1 5 (by simp [twoCentre]) (by simp [twoCentre])).1

/-- **C86.** The nuclear-attraction matrix holds `-∑_N Z_N ∫ χ_a χ_b / |r - R_N|`, given exact values of the Boys
function (C88 says how close the code's values are). -/
theorem C86_attraction (read : String → Res (List BasisShell)) (m m' : Molecule) (h : setBasisSet read m = .ok m')
    (hb : m'.PositiveBasis) (a b : ℕ) (ha : a < m'.numberBf) (hb' : b < m'.numberBf) :
    nuclearMatrix boysExact m' a b =
      (m'.atoms.map fun nuc => -(nuc.charge : ℝ) *
        ∫ r, m'.amplitude a r * m'.amplitude b r * (dist3 r nuc.coordinate)⁻¹).sum := by
  obtain ⟨s, k, hs⟩ := gshells_numbered h ha
  obtain ⟨t, l, ht⟩ := gshells_numbered h hb'
  obtain ⟨-, -, -, p1, e1⟩ := numbered_start h hb hs
  obtain ⟨-, -, -, p2, e2⟩ := numbered_start h hb ht
  unfold nuclearMatrix
  rw [driver_value h hb _ (fun s _ t _ k l => nuclearIntegral_symm boysExact _ s t k l) hs ht,
    nuclearIntegral_exact _ s t p1 p2, e1, e2, Molecule.nuclei, List.map_map]
  rfl

/-- **C86, symmetry.** The matrix is symmetric for whatever Boys function is used. -/
theorem C86_symmetric (boys : ℕ → ℝ → ℝ) (read : String → Res (List BasisShell)) (m m' : Molecule)
    (h : setBasisSet read m = .ok m') (hb : m'.PositiveBasis) (a b : ℕ) (ha : a < m'.numberBf)
    (hb' : b < m'.numberBf) : nuclearMatrix boys m' a b = nuclearMatrix boys m' b a := by
  obtain ⟨s, k, hs⟩ := gshells_numbered h ha
  obtain ⟨t, l, ht⟩ := gshells_numbered h hb'
  unfold nuclearMatrix
  rw [driver_value h hb _ (fun s _ t _ k l => nuclearIntegral_symm boys _ s t k l) hs ht,
    driver_value h hb _ (fun s _ t _ k l => nuclearIntegral_symm boys _ s t k l) ht hs, nuclearIntegral_symm]

example : nuclearMatrix boysExact twoCentre 0 4 = (twoCentre.atoms.map fun nuc => -(nuc.charge : ℝ) *
    ∫ r, twoCentre.amplitude 0 r * twoCentre.amplitude 4 r * (dist3 r nuc.coordinate)⁻¹).sum :=
  C86_attraction _ _ _ twoCentre_ok.1 twoCentre_ok.2.1 0 4 (by simp [twoCentre]) (by simp [twoCentre])

/-! ## C85 -/

/-- **C85.** Every basis function is a positive multiple of the listed contraction of normalised Cartesian Gaussians
on its centre, and is itself normalised. -/
theorem C85_functions (read : String → Res (List BasisShell)) (m m' : Molecule) (h : setBasisSet read m = .ok m')
    (hb : m'.PositiveBasis) (hc : m'.ProperContractions) (a : ℕ) (ha : a < m'.numberBf) :
    (∃ t ∈ m'.shells, ∃ k : Fin t.angular.length, t.bfIdx[k.val]? = some a ∧ ∃ N : ℝ, 0 < N ∧
      ∀ r, m'.amplitude a r = N * ∑ i : Fin t.exponents.length, t.coefficients.getD i 0 *
        unitGaussian t.center (t.exponents.get i) (tripleAt (t.angular.get k)) r) ∧
    ∫ r, m'.amplitude a r ^ 2 = 1 := by
  obtain ⟨h1, h2, h3, -⟩ := C63_numbering read m m' h
  obtain ⟨i, ⟨t, ht, hat⟩, -⟩ := h3 a ha
  have hmem := List.mem_of_getElem? ht
  obtain ⟨k', hk', hget⟩ := List.getElem_of_mem hat
  have hk : k' < t.angular.length := h2 t hmem ▸ hk'
  have hbf : t.bfIdx[k']? = some a := by rw [List.getElem?_eq_getElem hk', hget]
  have hr := bfIdx_range m'.shells _ h1 ht
  have hp := gshells_placed h fun s hs => (hb s hs).1
  have hi : m'.gshells[i]? = some t.toG := by
    unfold Molecule.gshells
    rw [List.getElem?_map, ht]; rfl
  have hstart : a = t.toG.start + k' := by
    change a = t.bfIdx.headD 0 + k'
    generalize ((m'.shells.take i).map fun s => s.bfIdx.length).sum = L at hr
    have hx : t.bfIdx[k']? = some (L + k') := by
      rw [hr, List.getElem?_range' hk']; simp
    have h0 : t.bfIdx[0]? = some L := by
      rw [hr, List.getElem?_range' (by omega)]; simp
    rw [hbf] at hx
    rw [List.headD_eq_head?_getD, List.head?_eq_getElem?, h0]
    exact Option.some.inj hx
  have hamp : ∀ r, m'.amplitude a r = shellFunction t.toG ⟨k', hk⟩ r := fun r => by
    unfold Molecule.amplitude
    rw [hstart]
    exact basisAmplitude_eq m'.gshells hp hi ⟨k', hk⟩ r
  have hα : ∀ i : Fin t.exponents.length, 0 < t.exponents.get i := fun i => (hb t hmem).2 _ (List.get_mem _ _)
  obtain ⟨hnd, hlen, c₀, hc₀, hne₀⟩ := hc t hmem
  have hinj : Function.Injective fun i : Fin t.exponents.length => t.exponents.get i := List.nodup_iff_injective_get.1 hnd
  obtain ⟨i₀, hi₀, rfl⟩ := List.getElem_of_mem hc₀
  have hraw := raw_ne_zero t.center (fun i : Fin t.exponents.length => t.exponents.get i)
    (fun i => t.coefficients.getD i 0) (tripleAt (t.angular.get ⟨k', hk⟩)) hα hinj
    ⟨⟨i₀, hlen ▸ hi₀⟩, by simpa [List.getD_eq_getElem?_getD, hi₀] using hne₀⟩
  have hone : ∫ r, shellFunction t.toG ⟨k', hk⟩ r * shellFunction t.toG ⟨k', hk⟩ r = 1 :=
    make_normalised t.center _ _ (fun k : Fin t.angular.length => tripleAt (t.angular.get k)) (t.bfIdx.headD 0)
      ⟨k', hk⟩ hα hraw
  refine ⟨⟨t, hmem, ⟨k', hk⟩, hbf, contractedNormalization (fun i : Fin t.exponents.length => t.exponents.get i)
    (fun i => t.coefficients.getD i 0 * primitiveNormalization (t.exponents.get i)
      (tripleAt (t.angular.get ⟨k', hk⟩) 0) (tripleAt (t.angular.get ⟨k', hk⟩) 1) (tripleAt (t.angular.get ⟨k', hk⟩) 2))
    (tripleAt (t.angular.get ⟨k', hk⟩) 0) (tripleAt (t.angular.get ⟨k', hk⟩) 1)
    (tripleAt (t.angular.get ⟨k', hk⟩) 2), ?_, fun r => ?_⟩, ?_⟩
  · refine lt_of_le_of_ne ?_ fun h0 => ?_
    · have hs := (raw_self_integral t.center (fun i : Fin t.exponents.length => t.exponents.get i)
        (fun i => t.coefficients.getD i 0) (tripleAt (t.angular.get ⟨k', hk⟩)) hα).2
      unfold contractedNormalization
      rw [← hs]
      exact rpow_nonneg (integral_nonneg fun r => mul_self_nonneg _) _
    · have hz : ∀ r, shellFunction t.toG ⟨k', hk⟩ r = 0 := fun r => by
        refine (make_eq t.center _ _ (fun k : Fin t.angular.length => tripleAt (t.angular.get k)) (t.bfIdx.headD 0)
          ⟨k', hk⟩ r).trans ?_
        rw [← h0, zero_mul]
      simp [hz] at hone
  · rw [hamp]
    refine (make_eq t.center _ _ (fun k : Fin t.angular.length => tripleAt (t.angular.get k)) (t.bfIdx.headD 0)
      ⟨k', hk⟩ r).trans ?_
    congr 1
    unfold rawFunction
    refine Finset.sum_congr rfl fun i _ => ?_
    rw [unitGaussian_eq (hα i), cartesianGaussian_eq, mul_assoc]
  · simp only [hamp, sq]
    exact hone

/-- **C85, diagonal of the overlap matrix.** -/
theorem C85_overlap_diagonal (read : String → Res (List BasisShell)) (m m' : Molecule)
    (h : setBasisSet read m = .ok m') (hb : m'.PositiveBasis) (hc : m'.ProperContractions) (a : ℕ)
    (ha : a < m'.numberBf) : overlapMatrix m' a a = 1 := by
  rw [C83_overlap read m m' h hb a a ha ha, ← (C85_functions read m m' h hb hc a ha).2]
  simp only [sq]

/-- **C85, basis files.** Whatever `read_basis` returns has functions in every shell and as many coefficients as
exponents. -/
theorem C85_files (atom : String) (ls : List BasisLine) (out : List BasisShell) (h : readBasis atom ls = .ok out) :
    ∀ b ∈ out, b.angular ≠ [] ∧ b.coefficients.length = b.exponents.length :=
  readBasis_shaped atom ls out h

example : overlapMatrix twoCentre 0 0 = 1 ∧ overlapMatrix twoCentre 7 7 = 1 :=
  ⟨C85_overlap_diagonal _ _ _ twoCentre_ok.1 twoCentre_ok.2.1 twoCentre_ok.2.2 0 (by simp [twoCentre]),
    C85_overlap_diagonal _ _ _ twoCentre_ok.1 twoCentre_ok.2.1 twoCentre_ok.2.2 7 (by simp [twoCentre])⟩

/-! ## C61, C87: the two-electron tensor -/

section

variable (boys : ℕ → ℝ → ℝ) (read : String → Res (List BasisShell)) (m m' : Molecule)
  (h : setBasisSet read m = .ok m') (hb : m'.PositiveBasis)

include h hb

/-- **C61, filled.** Without screening, every element of the tensor is assigned the integral of its four functions,
for whatever Boys function is used. -/
theorem C61_filled (a b c d : ℕ) (s₁ s₂ s₃ s₄ : GShell) (ka : Fin s₁.nbf) (kb : Fin s₂.nbf) (kc : Fin s₃.nbf)
    (kd : Fin s₄.nbf) (ha : Numbered m'.gshells a s₁ ka) (hb' : Numbered m'.gshells b s₂ kb)
    (hc : Numbered m'.gshells c s₃ kc) (hd : Numbered m'.gshells d s₄ kd) :
    repulsionTensorFull boys m' a b c d = repulsionIntegral boys s₁ s₂ s₃ s₄ ka kb kc kd := by
  obtain ⟨i, hi, rfl, -, -⟩ := numbered_start h hb ha
  obtain ⟨j, hj, rfl, -, -⟩ := numbered_start h hb hb'
  obtain ⟨k, hk, rfl, -, -⟩ := numbered_start h hb hc
  obtain ⟨l, hl, rfl, -, -⟩ := numbered_start h hb hd
  rcases driver_cases (gshells_placed h fun s hs => (hb s hs).1) hi hj hk hl ka kb kc kd
    (repulsion_sym8 boys m'.gshells) none (fun _ _ ⟨_, _, he, _⟩ => by cases he) with hv | ⟨hn, -⟩
  · exact hv
  · exact absurd trivial hn

omit hb in
/-- Every number below `number_bf`, and no other, is the number of a function. -/
theorem C61_numbers (a : ℕ) : a < m'.numberBf ↔ ∃ (s : GShell) (k : Fin s.nbf), Numbered m'.gshells a s k :=
  ⟨fun ha => gshells_numbered h ha, fun ⟨_, _, hn⟩ => numbered_lt h hn⟩

/-- **C61, symmetry.** The tensor has the eight-fold symmetry, with any Boys function and any threshold. -/
theorem C61_symmetric (threshold : ℝ) (a b c d : ℕ) :
    let V := repulsionTensor boys threshold m'
    V a b c d = V b a c d ∧ V a b c d = V a b d c ∧ V a b c d = V c d a b :=
  driver_sym (gshells_placed h fun s hs => (hb s hs).1) (repulsion_sym8 boys m'.gshells) _ a b c d

/-- **C61, screening.** With screening, an element is the integral of its four functions, or it is 0 and the integral
is smaller than the threshold (exact Boys function). -/
theorem C61_screened (threshold : ℝ) (a b c d : ℕ) (s₁ s₂ s₃ s₄ : GShell) (ka : Fin s₁.nbf) (kb : Fin s₂.nbf)
    (kc : Fin s₃.nbf) (kd : Fin s₄.nbf) (ha : Numbered m'.gshells a s₁ ka) (hb' : Numbered m'.gshells b s₂ kb)
    (hc : Numbered m'.gshells c s₃ kc) (hd : Numbered m'.gshells d s₄ kd) :
    repulsionTensor boysExact threshold m' a b c d = repulsionIntegral boysExact s₁ s₂ s₃ s₄ ka kb kc kd ∨
    (repulsionTensor boysExact threshold m' a b c d = 0 ∧
      |repulsionIntegral boysExact s₁ s₂ s₃ s₄ ka kb kc kd| < threshold) := by
  obtain ⟨i, hi, rfl, -, -⟩ := numbered_start h hb ha
  obtain ⟨j, hj, rfl, -, -⟩ := numbered_start h hb hb'
  obtain ⟨k, hk, rfl, -, -⟩ := numbered_start h hb hc
  obtain ⟨l, hl, rfl, -, -⟩ := numbered_start h hb hd
  rcases driver_cases (gshells_placed h fun s hs => (hb s hs).1) hi hj hk hl ka kb kc kd
    (repulsion_sym8 boysExact m'.gshells)
    (some (cauchySchwarzMatrix (repulsionIntegral boysExact) m'.gshells, threshold))
    (fun p q ⟨cs, thr, he, hne⟩ => by
      cases he
      exact hne (cauchySchwarzMatrix_symm _ _ p q)) with hv | ⟨hn, h0⟩
  · exact Or.inl hv
  · exact Or.inr ⟨h0, screened_small (fun s hs => gshells_positive hb hs) hi hj hk hl ka kb kc kd hn⟩

/-- **C87.** The tensor `electron_repulsion_tensor` holds the repulsion integrals of its four basis functions, up to
integrals smaller than the threshold that are set to 0 (exact Boys function). -/
theorem C87_repulsion (threshold : ℝ) (a b c d : ℕ) (ha : a < m'.numberBf) (hb' : b < m'.numberBf)
    (hc : c < m'.numberBf) (hd : d < m'.numberBf) :
    let I := ∫ r, m'.amplitude a r * m'.amplitude b r *
      ∫ r', m'.amplitude c r' * m'.amplitude d r' * (dist3 r r')⁻¹
    repulsionTensorFull boysExact m' a b c d = I ∧
    (repulsionTensor boysExact threshold m' a b c d = I ∨
      (repulsionTensor boysExact threshold m' a b c d = 0 ∧ |I| < threshold)) := by
  obtain ⟨s₁, ka, h1⟩ := gshells_numbered h ha
  obtain ⟨s₂, kb, h2⟩ := gshells_numbered h hb'
  obtain ⟨s₃, kc, h3⟩ := gshells_numbered h hc
  obtain ⟨s₄, kd, h4⟩ := gshells_numbered h hd
  obtain ⟨-, -, -, p1, e1⟩ := numbered_start h hb h1
  obtain ⟨-, -, -, p2, e2⟩ := numbered_start h hb h2
  obtain ⟨-, -, -, p3, e3⟩ := numbered_start h hb h3
  obtain ⟨-, -, -, p4, e4⟩ := numbered_start h hb h4
  intro I
  have hI : I = repulsionIntegral boysExact s₁ s₂ s₃ s₄ ka kb kc kd := by
    rw [repulsionIntegral_exact s₁ s₂ s₃ s₄ p1 p2 p3 p4]
    simp only [I, e1, e2, e3, e4]
  rw [hI]
  exact ⟨C61_filled boysExact read m m' h hb a b c d s₁ s₂ s₃ s₄ ka kb kc kd h1 h2 h3 h4,
    C61_screened read m m' h hb threshold a b c d s₁ s₂ s₃ s₄ ka kb kc kd h1 h2 h3 h4⟩

/-- **C87, the threshold of the code.** No element of the default tensor is off by 10⁻¹² or more. -/
theorem C87_default (a b c d : ℕ) (ha : a < m'.numberBf) (hb' : b < m'.numberBf)
    (hc : c < m'.numberBf) (hd : d < m'.numberBf) :
    |repulsionTensor boysExact (1 / 10 ^ 12) m' a b c d - ∫ r, m'.amplitude a r * m'.amplitude b r *
      ∫ r', m'.amplitude c r' * m'.amplitude d r' * (dist3 r r')⁻¹| < 1 / 10 ^ 12 := by
  rcases (C87_repulsion read m m' h hb (1 / 10 ^ 12) a b c d ha hb' hc hd).2 with e | ⟨e, hlt⟩
  · rw [e]; simp
  · rw [e, zero_sub, abs_neg]; exact hlt

end

example : |repulsionTensor boysExact (1 / 10 ^ 12) twoCentre 0 3 4 7 -
    ∫ r, twoCentre.amplitude 0 r * twoCentre.amplitude 3 r *
      ∫ r', twoCentre.amplitude 4 r' * twoCentre.amplitude 7 r' * (dist3 r r')⁻¹| < 1 / 10 ^ 12 :=
  C87_default _ _ _ twoCentre_ok.1 twoCentre_ok.2.1 0 3 4 7 (by simp [twoCentre]) (by simp [twoCentre])
    (by simp [twoCentre]) (by simp [twoCentre])

example (boys : ℕ → ℝ → ℝ) : repulsionTensor boys (1 / 10 ^ 12) twoCentre 0 3 4 7 =
    repulsionTensor boys (1 / 10 ^ 12) twoCentre 4 7 0 3 :=
  (C61_symmetric boys _ _ _ twoCentre_ok.1 twoCentre_ok.2.1 _ 0 3 4 7).2.2

/-! ## C88 -/

theorem oddFac_double (n : ℕ) : oddFac n = ((2 * n - 1).doubleFactorial : ℝ) := by
  induction n with
  | zero => simp [oddFac]
  | succ n ih =>
    rw [oddFac_succ, ih]
    cases n with
    | zero => simp
    | succ n =>
      rw [show 2 * (n + 1 + 1) - 1 = (2 * n + 1) + 2 by omega, Nat.doubleFactorial_add_two,
        show 2 * (n + 1) - 1 = 2 * n + 1 by omega]
      push_cast
      ring

/-- **C88.** For orders up to 13 and all arguments that are not negative, `boys_function` differs from
`∫₀¹ s^(2n) exp(-z s²) ds` by at most `10⁻¹⁰` plus `(2n-1)!! · 50/(2n+3) · 10⁻¹²` (with an exact `math.erf`). -/
theorem C88_accuracy (n : ℕ) (hn : n ≤ 13) (z : ℝ) (hz : 0 ≤ z) :
    |boysFunction erfExact n z - boysExact n z| ≤
      1 / 10 ^ 10 + ((2 * n - 1).doubleFactorial : ℝ) * (50 / (2 * n + 3)) / 10 ^ 12 := by
  rw [← oddFac_double]
  have hfac := oddFac_pos n
  have hpos : 0 ≤ oddFac n * (50 / (2 * (n : ℝ) + 3)) / 10 ^ 12 := by positivity
  have hsmall : z < 1 / 10 ^ 10 → |1 / (2 * (n : ℝ) + 1) - boysExact n z| ≤ 1 / 10 ^ 10 := by
    intro hlt
    have h1 := boys_le n hz
    have h2 := boys_ge n z
    rw [abs_of_nonneg (by linarith)]
    have : z / (2 * (n : ℝ) + 3) ≤ z := div_le_self hz (by linarith [(Nat.cast_nonneg n : (0 : ℝ) ≤ n)])
    linarith
  unfold boysFunction
  by_cases c1 : n = 0 ∧ z < 1 / 10 ^ 10
  · rw [if_pos c1]
    have := hsmall c1.2
    rw [c1.1] at this ⊢
    simp only [Nat.cast_zero, mul_zero, zero_add, div_one] at this
    rw [c1.1] at hpos
    linarith
  rw [if_neg c1]
  by_cases c2 : n = 0
  · rw [if_pos c2]
    have hzp : 0 < z := lt_of_lt_of_le (by norm_num) (not_lt.1 fun hlt => c1 ⟨c2, hlt⟩)
    rw [boys_erf hzp, c2, sub_self, abs_zero]
    rw [c2] at hpos
    linarith
  rw [if_neg c2]
  by_cases c3 : z > 25
  · rw [if_pos c3, boysLong_code]
    have hn' : (n : ℝ) ≤ 13 := by exact_mod_cast hn
    obtain ⟨e1, e2⟩ := boysLong_error n (by linarith : 0 < z) (by linarith)
    rw [abs_of_nonneg e1]
    have h25 : exp (-z) ≤ exp (-25) := exp_le_exp.2 (by linarith)
    have he : exp (-25) ≤ 1 / 10 ^ 10 := by
      rw [exp_neg, ← one_div]
      refine one_div_le_one_div_of_le (by positivity) ?_
      have h1 : (2.7 : ℝ) ≤ exp 1 := by linarith [exp_one_gt_d9]
      have h2 : exp 25 = exp 1 ^ 25 := by rw [← exp_nat_mul]; norm_num
      rw [h2]
      exact le_trans (by norm_num) (pow_le_pow_left₀ (by norm_num) h1 25)
    have : exp (-z) / z ≤ exp (-z) := div_le_self (exp_pos _).le (by linarith)
    linarith
  rw [if_neg c3]
  by_cases c4 : z < 1 / 10 ^ 10
  · rw [if_pos c4]
    have := hsmall c4
    linarith
  · rw [if_neg c4, factorial2_oddFac]
    obtain ⟨e1, e2⟩ := boysLoop_error n hz (not_lt.1 c3)
    rw [abs_sub_comm, abs_of_nonneg e1]
    have : oddFac n * (2 * z / (2 * (n : ℝ) + 3)) / 10 ^ 12 ≤ oddFac n * (50 / (2 * (n : ℝ) + 3)) / 10 ^ 12 := by
      have : 2 * z ≤ 50 := by linarith [not_lt.1 c3]
      gcongr
    have : (0 : ℝ) ≤ 1 / 10 ^ 10 := by positivity
    linarith

/-- For the orders that integrals over s and p functions need, the error is below `10⁻⁹`. -/
theorem C88_low_orders (n : ℕ) (hn : n ≤ 4) (z : ℝ) (hz : 0 ≤ z) :
    |boysFunction erfExact n z - boysExact n z| ≤ 1 / 10 ^ 9 := by
  refine (C88_accuracy n (by omega) z hz).trans ?_
  have : n = 0 ∨ n = 1 ∨ n = 2 ∨ n = 3 ∨ n = 4 := by omega
  rcases this with rfl | rfl | rfl | rfl | rfl <;> norm_num [Nat.doubleFactorial]

/-- **C88, disagreement.** The series is cut off by the size of a term, not of the result. From order 12 on the first
term is already below `10⁻¹²`, and for `10⁻¹⁰ ≤ z ≤ 25` the code returns `exp(-z)/(2n+1)`, whatever the later terms. -/
theorem C88_cutoff_disagree (erf : ℝ → ℝ) (n : ℕ) (hn : 12 ≤ n) (z : ℝ) (hz : 1 / 10 ^ 10 ≤ z) (hz' : z ≤ 25) :
    boysFunction erf n z = exp (-z) / (2 * n + 1) ∧
    boysFunction erf n z * (1 + 2 * z / (2 * n + 3)) ≤ boysExact n z := by
  have h0 : 0 ≤ z := le_trans (by positivity) hz
  have e : boysFunction erf n z = exp (-z) / (2 * n + 1) := by
    unfold boysFunction
    rw [if_neg (by omega), if_neg (by omega), if_neg (not_lt.2 hz'), if_neg (not_lt.2 hz), factorial2_oddFac,
      boysLoop_short hn h0]
  refine ⟨e, ?_⟩
  rw [e]
  exact boys_two_terms n h0

/-- At order 12 (reached by four f functions) and `z = 25` the exact value is more than 2.8 times the computed one. -/
theorem C88_factor_disagree (erf : ℝ → ℝ) : 0 < boysFunction erf 12 25 ∧ 2.8 * boysFunction erf 12 25 < boysExact 12 25 := by
  obtain ⟨h1, h2⟩ := C88_cutoff_disagree erf 12 le_rfl 25 (by norm_num) le_rfl
  have hpos : 0 < boysFunction erf 12 25 := by rw [h1]; positivity
  refine ⟨hpos, lt_of_lt_of_le ?_ h2⟩
  norm_num
  linarith

end SQ
