import Verif.Model.Operators
import Verif.Model.StateAlgebra
import Mathlib.Analysis.SpecialFunctions.Sqrt

/-!
# Model of the reduced density matrices and of density_matrix.py

`rdm1`, `rdm2` of `ups_wavefunction.py:410-476`, `ucc_wavefunction.py:340-406`,
`sa_ups_wavefunction.py:398-479`; all of `slowquant/unitary_coupled_cluster/density_matrix.py`.

Simplifications: arrays are functions (indices outside the shape are never read); loops `x += t` are
sums; numbers are exact reals; the caching `if self._rdm1 is None` is the subject of C39;
`rdm2` reads the finished `rdm1`.
-/

namespace SQ

/-- A four-dimensional array. -/
abbrev Arr4 := ℕ → ℕ → ℕ → ℕ → ℝ

/-- `a[p, q] = v`. -/
def set2 (a : Mat ℝ) (p q : ℕ) (v : ℝ) : Mat ℝ := fun i j => if i = p ∧ j = q then v else a i j

/-- `a[p, q, r, s] = v`. -/
def set4 (a : Arr4) (p q r s : ℕ) (v : ℝ) : Arr4 :=
  fun i j k l => if i = p ∧ j = q ∧ k = r ∧ l = s then v else a i j k l

/-- The iterations of the loops of `rdm1` in order: `p` in `range(nI, nI+nA)`, `q` in `range(nI, p+1)`. -/
def rdm1Iter (nI nA : ℕ) : List (ℕ × ℕ) :=
  (rangeFrom nI nA).flatMap fun p => (rangeFrom nI (p + 1 - nI)).map fun q => (p, q)

/-- `rdm1` with `ev p q` the expectation value computed in the loop (ups:410-430, ucc:340-360,
sa_ups:398-424). -/
noncomputable def rdm1Loop (ev : ℕ → ℕ → Res ℝ) (nI nA : ℕ) : Res (Mat ℝ) :=
  (rdm1Iter nI nA).foldlM (fun a pq => do
    let val ← ev pq.1 pq.2
    let p := pq.1 - nI
    let q := pq.2 - nI
    pure (set2 (set2 a p q val) q p val)) fun _ _ => 0

/-- `s_lim` of `rdm2`. -/
def sLim (p q r : ℕ) : ℕ :=
  if p = q then r + 1 else if p = r then q + 1 else if q < r then p else p + 1

/-- The iterations of the loops of `rdm2` in order. -/
def rdm2Iter (nI nA : ℕ) : List (ℕ × ℕ × ℕ × ℕ) :=
  (rangeFrom nI nA).flatMap fun p => (rangeFrom nI (p + 1 - nI)).flatMap fun q =>
    (rangeFrom nI (p + 1 - nI)).flatMap fun r => (rangeFrom nI (sLim p q r - nI)).map fun s => (p, q, r, s)

/-- `rdm2` with `ev p q r s` the expectation value computed in the loop (ups:433-476, ucc:363-406,
sa_ups:427-479). -/
noncomputable def rdm2Loop (ev : ℕ → ℕ → ℕ → ℕ → Res ℝ) (rdm1 : Mat ℝ) (nI nA : ℕ) : Res Arr4 :=
  (rdm2Iter nI nA).foldlM (fun a x => do
    let val0 ← ev x.1 x.2.1 x.2.2.1 x.2.2.2
    let p := x.1 - nI
    let q := x.2.1 - nI
    let r := x.2.2.1 - nI
    let s := x.2.2.2 - nI
    let val := if x.2.1 = x.2.2.1 then val0 - rdm1 p s else val0
    pure (set4 (set4 (set4 (set4 a p q r s val) r s p q val) q p s r val) s r q p val)) fun _ _ _ _ => 0

/-- `expectation_value(c, [Epq(p, q)], c, ci_info)`, ups:420-425, ucc:350-355. -/
noncomputable def evE (tiny : ℝ → Bool) (th : Threads) (ci : CIInfo) (c : Vec ℝ) (p q : ℕ) : Res ℝ := do
  let A ← Epq tiny p q
  expectationValue tiny th ci (fun _ _ => .error .valueError) true false c [.op A] c

/-- `expectation_value(c, [Epq(p, q) * Epq(r, s)], c, ci_info)`, ups:463-468. -/
noncomputable def evEEprod (tiny : ℝ → Bool) (th : Threads) (ci : CIInfo) (c : Vec ℝ) (p q r s : ℕ) :
    Res ℝ := do
  let A ← Epq tiny p q
  let B ← Epq tiny r s
  let C ← fmul tiny A B
  expectationValue tiny th ci (fun _ _ => .error .valueError) true false c [.op C] c

/-- `expectation_value(c, [Epq(p, q), Epq(r, s)], c, ci_info)`, ucc:393-398. -/
noncomputable def evEElist (tiny : ℝ → Bool) (th : Threads) (ci : CIInfo) (c : Vec ℝ) (p q r s : ℕ) :
    Res ℝ := do
  let A ← Epq tiny p q
  let B ← Epq tiny r s
  expectationValue tiny th ci (fun _ _ => .error .valueError) true false c [.op A, .op B] c

/-- `WaveFunctionUPS.rdm1`. `c` is `ci_coeffs`. -/
noncomputable def upsRdm1 (tiny : ℝ → Bool) (th : Threads) (ci : CIInfo) (c : Vec ℝ) : Res (Mat ℝ) :=
  rdm1Loop (evE tiny th ci c) ci.nI ci.nA

/-- `WaveFunctionUPS.rdm2`. -/
noncomputable def upsRdm2 (tiny : ℝ → Bool) (th : Threads) (ci : CIInfo) (c : Vec ℝ) : Res Arr4 := do
  let r1 ← upsRdm1 tiny th ci c
  rdm2Loop (evEEprod tiny th ci c) r1 ci.nI ci.nA

/-- `WaveFunctionUCC.rdm2` (its `rdm1` is the one of `WaveFunctionUPS`). -/
noncomputable def uccRdm2 (tiny : ℝ → Bool) (th : Threads) (ci : CIInfo) (c : Vec ℝ) : Res Arr4 := do
  let r1 ← upsRdm1 tiny th ci c
  rdm2Loop (evEElist tiny th ci c) r1 ci.nI ci.nA

/-- `expectation_value_SA(c, [Epq(p_idx, q_idx)], c, ci_info, do_folding=False)`, sa_ups:415-421. -/
noncomputable def evESA (tiny big : ℝ → Bool) (th : Threads) (ci : CIInfo) (nS : ℕ) (c : Mat ℝ)
    (p q : ℕ) : Res ℝ := do
  let A ← Epq tiny (p - ci.nI) (q - ci.nI)
  expectationValueSA big th ci (fun _ _ => .error .valueError) false nS c [.op A] c

/-- `expectation_value_SA(c, [Epq_op, Ers_op], c, ci_info, do_folding=False)`, sa_ups:447-472. -/
noncomputable def evEESA (tiny big : ℝ → Bool) (th : Threads) (ci : CIInfo) (nS : ℕ) (c : Mat ℝ)
    (p q r s : ℕ) : Res ℝ := do
  let A ← Epq tiny (p - ci.nI) (q - ci.nI)
  let B ← Epq tiny (r - ci.nI) (s - ci.nI)
  expectationValueSA big th ci (fun _ _ => .error .valueError) false nS c [.op A, .op B] c

/-- `WaveFunctionSAUPS.rdm1`. -/
noncomputable def saRdm1 (tiny big : ℝ → Bool) (th : Threads) (ci : CIInfo) (nS : ℕ) (c : Mat ℝ) :
    Res (Mat ℝ) :=
  rdm1Loop (evESA tiny big th ci nS c) ci.nI ci.nA

/-- `WaveFunctionSAUPS.rdm2`. -/
noncomputable def saRdm2 (tiny big : ℝ → Bool) (th : Threads) (ci : CIInfo) (nS : ℕ) (c : Mat ℝ) :
    Res Arr4 := do
  let r1 ← saRdm1 tiny big th ci nS c
  rdm2Loop (evEESA tiny big th ci nS c) r1 ci.nI ci.nA

/-! ### density_matrix.py -/

/-- `RDM1`, lines 6-43. -/
def RDM1 (p q nI nA : ℕ) (rdm1 : Mat ℝ) : ℝ :=
  let virt := nI + nA
  if p ≥ virt ∨ q ≥ virt then 0
  else if p ≥ nI ∧ q ≥ nI then rdm1 (p - nI) (q - nI)
  else if p < nI ∧ q < nI then (if p = q then 2 else 0)
  else 0

/-- `RDM2`, lines 47-136. -/
def RDM2 (p q r s nI nA : ℕ) (rdm1 : Mat ℝ) (rdm2 : Arr4) : ℝ :=
  let virt := nI + nA
  if p ≥ virt ∨ q ≥ virt ∨ r ≥ virt ∨ s ≥ virt then 0
  else if p ≥ nI ∧ q ≥ nI ∧ r ≥ nI ∧ s ≥ nI then rdm2 (p - nI) (q - nI) (r - nI) (s - nI)
  else if p < nI ∧ q ≥ nI ∧ r ≥ nI ∧ s < nI then
    (if p = s then -rdm1 (q - nI) (r - nI) else 0)
  else if p ≥ nI ∧ q < nI ∧ r < nI ∧ s ≥ nI then
    (if q = r then -rdm1 (p - nI) (s - nI) else 0)
  else if p ≥ nI ∧ q ≥ nI ∧ r < nI ∧ s < nI then
    (if r = s then 2 * rdm1 (p - nI) (q - nI) else 0)
  else if p < nI ∧ q < nI ∧ r ≥ nI ∧ s ≥ nI then
    (if p = q then 2 * rdm1 (r - nI) (s - nI) else 0)
  else if p < nI ∧ q < nI ∧ r < nI ∧ s < nI then
    (if p = q ∧ r = s then 4 else 0) + (if q = r ∧ p = s then -2 else 0)
  else 0

/-- `for p in range(n): x += f(p)`. -/
noncomputable def loop (n : ℕ) (f : ℕ → ℝ) : ℝ := ∑ p ∈ Finset.range n, f p

section
variable (h : Mat ℝ) (g : Arr4) (nI nA : ℕ) (rdm1 : Mat ℝ) (rdm2 : Arr4)

/-- `get_electronic_energy`, lines 140-178. -/
noncomputable def getElectronicEnergy : ℝ :=
  (loop (nI + nA) fun p => loop (nI + nA) fun q => h p q * RDM1 p q nI nA rdm1)
  + loop (nI + nA) fun p => loop (nI + nA) fun q => loop (nI + nA) fun r => loop (nI + nA) fun s =>
      1 / 2 * g p q r s * RDM2 p q r s nI nA rdm1 rdm2

/-- `get_orbital_gradient`, lines 182-230: the entry of the pair `(m, n)`. -/
noncomputable def orbitalGradientEntry (m n : ℕ) : ℝ :=
  (loop (nI + nA) fun p =>
    2 * h n p * RDM1 m p nI nA rdm1 - 2 * h p m * RDM1 p n nI nA rdm1)
  + loop (nI + nA) fun p => loop (nI + nA) fun q => loop (nI + nA) fun r =>
      g n p q r * RDM2 m p q r nI nA rdm1 rdm2 - g p m q r * RDM2 p n q r nI nA rdm1 rdm2
      - g m p q r * RDM2 n p q r nI nA rdm1 rdm2 + g p n q r * RDM2 p m q r nI nA rdm1 rdm2

/-- `get_orbital_gradient`. -/
noncomputable def getOrbitalGradient (kappaIdx : List (ℕ × ℕ)) : List ℝ :=
  kappaIdx.map fun mn => orbitalGradientEntry h g nI nA rdm1 rdm2 mn.1 mn.2

/-- One entry of `get_orbital_gradient_response` before scaling, lines 263-293 and 296-326. -/
noncomputable def responseEntry (m n : ℕ) : ℝ :=
  (loop (nI + nA) fun p => h n p * RDM1 m p nI nA rdm1 - h p m * RDM1 p n nI nA rdm1)
  + loop (nI + nA) fun p => loop (nI + nA) fun q => loop (nI + nA) fun r =>
      1 / 2 * g n p q r * RDM2 m p q r nI nA rdm1 rdm2
      - 1 / 2 * g p m q r * RDM2 p n q r nI nA rdm1 rdm2
      - 1 / 2 * g m p q r * RDM2 n p q r nI nA rdm1 rdm2
      + 1 / 2 * g p n q r * RDM2 p m q r nI nA rdm1 rdm2

/-- `get_orbital_gradient_response`, lines 234-328. `2 ** (-1/2)` is `(√2)⁻¹`. -/
noncomputable def getOrbitalGradientResponse (kappaIdx : List (ℕ × ℕ)) : List ℝ :=
  (kappaIdx.map fun mn => (Real.sqrt 2)⁻¹ * responseEntry h g nI nA rdm1 rdm2 mn.1 mn.2)
  ++ kappaIdx.map fun nm => (Real.sqrt 2)⁻¹ * responseEntry h g nI nA rdm1 rdm2 nm.2 nm.1

/-- `get_orbital_response_metric_sigma`, lines 332-359: entry for the pairs `(n, m)` and `(p, q)`. -/
noncomputable def metricSigmaEntry (n m p q : ℕ) : ℝ :=
  -1 / 2 * ((if p = n then RDM1 m q nI nA rdm1 else 0) - (if m = q then RDM1 p n nI nA rdm1 else 0))

/-- `get_orbital_response_metric_sigma`. -/
noncomputable def metricSigma (kappaIdx : List (ℕ × ℕ)) : List (List ℝ) :=
  kappaIdx.map fun nm => kappaIdx.map fun pq => metricSigmaEntry nI nA rdm1 nm.1 nm.2 pq.1 pq.2

/-- `get_orbital_response_vector_norm`, lines 363-416. `Z i` is `response_vectors[i, state_number]`,
`Y i` is `response_vectors[i + number_excitations, state_number]`. -/
noncomputable def vectorNorm (kappaIdx : List (ℕ × ℕ)) (Z Y : ℕ → ℝ) : ℝ :=
  1 / 2 * (kappaIdx.zipIdx.map fun mi => (kappaIdx.zipIdx.map fun tj =>
    (if mi.1.2 = tj.1.2 then Z mi.2 * Z tj.2 * RDM1 mi.1.1 tj.1.1 nI nA rdm1 else 0)
    - (if mi.1.1 = tj.1.1 then Z mi.2 * Z tj.2 * RDM1 mi.1.2 tj.1.2 nI nA rdm1 else 0)
    + (if mi.1.1 = tj.1.1 then Y mi.2 * Y tj.2 * RDM1 mi.1.2 tj.1.2 nI nA rdm1 else 0)
    - (if mi.1.2 = tj.1.2 then Y mi.2 * Y tj.2 * RDM1 mi.1.1 tj.1.1 nI nA rdm1 else 0)).sum).sum

/-- `get_orbital_response_property_gradient`, lines 420-461. -/
noncomputable def propertyGradient (x : Mat ℝ) (kappaIdx : List (ℕ × ℕ)) (Z Y : ℕ → ℝ) : ℝ :=
  (Real.sqrt 2)⁻¹ * (kappaIdx.zipIdx.map fun mi => loop (nI + nA) fun p =>
    (Y mi.2 - Z mi.2) * x mi.1.2 p * RDM1 mi.1.1 p nI nA rdm1
    + (Z mi.2 - Y mi.2) * x mi.1.1 p * RDM1 mi.1.2 p nI nA rdm1).sum

/-- `A1e[idx1, idx2]` of `get_orbital_response_hessian_block`, lines 499-507. -/
noncomputable def hessianA1 (t u m n : ℕ) : ℝ :=
  h n t * RDM1 m u nI nA rdm1 + h u m * RDM1 t n nI nA rdm1
  + loop (nI + nA) fun p =>
      -(if m = u then h n p * RDM1 t p nI nA rdm1 else 0)
      - (if t = n then h p m * RDM1 p u nI nA rdm1 else 0)

/-- `A2e[idx1, idx2]`, lines 508-562. -/
noncomputable def hessianA2 (t u m n : ℕ) : ℝ :=
  let G2 := fun p q r s => RDM2 p q r s nI nA rdm1 rdm2
  (loop (nI + nA) fun p => loop (nI + nA) fun q =>
    g n t p q * G2 m u p q - g n p u q * G2 m p t q + g n p q t * G2 m p q u
    + g u m p q * G2 t n p q + g p m u q * G2 p n t q - g p m q t * G2 p n q u
    - g u p n q * G2 t p m q + g p t n q * G2 p u m q + g p q n t * G2 p q m u
    + g u p q m * G2 t p q n - g p t q m * G2 p u q n + g p q u m * G2 p q t n)
  + loop (nI + nA) fun p => loop (nI + nA) fun q => loop (nI + nA) fun r =>
      -(if m = u then g n p q r * G2 t p q r else 0)
      - (if t = n then g p m q r * G2 p u q r else 0)
      - (if m = u then g p q n r * G2 p q t r else 0)
      - (if t = n then g p q r m * G2 p q r u else 0)

/-- `get_orbital_response_hessian_block`, lines 465-563, entry of `(t, u)` in `kappa_idx1` and `(m, n)` in
`kappa_idx2`. -/
noncomputable def hessianEntry (t u m n : ℕ) : ℝ :=
  1 / 2 * hessianA1 h nI nA rdm1 t u m n + 1 / 4 * hessianA2 g nI nA rdm1 rdm2 t u m n

/-- `get_orbital_response_hessian_block`. The arrays have the shape of `kappa_idx1` in both directions,
so the two lists must have the same length (otherwise entries outside the array are written or entries
are left zero, without an error under numba). -/
noncomputable def hessianBlock (k1 k2 : List (ℕ × ℕ)) : List (List ℝ) :=
  k1.map fun tu => k2.map fun mn => hessianEntry h g nI nA rdm1 rdm2 tu.1 tu.2 mn.1 mn.2

end

end SQ
