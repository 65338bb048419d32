import Mathlib.Analysis.SpecialFunctions.Exp
import Mathlib.Analysis.SpecialFunctions.Pow.Real
import Mathlib.Analysis.Real.Pi.Bounds
import Mathlib.MeasureTheory.Integral.IntervalIntegral.Basic
import Mathlib.MeasureTheory.Measure.Lebesgue.Basic
import Verif.Model.Py

/-!
# Model: molecular integrals

slowquant/molecularintegrals/integralfunctions.py, multipole.py, kineticenergy.py, nuclearattraction.py,
electronrepulsion.py, and slowquant/molecule/moleculefunctions.py. Floats are reals. Arrays are functions of
their indices; an array that is filled in a loop from its own earlier entries is modelled by that loop
(`fillTable`), an array whose entries are each computed once is modelled entry by entry.
-/

namespace SQ

open MeasureTheory

/-! ## Tables filled in place -/

/-- `T = np.zeros(shape); for k in keys: T[k] = f(T, k)`. Reading an index that was never written gives 0. -/
def fillTable {κ : Type} [DecidableEq κ] (keys : List κ) (f : (κ → ℝ) → κ → ℝ) : κ → ℝ :=
  keys.foldl (fun T k => Function.update T k (f T k)) (fun _ => 0)

/-- `for i in range(I): for j in range(J): for t in range(T):`. -/
def loop3 (I J T : ℕ) : List (ℕ × ℕ × ℕ) :=
  (List.range I).flatMap fun i => (List.range J).flatMap fun j => (List.range T).map fun t => (i, j, t)

/-- `for t in range(X): for u in range(Y): for v in range(Z): for n in range(N):`. -/
def loop4 (X Y Z N : ℕ) : List (ℕ × ℕ × ℕ × ℕ) :=
  (List.range X).flatMap fun t => (List.range Y).flatMap fun u => (List.range Z).flatMap fun v =>
    (List.range N).map fun n => (t, u, v, n)

/-- `for e in range(E): for t in range(e + 1):`. -/
def loopTriangle (E : ℕ) : List (ℕ × ℕ) :=
  (List.range E).flatMap fun e => (List.range (e + 1)).map fun t => (e, t)

/-! ## integralfunctions.py -/

/-- The center of the product of two Gaussians, lines 46, 169. -/
noncomputable def productCenter (A B a b : ℝ) : ℝ := (a * A + b * B) / (a + b)

/-- The body of the loops of `expansion_coefficients`, lines 53-69. -/
noncomputable def expansionStep (A B a b : ℝ) (e : ℕ × ℕ × ℕ → ℝ) : ℕ × ℕ × ℕ → ℝ
  | (i, j, t) =>
    let p := a + b
    let mu := a * b / (a + b)
    let xpa := productCenter A B a b - A
    let xpb := productCenter A B a b - B
    if i = 0 ∧ j = 0 ∧ t = 0 then Real.exp (-mu * (A - B) ^ 2)
    else if i = 0 then
      (if j > 0 ∧ t > 0 then 1 / (2 * p) * e (i, j - 1, t - 1) else 0) +
      (if j > 0 then xpb * e (i, j - 1, t) else 0) +
      (if j > 0 ∧ t + 1 ≤ i + j then (t + 1 : ℝ) * e (i, j - 1, t + 1) else 0)
    else
      (if i > 0 ∧ t > 0 then 1 / (2 * p) * e (i - 1, j, t - 1) else 0) +
      (if i > 0 then xpa * e (i - 1, j, t) else 0) +
      (if i > 0 ∧ t + 1 ≤ i + j then (t + 1 : ℝ) * e (i - 1, j, t + 1) else 0)

/-- `expansion_coefficients`, lines 9-71. -/
noncomputable def expansionCoefficients (A B a b : ℝ) (la lb : ℕ) : ℕ × ℕ × ℕ → ℝ :=
  fillTable (loop3 (la + 1) (lb + 1) (la + lb + 1)) (expansionStep A B a b)

/-- The body of the loops of `hermite_coulomb_integral`, lines 127-147, for a given Boys function. -/
noncomputable def coulombStep (boys : ℕ → ℝ → ℝ) (p X Y Z : ℝ) (r : ℕ × ℕ × ℕ × ℕ → ℝ) : ℕ × ℕ × ℕ × ℕ → ℝ
  | (t, u, v, n) =>
    let R := Real.sqrt (X ^ 2 + Y ^ 2 + Z ^ 2)
    if t = 0 ∧ u = 0 ∧ v = 0 then (-2 * p) ^ n * boys n (p * R ^ 2)
    else if t = 0 ∧ u = 0 then
      (if v > 1 then ((v : ℝ) - 1) * r (t, u, v - 2, n + 1) else 0) +
      (if v > 0 then Z * r (t, u, v - 1, n + 1) else 0)
    else if t = 0 then
      (if u > 1 then ((u : ℝ) - 1) * r (t, u - 2, v, n + 1) else 0) +
      (if u > 0 then Y * r (t, u - 1, v, n + 1) else 0)
    else
      (if t > 1 then ((t : ℝ) - 1) * r (t - 2, u, v, n + 1) else 0) +
      (if t > 0 then X * r (t - 1, u, v, n + 1) else 0)

/-- `hermite_coulomb_integral`, lines 100-148; the result is the part of order zero. The largest `n` written is
`lx + ly + lz`, reading one beyond gives the zero the array was created with. -/
noncomputable def hermiteCoulomb (boys : ℕ → ℝ → ℝ) (lx ly lz : ℕ) (p X Y Z : ℝ) (t u v : ℕ) : ℝ :=
  fillTable (loop4 (lx + 1) (ly + 1) (lz + 1) (lx + ly + lz + 1)) (coulombStep boys p X Y Z) (t, u, v, 0)

/-- The body of the loops of `hermite_multipole_integral`, lines 171-182. -/
noncomputable def multipoleStep (A B C a b : ℝ) (m : ℕ × ℕ → ℝ) : ℕ × ℕ → ℝ
  | (e, t) =>
    let p := a + b
    let xpc := productCenter A B a b - C
    if e = 0 ∧ t = 0 then (Real.pi / p) ^ (0.5 : ℝ)
    else if e = 0 then 0
    else
      (if t > 0 then (t : ℝ) * m (e - 1, t - 1) else 0) +
      xpc * m (e - 1, t) +
      (if t + 1 ≤ e - 1 then 1 / (2 * p) * m (e - 1, t + 1) else 0)

/-- `hermite_multipole_integral`, lines 151-183. -/
noncomputable def hermiteMultipole (A B C a b : ℝ) (order : ℕ) : ℕ × ℕ → ℝ :=
  fillTable (loopTriangle (order + 1)) (multipoleStep A B C a b)

/-! ## moleculefunctions.py -/

/-- `factorial2`, lines 8-26, for an integer argument: `out * (number - 2 * i)` for `i` in
`range(0, int(number + 1) // 2)`, and 1 for arguments that are not positive. -/
noncomputable def factorial2 (number : ℤ) : ℝ :=
  if number > 0 then
    (List.range ((number + 1) / 2).toNat).foldl (fun out (i : ℕ) => out * ((number : ℝ) - 2 * i)) 1
  else 1

/-- `primitive_normalization`, lines 29-47. -/
noncomputable def primitiveNormalization (α : ℝ) (l m n : ℕ) : ℝ :=
  (2 / Real.pi) ^ (3 / 4 : ℝ) * (2 ^ (l + m + n) * α ^ ((2 * l + 2 * m + 2 * n + 3 : ℝ) / 4)) /
    (factorial2 (2 * l - 1) * factorial2 (2 * m - 1) * factorial2 (2 * n - 1)) ^ (1 / 2 : ℝ)

/-- `contracted_normalization`, lines 50-88. -/
noncomputable def contractedNormalization {N : ℕ} (α c : Fin N → ℝ) (l m n : ℕ) : ℝ :=
  ((∑ i, ∑ j, c i * c j / (α i + α j) ^ ((l : ℝ) + m + n + 3 / 2)) *
    (Real.pi ^ (3 / 2 : ℝ) * factorial2 (2 * l - 1) * factorial2 (2 * m - 1) * factorial2 (2 * n - 1) /
      2 ^ (l + m + n))) ^ (-1 / 2 : ℝ)

/-- `primitive_gauss`, lines 91-111. -/
noncomputable def primitiveGauss (r R : Fin 3 → ℝ) (α : ℝ) (l : Fin 3 → ℕ) : ℝ :=
  (r 0 - R 0) ^ l 0 * (r 1 - R 1) ^ l 1 * (r 2 - R 2) ^ l 2 *
    Real.exp (-α * ((r 0 - R 0) ^ 2 + (r 1 - R 1) ^ 2 + (r 2 - R 2) ^ 2))

/-! ## The Boys function -/

/-- `for i in range(i, 1000)` of `boys_function`, integralfunctions.py lines 90-95, from index `i` with the sum `F`
so far; `fuel` is the number of iterations left. `Fcheck` is minus the term added. -/
noncomputable def boysLoop (n : ℕ) (z : ℝ) : ℕ → ℕ → ℝ → ℝ
  | 0, _, F => F
  | fuel + 1, i, F =>
    let F' := F + (2 * z) ^ i / factorial2 (2 * n + 2 * i + 1)
    open Classical in
    if |F - F'| < 1 / 10 ^ 12 then F' else boysLoop n z fuel (i + 1) F'

/-- `boys_function`, integralfunctions.py lines 74-97, for `math.erf` given as a function. -/
noncomputable def boysFunction (erf : ℝ → ℝ) (n : ℕ) (z : ℝ) : ℝ :=
  open Classical in
  if n = 0 ∧ z < 1 / 10 ^ 10 then 1
  else if n = 0 then (Real.pi / (4 * z)) ^ (0.5 : ℝ) * erf (z ^ (0.5 : ℝ))
  else if z > 25 then
    factorial2 (2 * n - 1) / 2 ^ ((n : ℝ) + 1) * (Real.pi / z ^ (2 * (n : ℝ) + 1)) ^ (0.5 : ℝ)
  else if z < 1 / 10 ^ 10 then 1 / (2 * n + 1)
  else boysLoop n z 1000 0 0 * (Real.exp (-z) * factorial2 (2 * n - 1))

/-! ## Shells -/

/-- A shell as numpy arrays: `nprim` primitives, `nbf` Cartesian functions, first basis function `start`
(moleculeclass.py lines 269-301). `norm` is the array `normalization`. -/
structure GShell where
  center : Fin 3 → ℝ
  nprim : ℕ
  exponents : Fin nprim → ℝ
  coefficients : Fin nprim → ℝ
  nbf : ℕ
  angular : Fin nbf → Fin 3 → ℕ
  norm : Fin nbf → Fin nprim → ℝ
  start : ℕ

/-- The normalization computed in `Shell.__init__`, moleculeclass.py lines 294-299. -/
noncomputable def shellNormalization {N : ℕ} (α c : Fin N → ℝ) (l : Fin 3 → ℕ) (i : Fin N) : ℝ :=
  primitiveNormalization (α i) (l 0) (l 1) (l 2) *
    contractedNormalization α (fun k => c k * primitiveNormalization (α k) (l 0) (l 1) (l 2)) (l 0) (l 1) (l 2)

/-- `Shell.__init__`. -/
noncomputable def GShell.make (center : Fin 3 → ℝ) {N M : ℕ} (α c : Fin N → ℝ) (angular : Fin M → Fin 3 → ℕ)
    (start : ℕ) : GShell :=
  ⟨center, N, α, c, M, angular, fun k => shellNormalization α c (angular k), start⟩

/-- `np.max(angular_moments)`; a shell without functions does not occur (`np.max` would raise). -/
def GShell.maxAng (s : GShell) : ℕ := Finset.univ.sup fun k : Fin s.nbf => Finset.univ.sup fun d => s.angular k d

/-- One entry of `get_basis_function_amplitude`, moleculeclass.py lines 220-244: the amplitude of basis function
`bf` at a point, accumulated over the shells, their functions and their primitives. -/
noncomputable def basisAmplitude (shells : List GShell) (r : Fin 3 → ℝ) (bf : ℕ) : ℝ :=
  shells.foldl (fun acc s =>
    (List.finRange s.nbf).foldl (fun acc k =>
      if s.start + k.val = bf then
        (List.finRange s.nprim).foldl (fun acc i =>
          acc + s.norm k i * s.coefficients i * primitiveGauss r s.center (s.exponents i) (s.angular k)) acc
      else acc) acc) 0

/-! ## One-electron integrals -/

/-- The expansion coefficients of two primitives along axis `d`. -/
noncomputable def pairExpansion (s₁ s₂ : GShell) (i : Fin s₁.nprim) (j : Fin s₂.nprim) (extra : ℕ) (d : Fin 3) :
    ℕ × ℕ × ℕ → ℝ :=
  expansionCoefficients (s₁.center d) (s₂.center d) (s₁.exponents i) (s₂.exponents j) (s₁.maxAng + extra)
    (s₂.maxAng + extra)

/-- `multipole_integral`, multipole.py lines 48-135, one entry of the result. -/
noncomputable def multipoleIntegral (origin : Fin 3 → ℝ) (moment : Fin 3 → ℕ) (s₁ s₂ : GShell) (k : Fin s₁.nbf)
    (l : Fin s₂.nbf) : ℝ :=
  ∑ i, ∑ j, s₁.coefficients i * s₂.coefficients j *
    ((∑ t₁ ∈ Finset.range (min (s₁.angular k 0 + s₂.angular l 0) (moment 0) + 1),
      ∑ t₂ ∈ Finset.range (min (s₁.angular k 1 + s₂.angular l 1) (moment 1) + 1),
      ∑ t₃ ∈ Finset.range (min (s₁.angular k 2 + s₂.angular l 2) (moment 2) + 1),
        let M := fun d => hermiteMultipole (s₁.center d) (s₂.center d) (origin d) (s₁.exponents i)
          (s₂.exponents j) (moment d)
        let E := pairExpansion s₁ s₂ i j 0
        M 0 (moment 0, t₁) * M 1 (moment 1, t₂) * M 2 (moment 2, t₃) *
          E 0 (s₁.angular k 0, s₂.angular l 0, t₁) * E 1 (s₁.angular k 1, s₂.angular l 1, t₂) *
          E 2 (s₁.angular k 2, s₂.angular l 2, t₃)) *
      (s₁.norm k i * s₂.norm l j))

/-- `D2_x` and the like, kineticenergy.py lines 103-117. The index `x1 - 2` wraps around in numpy for `x1 < 2`;
the factor in front is then zero. -/
noncomputable def kineticD2 (α : ℝ) (E : ℕ × ℕ × ℕ → ℝ) (x₁ x₂ : ℕ) : ℝ :=
  4 * α ^ 2 * E (x₁ + 2, x₂, 0) - 2 * α * (2 * x₁ + 1) * E (x₁, x₂, 0) +
    (x₁ : ℝ) * ((x₁ : ℝ) - 1) * E (x₁ - 2, x₂, 0)

/-- `kinetic_energy_integral`, kineticenergy.py lines 42-133, one entry. -/
noncomputable def kineticIntegral (s₁ s₂ : GShell) (k : Fin s₁.nbf) (l : Fin s₂.nbf) : ℝ :=
  ∑ i, ∑ j, s₁.coefficients i * s₂.coefficients j *
    (s₁.norm k i * s₂.norm l j *
      (let E := pairExpansion s₁ s₂ i j 2
       let D := fun d => kineticD2 (s₁.exponents i) (E d) (s₁.angular k d) (s₂.angular l d)
       let S := fun d => E d (s₁.angular k d, s₂.angular l d, 0)
       D 0 * S 1 * S 2 + S 0 * D 1 * S 2 + S 0 * S 1 * D 2) *
      (-1 / 2 * (Real.pi / (s₁.exponents i + s₂.exponents j)) ^ (3 / 2 : ℝ)))

/-- `nuclear_attraction_integral`, nuclearattraction.py lines 47-135, one entry, for a list of nuclei with
charges. -/
noncomputable def nuclearIntegral (boys : ℕ → ℝ → ℝ) (nuclei : List ((Fin 3 → ℝ) × ℝ)) (s₁ s₂ : GShell)
    (k : Fin s₁.nbf) (l : Fin s₂.nbf) : ℝ :=
  ∑ i, ∑ j, s₁.coefficients i * s₂.coefficients j *
    ((nuclei.map fun nuc =>
      let L := s₁.maxAng + s₂.maxAng
      let p := s₁.exponents i + s₂.exponents j
      let PC := fun d => productCenter (s₁.center d) (s₂.center d) (s₁.exponents i) (s₂.exponents j) - nuc.1 d
      let R := hermiteCoulomb boys L L L p (PC 0) (PC 1) (PC 2)
      let E := pairExpansion s₁ s₂ i j 0
      s₁.norm k i * nuc.2 * s₂.norm l j *
        ∑ t ∈ Finset.range (s₁.angular k 0 + s₂.angular l 0 + 1),
        ∑ u ∈ Finset.range (s₁.angular k 1 + s₂.angular l 1 + 1),
        ∑ v ∈ Finset.range (s₁.angular k 2 + s₂.angular l 2 + 1),
          E 0 (s₁.angular k 0, s₂.angular l 0, t) * E 1 (s₁.angular k 1, s₂.angular l 1, u) *
          E 2 (s₁.angular k 2, s₂.angular l 2, v) * R t u v).sum *
      (-2 * Real.pi / (s₁.exponents i + s₂.exponents j)))

/-! ## Electron-repulsion integrals -/

/-- `electron_repulsion_integral`, electronrepulsion.py lines 133-297, one entry. -/
noncomputable def repulsionIntegral (boys : ℕ → ℝ → ℝ) (s₁ s₂ s₃ s₄ : GShell) (a : Fin s₁.nbf) (b : Fin s₂.nbf)
    (c : Fin s₃.nbf) (d : Fin s₄.nbf) : ℝ :=
  ∑ i, ∑ j, ∑ k, ∑ l, s₁.coefficients i * s₂.coefficients j * s₃.coefficients k * s₄.coefficients l *
    (let p := s₁.exponents i + s₂.exponents j
     let q := s₃.exponents k + s₄.exponents l
     let L := s₁.maxAng + s₂.maxAng + s₃.maxAng + s₄.maxAng
     let PQ := fun x => productCenter (s₁.center x) (s₂.center x) (s₁.exponents i) (s₂.exponents j) -
       productCenter (s₃.center x) (s₄.center x) (s₃.exponents k) (s₄.exponents l)
     let R := hermiteCoulomb boys L L L (p * q / (p + q)) (PQ 0) (PQ 1) (PQ 2)
     let E := pairExpansion s₁ s₂ i j 0
     let K := pairExpansion s₃ s₄ k l 0
     (∑ τ ∈ Finset.range (s₃.angular c 0 + s₄.angular d 0 + 1),
      ∑ ν ∈ Finset.range (s₃.angular c 1 + s₄.angular d 1 + 1),
      ∑ φ ∈ Finset.range (s₃.angular c 2 + s₄.angular d 2 + 1),
      ∑ t ∈ Finset.range (s₁.angular a 0 + s₂.angular b 0 + 1),
      ∑ u ∈ Finset.range (s₁.angular a 1 + s₂.angular b 1 + 1),
      ∑ v ∈ Finset.range (s₁.angular a 2 + s₂.angular b 2 + 1),
        (-1) ^ (τ + ν + φ) * K 0 (s₃.angular c 0, s₄.angular d 0, τ) * K 1 (s₃.angular c 1, s₄.angular d 1, ν) *
        K 2 (s₃.angular c 2, s₄.angular d 2, φ) * E 0 (s₁.angular a 0, s₂.angular b 0, t) *
        E 1 (s₁.angular a 1, s₂.angular b 1, u) * E 2 (s₁.angular a 2, s₂.angular b 2, v) *
        R (t + τ) (u + ν) (v + φ)) *
      (s₁.norm a i * s₂.norm b j * s₃.norm c k * s₄.norm d l) *
      (2 * Real.pi ^ (5 / 2 : ℝ) / (p * q * (p + q) ^ (0.5 : ℝ))))

/-! ## Drivers -/

/-- `S[s1 : s1 + n1, s2 : s2 + n2] = block`. -/
def setBlock {n m : ℕ} (S : ℕ → ℕ → ℝ) (s₁ s₂ : ℕ) (block : Fin n → Fin m → ℝ) : ℕ → ℕ → ℝ := fun a b =>
  if h : (s₁ ≤ a ∧ a < s₁ + n) ∧ (s₂ ≤ b ∧ b < s₂ + m) then
    block ⟨a - s₁, by omega⟩ ⟨b - s₂, by omega⟩
  else S a b

/-- The drivers of the one-electron integrals (multipole.py lines 10-45, kineticenergy.py lines 7-39,
nuclearattraction.py lines 10-44): all pairs with `j <= i`, the block and its transpose. The matrix is indexed by
all natural numbers, entries beyond `number_bf` stay 0. -/
noncomputable def oneElectronDriver (kernel : (s₁ s₂ : GShell) → Fin s₁.nbf → Fin s₂.nbf → ℝ)
    (shells : List GShell) : ℕ → ℕ → ℝ :=
  shells.zipIdx.foldl (fun S p₁ =>
    (shells.zipIdx.takeWhile fun p₂ => decide (p₂.2 ≤ p₁.2)).foldl (fun S p₂ =>
      let block := kernel p₁.1 p₂.1
      setBlock (setBlock S p₁.1.start p₂.1.start block) p₂.1.start p₁.1.start (fun b a => block a b)) S)
    (fun _ _ => 0)

/-- `V[s1 : s1 + n1, s2 : …, s3 : …, s4 : …] = block`. -/
def setBlock4 {n₁ n₂ n₃ n₄ : ℕ} (V : ℕ → ℕ → ℕ → ℕ → ℝ) (s₁ s₂ s₃ s₄ : ℕ)
    (block : Fin n₁ → Fin n₂ → Fin n₃ → Fin n₄ → ℝ) : ℕ → ℕ → ℕ → ℕ → ℝ := fun a b c d =>
  if h : ((s₁ ≤ a ∧ a < s₁ + n₁) ∧ (s₂ ≤ b ∧ b < s₂ + n₂)) ∧ (s₃ ≤ c ∧ c < s₃ + n₃) ∧ (s₄ ≤ d ∧ d < s₄ + n₄) then
    block ⟨a - s₁, by omega⟩ ⟨b - s₂, by omega⟩ ⟨c - s₃, by omega⟩ ⟨d - s₄, by omega⟩
  else V a b c d

/-- The eight assignments, electronrepulsion.py lines 79-102. -/
def setEight (V : ℕ → ℕ → ℕ → ℕ → ℝ) (p q r s : GShell)
    (B : Fin p.nbf → Fin q.nbf → Fin r.nbf → Fin s.nbf → ℝ) : ℕ → ℕ → ℕ → ℕ → ℝ :=
  let V := setBlock4 V p.start q.start r.start s.start B
  let V := setBlock4 V q.start p.start r.start s.start (fun b a c d => B a b c d)
  let V := setBlock4 V p.start q.start s.start r.start (fun a b d c => B a b c d)
  let V := setBlock4 V q.start p.start s.start r.start (fun b a d c => B a b c d)
  let V := setBlock4 V r.start s.start p.start q.start (fun c d a b => B a b c d)
  let V := setBlock4 V r.start s.start q.start p.start (fun c d b a => B a b c d)
  let V := setBlock4 V s.start r.start p.start q.start (fun d c a b => B a b c d)
  setBlock4 V s.start r.start q.start p.start (fun d c b a => B a b c d)

/-- The index of a pair of shells used for skipping, lines 35, 41. -/
def pairIndex (i j : ℕ) : ℕ := i * (i + 1) / 2 + j

/-- The body of the innermost loop of `electron_repulsion_integral_driver`, lines 39-103; `screen` is the
Cauchy-Schwarz matrix with the threshold, if given. -/
noncomputable def repulsionStep
    (kernel : (s₁ s₂ s₃ s₄ : GShell) → Fin s₁.nbf → Fin s₂.nbf → Fin s₃.nbf → Fin s₄.nbf → ℝ)
    (screen : Option ((ℕ → ℕ → ℝ) × ℝ)) (p q r s : GShell × ℕ) (V : ℕ → ℕ → ℕ → ℕ → ℝ) : ℕ → ℕ → ℕ → ℕ → ℝ :=
  open Classical in
  if s.2 < r.2 then V
  else if pairIndex p.2 q.2 < pairIndex r.2 s.2 then V
  else
    match screen with
    | none => setEight V p.1 q.1 r.1 s.1 (kernel p.1 q.1 r.1 s.1)
    | some (cs, thr) =>
      if cs p.2 q.2 * cs r.2 s.2 < thr then V
      else setEight V p.1 q.1 r.1 s.1 (kernel p.1 q.1 r.1 s.1)

/-- `electron_repulsion_integral_driver`, lines 11-104. -/
noncomputable def repulsionDriver
    (kernel : (s₁ s₂ s₃ s₄ : GShell) → Fin s₁.nbf → Fin s₂.nbf → Fin s₃.nbf → Fin s₄.nbf → ℝ)
    (screen : Option ((ℕ → ℕ → ℝ) × ℝ)) (shells : List GShell) : ℕ → ℕ → ℕ → ℕ → ℝ :=
  shells.zipIdx.foldl (fun V p =>
    shells.zipIdx.foldl (fun V q =>
      if q.2 < p.2 then V else
      shells.zipIdx.foldl (fun V r =>
        shells.zipIdx.foldl (fun V s => repulsionStep kernel screen p q r s V) V) V) V)
    (fun _ _ _ _ => 0)

/-- The largest entry of a block, `np.max(V_slice)` (0 for a block without entries, where numpy raises). -/
noncomputable def blockMax {n m : ℕ} (B : Fin n → Fin m → Fin n → Fin m → ℝ) : ℝ :=
  sSup (Set.range fun x : (Fin n × Fin m) × (Fin n × Fin m) => B x.1.1 x.1.2 x.2.1 x.2.2)

/-- `get_cauchy_schwarz_matrix`, lines 300-339, one entry with `i <= j`. -/
noncomputable def cauchySchwarzEntry
    (kernel : (s₁ s₂ s₃ s₄ : GShell) → Fin s₁.nbf → Fin s₂.nbf → Fin s₃.nbf → Fin s₄.nbf → ℝ) (p q : GShell) : ℝ :=
  (blockMax (kernel p q p q)) ^ (0.5 : ℝ)

/-- `get_cauchy_schwarz_matrix`, lines 300-339: the double loop with its assignments. -/
noncomputable def cauchySchwarzMatrix
    (kernel : (s₁ s₂ s₃ s₄ : GShell) → Fin s₁.nbf → Fin s₂.nbf → Fin s₃.nbf → Fin s₄.nbf → ℝ)
    (shells : List GShell) : ℕ → ℕ → ℝ :=
  shells.zipIdx.foldl (fun C p =>
    shells.zipIdx.foldl (fun C q =>
      if q.2 < p.2 then C
      else fun a b => if (a = p.2 ∧ b = q.2) ∨ (a = q.2 ∧ b = p.2) then cauchySchwarzEntry kernel p.1 q.1 else C a b) C)
    (fun _ _ => 0)

end SQ
