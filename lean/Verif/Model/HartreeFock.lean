import Mathlib.Data.Matrix.Mul
import Mathlib.LinearAlgebra.Matrix.Trace
import Mathlib.Analysis.SpecialFunctions.Pow.Real
import Verif.Model.Py
import Verif.Model.Transforms

/-!
# Model: Hartree-Fock

slowquant/hartreefock/diis.py, hartreefock_in_memory.py, unrestricted_hartreefock_in_memory.py and the
properties of hartreefockclass.py. Floats are reals; `np.linalg.eigh` and `np.linalg.solve` are parameters
(`HFLib`), what is assumed of them is in `Spec/HartreeFock`. Logging is modelled by the flag "the warning was
added". Matrices have the size `n` of the basis.
-/

namespace SQ

open Matrix

variable {n : ℕ}

/-- Square matrices over the basis functions. -/
abbrev HFMat (n : ℕ) := Matrix (Fin n) (Fin n) ℝ

/-- The numerical library: `np.linalg.eigh` (eigenvalues, eigenvectors as columns) and `np.linalg.solve`. -/
structure HFLib (n : ℕ) where
  eigh : HFMat n → (Fin n → ℝ) × HFMat n
  solve : (k : ℕ) → Matrix (Fin k) (Fin k) ℝ → (Fin k → ℝ) → Res (Fin k → ℝ)

/-! ## DIIS -/

/-- The stored Fock and density matrices, diis.py lines 12-13; both lists grow and shrink together, but they are
kept separately as in the code. -/
structure DIISState (n : ℕ) where
  focks : List (HFMat n)
  densities : List (HFMat n)
  saved : ℕ

/-- `DIIS.__init__`, lines 5-15. -/
def DIISState.init (n : ℕ) (saved : ℕ := 6) : DIISState n := ⟨[], [], saved⟩

/-- Lines 46-48: `F D S - S D F` for every stored pair. -/
def errorMatrices (S : HFMat n) (st : DIISState n) : List (HFMat n) :=
  (st.focks.zip st.densities).map fun p => p.1 * p.2 * S - S * p.2 * p.1

/-- Lines 50-53 and 56-58: the bordered matrix; the last row and column are -1, the corner 0. -/
def diisMatrix (errs : List (HFMat n)) : Matrix (Fin (errs.length + 1)) (Fin (errs.length + 1)) ℝ := fun i j =>
  if hi : i.val < errs.length then
    if hj : j.val < errs.length then Matrix.trace (errs[i.val] * errs[j.val]) else -1
  else if j.val < errs.length then -1 else 0

/-- Lines 54-55. -/
def diisRhs (k : ℕ) : Fin (k + 1) → ℝ := fun i => if i.val < k then 0 else -1

/-- Lines 62-64: `zip(coefficients[:-1], self.fock_matrices)`. -/
def combineFocks (k : ℕ) (c : Fin (k + 1) → ℝ) (focks : List (HFMat n)) : HFMat n :=
  ((List.ofFn fun i : Fin k => c i.castSucc).zip focks).foldl (fun acc p => acc + p.1 • p.2) 0

/-- `get_extrapolated_fock_matrix`, lines 17-66. -/
def diisStep (lib : HFLib n) (S F D : HFMat n) (st : DIISState n) : Res (HFMat n × DIISState n) :=
  if n = 2 then .ok (F, st)
  else
    let st := { st with focks := st.focks ++ [F], densities := st.densities ++ [D] }
    if st.focks.length = 1 then .ok (F, st)
    else do
      let st := if st.focks.length > st.saved then
          { st with focks := st.focks.drop 1, densities := st.densities.drop 1 } else st
      let errs := errorMatrices S st
      let c ← lib.solve (errs.length + 1) (diisMatrix errs) (diisRhs errs.length)
      .ok (combineFocks errs.length c st.focks, st)

/-! ## Common parts -/

/-- `S_sqrt`, hartreefock_in_memory.py line 32: `L diag(λ^(-1/2)) Lᵀ`. -/
noncomputable def invSqrt (lib : HFLib n) (S : HFMat n) : HFMat n :=
  let r := lib.eigh S
  r.2 * Matrix.diagonal (fun i => (r.1 i) ^ (-(1 / 2) : ℝ)) * r.2ᵀ

/-- The number of rows kept by `CT[0 : m]` of a matrix with `n` rows: negative ends count from the end. -/
def sliceEnd (n : ℕ) (m : ℤ) : ℕ := if m < 0 then (n + m).toNat else min m.toNat n

/-- `np.dot(Cocc, CTocc)` for the first `occ` columns, lines 41, 69-72. -/
def occDensity (C : HFMat n) (occ : ℕ) : HFMat n := fun a b => ∑ k, if k.val < occ then C a k * C b k else 0

/-- `int(number_electrons / 2)`: division truncating toward zero. -/
def halfTrunc (N : ℤ) : ℤ := N.tdiv 2

/-- `np.einsum("pqrs,sr->pq", ERI, D)`, line 55. -/
def coulomb (g : Tensor4 (Fin n)) (D : HFMat n) : HFMat n := fun p q => ∑ r, ∑ s, g p q r s * D s r

/-- `np.einsum("psqr,sr->pq", ERI, D)`, line 56. -/
def exchange (g : Tensor4 (Fin n)) (D : HFMat n) : HFMat n := fun p q => ∑ s, ∑ r, g p s q r * D s r

/-- `np.einsum("ij,ij->", A, B)`. -/
def contract (A B : HFMat n) : ℝ := ∑ i, ∑ j, A i j * B i j

/-- `np.einsum("ij->", (D - D0) ** 2) ** 0.5`, line 79. -/
noncomputable def rmsDiff (D D0 : HFMat n) : ℝ := Real.sqrt (∑ i, ∑ j, (D i j - D0 i j) ^ 2)

/-! ## Restricted Hartree-Fock -/

/-- The inputs of `run_hartree_fock`, lines 7-18. -/
structure RHFIn (n : ℕ) where
  S : HFMat n
  T : HFMat n
  V : HFMat n
  eri : Tensor4 (Fin n)
  N : ℤ
  dE : ℝ
  rmsd : ℝ
  maxIter : ℕ
  useDiis : Bool

/-- `E, C, F, D` and whether the convergence warning was logged. -/
structure RHFOut (n : ℕ) where
  E : ℝ
  C : HFMat n
  F : HFMat n
  D : HFMat n
  warned : Bool

/-- Line 57. -/
noncomputable def rhfFock (inp : RHFIn n) (D : HFMat n) : HFMat n :=
  inp.T + inp.V + coulomb inp.eri D - (0.5 : ℝ) • exchange inp.eri D

/-- The orbitals for a Fock matrix, lines 63-66. -/
noncomputable def scfOrbitals (lib : HFLib n) (S F : HFMat n) : HFMat n :=
  let X := invSqrt lib S
  X * (lib.eigh (Xᵀ * F * X)).2

/-- Lines 59-60: the Fock matrix is extrapolated if DIIS is in use (unrestricted: lines 77-79). -/
def nextFock (lib : HFLib n) (useDiis : Bool) (S F D : HFMat n) (st : DIISState n) : Res (HFMat n × DIISState n) :=
  if useDiis then diisStep lib S F D st else .ok (F, st)

/-- The iterations, lines 53-92, with `left` iterations to go; `D0`, `E0` from the previous one. -/
noncomputable def rhfLoop (lib : HFLib n) (inp : RHFIn n) :
    ℕ → HFMat n → ℝ → DIISState n → Option (RHFOut n) → Res (RHFOut n)
  | 0, _, _, _, none => .error .runtimeError
  | 0, _, _, _, some o => .ok { o with warned := true }
  | left + 1, D0, E0, st, _ => do
    let (F, st) ← nextFock lib inp.useDiis inp.S (rhfFock inp D0) D0 st
    let C := scfOrbitals lib inp.S F
    let D := (2 : ℝ) • occDensity C (sliceEnd n (halfTrunc inp.N))
    let E := 0.5 * contract D (inp.T + inp.V + F)
    let o : RHFOut n := ⟨E, C, F, D, false⟩
    if |E - E0| < inp.dE ∧ rmsDiff D D0 < inp.rmsd then .ok o
    else rhfLoop lib inp left D E st (some o)

/-- The initial density, lines 35-42 (`F0prime` has the transposed `S_sqrt` on both sides). -/
noncomputable def rhfGuess (lib : HFLib n) (inp : RHFIn n) : HFMat n :=
  let X := invSqrt lib inp.S
  (2 : ℝ) • occDensity (X * (lib.eigh (Xᵀ * (inp.T + inp.V) * Xᵀ)).2) (sliceEnd n (halfTrunc inp.N))

/-- `run_hartree_fock`, lines 7-94. With `max_scf_iterations = 0` the result is unbound (`runtimeError`). -/
noncomputable def runHartreeFock (lib : HFLib n) (inp : RHFIn n) : Res (RHFOut n) :=
  let D0 := rhfGuess lib inp
  rhfLoop lib inp inp.maxIter D0 (contract D0 (inp.T + inp.V)) (DIISState.init n) none

/-! ## Unrestricted Hartree-Fock -/

/-- The inputs of `run_unrestricted_hartree_fock`, unrestricted_hartreefock_in_memory.py lines 7-20. -/
structure UHFIn (n : ℕ) where
  S : HFMat n
  T : HFMat n
  V : HFMat n
  eri : Tensor4 (Fin n)
  Na : ℤ
  Nb : ℤ
  mix : ℝ
  dE : ℝ
  rmsd : ℝ
  maxIter : ℕ
  useDiis : Bool

/-- The results. -/
structure UHFOut (n : ℕ) where
  E : ℝ
  Ca : HFMat n
  Cb : HFMat n
  Fa : HFMat n
  Fb : HFMat n
  Da : HFMat n
  Db : HFMat n
  warned : Bool

/-- A row index as numpy resolves it: negative indices count from the end, anything outside raises
`IndexError`. -/
def rowIndex (n : ℕ) (i : ℤ) : Res (Fin n) :=
  let j := if i < 0 then i + n else i
  if h : 0 ≤ j ∧ j < n then .ok ⟨j.toNat, by omega⟩ else .error .indexError

/-- Lines 42-50: mixing HOMO and LUMO. `R` holds the orbitals as rows. `C_HOMO` and `C_LUMO` are views into the
array, so the second assignment reads the row already overwritten by the first. -/
noncomputable def mixRows (Na : ℤ) (mix : ℝ) (R : HFMat n) : Res (HFMat n) := do
  let h ← rowIndex n (Na - 1)
  let l ← rowIndex n Na
  let f : ℝ := 1 / Real.sqrt (1 + mix ^ 2)
  let R : HFMat n := Function.update R h (fun a => f * (R h a + mix * R l a))
  let R : HFMat n := Function.update R l (fun a => f * (-mix * R h a + R l a))
  .ok R

/-- Lines 73-74. -/
def uhfFock (inp : UHFIn n) (Dsame Dother : HFMat n) : HFMat n :=
  inp.T + inp.V + coulomb inp.eri Dsame + coulomb inp.eri Dother - exchange inp.eri Dsame

/-- The iterations, lines 67-123. -/
noncomputable def uhfLoop (lib : HFLib n) (inp : UHFIn n) :
    ℕ → HFMat n → HFMat n → ℝ → DIISState n → DIISState n → Option (UHFOut n) → Res (UHFOut n)
  | 0, _, _, _, _, _, none => .error .runtimeError
  | 0, _, _, _, _, _, some o => .ok { o with warned := true }
  | left + 1, Da0, Db0, E0, sa, sb, _ => do
    let (Fa, sa) ← nextFock lib inp.useDiis inp.S (uhfFock inp Da0 Db0) Da0 sa
    let (Fb, sb) ← nextFock lib inp.useDiis inp.S (uhfFock inp Db0 Da0) Db0 sb
    let Ca := scfOrbitals lib inp.S Fa
    let Cb := scfOrbitals lib inp.S Fb
    let Da := occDensity Ca (sliceEnd n inp.Na)
    let Db := occDensity Cb (sliceEnd n inp.Nb)
    let E := 0.5 * contract Da (inp.T + inp.V + Fa) + 0.5 * contract Db (inp.T + inp.V + Fb)
    let o : UHFOut n := ⟨E, Ca, Cb, Fa, Fb, Da, Db, false⟩
    if |E - E0| < inp.dE ∧ rmsDiff Da Da0 < inp.rmsd ∧ rmsDiff Db Db0 < inp.rmsd then .ok o
    else uhfLoop lib inp left Da Db E sa sb (some o)

/-- The orbitals as rows before mixing, lines 36-40. -/
noncomputable def uhfGuessRows (lib : HFLib n) (inp : UHFIn n) : HFMat n :=
  let X := invSqrt lib inp.S
  (X * (lib.eigh (Xᵀ * (inp.T + inp.V) * Xᵀ)).2)ᵀ

/-- `run_unrestricted_hartree_fock`, lines 7-125. -/
noncomputable def runUnrestricted (lib : HFLib n) (inp : UHFIn n) : Res (UHFOut n) := do
  let R := uhfGuessRows lib inp
  let Ra ← if inp.Na = inp.Nb then mixRows inp.Na inp.mix R else .ok R
  let Da := occDensity Raᵀ (sliceEnd n inp.Na)
  let Db := occDensity Rᵀ (sliceEnd n inp.Nb)
  uhfLoop lib inp inp.maxIter Da Db (contract Da (inp.T + inp.V) + contract Db (inp.T + inp.V))
    (DIISState.init n) (DIISState.init n) none

/-- `rdm1_charge`, hartreefockclass.py lines 91-101. -/
def rdm1Charge (o : UHFOut n) : HFMat n := o.Da + o.Db

/-- `rdm1_spin`, lines 103-113. -/
def rdm1Spin (o : UHFOut n) : HFMat n := o.Da - o.Db

/-- `spin_contamination`, lines 115-135; `range` of a negative number is empty, an index beyond the orbitals
raises `IndexError`. -/
noncomputable def spinContamination (S : HFMat n) (o : UHFOut n) (Na Nb : ℤ) : Res ℝ :=
  let M : HFMat n := fun i j => ∑ a, ∑ b, o.Ca a i * o.Cb b j * S a b
  if (Na ≤ n ∧ Nb ≤ n) ∨ Na ≤ 0 ∨ Nb ≤ 0 then
    .ok (Nb - ∑ i : Fin n, ∑ j : Fin n, if (i.val : ℤ) < Na ∧ (j.val : ℤ) < Nb then M i j ^ 2 else 0)
  else .error .indexError

end SQ
