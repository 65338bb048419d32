import Mathlib.Data.Matrix.Mul
import Mathlib.Data.Fin.Tuple.Basic
import Mathlib.Data.Complex.Basic
import Mathlib.Analysis.SpecialFunctions.Pow.Real
import Verif.Model.Py

/-!
# Model: solving the linear response equations

unitary_coupled_cluster/linear_response/lr_baseclass.py lines 110-186 (`calc_excitation_energies`,
`get_excited_state_norm`), 195-216 (`get_oscillator_strength`) and the same routines of
qiskit_interface/linear_response/lr_baseclass.py lines 305-390. Floats are reals, complex floats are complex
numbers; `np.linalg.eig` and `scipy.linalg.eig` are parameters (`LRLib`), what is assumed of them is in
`Spec/LinearResponse`. Printing is modelled by the flag "a warning about the Hessian was printed".
-/

namespace SQ

open Matrix

variable {s : ℕ}

/-- Square real matrices. -/
abbrev RMat (m : ℕ) := Matrix (Fin m) (Fin m) ℝ

/-- `X[:size, :size] = a; X[:size, size:] = b; X[size:, :size] = c; X[size:, size:] = d`, lines 113-117 and
128-132. -/
def blockMat (a b c d : RMat s) : RMat (s + s) := fun i j =>
  Fin.addCases (fun i => Fin.addCases (fun j => a i j) (fun j => b i j) j)
    (fun i => Fin.addCases (fun j => c i j) (fun j => d i j) j) i

/-- `E2`, lines 113-117. -/
def lrHessian (A B : RMat s) : RMat (s + s) := blockMat A B B A

/-- `S`, lines 128-132. -/
def lrMetric (Sg Dl : RMat s) : RMat (s + s) := blockMat Sg Dl (-Dl) (-Sg)

/-- The numerical library: the eigenvalues of a (symmetric) matrix, and the eigenvalues with eigenvectors of a
generalised problem. -/
structure LRLib where
  eigvals : (m : ℕ) → RMat m → List ℝ
  eig : (m : ℕ) → RMat m → RMat m → List (ℂ × (Fin m → ℂ))

/-- `np.min` of the eigenvalues, line 122; of an empty array it raises `ValueError`. -/
noncomputable def minEig : List ℝ → Res ℝ
  | [] => .error .valueError
  | x :: xs => .ok (xs.foldl min x)

/-- The order `np.argsort` uses for complex numbers: by real part, then by imaginary part. -/
noncomputable def complexLe (a b : ℂ) : Bool :=
  open Classical in decide (a.re < b.re ∨ (a.re = b.re ∧ a.im ≤ b.im))

/-- `eigval[sorting]` together with `eigvec[:, sorting]`, lines 138-140. -/
noncomputable def sortedEig (lib : LRLib) (E2 S : RMat (s + s)) : List (ℂ × (Fin (s + s) → ℂ)) :=
  (lib.eig (s + s) E2 S).mergeSort (fun a b => complexLe a.1 b.1)

/-- `Z_q`, rows `[: num_q]`, line 144. -/
def zq {q g : ℕ} (v : Fin ((q + g) + (q + g)) → ℝ) (i : Fin q) : ℝ := v (Fin.castAdd _ (Fin.castAdd _ i))

/-- `Z_G`, rows `[num_q : num_q + num_G]`, line 145. -/
def zg {q g : ℕ} (v : Fin ((q + g) + (q + g)) → ℝ) (i : Fin g) : ℝ := v (Fin.castAdd _ (Fin.natAdd _ i))

/-- `Y_q`, rows `[num_q + num_G : 2 * num_q + num_G]`, line 146. -/
def yq {q g : ℕ} (v : Fin ((q + g) + (q + g)) → ℝ) (i : Fin q) : ℝ := v (Fin.natAdd _ (Fin.castAdd _ i))

/-- `Y_G`, rows `[2 * num_q + num_G :]`, line 147. -/
def yg {q g : ℕ} (v : Fin ((q + g) + (q + g)) → ℝ) (i : Fin g) : ℝ := v (Fin.natAdd _ (Fin.natAdd _ i))

/-- `get_excited_state_norm` for one state, lines 166-186. -/
def stateNorm {q g : ℕ} (metric : RMat ((q + g) + (q + g))) (v : Fin ((q + g) + (q + g)) → ℝ) : ℝ :=
  (∑ i : Fin q, ∑ j : Fin q, metric (Fin.castAdd _ (Fin.castAdd _ i)) (Fin.castAdd _ (Fin.castAdd _ j)) *
    (zq v i * zq v j - yq v i * yq v j)) +
  ∑ i : Fin g, ∑ j : Fin g, metric (Fin.castAdd _ (Fin.natAdd _ i)) (Fin.castAdd _ (Fin.natAdd _ j)) *
    (zg v i * zg v j - yg v i * yg v j)

/-- Lines 153-164: a state whose norm is too small keeps its row of zeros. -/
noncomputable def normedVector {q g : ℕ} (metric : RMat ((q + g) + (q + g))) (v : Fin ((q + g) + (q + g)) → ℝ) :
    Fin ((q + g) + (q + g)) → ℝ :=
  if stateNorm metric v < 1e-10 then 0 else fun i => v i * (1 / stateNorm metric v) ^ (0.5 : ℝ)

/-- Excitation energies, response vectors, normalised vectors and whether a warning was printed. -/
structure LROut (m : ℕ) where
  energies : List ℝ
  vectors : List (Fin m → ℝ)
  normed : List (Fin m → ℝ)
  warned : Bool

/-- The check of the Hessian, lines 118-126 (`strict`); the circuit version only warns, lines 321-330. -/
noncomputable def hessianCheck (lib : LRLib) (strict : Bool) (E2 : RMat (s + s)) : Res Bool := do
  let m ← minEig (lib.eigvals (s + s) E2)
  if strict then
    if |m| < 1e-8 then .ok true
    else if m < 0 then .error .valueError
    else .ok false
  else .ok (decide (m < 0))

/-- `calc_excitation_energies`, lines 110-164. -/
noncomputable def calcExcitations (lib : LRLib) (strict : Bool) (q g : ℕ) (A B Sg Dl : RMat (q + g)) :
    Res (LROut ((q + g) + (q + g))) := do
  let E2 := lrHessian A B
  let S := lrMetric Sg Dl
  let warned ← hessianCheck lib strict E2
  let upper := (sortedEig lib E2 S).drop (q + g)
  let vecs := upper.map fun p i => (p.2 i).re
  .ok ⟨upper.map fun p => p.1.re, vecs, vecs.map (normedVector S), warned⟩

/-- `get_oscillator_strength`, lines 195-216: an array as long as the transition dipoles, filled while both lists
last. -/
noncomputable def oscillatorStrengths (energies : List ℝ) (dipoles : List (Fin 3 → ℝ)) : List ℝ :=
  let filled := (energies.zip dipoles).map fun p => 2 / 3 * p.1 * (p.2 0 ^ 2 + p.2 1 ^ 2 + p.2 2 ^ 2)
  filled ++ List.replicate (dipoles.length - filled.length) 0

end SQ
