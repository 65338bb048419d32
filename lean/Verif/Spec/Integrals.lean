import Mathlib.Analysis.Calculus.IteratedDeriv.Defs
import Mathlib.MeasureTheory.Integral.Bochner.Basic
import Mathlib.MeasureTheory.Measure.Lebesgue.Basic
import Mathlib.MeasureTheory.Constructions.Pi
import Verif.Model.Integrals

/-!
# Specification: Gaussian functions and their integrals

Written with derivatives and Lebesgue integrals; nothing here refers to how the code computes them.
-/

namespace SQ

open MeasureTheory

/-- The Hermite Gaussian `∂^t/∂P^t exp(-p (x - P)²)`. -/
noncomputable def hermiteGaussian (p P x : ℝ) (t : ℕ) : ℝ := iteratedDeriv t (fun y => Real.exp (-p * (x - y) ^ 2)) P

/-- The derivative `d^t/dX^t exp(-w X²)`. -/
noncomputable def gaussianDeriv (w : ℝ) (t : ℕ) (X : ℝ) : ℝ := iteratedDeriv t (fun y => Real.exp (-w * y ^ 2)) X

/-- The Boys function `∫₀¹ s^(2n) exp(-z s²) ds`. -/
noncomputable def boysExact (n : ℕ) (z : ℝ) : ℝ := ∫ s in (0 : ℝ)..1, s ^ (2 * n) * Real.exp (-z * s ^ 2)

/-- The error function. -/
noncomputable def erfExact (x : ℝ) : ℝ := 2 / √Real.pi * ∫ t in (0 : ℝ)..x, Real.exp (-t ^ 2)

/-- The recursions of the Hermite Coulomb integrals `R n t u v` (McMurchie-Davidson): order `n`, derivatives `t`, `u`,
`v`; a step in `y` is needed for `t = 0` and a step in `z` for `t = u = 0` only. -/
structure CoulombRecursion (F : ℕ → ℝ → ℝ) (p X Y Z : ℝ) (R : ℕ → ℕ → ℕ → ℕ → ℝ) : Prop where
  zero : ∀ n, R n 0 0 0 = (-2 * p) ^ n * F n (p * (X ^ 2 + Y ^ 2 + Z ^ 2))
  stepX : ∀ n t u v, R n (t + 1) u v = t * R (n + 1) (t - 1) u v + X * R (n + 1) t u v
  stepY : ∀ n u v, R n 0 (u + 1) v = u * R (n + 1) 0 (u - 1) v + Y * R (n + 1) 0 u v
  stepZ : ∀ n v, R n 0 0 (v + 1) = v * R (n + 1) 0 0 (v - 1) + Z * R (n + 1) 0 0 v

/-- The `k`-th function of a shell: a contraction of Cartesian Gaussians. -/
noncomputable def shellFunction (s : GShell) (k : Fin s.nbf) (r : Fin 3 → ℝ) : ℝ :=
  ∑ i, s.norm k i * s.coefficients i *
    ((∏ d, (r d - s.center d) ^ s.angular k d) * Real.exp (-s.exponents i * ∑ d, (r d - s.center d) ^ 2))

/-- Shells with positive exponents. -/
def GShell.Positive (s : GShell) : Prop := ∀ i, 0 < s.exponents i

/-- The functions of the shells are numbered one after the other. -/
def Placed (shells : List GShell) : Prop :=
  ∀ (i : ℕ) (s : GShell), shells[i]? = some s → s.start = ((shells.take i).map GShell.nbf).sum

/-- `f` is the function numbered `a` of the basis. -/
def IsBasisFunction (shells : List GShell) (a : ℕ) (f : (Fin 3 → ℝ) → ℝ) : Prop :=
  ∃ (i : ℕ) (s : GShell) (k : Fin s.nbf), shells[i]? = some s ∧
    a = ((shells.take i).map GShell.nbf).sum + k ∧ f = shellFunction s k

/-- The distance of two points. -/
noncomputable def dist3 (r r' : Fin 3 → ℝ) : ℝ := Real.sqrt (∑ d, (r d - r' d) ^ 2)

/-- The Laplacian of a function on space. -/
noncomputable def laplacian3 (f : (Fin 3 → ℝ) → ℝ) (r : Fin 3 → ℝ) : ℝ :=
  ∑ d, iteratedDeriv 2 (fun y => f (Function.update r d y)) (r d)

end SQ
