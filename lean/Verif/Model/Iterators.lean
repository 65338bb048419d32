import Mathlib.Data.List.Basic
import Mathlib.Data.Real.Basic
import Mathlib.Analysis.Real.Sqrt

/-!
# Model of the excitation iterators (`slowquant/unitary_coupled_cluster/util.py:1-545`)

A generator is the list of the values it yields, in order.  Indices are natural numbers.  The spin-orbital
iterators yield tuples of equal entries, modelled as lists.
-/

namespace SQ

/-- `for idx, x in enumerate(L[n:], n): body(x, idx + 1)`: the second argument of `body` is where the
slice of the next loop starts. -/
def loopFrom {β : Type _} (L : List ℕ) (n : ℕ) (body : ℕ → ℕ → List β) : List β :=
  ((L.drop n).zipIdx n).flatMap fun x => body x.1 (x.2 + 1)

/-- `for idx, x in enumerate(L[n:], n): body(x, idx)`: the next slice includes `x` itself. -/
def loopFromIncl {β : Type _} (L : List ℕ) (n : ℕ) (body : ℕ → ℕ → List β) : List β :=
  ((L.drop n).zipIdx n).flatMap fun x => body x.1 x.2

/-- `for x in range(a, b): body(x)`. -/
def loopRange {β : Type _} (a b : ℕ) (body : ℕ → List β) : List β :=
  ((List.range (b - a)).map (a + ·)).flatMap body

/-- The counters of lines 126-137: `num_alpha`, `num_beta` after creating in `A` and annihilating
in `I`. -/
def spinCounters (A I : List ℕ) : ℤ × ℤ :=
  let up := A.foldl (fun c a => if a % 2 = 0 then (c.1 + 1, c.2) else (c.1, c.2 + 1)) ((0, 0) : ℤ × ℤ)
  I.foldl (fun c i => if i % 2 = 0 then (c.1 - 1, c.2) else (c.1, c.2 - 1)) up

/-- `if num_alpha != 0 or num_beta != 0: continue`, then `yield`. -/
def yieldIf (A I : List ℕ) (out : List ℕ) : List (List ℕ) :=
  if (spinCounters A I).1 ≠ 0 ∨ (spinCounters A I).2 ≠ 0 then [] else [out]

/-- The tuple yielded by the spin-adapted double iterators: `a, i, b, j, fac, op_case`. -/
structure SaDouble where
  a : ℕ
  i : ℕ
  b : ℕ
  j : ℕ
  fac : ℝ
  case : ℕ

/-- `iterate_t1_sa`, lines 5-21: `(a, i, fac)`. -/
noncomputable def iterateT1sa (occ unocc : List ℕ) : List (ℕ × ℕ × ℝ) :=
  occ.flatMap fun i => unocc.flatMap fun a => [(a, i, (Real.sqrt 2)⁻¹)]

/-- Body of the loops of `iterate_t2_sa`, lines 40-58 (the same as 94-110). -/
noncomputable def t2saBody (i j a b : ℕ) : List SaDouble :=
  let f : ℝ := 1
  let f := if a = b then f * 2 else f
  let f := if i = j then f * 2 else f
  let fac := 1 / 2 * (Real.sqrt f)⁻¹
  (if i = j ∧ a = b then [⟨a, i, b, j, fac, 1⟩]
    else if i = j then [⟨a, i, b, j, fac, 2⟩]
    else if a = b then [⟨a, i, b, j, fac, 3⟩]
    else [⟨a, i, b, j, fac, 4⟩])
  ++ (if i = j ∨ a = b then [] else [⟨a, i, b, j, 1 / (2 * Real.sqrt 3), 5⟩])

/-- `iterate_t2_sa`, lines 24-58. -/
noncomputable def iterateT2sa (occ unocc : List ℕ) : List SaDouble :=
  loopFromIncl occ 0 fun i ni => loopFromIncl occ ni fun j _ =>
    loopFromIncl unocc 0 fun a na => loopFromIncl unocc na fun b _ => t2saBody i j a b

/-- `iterate_t1_sa_generalized`, lines 61-75. -/
noncomputable def iterateT1saGen (n : ℕ) : List (ℕ × ℕ × ℝ) :=
  loopRange 0 n fun i => loopRange (i + 1) n fun a => [(a, i, (Real.sqrt 2)⁻¹)]

/-- `iterate_t2_sa_generalized`, lines 78-110. -/
noncomputable def iterateT2saGen (n : ℕ) : List SaDouble :=
  loopRange 0 n fun i => loopRange i n fun j => loopRange (max i j + 1) n fun a => loopRange a n fun b =>
    t2saBody i j a b

/-- `iterate_t1`, lines 113-140. -/
def iterateT1 (occ unocc : List ℕ) : List (List ℕ) :=
  loopFrom unocc 0 fun a _ => loopFrom occ 0 fun i _ => yieldIf [a] [i] [a, i]

/-- `iterate_t1_generalized`, lines 143-168. -/
def iterateT1Gen (n : ℕ) : List (List ℕ) :=
  loopRange 0 n fun i => loopRange (i + 1) n fun a => yieldIf [a] [i] [a, i]

/-- `iterate_t2`, lines 171-208. -/
def iterateT2 (occ unocc : List ℕ) : List (List ℕ) :=
  loopFrom unocc 0 fun a na => loopFrom unocc na fun b _ =>
    loopFrom occ 0 fun i ni => loopFrom occ ni fun j _ => yieldIf [a, b] [i, j] [a, i, b, j]

/-- `iterate_t2_generalized`, lines 211-246. -/
def iterateT2Gen (n : ℕ) : List (List ℕ) :=
  loopRange 0 n fun i => loopRange i n fun j => loopRange (max i j + 1) n fun a => loopRange a n fun b =>
    yieldIf [a, b] [i, j] [a, i, b, j]

/-- `iterate_t3`, lines 249-296. -/
def iterateT3 (occ unocc : List ℕ) : List (List ℕ) :=
  loopFrom unocc 0 fun a na => loopFrom unocc na fun b nb => loopFrom unocc nb fun c _ =>
    loopFrom occ 0 fun i ni => loopFrom occ ni fun j nj => loopFrom occ nj fun k _ =>
      yieldIf [a, b, c] [i, j, k] [a, i, b, j, c, k]

/-- `iterate_t4`, lines 299-356. -/
def iterateT4 (occ unocc : List ℕ) : List (List ℕ) :=
  loopFrom unocc 0 fun a na => loopFrom unocc na fun b nb => loopFrom unocc nb fun c nc =>
  loopFrom unocc nc fun d _ =>
    loopFrom occ 0 fun i ni => loopFrom occ ni fun j nj => loopFrom occ nj fun k nk =>
    loopFrom occ nk fun l _ =>
      yieldIf [a, b, c, d] [i, j, k, l] [a, i, b, j, c, k, d, l]

/-- `iterate_t5`, lines 359-426. -/
def iterateT5 (occ unocc : List ℕ) : List (List ℕ) :=
  loopFrom unocc 0 fun a na => loopFrom unocc na fun b nb => loopFrom unocc nb fun c nc =>
  loopFrom unocc nc fun d nd => loopFrom unocc nd fun e _ =>
    loopFrom occ 0 fun i ni => loopFrom occ ni fun j nj => loopFrom occ nj fun k nk =>
    loopFrom occ nk fun l nl => loopFrom occ nl fun m _ =>
      yieldIf [a, b, c, d, e] [i, j, k, l, m] [a, i, b, j, c, k, d, l, e, m]

/-- `iterate_t6`, lines 429-510. -/
def iterateT6 (occ unocc : List ℕ) : List (List ℕ) :=
  loopFrom unocc 0 fun a na => loopFrom unocc na fun b nb => loopFrom unocc nb fun c nc =>
  loopFrom unocc nc fun d nd => loopFrom unocc nd fun e ne => loopFrom unocc ne fun f _ =>
    loopFrom occ 0 fun i ni => loopFrom occ ni fun j nj => loopFrom occ nj fun k nk =>
    loopFrom occ nk fun l nl => loopFrom occ nl fun m nm => loopFrom occ nm fun n _ =>
      yieldIf [a, b, c, d, e, f] [i, j, k, l, m, n] [a, i, b, j, c, k, d, l, e, m, f, n]

/-- `iterate_pair_t2`, lines 513-528. -/
def iteratePairT2 (occ unocc : List ℕ) : List (List ℕ) :=
  occ.flatMap fun i => unocc.flatMap fun a => [[2 * a, 2 * i, 2 * a + 1, 2 * i + 1]]

/-- `iterate_pair_t2_generalized`, lines 531-544. -/
def iteratePairT2Gen (n : ℕ) : List (List ℕ) :=
  loopRange 0 n fun i => loopRange (i + 1) n fun a => [[2 * a, 2 * i, 2 * a + 1, 2 * i + 1]]

end SQ
