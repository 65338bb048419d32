import Verif.Model.StdAnalysis

/-!
# Specification: the analysis of deviations and of excited states
-/

namespace SQ

/-- What numpy promises of `np.argsort`: the positions in an order in which the values do not decrease (which of two
equal values comes first is left open). -/
def SortsPositions (argsort : List ℝ → List ℕ) : Prop := ∀ l : List ℝ,
  (argsort l).Perm (List.range l.length) ∧
  (argsort l).Pairwise fun a b => ∀ x y, l[a]? = some x → l[b]? = some y → x ≤ y

/-- The columns `j` of row `i` in which `X` is not smaller than `10⁻⁶`. -/
noncomputable def notSmall (n : ℕ) (X : Mat ℝ) (i : Fin n) : Finset (Fin n) :=
  open Classical in Finset.univ.filter fun j => 1 / 10 ^ 6 ≤ |X i j|

/-- At least as many entries of `X` are not small as it has rows. -/
def EnoughEntries (n : ℕ) (X : Mat ℝ) : Prop := n ≤ ∑ i, (notSmall n X i).card

/-- The mean of the coefficients of variation in row `i`, over the entries that are not small. -/
noncomputable def meanCV (n : ℕ) (S X : Mat ℝ) (i : Fin n) : ℝ :=
  (∑ j ∈ notSmall n X i, |S i j| / |X i j|) / (notSmall n X i).card

/-- The rows of coefficients of variation of the deviations `S` for the matrices `M`: the mean over the entries that
are not small, and nan in a row that has none. -/
structure IsCVRows (n : ℕ) (S M : LRMats) (R : RowAvgs n) : Prop where
  A : ∀ i, ((notSmall n M.A i).Nonempty → R.A i = some (meanCV n S.A M.A i)) ∧
    (notSmall n M.A i = ∅ → R.A i = none)
  B : ∀ i, ((notSmall n M.B i).Nonempty → R.B i = some (meanCV n S.B M.B i)) ∧
    (notSmall n M.B i = ∅ → R.B i = none)
  Sigma : ∀ i, ((notSmall n M.Sigma i).Nonempty → R.Sigma i = some (meanCV n S.Sigma M.Sigma i)) ∧
    (notSmall n M.Sigma i = ∅ → R.Sigma i = none)

/-- The means of the rows of the deviations `S`. -/
structure IsMeanRows (n : ℕ) (S : LRMats) (R : RowAvgs n) : Prop where
  A : ∀ i, R.A i = some ((∑ j : Fin n, S.A i j) / n)
  B : ∀ i, R.B i = some ((∑ j : Fin n, S.B i j) / n)
  Sigma : ∀ i, R.Sigma i = some ((∑ j : Fin n, S.Sigma i j) / n)

/-- Each of the three matrices has enough entries that are not small. -/
def EnoughIn (n : ℕ) (M : LRMats) : Prop := EnoughEntries n M.A ∧ EnoughEntries n M.B ∧ EnoughEntries n M.Sigma

/-- The matrices the coefficients of variation are taken from: those of the object, or if its `A` vanishes those of a
new run. -/
def MatricesUsed (n : ℕ) (run : Res LRMats) (old M : LRMats) : Prop :=
  ((∀ i < n, ∀ j < n, old.A i j = 0) ∧ run = .ok M) ∨ ((∃ i < n, ∃ j < n, old.A i j ≠ 0) ∧ M = old)

/-- The weight of operator `i` in a response vector: excitation plus de-excitation. -/
def opWeight {n : ℕ} (v : Fin (n + n) → ℝ) (i : Fin n) : ℝ := v (Fin.castAdd n i) ^ 2 + v (Fin.natAdd n i) ^ 2

/-- The operators of a response vector in order: orbital rotations, active excitations, then the same
de-excitations. -/
def operatorNames (q g : ℕ) : List String :=
  let up := (List.range q).map (fun i => "q" ++ toString i) ++ (List.range g).map fun i => "G" ++ toString i
  up ++ up.map (· ++ "^d")

/-- The printed positions are those of largest entries: `count` different ones in the matrix, named after their
block, and no other entry is larger than one of them. -/
structure IsLargest (q n count : ℕ) (X : Mat ℝ) (out : List (ℕ × ℕ × String)) : Prop where
  count : out.length = count
  distinct : (out.map fun t => (t.1, t.2.1)).Nodup
  inside : ∀ t ∈ out, t.1 < n ∧ t.2.1 < n ∧
    t.2.2 = (if t.1 < q then "q" else "G") ++ if t.2.1 < q then "q" else "G"
  largest : ∀ t ∈ out, ∀ i < n, ∀ j < n, (i, j) ∉ out.map (fun t => (t.1, t.2.1)) → |X i j| ≤ |X t.1 t.2.1|

end SQ
