import Verif.Model.Sampler
import Verif.Model.HigherDensity

/-!
# Model: measuring for density matrices in advance

slowquant/qiskit_interface/circuit_wavefunction.py, `precalc_rdm_paulis` (744-833), with a sampler. Left out: that it sets
`_rdm1` … to `None`. Orders below 1 are represented by 0.
-/

namespace SQ

variable {norb : ℕ}

/-- `Epq(p, q) * Epq(r, s) * …`, multiplied from the left (e.g. line 803). -/
noncomputable def listOp (tiny : ℝ → Bool) : List (ℕ × ℕ) → Res (Dict ℝ)
  | [] => .error .typeError
  | x :: l => do
    let A ← Epq tiny x.1 x.2
    l.foldlM (fun P y => do
      let B ← Epq tiny y.1 y.2
      fmul tiny P B) A

/-- The iterations of the loops of `precalc_rdm_paulis`, lines 766-826: those of `rdm1`, `rdm2`, `rdm3` and `rdm4`. -/
def precalcIter (nI nA k : ℕ) : List (List (ℕ × ℕ)) :=
  ((rdm1Iter nI nA).map fun x => [x]) ++
  (if 2 ≤ k then (rdm2Iter nI nA).map fun (p, q, r, s) => [(p, q), (r, s)] else []) ++
  (if 3 ≤ k then (rdm3Iter nI nA).map fun (p, q, r, s, t, u) => [(p, q), (r, s), (t, u)] else []) ++
  (if 4 ≤ k then (rdm4Iter nI nA).map fun (p, q, r, s, t, u, m, n) => [(p, q), (r, s), (t, u), (m, n)] else [])

/-- The labels of one operator, e.g. lines 769-772. -/
noncomputable def precalcLabels (B : Bench norb) (tiny : ℝ → Bool) (ci : CIInfo) (l : List (ℕ × ℕ)) :
    Res (List (List Char)) := do
  let A ← listOp tiny l
  let obs ← opToQbit B.map norb (getFolded ci.nI ci.nA ci.nV A)
  return obs.map Prod.fst

/-- `precalc_rdm_paulis`. The labels are collected in a set, whose elements are taken out in the order `order`. Without
active orbitals no set is made, and `len(None)` raises. -/
noncomputable def precalcRdm (B : Bench norb) (tiny : ℝ → Bool) (ci : CIInfo) (order : List (List Char) → List (List Char))
    (k : ℕ) : QM Unit := fun q =>
  if k > 4 then (.error .valueError, q)
  else if k < 1 then (.error .valueError, q)
  else
    match (precalcIter ci.nI ci.nA k).mapM (precalcLabels B tiny ci) with
    | .error e => (.error e, q)
    | .ok ls =>
      if ls = [] then (.error .typeError, q)
      else
        match evLabels B (defaultDet norb B.numElec) B.state 1 ((order ls.flatten).map fun p => (p, 1)) q with
        | (.error e, q) => (.error e, q)
        | (.ok _, q) => (.ok (), q)

/-- The expectation value that the loops of the density matrices ask for, e.g. `rdm2`, lines 448-451. -/
noncomputable def rdmElement (B : Bench norb) (tiny : ℝ → Bool) (ci : CIInfo) (l : List (ℕ × ℕ)) : QM ℝ := do
  let A ← csfsPair.liftExcept (listOp tiny l)
  quantumExpectation B none (getFolded ci.nI ci.nA ci.nV A)

end SQ
