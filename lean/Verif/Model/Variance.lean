import Verif.Model.Interface

/-!
# Model: pooling of runs and variances

slowquant/qiskit_interface/interface.py. Distributions are insertion-ordered dictionaries.
-/

namespace SQ

/-- Lines 1441-1442: counts of a run as probabilities (the keys, bit strings in the code, are the integers
they spell). -/
noncomputable def countsToDistr (shots : ℕ) (counts : List (ℕ × ℕ)) : Distr :=
  counts.map fun kc => (kc.1, (kc.2 : ℝ) / shots)

/-- Lines 1453-1454: `dist_combined[...][key] = value + dist_combined[...].get(key, 0)` for all items of `dist`. -/
noncomputable def addDistr (comb dist : Distr) : Distr :=
  dist.foldl (fun comb kv => dictPut comb kv.1 (kv.2 + (comb.lookup kv.1).getD 0)) comb

/-- Lines 1446-1458: pooling of repeated runs; `length` distributions per run. -/
noncomputable def poolRuns (multipl length : ℕ) (distr : List Distr) : List Distr :=
  if multipl = 1 then distr
  else
    let comb := (distr.drop length).zipIdx.foldl
      (fun comb dn => comb.modify (dn.2 % length) fun c => addDistr c dn.1) (distr.take length)
    comb.map fun d => d.map fun kv => (kv.1, kv.2 / multipl)

/-! ### quantum_variance -/

/-- `p1`, lines 1261-1264 and 1526-1530. -/
noncomputable def probOne (pauli : List Char) (d : Distr) : Res ℝ :=
  d.foldlM (fun p1 kv => do
    let s ← getBitstringSign pauli kv.1
    return if s = 1 then p1 + kv.2 else p1) 0

/-- Lines 1219-1224 and 1255-1266: labels taken as independent, with the distribution of each from `dist`. -/
noncomputable def varIndependent (dist : List Char → Res Distr) (noCoeffs : Bool) (obs : List (List Char × ℝ)) : Res ℝ :=
  obs.foldlM (fun result pc => do
    let c : ℝ := if noCoeffs then 1 else pc.2
    let d ← dist pc.1
    let p1 ← probOne pc.1 d
    return result + 4 * c ^ 2 * (p1 - p1 ^ 2)) 0

/-- `get_distr_heads([head], flags)[0]`, util.py lines 493-522. -/
def distrOfHead (head : List Char) (m : ℕ) : List CliqueHead → Res Distr
  | [] => .error .indexError
  | c :: cs => if c.head = head then c.data.get m else distrOfHead head m cs

/-- `coeff_dict[pauli]`, util.py lines 1128-1132: later items overwrite earlier ones. -/
def coeffOf (obs : List (List Char × ℝ)) (pauli : List Char) : Res ℝ :=
  match obs.reverse.lookup pauli with
  | none => .error .keyError
  | some c => .ok c

/-- Lines 1243-1247: the value of a group for one bit string. -/
noncomputable def groupVar (obs : List (List Char × ℝ)) (paulis : List (List Char)) (key : ℕ) : Res ℝ :=
  paulis.foldlM (fun g p => do
    let c ← coeffOf obs p
    let s ← getBitstringSign p key
    return g + c * (s : ℝ)) 0

/-- Lines 1230-1251: the labels of a group measured together. -/
noncomputable def varGroups (cs : List CliqueHead) (m : ℕ) (obs : List (List Char × ℝ)) : Res ℝ := do
  let groups ← getGroups cs (obs.map Prod.fst)
  groups.foldlM (fun result g => do
    let d ← distrOfHead g.1 m cs
    let mean ← d.foldlM (fun (acc : ℝ × ℝ) kv => do
      let v ← groupVar obs g.2 kv.1
      return (acc.1 + kv.2 * v, acc.2 + kv.2 * v ^ 2)) (0, 0)
    return result + (mean.2 - mean.1 ^ 2)) 0

/-- `quantum_variance`, lines 1169-1271, for the determinant integer `key`; `measure` is what
`_sampler_distributions` returns for a label. -/
noncomputable def QI.variance (q : QI) (measure : List Char → Distr) (key : ℕ) (doCliques noCoeffs doNoCorr : Bool)
    (obs : List (List Char × ℝ)) : Res ℝ := do
  let cliques : Res (List CliqueHead) := match q.saver.lookup key with
    | none => .error .keyError
    | some (_, cs) => .ok cs
  let result ←
    if ¬ doCliques then varIndependent (fun p => .ok (measure p)) noCoeffs obs
    else if ¬ doNoCorr then do
      let cs ← cliques
      varGroups cs q.flags.toInt obs
    else varIndependent (fun p => do
      let cs ← cliques
      getDistr p q.flags.toInt cs) noCoeffs obs
  match q.shots.getD none with
  | none => return result
  | some 0 => .error .zeroDivision
  | some s => return result / s

end SQ
