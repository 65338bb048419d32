import Verif.Model.StateAlgebra

/-!
# Model of the determinant spaces
(`slowquant/unitary_coupled_cluster/ci_spaces.py:56-341`)

Occupation lists hold the numbers 0 and 1.  `numpy` and `numba` containers are lists and association
lists.  Orbital counts are natural numbers, electron counts may be negative (as in the code, where they
result from subtractions).
-/

namespace SQ

/-- `itertools.combinations(l, k)`: the `k`-element subsequences in lexicographic order. -/
def combinations : List ℕ → ℕ → List (List ℕ)
  | _, 0 => [[]]
  | [], _ + 1 => []
  | x :: t, k + 1 => (combinations t k).map (x :: ·) ++ combinations t (k + 1)

/-- `generate_spin_strings`, lines 56-73. -/
def genSpinStrings (n : ℕ) (k : ℤ) : List (List ℕ) :=
  if k < 0 then []
  else (combinations (List.range n) k.toNat).map fun indices =>
    indices.foldl (fun s i => s.set i 1) (List.replicate n 0)

/-- `det_str`, lines 98-100: the digits of the two occupation lists interleaved. -/
def detStr (a b : List ℕ) : List ℕ := (a.zip b).foldl (fun s p => s ++ [p.1, p.2]) []

/-- `int(det_str, 2)`; the empty string raises `ValueError`. -/
def intBase2 (digits : List ℕ) : Res ℕ :=
  if digits = [] then .error .valueError else .ok (digits.foldl (fun acc b => 2 * acc + b) 0)

/-- `d[k] = v` for a dictionary of integers. -/
def natSet (d : List (ℕ × ℕ)) (k v : ℕ) : List (ℕ × ℕ) :=
  match d with
  | [] => [(k, v)]
  | (k', v') :: t => if k' = k then (k, v) :: t else (k', v') :: natSet t k v

/-- The local variables `idx`, `idx2det`, `det2idx`. -/
structure Indexing where
  idx : ℕ := 0
  idx2det : List ℕ := []
  det2idx : List (ℕ × ℕ) := []

/-- Body of the inner loop of `get_indexing`, lines 98-104. -/
def indexStep (st : Indexing) (a b : List ℕ) : Res Indexing :=
  match intBase2 (detStr a b) with
  | .error e => .error e
  | .ok det => .ok { idx := st.idx + 1, idx2det := st.idx2det ++ [det]
                     det2idx := natSet st.det2idx det st.idx }

/-- `get_indexing`, lines 76-116. -/
def getIndexing (nI nA nV : ℕ) (na nb : ℤ) : Res CIInfo :=
  match (genSpinStrings nA na).foldlM (fun st a =>
      (genSpinStrings nA nb).foldlM (fun st b => indexStep st a b) st) ({} : Indexing) with
  | .error e => .error e
  | .ok st => .ok { nI := nI, nA := nA, nV := nV, idx2det := st.idx2det, det2idx := st.det2idx }

/-- Body of the innermost loops of `get_indexing_extended`, lines 162-173 (and 186-197, 211-222,
237-248). -/
def indexStepSkip (st : Indexing) (a b : List ℕ) : Res Indexing :=
  match intBase2 (detStr a b) with
  | .error e => .error e
  | .ok det =>
    if det ∈ st.idx2det then .ok st
    else .ok { idx := st.idx + 1, idx2det := st.idx2det ++ [det]
               det2idx := natSet st.det2idx det st.idx }

/-- `generate_singles`, lines 262-294: state `(inactive, virtual, yielded)`, with the assignments and
resets of the code. -/
def genSingles (nI nV : ℕ) : List (List ℕ × List ℕ) :=
  ((List.range (nI + 1)).foldl (fun (st : List ℕ × List ℕ × List (List ℕ × List ℕ)) i =>
    let inact := if i ≠ nI then st.1.set i 0 else st.1
    let r := (List.range (nV + 1)).foldl (fun (vo : List ℕ × List (List ℕ × List ℕ)) j =>
      let virt := if j ≠ nV then vo.1.set j 1 else vo.1
      (if j ≠ nV then virt.set j 0 else virt, vo.2 ++ [(inact, virt)])) st.2
    (if i ≠ nI then inact.set i 1 else inact, r))
    (List.replicate nI 1, List.replicate nV 0, [])).2.2

/-- `range(a, b)`. -/
def pyRange (a b : ℕ) : List ℕ := (List.range (b - a)).map (a + ·)

/-- `generate_doubles`, lines 297-341. -/
def genDoubles (nI nV : ℕ) : List (List ℕ × List ℕ) :=
  ((List.range (nI + 1)).foldl (fun (st : List ℕ × List ℕ × List (List ℕ × List ℕ)) i =>
    let inact := if i ≠ nI then st.1.set i 0 else st.1
    let r := (pyRange (min (i + 1) nI) (nI + 1)).foldl
      (fun (st : List ℕ × List ℕ × List (List ℕ × List ℕ)) i2 =>
        let inact := if i2 ≠ nI then st.1.set i2 0 else st.1
        let r := (List.range (nV + 1)).foldl (fun (vo : List ℕ × List (List ℕ × List ℕ)) j =>
          let virt := if j ≠ nV then vo.1.set j 1 else vo.1
          let r := (pyRange (min (j + 1) nV) (nV + 1)).foldl
            (fun (vo : List ℕ × List (List ℕ × List ℕ)) j2 =>
              let virt := if j2 ≠ nV then vo.1.set j2 1 else vo.1
              (if j2 ≠ nV then virt.set j2 0 else virt, vo.2 ++ [(inact, virt)])) (virt, vo.2)
          (if j ≠ nV then r.1.set j 0 else r.1, r.2)) st.2
        (if i2 ≠ nI then inact.set i2 1 else inact, r)) (inact, st.2)
    (if i ≠ nI then r.1.set i 1 else r.1, r.2))
    (List.replicate nI 1, List.replicate nV 0, [])).2.2

/-- `active_alpha_elec`, lines 180-182 (and 205-207, 227-229, 231-233). -/
def activeElec (ne : ℤ) (nI : ℕ) (p : List ℕ × List ℕ) : ℤ := ne - p.2.sum + nI - p.1.sum

/-- The two loops over spin strings around the innermost body: lists with `pre`/`post` parts around the
active strings. -/
def indexBlock (nA : ℕ) (pa pb : List ℕ × List ℕ) (na nb : ℤ) (st : Indexing) : Res Indexing :=
  (genSpinStrings nA na).foldlM (fun st a =>
    (genSpinStrings nA nb).foldlM (fun st b =>
      indexStepSkip st (pa.1 ++ a ++ pa.2) (pb.1 ++ b ++ pb.2)) st) st

/-- The loop filling `idx2det` and `det2idx`, lines 140-248. -/
def extendedLoop (nI nA nV : ℕ) (na nb : ℤ) (order : ℤ) : Res Indexing :=
  let ref := (List.replicate nI 1, List.replicate nV 0)
  let singles := genSingles nI nV
  let doubles := if order = 2 then genDoubles nI nV else []
  match indexBlock nA ref ref na nb {} with
  | .error e => .error e
  | .ok st =>
    match (singles ++ doubles).foldlM (fun st p =>
        indexBlock nA p ref (activeElec na nI p) nb st) st with
    | .error e => .error e
    | .ok st =>
      match (singles ++ doubles).foldlM (fun st p =>
          indexBlock nA ref p na (activeElec nb nI p) st) st with
      | .error e => .error e
      | .ok st =>
        if order = 2 then
          singles.foldlM (fun st p => singles.foldlM (fun st q =>
            indexBlock nA p q (activeElec na nI p) (activeElec nb nI q) st) st) st
        else .ok st

/-- `get_indexing_extended`, lines 119-259. -/
def getIndexingExtended (nI nA nV : ℕ) (na nb : ℤ) (order : ℤ) : Res CIInfo :=
  if order > 2 then .error .valueError
  else match extendedLoop nI nA nV na nb order with
    | .error e => .error e
    | .ok st => .ok { nI := 0, nA := nI + nA + nV, nV := 0, idx2det := st.idx2det
                      det2idx := st.det2idx, offset := nI }

end SQ
