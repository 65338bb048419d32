import Verif.Lemmas.QubitMapLost
import Verif.Props.Response

/-!
# C140: the labels listed for the matrices of linear response
-/

namespace SQ

variable {tiny big : ℝ → Bool} {map : SDict ℝ → Res (List (List Char × ℂ))} {W : RespWf}
  {qev : (List Char → ℝ) → Dict ℝ → Res ℝ} {e : (List Char → ℝ) → ℝ}

/-- C140 (naive linear response): whatever values the labels have been found to have, `run` does not raise.  Without
response parameters `_get_qbitmap` raises an `IndexError`.  With parameters it does not raise, with or without cliques,
and every entry of the matrices that `run` leaves is fixed by what is known from the labels that are listed for it. -/
theorem C140_naive (ht : ExactTiny tiny) (hb : ExactBig big) (hW : W.Proper) (hM : JWMapper (2 * W.ci.nA) map)
    (hr : ∀ v, ReadsValues map W.ci.nA v (qev v)) (excitations : String) (doRdm doGradients cliques : Bool) :
    let n := W.kappa.length + (lrOps W (lettersOf excitations)).length
    ∃ (L : QLR) (M : (List Char → ℝ) → LRMats), qlrInit tiny big W excitations = .ok L ∧
      (∀ v, qnRun tiny big (qev v) W doRdm doGradients L = .ok (M v)) ∧
      (n = 0 → qnMap tiny big map W cliques doRdm L = .error .indexError) ∧
      (n ≠ 0 → ∃ S, qnMap tiny big map W cliques doRdm L = .ok S ∧ ∀ i j, i < n → j < n →
        FixedBy cliques (fun v => (M v).A i j) (S.A i j) ∧ FixedBy cliques (fun v => (M v).B i j) (S.B i j) ∧
        FixedBy cliques (fun v => (M v).Sigma i j) (S.Sigma i j)) := by
  intro n
  obtain ⟨L, H2, l1, -, l3, l4, h2, hg, -⟩ := qlrInit_mapGens ht hb hW excitations
  obtain ⟨M, S, m1, m2, m3⟩ := naive_tracks (e := fun _ => W.energy) ht hM hr hg h2 doRdm doGradients
  obtain ⟨f1, f2⟩ := m3.finish (N := n) cliques
  have en : L.Q.length + L.G.length = n := by rw [l3, l4]
  refine ⟨L, M, l1, m1, fun h0 => ?_, fun h0 => ?_⟩
  · rw [m2, en]
    exact f1 h0
  · obtain ⟨S', s1, s2⟩ := f2 h0
    refine ⟨S', by rw [m2, en]; exact s1, fun i j hi hj => ?_⟩
    obtain ⟨a, b, c⟩ := s2 i j hi hj
    exact ⟨a, b trivial, c⟩

/-- C140 (projected linear response): the same, where the energy is the value of the Hamiltonian of the active space. -/
theorem C140_projected (ht : ExactTiny tiny) (hb : ExactBig big) (hW : W.Proper) (hM : JWMapper (2 * W.ci.nA) map)
    (hr : ∀ v, ReadsValues map W.ci.nA v (qev v))
    (he : ∀ H, hamiltonian0i0a tiny big W.h W.g W.ci.nI W.ci.nA = .ok H → ∀ v, qev v (W.fold H) = .ok (e v))
    (excitations : String) (doRdm doGradients cliques : Bool) :
    let n := W.kappa.length + (lrOps W (lettersOf excitations)).length
    ∃ (L : QLR) (M : (List Char → ℝ) → LRMats), qlrInit tiny big W excitations = .ok L ∧
      (∀ v, ∃ E, qpRun tiny big (qev v) (W.withEnergy (e v)) doRdm doGradients L = .ok (M v, E)) ∧
      (n = 0 → qpMap tiny big map W cliques doRdm L = .error .indexError) ∧
      (n ≠ 0 → ∃ S, qpMap tiny big map W cliques doRdm L = .ok S ∧ ∀ i j, i < n → j < n →
        FixedBy cliques (fun v => (M v).A i j) (S.A i j) ∧ FixedBy cliques (fun v => (M v).B i j) (S.B i j) ∧
        FixedBy cliques (fun v => (M v).Sigma i j) (S.Sigma i j)) := by
  intro n
  obtain ⟨L, H2, l1, -, l3, l4, h2, hg, h0⟩ := qlrInit_mapGens ht hb hW excitations
  obtain ⟨M, S, m1, m2, m3⟩ := projected_tracks ht hM hr hg (he _ h0) h2 doRdm doGradients
  obtain ⟨f1, f2⟩ := m3.finish (N := n) cliques
  have en : L.Q.length + L.G.length = n := by rw [l3, l4]
  refine ⟨L, M, l1, m1, fun h0 => ?_, fun h0 => ?_⟩
  · rw [m2, en]
    exact f1 h0
  · obtain ⟨S', s1, s2⟩ := f2 h0
    refine ⟨S', by rw [m2, en]; exact s1, fun i j hi hj => ?_⟩
    obtain ⟨a, b, c⟩ := s2 i j hi hj
    exact ⟨a, b trivial, c⟩

/-- C140 (all-projected linear response), for all entries but those of `B` with two different active operators: after
`run`, which sets `H_2i_2a` to `H2`, everything is as for projected linear response.  Before `run`, with orbital
rotations, `_get_qbitmap` raises an `AttributeError`.  What is missing are the
entries of `B` with two different active operators: for these the labels of the product of the Hamiltonian with the first
operator are overwritten in allprojected.py:194. -/
theorem C140_all_projected_partial (ht : ExactTiny tiny) (hb : ExactBig big) (hW : W.Proper)
    (hM : JWMapper (2 * W.ci.nA) map) (hr : ∀ v, ReadsValues map W.ci.nA v (qev v))
    (he : ∀ H, hamiltonian0i0a tiny big W.h W.g W.ci.nI W.ci.nA = .ok H → ∀ v, qev v (W.fold H) = .ok (e v))
    (excitations : String) (doGradients cliques : Bool) :
    let n := W.kappa.length + (lrOps W (lettersOf excitations)).length
    ∃ (L : QLR) (M : (List Char → ℝ) → LRMats) (H2 : Dict ℝ), qlrInit tiny big W excitations = .ok L ∧
      (∀ v, ∃ E, qaRun tiny big (qev v) (W.withEnergy (e v)) doGradients L = .ok (M v, E)) ∧
      (W.kappa ≠ [] → qaH2 tiny big W L.Q = .ok H2 ∧ qaMap tiny map W none cliques L = .error .attributeError) ∧
      ∀ h2, (W.kappa ≠ [] → h2 = some H2) →
        (n = 0 → qaMap tiny map W h2 cliques L = .error .indexError) ∧
        (n ≠ 0 → ∃ S, qaMap tiny map W h2 cliques L = .ok S ∧ ∀ i j, i < n → j < n →
          FixedBy cliques (fun v => (M v).A i j) (S.A i j) ∧
          (i < W.kappa.length ∨ j < W.kappa.length ∨ i = j → FixedBy cliques (fun v => (M v).B i j) (S.B i j)) ∧
          FixedBy cliques (fun v => (M v).Sigma i j) (S.Sigma i j)) := by
  intro n
  obtain ⟨L, H2, l1, -, l3, l4, h2, hg, h0⟩ := qlrInit_mapGens ht hb hW excitations
  obtain ⟨M, S, m1, m2, m3⟩ := allProjected_tracks ht hM hr hg (he _ h0) h2 doGradients
  obtain ⟨f1, f2⟩ := m3.finish (N := n) cliques
  have en : L.Q.length + L.G.length = n := by rw [l3, l4]
  have eQ : W.kappa ≠ [] ↔ L.Q ≠ [] := by
    rw [← List.length_pos_iff, ← List.length_pos_iff, l3]
  refine ⟨L, M, H2, l1, m1, fun hk => ⟨?_, ?_⟩, fun h2' hh => ⟨fun h0 => ?_, fun h0 => ?_⟩⟩
  · unfold qaH2
    rw [if_pos (by simpa using eQ.1 hk)]
    exact h2
  · obtain ⟨energy, q1, -⟩ := energy_ok hM hr hg (he _ h0)
    obtain ⟨X, E, -, x2, -⟩ := expEntries (e := e) ht hM hr hg.h0 L.G hg.g
    have hQ := eQ.1 hk
    obtain ⟨q, Q, eqQ⟩ : ∃ q Q, L.Q = q :: Q := by
      cases hL : L.Q with
      | nil => exact absurd hL hQ
      | cons q Q => exact ⟨q, Q, rfl⟩
    obtain ⟨d, d1, -⟩ := (hg.q q (by rw [eqQ]; simp)).dagger ht
    unfold qaMap
    simp only [x2, q1, ok_bind, eqQ]
    unfold labLoop mapAllOrb
    simp only [List.zipIdx_cons, List.drop_zero, List.foldlM_cons, d1, ok_bind]
    rfl
  · rw [m2 h2' cliques fun hq => hh (eQ.2 hq), en]
    exact f1 h0
  · obtain ⟨S', s1, s2⟩ := f2 h0
    refine ⟨S', by rw [m2 h2' cliques fun hq => hh (eQ.2 hq), en]; exact s1, fun i j hi hj => ?_⟩
    obtain ⟨a, b, c⟩ := s2 i j hi hj
    rw [l3] at b
    exact ⟨a, b, c⟩

/-- C140 fails for all-projected linear response: there is an object as the program constructs it, with no orbital
rotations and two active operators, and a mapper, such that whatever the rest is, the labels that `_get_qbitmap` lists for
`B[1][0]` do not fix that entry: two tables of values agree on all these labels, and `run` leaves different entries. -/
theorem C140_active_disagree (ht : ExactTiny tiny) (hb : ExactBig big) (doGradients : Bool) :
    ∃ W : RespWf, W.Proper ∧ W.kappa.length + (lrOps W (lettersOf "s")).length = 2 ∧
      ∃ (map : SDict ℝ → Res (List (List Char × ℂ))) (qev : (List Char → ℝ) → Dict ℝ → Res ℝ) (e : (List Char → ℝ) → ℝ)
        (L : QLR) (M : (List Char → ℝ) → LRMats), JWMapper (2 * W.ci.nA) map ∧ (∀ v, ReadsValues map W.ci.nA v (qev v)) ∧
        (∀ H, hamiltonian0i0a tiny big W.h W.g W.ci.nI W.ci.nA = .ok H → ∀ v, qev v (W.fold H) = .ok (e v)) ∧
        qlrInit tiny big W "s" = .ok L ∧
        (∀ v, ∃ E, qaRun tiny big (qev v) (W.withEnergy (e v)) doGradients L = .ok (M v, E)) ∧
        ∀ h2, ∃ S, qaMap tiny map W h2 false L = .ok S ∧ ¬ FixedBy false (fun v => (M v).B 1 0) (S.B 1 0) := by
  obtain ⟨ci, h1, h2⟩ := C94_proper (th := .one) ht (numOrbs := 3) (numElec := 2) (cas0 := 2) (cas1 := 3)
    ⟨rfl, rfl, by decide, by decide, by decide⟩ (by decide) false (1 : ℕ) (1 : ℕ)
  obtain ⟨ci', g1, e1, e2, e3, -⟩ := C17_space (nA := (mkSpaces 3 2 2 3).numActiveOrbs) (by decide)
    (mkSpaces 3 2 2 3).numInactiveOrbs (mkSpaces 3 2 2 3).numVirtualOrbs (1 : ℕ) (1 : ℕ)
  rw [h1] at g1
  obtain rfl := Except.ok.inj g1
  have len := C17_count (by decide) _ _ _ _ ci h1
  have nc : dot ci.idx2det.length (fun i => if i = 0 then (1 : ℝ) else 0) (fun i => if i = 0 then 1 else 0) = 1 := by
    rw [len, show (mkSpaces 3 2 2 3).numActiveOrbs = 3 by decide]
    norm_num [dot, List.range_succ, Nat.choose]
  obtain ⟨R1, R2, -, -, hp⟩ := h2 _ nc trivial
  have P := hp (fun p q => if p = 0 ∧ q = 2 ∨ p = 2 ∧ q = 0 then 1 else 0) (fun _ _ _ _ => 0)
    ⟨fun p q => by simp only [or_comm, and_comm], fun _ _ _ _ => rfl, fun _ _ _ _ => rfl⟩ (fun _ v => .ok v) (fun _ => 0) 0
  have ho : (mkSpaces 3 2 2 3).activeOcc = [0] := by decide
  have hu : (mkSpaces 3 2 2 3).activeUnocc = [1, 2] := by decide
  have hk : (kappaLists (mkSpaces 3 2 2 3) 3 false).noActiveActive = [] := by decide
  refine ⟨_, P, ?_, lost_entry ht hb P (e1.trans (by decide)) (e2.trans (by decide)) (e3.trans (by decide)) hk ho hu
    (fun _ _ => rfl) (fun _ _ _ _ => rfl) doGradients⟩
  dsimp only
  rw [hk, two_ops ho hu]
  rfl

/-- There is a mapper, and an interface that reads its values off a table. -/
example (norb : ℕ) : ∃ (map : SDict ℝ → Res (List (List Char × ℂ))) (qev : (List Char → ℝ) → Dict ℝ → Res ℝ),
    JWMapper (2 * norb) map ∧ ∀ v, ReadsValues map norb v (qev v) := by
  obtain ⟨map, h⟩ := jwMapper_exists (2 * norb)
  refine ⟨map, fun v A => (opToQbit map norb A).map (valueWith v), h, fun v A obs ho => ?_⟩
  show (opToQbit map norb A).map (valueWith v) = _
  rw [ho]
  rfl

/-- One occupied and two unoccupied active orbitals give parameters. -/
example (hocc : W.occ = [0]) (hun : W.unocc = [1, 2]) : W.kappa.length + (lrOps W (lettersOf "s")).length ≠ 0 := by
  unfold lrOps
  have h : ('s' ∈ lettersOf "s") := by decide
  rw [if_pos h, hocc, hun]
  simp [iterateT1sa]

/-- What is listed matters: a number that is the value of a label is not fixed by a list without it, and with cliques a
measured `XZ` tells the value of `IZ`. -/
example : ¬ FixedBy false (fun v => v ['X']) (some [['Z']]) ∧ Known true (some [['X', 'Z']]) ['I', 'Z'] := by
  constructor
  · intro h
    have := h (fun _ => 0) (fun p => if p = ['X'] then 1 else 0) fun p hp => by
      obtain ⟨q, hq, e⟩ := hp
      simp only [Option.getD_some, List.mem_singleton] at hq
      subst hq
      simp only [Bool.false_eq_true, if_false] at e
      subst e
      simp
    simp at this
  · refine ⟨['X', 'Z'], by simp, ?_⟩
    rw [if_pos rfl]
    refine ⟨rfl, fun i x hx hI => ?_⟩
    match i with
    | 0 => exact absurd (by simpa using hx.symm) hI
    | 1 => simpa using hx
    | k + 2 => simp at hx

end SQ
