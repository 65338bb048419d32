import Mathlib.Data.List.Perm.Basic
import Mathlib.Data.List.Nodup
import Mathlib.Tactic.Linarith
import Mathlib.Tactic.Ring
import Mathlib.Tactic.IntervalCases
import Mathlib.Algebra.BigOperators.Fin
import Verif.Model.Molecule
import Verif.Spec.Molecule

/-!
# Properties C63, C64, C79, C80: basis-function numbers, electron counts, basis files, nuclear repulsion
-/

namespace SQ

/-! ## C63 -/

theorem placeShells_spec (a : Atom) (bs : List BasisShell) (shells : List Shell) (n : ℕ) :
    let r := placeShells a bs shells n
    r.1.map shellData = shells.map shellData ++ bs.map (placedData a) ∧
    (shells.flatMap Shell.bfIdx = List.range n → r.1.flatMap Shell.bfIdx = List.range r.2) ∧
    ((∀ s ∈ shells, s.bfIdx.length = s.angular.length) → ∀ s ∈ r.1, s.bfIdx.length = s.angular.length) := by
  induction bs generalizing shells n with
  | nil => simp [placeShells]
  | cons b bs ih =>
    intro r
    obtain ⟨h1, h2, h3⟩ := ih
      (shells ++ [⟨a.coordinate, b.exponents, b.coefficients, b.angular,
        List.range' n b.angular.length, a⟩]) (n + b.angular.length)
    refine ⟨?_, ?_, ?_⟩
    · refine h1.trans ?_
      simp [shellData, placedData]
    · intro h
      refine h2 ?_
      rw [List.flatMap_append, h]
      simp only [List.flatMap_cons, List.flatMap_nil, List.append_nil]
      rw [List.range_eq_range', List.range_eq_range']
      have := List.range'_append_1 (s := 0) (m := n) (n := b.angular.length)
      rwa [Nat.zero_add] at this
    · intro h
      refine h3 ?_
      intro s hs
      rcases List.mem_append.1 hs with hs | hs
      · exact h s hs
      · rw [List.mem_singleton.1 hs]; simp

theorem placeAtoms_spec (read : String → Res (List BasisShell)) (as : List Atom) (shells : List Shell) (n : ℕ)
    (r : List Shell × ℕ) (hr : placeAtoms read as shells n = .ok r) :
    (∃ lists : List (List BasisShell), as.mapM (fun a => read a.name) = .ok lists ∧
      r.1.map shellData = shells.map shellData ++
        (as.zip lists).flatMap fun p => p.2.map (placedData p.1)) ∧
    (shells.flatMap Shell.bfIdx = List.range n → r.1.flatMap Shell.bfIdx = List.range r.2) ∧
    ((∀ s ∈ shells, s.bfIdx.length = s.angular.length) → ∀ s ∈ r.1, s.bfIdx.length = s.angular.length) := by
  induction as generalizing shells n with
  | nil =>
    simp only [placeAtoms] at hr
    cases hr
    exact ⟨⟨[], rfl, by simp⟩, id, id⟩
  | cons a as ih =>
    simp only [placeAtoms] at hr
    cases hread : read a.name with
    | error e => rw [hread] at hr; cases hr
    | ok bs =>
      rw [hread] at hr
      obtain ⟨p1, p2, p3⟩ := placeShells_spec a bs shells n
      obtain ⟨⟨lists, hl, h1⟩, h2, h3⟩ := ih _ _ hr
      refine ⟨⟨bs :: lists, ?_, ?_⟩, fun h => h2 (p2 h), fun h => h3 (p3 h)⟩
      · rw [List.mapM_cons, hread, hl]; rfl
      · rw [h1, p1]; simp

/-- **C63.** After a basis set has been set, the basis-function numbers of the shells, read in order, are
`0, 1, …, number_bf - 1`; every shell has one number per angular moment, every number below `number_bf` belongs
to exactly one shell, there is one label per basis function, and the shells are those that `read_basis` gave for
the atoms, in that order, placed on those atoms. -/
theorem C63_numbering (read : String → Res (List BasisShell)) (m m' : Molecule)
    (h : setBasisSet read m = .ok m') :
    m'.shells.flatMap Shell.bfIdx = List.range m'.numberBf ∧
    (∀ s ∈ m'.shells, s.bfIdx.length = s.angular.length) ∧
    (∀ k < m'.numberBf, ∃! i : ℕ, ∃ s, m'.shells[i]? = some s ∧ k ∈ s.bfIdx) ∧
    (basisFunctionLabels m').length = m'.numberBf ∧
    m'.atoms = m.atoms ∧ m'.charge = m.charge ∧
    ∃ lists, m.atoms.mapM (fun a => read a.name) = .ok lists ∧
      m'.shells.map shellData = (m.atoms.zip lists).flatMap fun p => p.2.map (placedData p.1) := by
  unfold setBasisSet at h
  cases hp : placeAtoms read m.atoms [] 0 with
  | error e => rw [hp] at h; cases h
  | ok r =>
    rw [hp] at h
    cases h
    obtain ⟨⟨lists, hl, h1⟩, h2, h3⟩ := placeAtoms_spec read m.atoms [] 0 r hp
    have hrange : r.1.flatMap Shell.bfIdx = List.range r.2 := h2 rfl
    have hlen := h3 (by simp)
    refine ⟨hrange, hlen, ?_, ?_, rfl, rfl, lists, hl, by simpa using h1⟩
    · intro k hk
      have hk' : k ∈ r.1.flatMap Shell.bfIdx := by rw [hrange]; exact List.mem_range.2 hk
      have hnd : (r.1.flatMap Shell.bfIdx).Nodup := by rw [hrange]; exact List.nodup_range
      obtain ⟨s, hs, hks⟩ := List.mem_flatMap.1 hk'
      obtain ⟨i, hi⟩ := List.mem_iff_getElem?.1 hs
      refine ⟨i, ⟨s, hi, hks⟩, ?_⟩
      rintro j ⟨t, hj, hkt⟩
      have hpw : r.1.Pairwise (fun a b => List.Disjoint a.bfIdx b.bfIdx) :=
        (List.nodup_flatMap.1 hnd).2
      rw [List.pairwise_iff_getElem] at hpw
      obtain ⟨hi', rfl⟩ := List.getElem?_eq_some_iff.1 hi
      obtain ⟨hj', rfl⟩ := List.getElem?_eq_some_iff.1 hj
      rcases Nat.lt_trichotomy j i with hlt | heq | hgt
      · exact absurd hks (hpw j i hj' hi' hlt hkt)
      · exact heq
      · exact absurd hkt (hpw i j hi' hj' hgt hks)
    · have : (r.1.flatMap Shell.bfIdx).length = r.2 := by rw [hrange]; simp
      rw [← this]
      simp only [basisFunctionLabels, List.length_flatMap]
      congr 1
      refine List.map_congr_left ?_
      intro s hs
      rw [List.length_map, hlen s hs]

/-- Water-like: an atom with an s and a p shell and two atoms with an s shell give 6 consecutive numbers. -/
example :
    let s : BasisShell := ⟨[1], [1], [(0, 0, 0)]⟩
    let p : BasisShell := ⟨[1], [1], [(1, 0, 0), (0, 1, 0), (0, 0, 1)]⟩
    let read : String → Res (List BasisShell) := fun a => if a = "O" then .ok [s, p] else .ok [s]
    ∃ m', setBasisSet read ⟨0, [⟨"O", 0, 8, 16⟩, ⟨"H", 1, 1, 1⟩, ⟨"H", 2, 1, 1⟩], [], 0⟩ = .ok m' ∧
      m'.numberBf = 6 ∧ m'.shells.map Shell.bfIdx = [[0], [1, 2, 3], [4], [5]] :=
  ⟨_, rfl, rfl, rfl⟩

/-! ## C64 -/

/-- **C64.** The electron counts add up, for every charge and every atom list; they differ by at most one, with
the extra electron in alpha. -/
theorem C64_counts (m : Molecule) :
    numberElectrons m = (m.atoms.map Atom.charge).sum - m.charge ∧
    numberAlpha m + numberBeta m = numberElectrons m ∧
    (numberAlpha m = numberBeta m ∨ numberAlpha m = numberBeta m + 1) := by
  refine ⟨?_, ?_, ?_⟩
  · unfold numberElectrons
    have : ∀ (l : List Atom) (z : ℤ), l.foldl (fun n a => n + a.charge) z = z + (l.map Atom.charge).sum := by
      intro l
      induction l with
      | nil => simp
      | cons a l ih => intro z; rw [List.foldl_cons, ih, List.map_cons, List.sum_cons]; ring
    rw [this]; ring
  · unfold numberAlpha numberBeta; omega
  · unfold numberAlpha numberBeta; omega

/-- The counts are not checked for sense: a bare proton with charge +3 has -2 electrons, and no exception. -/
theorem C64_negative_disagree : ∃ m : Molecule, m.atoms.length = 1 ∧ numberElectrons m = -2 ∧
    numberAlpha m = -1 ∧ numberBeta m = -1 :=
  ⟨⟨3, [⟨"H", 0, 1, 1⟩], [], 0⟩, rfl, rfl, rfl, rfl⟩

/-! ## C79 -/

theorem readShells_prims (w : String) (ang : List (ℕ × ℕ × ℕ)) (hang : cartesians w = .ok ang)
    (prims : List (ℝ × ℝ)) (hne : prims ≠ []) (rest : List BasisLine) (e c : List ℝ) (d : List BasisShell) :
    readShells (prims.map (fun p => .prim p.1 p.2) ++ rest) ⟨prims.length, w, e, c, d⟩ =
      readShells rest ⟨-1, w, e ++ prims.map Prod.fst, c ++ prims.map Prod.snd,
        d ++ [⟨e ++ prims.map Prod.fst, c ++ prims.map Prod.snd, ang⟩]⟩ := by
  induction prims generalizing e c with
  | nil => exact absurd rfl hne
  | cons p ps ih =>
    simp only [List.map_cons, List.cons_append, readShells, List.length_cons]
    rw [if_pos (by positivity)]
    cases ps with
    | nil =>
      simp [closeShell, hang, bind, Except.bind]
    | cons q qs =>
      have hl : ((((q :: qs).length + 1 : ℕ) : ℤ) - 1) = ((q :: qs).length : ℤ) := by push_cast; ring
      rw [hl]
      have hnz : ((q :: qs).length : ℤ) ≠ 0 := by simp only [List.length_cons]; push_cast; omega
      simp only [closeShell, if_neg hnz, bind, Except.bind]
      rw [ih (by simp)]
      simp

theorem readShells_skip (prims : List (ℝ × ℝ)) (rest : List BasisLine) (w : String) (e c : List ℝ)
    (d : List BasisShell) :
    readShells (prims.map (fun p => .prim p.1 p.2) ++ rest) ⟨-1, w, e, c, d⟩ =
      readShells rest ⟨-1, w, e, c, d⟩ := by
  induction prims with
  | nil => rfl
  | cons p ps ih =>
    simp only [List.map_cons, List.cons_append, readShells]
    rw [if_neg (by decide)]
    simp only [closeShell, if_neg (show ¬ ((-1 : ℤ) = 0) by decide), bind, Except.bind]
    exact ih

/-- What the reading loop does with a whole entry: shells with one of the letters s, p, d, f are kept, all
others are passed over. -/
theorem readShells_entry (entry : List ListedShell) (hp : ∀ s ∈ entry, s.prims ≠ [])
    (hw : ∀ s ∈ entry, (hasShellLetter s.word = false) ∨ (s.word ∈ ["s", "p", "d", "f"]))
    (rest : List BasisLine) (w : String) (e c : List ℝ) (d : List BasisShell)
    (hrest : ∀ (w' : String) (e' c' : List ℝ) (d' : List BasisShell),
      readShells rest ⟨-1, w', e', c', d'⟩ = .ok d') :
    ∃ kept : List BasisShell,
      readShells (entry.flatMap ListedShell.lines ++ rest) ⟨-1, w, e, c, d⟩ = .ok (d ++ kept) ∧
      List.Forall₂ ListedShell.Matches (entry.filter fun s => hasShellLetter s.word) kept := by
  induction entry generalizing w e c d with
  | nil => exact ⟨[], by simpa using hrest w e c d, by simp⟩
  | cons s ss ih =>
    have ih' := ih (fun t ht => hp t (List.mem_cons_of_mem _ ht))
      (fun t ht => hw t (List.mem_cons_of_mem _ ht))
    have hs : (s :: ss).flatMap ListedShell.lines ++ rest =
        .header s.prims.length s.word :: (s.prims.map (fun p => .prim p.1 p.2) ++
          (ss.flatMap ListedShell.lines ++ rest)) := by
      simp [ListedShell.lines]
    rw [hs]
    simp only [readShells]
    rcases hw s (by simp) with hno | hyes
    · rw [hno]
      simp only [Bool.false_eq_true, if_false]
      rw [if_neg (by decide)]
      simp only [closeShell, if_neg (show ¬ ((-1 : ℤ) = 0) by decide), bind, Except.bind]
      rw [readShells_skip]
      obtain ⟨kept, h1, h2⟩ := ih' w e c d
      exact ⟨kept, h1, by simpa [List.filter_cons, hno] using h2⟩
    · have hlet : hasShellLetter s.word = true := by
        simp only [List.mem_cons, List.not_mem_nil, or_false] at hyes
        rcases hyes with h | h | h | h <;> rw [h] <;> decide
      obtain ⟨ang, hang⟩ : ∃ ang, cartesians s.word = .ok ang := by
        simp only [List.mem_cons, List.not_mem_nil, or_false] at hyes
        rcases hyes with h | h | h | h <;> rw [h] <;> exact ⟨_, rfl⟩
      rw [hlet]
      simp only [if_true]
      rw [readShells_prims s.word ang hang s.prims (hp s (by simp))]
      obtain ⟨kept, h1, h2⟩ := ih' s.word ([] ++ s.prims.map Prod.fst) ([] ++ s.prims.map Prod.snd)
        (d ++ [⟨[] ++ s.prims.map Prod.fst, [] ++ s.prims.map Prod.snd, ang⟩])
      refine ⟨⟨s.prims.map Prod.fst, s.prims.map Prod.snd, ang⟩ :: kept, by simpa using h1, ?_⟩
      rw [List.filter_cons, hlet]
      refine List.Forall₂.cons ⟨rfl, rfl, ?_⟩ h2
      simp only [List.mem_cons, List.not_mem_nil, or_false] at hyes
      rcases hyes with h | h | h | h <;> rw [h] at hang <;>
        simp only [cartesians] at hang <;> cases hang <;> rw [h] <;>
        refine ⟨_, rfl, by simp only []; decide, fun x y z => ?_⟩ <;>
        simp only [List.mem_cons, List.not_mem_nil, or_false, Prod.mk.injEq] <;>
        refine ⟨fun h => by omega, fun h => ?_⟩
      · omega
      · omega
      · omega
      · have hx : x ≤ 3 := by omega
        have hy : y ≤ 3 := by omega
        obtain rfl : z = 3 - x - y := by omega
        interval_cases x <;> interval_cases y <;> simp_all

theorem readBasis_find (atom : String) (pre rest : List BasisLine)
    (hpre : ∀ t, BasisLine.title t ∈ pre → t ≠ atom) :
    readBasis atom (pre ++ .title atom :: rest) = readShells rest ⟨-1, "", [], [], []⟩ := by
  induction pre with
  | nil => simp [readBasis]
  | cons l ls ih =>
    have ih' := ih (fun t ht => hpre t (List.mem_cons_of_mem _ ht))
    cases l with
    | title t =>
      have : t ≠ atom := hpre t (by simp)
      simp only [List.cons_append, readBasis, if_neg this]
      exact ih'
    | star => exact ih'
    | header => exact ih'
    | prim => exact ih'

/-- **C79, for s, p, d and f shells.** If a basis file holds an entry for the atom and the entry lists shells
with these letters only, `read_basis` returns exactly the listed shells: the same primitives in the same order
and all Cartesian components of the right degree, each once. Atoms not in the file raise `ValueError`.
Partial: for entries with other shells see `C79_dropped_disagree`. -/
theorem C79_read_partial (atom : String) (pre : List BasisLine) (entry : List ListedShell)
    (rest : List BasisLine) (hpre : ∀ t, BasisLine.title t ∈ pre → t ≠ atom)
    (hp : ∀ s ∈ entry, s.prims ≠ []) (hw : ∀ s ∈ entry, s.word ∈ ["s", "p", "d", "f"])
    (hrest : EntryEnds rest) :
    (∃ shells, readBasis atom (pre ++ .title atom :: .star :: (entry.flatMap ListedShell.lines ++ rest)) =
      .ok shells ∧ List.Forall₂ ListedShell.Matches entry shells) ∧
    readBasis atom pre = .error .valueError := by
  constructor
  · rw [readBasis_find atom pre _ hpre]
    simp only [readShells]
    obtain ⟨kept, h1, h2⟩ := readShells_entry entry hp (fun s hs => Or.inr (hw s hs)) rest "" [] [] []
      (by
        intro w' e' c' d'
        rcases hrest with rfl | rfl | ⟨t, r, rfl⟩ | ⟨t, r, rfl⟩ <;> simp [readShells])
    refine ⟨kept, by simpa using h1, ?_⟩
    rwa [List.filter_eq_self.2] at h2
    intro s hs
    have := hw s hs
    simp only [List.mem_cons, List.not_mem_nil, or_false] at this
    rcases this with h | h | h | h <;> rw [h] <;> decide
  · clear hp hw hrest entry rest
    induction pre with
    | nil => rfl
    | cons l ls ih =>
      have ih' := ih (fun t ht => hpre t (List.mem_cons_of_mem _ ht))
      cases l with
      | title t => simp only [readBasis, if_neg (hpre t (by simp))]; exact ih'
      | star => exact ih'
      | header => exact ih'
      | prim => exact ih'

/-- **C79 does not hold in general.** Shells with a letter beyond f (the shipped cc-pVTZ, aug-cc-pVTZ and
def2-SVP files hold g shells) are left out without an exception: whatever the file lists of them, `read_basis`
returns the other shells only. -/
theorem C79_dropped_disagree (atom : String) (pre : List BasisLine) (entry : List ListedShell)
    (rest : List BasisLine) (hpre : ∀ t, BasisLine.title t ∈ pre → t ≠ atom)
    (hp : ∀ s ∈ entry, s.prims ≠ []) (hw : ∀ s ∈ entry, s.word ∈ ["s", "p", "d", "f", "g", "h", "i"])
    (hrest : EntryEnds rest) :
    ∃ shells, readBasis atom (pre ++ .title atom :: .star :: (entry.flatMap ListedShell.lines ++ rest)) =
      .ok shells ∧
      List.Forall₂ ListedShell.Matches (entry.filter fun s => s.word ∈ ["s", "p", "d", "f"]) shells := by
  rw [readBasis_find atom pre _ hpre]
  simp only [readShells]
  have hlet : ∀ s ∈ entry, hasShellLetter s.word = decide (s.word ∈ ["s", "p", "d", "f"]) := by
    intro s hs
    have := hw s hs
    simp only [List.mem_cons, List.not_mem_nil, or_false] at this
    rcases this with h | h | h | h | h | h | h <;> rw [h] <;> decide
  obtain ⟨kept, h1, h2⟩ := readShells_entry entry hp (fun s hs => by
      rw [hlet s hs]
      by_cases h : s.word ∈ ["s", "p", "d", "f"]
      · exact Or.inr h
      · exact Or.inl (decide_eq_false h)) rest "" [] [] []
    (by
      intro w' e' c' d'
      rcases hrest with rfl | rfl | ⟨t, r, rfl⟩ | ⟨t, r, rfl⟩ <;> simp [readShells])
  refine ⟨kept, by simpa using h1, ?_⟩
  rwa [List.filter_congr (fun s hs => hlet s hs)] at h2

/-- An entry with an s and a g shell: the g shell is lost. -/
example : ∃ shells, readBasis "ne" [.title "h ", .star, .title "ne", .star, .header 1 "s", .prim 2 1,
      .header 1 "g", .prim 3 1, .star] = .ok shells ∧ shells.length = 1 := by
  obtain ⟨shells, h, hm⟩ := C79_dropped_disagree "ne" [.title "h ", .star]
    [⟨"s", [(2, 1)]⟩, ⟨"g", [(3, 1)]⟩] [.star] (by
      intro t ht
      simp only [List.mem_cons, BasisLine.title.injEq, reduceCtorEq, or_false, List.not_mem_nil] at ht
      rw [ht]; decide) (by simp) (by simp) (Or.inr (Or.inl rfl))
  exact ⟨shells, h, by simpa using hm.length_eq.symm⟩

/-! ## C80 -/

theorem foldl_add_eq {α : Type*} (l : List α) (f : α → ℝ) (z : ℝ) :
    l.foldl (fun V a => V + f a) z = z + (l.map f).sum := by
  induction l generalizing z with
  | nil => simp
  | cons a l ih => rw [List.foldl_cons, ih, List.map_cons, List.sum_cons]; ring

theorem zipIdx_sum_weights {α : Type*} (l : List α) (f : α × ℕ → ℝ) :
    (l.zipIdx.map f).sum = ∑ i : Fin l.length, f (l[i], i) := by
  have : l.zipIdx.map f = List.ofFn fun i : Fin l.length => f (l[i], i) := by
    refine List.ext_getElem (by simp) ?_
    intro k h1 h2
    simp
  rw [this, List.sum_ofFn]

/-- **C80.** The nuclear repulsion is the sum over all pairs of different atoms `i < j` of
`Z_i Z_j / |R_i - R_j|`. -/
theorem C80_pairs (m : Molecule) :
    nuclearRepulsion m = ∑ i : Fin m.atoms.length, ∑ j : Fin m.atoms.length,
      if i < j then (m.atoms[i].charge : ℝ) * m.atoms[j].charge /
        pointDist m.atoms[i].coordinate m.atoms[j].coordinate else 0 := by
  have inner : ∀ (ai : Atom × ℕ) (V : ℝ), m.atoms.zipIdx.foldl (fun V bj =>
      if ai.2 ≥ bj.2 then V
      else V + (ai.1.charge : ℝ) * bj.1.charge / pointDist ai.1.coordinate bj.1.coordinate) V =
      V + (m.atoms.zipIdx.map fun bj => if ai.2 < bj.2 then (ai.1.charge : ℝ) * bj.1.charge /
        pointDist ai.1.coordinate bj.1.coordinate else 0).sum := by
    intro ai V
    rw [← foldl_add_eq]
    congr 1
    funext V bj
    by_cases h : ai.2 < bj.2
    · rw [if_neg (by omega), if_pos h]
    · rw [if_pos (by omega), if_neg h, add_zero]
  unfold nuclearRepulsion
  simp only [inner]
  rw [foldl_add_eq, zero_add, zipIdx_sum_weights]
  refine Finset.sum_congr rfl fun i _ => ?_
  rw [zipIdx_sum_weights]
  rfl

theorem pointDist_comm (r s : Fin 3 → ℝ) : pointDist r s = pointDist s r := by
  unfold pointDist
  congr 1
  exact Finset.sum_congr rfl fun k _ => by ring

theorem nuclearRepulsion_double (m : Molecule) :
    2 * nuclearRepulsion m = (m.atoms.map fun a => (m.atoms.map fun b => (a.charge : ℝ) * b.charge /
      pointDist a.coordinate b.coordinate).sum).sum := by
  have hfin : ∀ g : Atom → ℝ, (m.atoms.map g).sum = ∑ i : Fin m.atoms.length, g m.atoms[i] := by
    intro g
    have : m.atoms.map g = List.ofFn fun i : Fin m.atoms.length => g m.atoms[i] := by
      refine List.ext_getElem (by simp) ?_
      intro k h1 h2
      simp
    rw [this, List.sum_ofFn]
  rw [hfin]
  simp only [hfin]
  set f : Fin m.atoms.length → Fin m.atoms.length → ℝ := fun i j =>
    (m.atoms[i].charge : ℝ) * m.atoms[j].charge / pointDist m.atoms[i].coordinate m.atoms[j].coordinate with hf
  have hsymm : ∀ i j, f i j = f j i := by
    intro i j
    simp only [hf]
    rw [pointDist_comm, mul_comm]
  have hdiag : ∀ i, f i i = 0 := by
    intro i
    simp [hf, pointDist]
  have hV : nuclearRepulsion m = ∑ i, ∑ j, if i < j then f i j else 0 := C80_pairs m
  have hV' : nuclearRepulsion m = ∑ i, ∑ j, if j < i then f i j else 0 := by
    rw [hV, Finset.sum_comm]
    refine Finset.sum_congr rfl fun i _ => Finset.sum_congr rfl fun j _ => ?_
    rw [hsymm]
  calc 2 * nuclearRepulsion m = nuclearRepulsion m + nuclearRepulsion m := by ring
    _ = ∑ i, ∑ j, ((if i < j then f i j else 0) + if j < i then f i j else 0) := by
        simp only [Finset.sum_add_distrib]
        rw [← hV, ← hV']
    _ = ∑ i, ∑ j, f i j := by
        refine Finset.sum_congr rfl fun i _ => Finset.sum_congr rfl fun j _ => ?_
        rcases lt_trichotomy i j with h | h | h
        · rw [if_pos h, if_neg (by omega), add_zero]
        · subst h; simp [hdiag]
        · rw [if_neg (by omega), if_pos h, zero_add]

/-- **C80, independence of the description.** Neither the order in which the atoms are listed nor a motion of
the whole molecule that keeps distances changes the nuclear repulsion. -/
theorem C80_invariant (m m' : Molecule) (T : (Fin 3 → ℝ) → Fin 3 → ℝ)
    (hT : ∀ r s, pointDist (T r) (T s) = pointDist r s)
    (hp : m'.atoms.Perm (m.atoms.map fun a => { a with coordinate := T a.coordinate })) :
    nuclearRepulsion m' = nuclearRepulsion m := by
  have h2 : 2 * nuclearRepulsion m' = 2 * nuclearRepulsion m := by
    rw [nuclearRepulsion_double, nuclearRepulsion_double, (hp.map _).sum_eq, List.map_map]
    congr 1
    refine List.map_congr_left fun a _ => ?_
    simp only [Function.comp]
    rw [(hp.map _).sum_eq, List.map_map]
    congr 1
    refine List.map_congr_left fun b _ => ?_
    simp only [Function.comp, hT]
  linarith

/-- Two charges 2 and 3 at distance 5, in either order. -/
example : nuclearRepulsion ⟨0, [⟨"He", ![0, 0, 0], 2, 4⟩, ⟨"Li", ![3, 4, 0], 3, 7⟩], [], 0⟩ = 6 / 5 := by
  rw [C80_pairs]
  have hd : pointDist ![0, 0, 0] ![3, 4, 0] = 5 := by
    unfold pointDist
    rw [Real.sqrt_eq_iff_mul_self_eq_of_pos (by norm_num)]
    simp [Fin.sum_univ_three]; norm_num
  simp only [List.length_cons, List.length_nil, Nat.reduceAdd]
  rw [Fin.sum_univ_two, Fin.sum_univ_two, Fin.sum_univ_two]
  simp [hd]; norm_num

end SQ
