import Verif.Spec.MoleculeInput
import Verif.Props.Molecule
import Mathlib.Data.List.TakeWhile
import Mathlib.Tactic.NormNum

/-! # C124: molecules are read from text as they are written -/

namespace SQ

/-! ### Words -/

theorem splitWords_space {sp : List Char} (h : ∀ c ∈ sp, isSpace c = true) (l : List Char) :
    splitWords (sp ++ l) [] = splitWords l [] := by
  induction sp with
  | nil => rfl
  | cons c sp ih =>
    rw [List.cons_append, splitWords, if_pos (h c List.mem_cons_self), if_pos rfl]
    exact ih fun c hc => h c (List.mem_cons_of_mem _ hc)

theorem splitWords_word {w : List Char} (h : ∀ c ∈ w, isSpace c = false) (l cur : List Char) :
    splitWords (w ++ l) cur = splitWords l (cur ++ w) := by
  induction w generalizing cur with
  | nil => rw [List.nil_append, List.append_nil]
  | cons c w ih =>
    rw [List.cons_append, splitWords, if_neg (by rw [h c List.mem_cons_self]; simp),
      ih (fun c hc => h c (List.mem_cons_of_mem _ hc)), List.append_assoc, List.singleton_append]

theorem splitWords_of_spaced {ws : List (List Char)} {l : List Char} (h : Spaced ws l) : splitWords l [] = ws := by
  induction h with
  | @nil sp h =>
    have := splitWords_space h []
    rw [List.append_nil] at this
    rw [this]
    rfl
  | @cons sp w rest ws h hw hn hr hs ih =>
    rw [splitWords_space h, splitWords_word hn, List.nil_append]
    cases rest with
    | nil =>
      rw [splitWords, if_neg hw]
      rw [splitWords, if_pos rfl] at ih
      rw [← ih]
    | cons c rest =>
      have hc := hs c rfl
      rw [splitWords, if_pos hc, if_neg hw]
      rw [splitWords, if_pos hc, if_pos rfl] at ih
      rw [ih]

theorem spaced_splitWords : ∀ (n : ℕ) (l : List Char), l.length ≤ n → Spaced (splitWords l []) l := by
  intro n
  induction n with
  | zero =>
    intro l hl
    rw [List.eq_nil_of_length_eq_zero (Nat.le_zero.1 hl)]
    exact Spaced.nil (by simp)
  | succ n ih =>
    intro l hl
    have e1 : l = l.takeWhile isSpace ++ l.dropWhile isSpace := (List.takeWhile_append_dropWhile).symm
    have h1 : ∀ c ∈ l.takeWhile isSpace, isSpace c = true := fun c hc => List.mem_takeWhile_imp hc
    generalize l.takeWhile isSpace = sp at e1 h1
    have h2 : ∀ c, (l.dropWhile isSpace).head? = some c → isSpace c = false := fun c hc => by
      have := List.head?_dropWhile_not isSpace l
      rw [hc] at this
      simpa using this
    generalize l.dropWhile isSpace = m at e1 h2
    cases m with
    | nil =>
      rw [List.append_nil] at e1
      subst e1
      have : Spaced [] l := Spaced.nil h1
      rw [splitWords_of_spaced this]
      exact this
    | cons c m =>
      have hc := h2 c rfl
      have e2 : m = m.takeWhile (fun c => !isSpace c) ++ m.dropWhile (fun c => !isSpace c) :=
        (List.takeWhile_append_dropWhile).symm
      have h3 : ∀ d ∈ m.takeWhile (fun c => !isSpace c), isSpace d = false := fun d hd => by
        simpa using List.mem_takeWhile_imp hd
      have h4 : ∀ d, (m.dropWhile (fun c => !isSpace c)).head? = some d → isSpace d = true := fun d hd => by
        have := List.head?_dropWhile_not (fun c => !isSpace c) m
        rw [hd] at this
        simpa using this
      generalize m.takeWhile (fun c => !isSpace c) = w at e2 h3
      generalize m.dropWhile (fun c => !isSpace c) = rest at e2 h4
      subst e2
      subst e1
      have hl' : rest.length ≤ n := by
        simp at hl
        omega
      have key : Spaced ((c :: w) :: splitWords rest []) (sp ++ ((c :: w) ++ rest)) :=
        Spaced.cons h1 (by simp) (by
          intro d hd
          rcases List.mem_cons.1 hd with rfl | hd
          · exact hc
          · exact h3 d hd) (ih rest hl') h4
      rw [show sp ++ c :: (w ++ rest) = sp ++ ((c :: w) ++ rest) from rfl, splitWords_of_spaced key]
      exact key

/-- `line.split()` are the words of the line. -/
theorem splitWords_iff {ws : List (List Char)} {l : List Char} : splitWords l [] = ws ↔ Spaced ws l :=
  ⟨fun h => h ▸ spaced_splitWords _ l le_rfl, splitWords_of_spaced⟩

/-! ### Tables -/

/-- C124: the table of charges has 118 different names, numbered 1 to 118 in order. -/
theorem C124_elements : (nameToNumber.map Prod.fst).Nodup ∧ nameToNumber.map Prod.snd = List.range' 1 118 := by
  decide +kernel

/-- C124: the table of masses has the same names. -/
theorem C124_masses : (massTable.map Prod.fst).Nodup ∧ ∀ name, name ∈ massTable.map Prod.fst ↔ name ∈ nameToNumber.map Prod.fst := by
  have h1 : (massTable.map Prod.fst).Nodup := by decide +kernel
  have h2 : ∀ name ∈ massTable.map Prod.fst, name ∈ nameToNumber.map Prod.fst := by decide +kernel
  have h3 : ∀ name ∈ nameToNumber.map Prod.fst, name ∈ massTable.map Prod.fst := by decide +kernel
  exact ⟨h1, fun name => ⟨h2 name, h3 name⟩⟩

theorem lookupName_iff {α : Type} {key : List Char} {v : α} {t : List (List Char × α)} (ht : (t.map Prod.fst).Nodup) :
    lookupName key t = .ok v ↔ (key, v) ∈ t := by
  induction t with
  | nil => simp [lookupName]
  | cons x t ih =>
    obtain ⟨k, u⟩ := x
    rw [List.map_cons, List.nodup_cons] at ht
    rw [lookupName, List.mem_cons]
    by_cases h : k = key
    · rw [if_pos h]
      subst h
      constructor
      · intro h
        left
        rw [Except.ok.inj h]
      · rintro (h | h)
        · rw [(Prod.mk.inj h).2]
        · exact absurd (List.mem_map.2 ⟨_, h, rfl⟩) ht.1
    · rw [if_neg h, ih ht.2]
      constructor
      · exact Or.inr
      · rintro (h' | h')
        · exact absurd (Prod.mk.inj h').1.symm h
        · exact h'

theorem lookupName_error {α : Type} {key : List Char} {t : List (List Char × α)} (h : key ∉ t.map Prod.fst) :
    lookupName key t = .error .keyError := by
  induction t with
  | nil => rfl
  | cons x t ih =>
    obtain ⟨k, u⟩ := x
    rw [List.map_cons, List.mem_cons, not_or] at h
    rw [lookupName, if_neg fun h' => h.1 h'.symm]
    exact ih h.2

/-! ### Lines -/

variable {pf : List Char → Option ℝ} {factor : ℝ}

theorem floatOf_iff {w : List Char} {x : ℝ} : floatOf pf w = .ok x ↔ pf w = some x := by
  unfold floatOf
  cases pf w <;> simp

theorem readAtom_words {line : List Char} {name x y z : List Char} {rest : List (List Char)}
    (h : splitWords line [] = name :: x :: y :: z :: rest) :
    readAtom pf factor line = (do
      let vx ← floatOf pf x
      let vy ← floatOf pf y
      let vz ← floatOf pf z
      let charge ← lookupName name nameToNumber
      let mass ← lookupName name massTable
      return ⟨String.ofList name, ![vx * factor, vy * factor, vz * factor], charge, (mass : ℝ)⟩) := by
  unfold readAtom
  rw [h]
  rfl

theorem readAtom_iff {line : List Char} {a : Atom} : readAtom pf factor line = .ok a ↔ Describes pf factor line a := by
  constructor
  · intro h
    match hw : splitWords line [] with
    | [] => unfold readAtom at h; rw [hw] at h; cases h
    | [_] => unfold readAtom at h; rw [hw] at h; cases h
    | [_, x] =>
      unfold readAtom at h
      rw [hw] at h
      cases hx : floatOf pf x with
      | error er => simp [wordAt, hx, Bind.bind, Except.bind] at h
      | ok vx => simp [wordAt, hx, Bind.bind, Except.bind] at h
    | [_, x, y] =>
      unfold readAtom at h
      rw [hw] at h
      cases hx : floatOf pf x with
      | error er => simp [wordAt, hx, Bind.bind, Except.bind] at h
      | ok vx =>
        cases hy : floatOf pf y with
        | error er => simp [wordAt, hx, hy, Bind.bind, Except.bind] at h
        | ok vy => simp [wordAt, hx, hy, Bind.bind, Except.bind] at h
    | name :: x :: y :: z :: rest =>
      rw [readAtom_words hw] at h
      cases hx : floatOf pf x with
      | error er => rw [hx] at h; cases h
      | ok vx =>
        cases hy : floatOf pf y with
        | error er => rw [hx, hy] at h; cases h
        | ok vy =>
          cases hz : floatOf pf z with
          | error er => rw [hx, hy, hz] at h; cases h
          | ok vz =>
            cases hc : lookupName name nameToNumber with
            | error er => rw [hx, hy, hz, hc] at h; cases h
            | ok charge =>
              cases hm : lookupName name massTable with
              | error er => rw [hx, hy, hz, hc, hm] at h; cases h
              | ok mass =>
                rw [hx, hy, hz, hc, hm] at h
                exact ⟨name, x, y, z, rest, vx, vy, vz, charge, mass, splitWords_iff.1 hw, floatOf_iff.1 hx, floatOf_iff.1 hy,
                  floatOf_iff.1 hz, (lookupName_iff C124_elements.1).1 hc, (lookupName_iff C124_masses.1).1 hm,
                  (Except.ok.inj h).symm⟩
  · rintro ⟨name, x, y, z, rest, vx, vy, vz, charge, mass, hw, hx, hy, hz, hc, hm, rfl⟩
    rw [readAtom_words (splitWords_iff.2 hw), floatOf_iff.2 hx, floatOf_iff.2 hy, floatOf_iff.2 hz,
      (lookupName_iff C124_elements.1).2 hc, (lookupName_iff C124_masses.1).2 hm]
    rfl

theorem mapM_readAtom {ls : List (List Char)} {atoms : List Atom} :
    ls.mapM (readAtom pf factor) = .ok atoms ↔ List.Forall₂ (Describes pf factor) ls atoms := by
  induction ls generalizing atoms with
  | nil =>
    rw [List.mapM_nil]
    constructor
    · intro h
      rw [← Except.ok.inj h]
      exact List.Forall₂.nil
    · intro h
      cases h
      rfl
  | cons l ls ih =>
    rw [List.mapM_cons]
    constructor
    · intro h
      cases ha : readAtom pf factor l with
      | error er => rw [ha] at h; cases h
      | ok a =>
        cases hl : ls.mapM (readAtom pf factor) with
        | error er => rw [ha, hl] at h; cases h
        | ok as =>
          rw [ha, hl] at h
          rw [← Except.ok.inj h]
          exact List.Forall₂.cons (readAtom_iff.1 ha) (ih.1 hl)
    · intro h
      cases h with
      | cons h1 h2 =>
        rw [readAtom_iff.2 h1, ih.2 h2]
        rfl

/-! ### Pieces -/

theorem splitSemi_spec (s : List Char) : splitSemi s ≠ [] ∧ (∀ p ∈ splitSemi s, ';' ∉ p) ∧ [';'].intercalate (splitSemi s) = s := by
  induction s with
  | nil => exact ⟨by simp [splitSemi], by simp [splitSemi], rfl⟩
  | cons c s ih =>
    obtain ⟨h1, h2, h3⟩ := ih
    rw [splitSemi]
    by_cases hc : c = ';'
    · rw [if_pos hc]
      refine ⟨by simp, ?_, ?_⟩
      · intro p hp
        rcases List.mem_cons.1 hp with rfl | hp
        · simp
        · exact h2 p hp
      · cases hs : splitSemi s with
        | nil => exact absurd hs h1
        | cons l ls =>
          rw [hs] at h3
          rw [List.intercalate_cons_cons, h3, hc]
          rfl
    · rw [if_neg hc]
      cases hs : splitSemi s with
      | nil => exact absurd hs h1
      | cons l ls =>
        rw [hs] at h2 h3
        refine ⟨by simp, ?_, ?_⟩
        · intro p hp
          rcases List.mem_cons.1 hp with rfl | hp
          · rw [List.mem_cons, not_or]
            exact ⟨fun h => hc h.symm, h2 l List.mem_cons_self⟩
          · exact h2 p (List.mem_cons_of_mem _ hp)
        · rw [← h3]
          cases ls with
          | nil => simp
          | cons l2 ls => simp only [List.intercalate_cons_cons, List.cons_append]

theorem splitSemi_append {p : List Char} (h : ';' ∉ p) (s : List Char) : splitSemi (p ++ ';' :: s) = p :: splitSemi s := by
  induction p with
  | nil => rw [List.nil_append, splitSemi, if_pos rfl]
  | cons c p ih =>
    rw [List.mem_cons, not_or] at h
    rw [List.cons_append, splitSemi, if_neg fun h' => h.1 h'.symm, ih h.2]

theorem splitSemi_one {p : List Char} (h : ';' ∉ p) : splitSemi p = [p] := by
  induction p with
  | nil => rfl
  | cons c p ih =>
    rw [List.mem_cons, not_or] at h
    rw [splitSemi, if_neg fun h' => h.1 h'.symm, ih h.2]

theorem splitSemi_join {ps : List (List Char)} (h0 : ps ≠ []) (h : ∀ p ∈ ps, ';' ∉ p) : splitSemi ([';'].intercalate ps) = ps := by
  induction ps with
  | nil => exact absurd rfl h0
  | cons p ps ih =>
    cases ps with
    | nil =>
      rw [List.intercalate_singleton]
      exact splitSemi_one (h p List.mem_cons_self)
    | cons q ps =>
      rw [List.intercalate_cons_cons, List.append_assoc, List.singleton_append, splitSemi_append (h p List.mem_cons_self),
        ih (by simp) fun p hp => h p (List.mem_cons_of_mem _ hp)]

theorem unitFactor_iff {u : List Char} {f : ℝ} : unitFactor u = .ok f ↔ UnitIs u f := by
  have t1 : "angstrom".toList = ['a', 'n', 'g', 's', 't', 'r', 'o', 'm'] := rfl
  have t2 : "au".toList = ['a', 'u'] := rfl
  have t3 : "bohr".toList = ['b', 'o', 'h', 'r'] := rfl
  unfold unitFactor
  constructor
  · intro h
    by_cases h1 : u.map Char.toLower = ['a', 'n', 'g', 's', 't', 'r', 'o', 'm']
    · rw [if_pos h1] at h
      rw [← Except.ok.inj h]
      exact UnitIs.angstrom (h1.trans t1.symm)
    · rw [if_neg h1] at h
      by_cases h2 : u.map Char.toLower = ['a', 'u'] ∨ u.map Char.toLower = ['b', 'o', 'h', 'r']
      · rw [if_pos h2] at h
        rw [← Except.ok.inj h]
        rcases h2 with h2 | h2
        · exact UnitIs.au (h2.trans t2.symm)
        · exact UnitIs.bohr (h2.trans t3.symm)
      · rw [if_neg h2] at h
        cases h
  · intro h
    cases h with
    | angstrom h => rw [if_pos (h.trans t1)]
    | au h => rw [if_neg (by rw [h.trans t2]; decide), if_pos (Or.inl (h.trans t2))]
    | bohr h => rw [if_neg (by rw [h.trans t3]; decide), if_pos (Or.inr (h.trans t3))]

theorem unitFactor_cases (u : List Char) : (∃ f, unitFactor u = .ok f) ∨ unitFactor u = .error .valueError := by
  unfold unitFactor
  split_ifs
  · exact Or.inl ⟨_, rfl⟩
  · exact Or.inl ⟨_, rfl⟩
  · exact Or.inr rfl

/-! ### C124 -/

variable {readFile : List Char → Res (List (List Char))} {s : List Char} {q : ℤ} {u : List Char} {m : Molecule}

/-- C124: a molecule given as text is accepted exactly if the unit is known and the text is a list of descriptions of
atoms separated by semicolons, blank ones aside; the molecule then has these atoms in this order, the given charge and
no basis set. -/
theorem C124_text (hx : ¬ ".xyz".toList <:+: s) (hs : ';' ∈ s) :
    initMolecule pf readFile s q u = .ok m ↔ ∃ (f : ℝ) (pieces : List (List Char)) (atoms : List Atom), UnitIs u f ∧
      pieces ≠ [] ∧ (∀ p ∈ pieces, ';' ∉ p) ∧ s = [';'].intercalate pieces ∧
      List.Forall₂ (Describes pf f) (pieces.filter fun l => !l.all isSpace) atoms ∧ m = ⟨q, atoms, [], 0⟩ := by
  have hx' : ¬ (hasXyz s = true) := by
    unfold hasXyz
    rw [decide_eq_true_iff]
    exact hx
  have e : ∀ f, unitFactor u = .ok f → initMolecule pf readFile s q u =
      (do
        let atoms ← ((splitSemi s).filter fun l => !l.all isSpace).mapM (readAtom pf f)
        return ⟨q, atoms, [], 0⟩) := by
    intro f hf
    unfold initMolecule
    rw [hf]
    show (if hasXyz s = true then _ else if ';' ∈ s then _ else _) = _
    rw [if_neg hx', if_pos hs]
  constructor
  · intro h
    rcases unitFactor_cases u with ⟨f, hf⟩ | hf
    · rw [e f hf] at h
      cases ha : ((splitSemi s).filter fun l => !l.all isSpace).mapM (readAtom pf f) with
      | error er => rw [ha] at h; cases h
      | ok atoms =>
        rw [ha] at h
        obtain ⟨h1, h2, h3⟩ := splitSemi_spec s
        exact ⟨f, splitSemi s, atoms, unitFactor_iff.1 hf, h1, h2, h3.symm, mapM_readAtom.1 ha, (Except.ok.inj h).symm⟩
    · unfold initMolecule at h
      rw [hf] at h
      cases h
  · rintro ⟨f, pieces, atoms, hu, h1, h2, h3, h4, rfl⟩
    rw [e f (unitFactor_iff.2 hu), h3, splitSemi_join h1 h2, mapM_readAtom.2 h4]
    rfl

/-- C124: a molecule given as an xyz file is accepted exactly if the unit is known and every line after the second
describes an atom; the molecule then has these atoms. -/
theorem C124_xyz (hx : ".xyz".toList <:+: s) {lines : List (List Char)} (hf : readFile s = .ok lines) :
    initMolecule pf readFile s q u = .ok m ↔ ∃ (f : ℝ) (atoms : List Atom), UnitIs u f ∧
      List.Forall₂ (Describes pf f) (lines.drop 2) atoms ∧ m = ⟨q, atoms, [], 0⟩ := by
  have hx' : hasXyz s = true := by
    unfold hasXyz
    rw [decide_eq_true_iff]
    exact hx
  have e : ∀ f, unitFactor u = .ok f → initMolecule pf readFile s q u =
      (do
        let atoms ← (lines.drop 2).mapM (readAtom pf f)
        return ⟨q, atoms, [], 0⟩) := by
    intro f hu
    unfold initMolecule
    rw [hu]
    show (if hasXyz s = true then (do let lines ← readFile s; _) else if ';' ∈ s then _ else _) = _
    rw [if_pos hx', hf]
    rfl
  constructor
  · intro h
    rcases unitFactor_cases u with ⟨f, hu⟩ | hu
    · rw [e f hu] at h
      cases ha : (lines.drop 2).mapM (readAtom pf f) with
      | error er => rw [ha] at h; cases h
      | ok atoms =>
        rw [ha] at h
        exact ⟨f, atoms, unitFactor_iff.1 hu, mapM_readAtom.1 ha, (Except.ok.inj h).symm⟩
    · unfold initMolecule at h
      rw [hu] at h
      cases h
  · rintro ⟨f, atoms, hu, h4, rfl⟩
    rw [e f (unitFactor_iff.2 hu), mapM_readAtom.2 h4]
    rfl

/-- C124: unknown units, and texts that are neither an xyz file name nor contain a semicolon (such as the description of
a single atom), raise `ValueError`. -/
theorem C124_refused : ((¬∃ f, UnitIs u f) → initMolecule pf readFile s q u = .error .valueError) ∧
    (¬ ".xyz".toList <:+: s → ';' ∉ s → initMolecule pf readFile s q u = .error .valueError) := by
  refine ⟨fun h => ?_, fun hx hs => ?_⟩
  · rcases unitFactor_cases u with ⟨f, hf⟩ | hf
    · exact absurd ⟨f, unitFactor_iff.1 hf⟩ h
    · unfold initMolecule
      rw [hf]
      rfl
  · have hx' : ¬ (hasXyz s = true) := by
      unfold hasXyz
      rw [decide_eq_true_iff]
      exact hx
    unfold initMolecule
    rcases unitFactor_cases u with ⟨f, hf⟩ | hf
    · rw [hf]
      show (if hasXyz s = true then _ else if ';' ∈ s then _ else _) = _
      rw [if_neg hx', if_neg hs]
    · rw [hf]
      rfl

/-- C124: a line with an unknown name and three numbers raises `KeyError`; a line with fewer than four words raises
`IndexError`, unless one of its words that should be a number is not, which raises `ValueError`. -/
theorem C124_line_errors {line : List Char} {ws : List (List Char)} (hw : Spaced ws line) :
    (∀ name x y z rest, ws = name :: x :: y :: z :: rest → (∀ w ∈ [x, y, z], pf w ≠ none) →
      name ∉ nameToNumber.map Prod.fst → readAtom pf factor line = .error .keyError) ∧
    (ws.length < 4 → (∀ w ∈ ws.drop 1, pf w ≠ none) → readAtom pf factor line = .error .indexError) ∧
    ((∃ w ∈ (ws.drop 1).take 3, pf w = none) → readAtom pf factor line = .error .valueError) := by
  have hs := splitWords_iff.2 hw
  have hf : ∀ w, pf w ≠ none → ∃ v, floatOf pf w = .ok v := by
    intro w h
    cases hv : pf w with
    | none => exact absurd hv h
    | some v => exact ⟨v, floatOf_iff.2 hv⟩
  have hg : ∀ w, pf w = none → floatOf pf w = .error .valueError := by
    intro w h
    unfold floatOf
    rw [h]
  refine ⟨?_, fun hl hp => ?_, ?_⟩
  · rintro name x y z rest rfl hp hn
    obtain ⟨vx, hx⟩ := hf x (hp x (by simp))
    obtain ⟨vy, hy⟩ := hf y (hp y (by simp))
    obtain ⟨vz, hz⟩ := hf z (hp z (by simp))
    rw [readAtom_words hs, hx, hy, hz, lookupName_error hn]
    rfl
  · unfold readAtom
    rw [hs]
    match ws, hl, hp with
    | [], _, _ => rfl
    | [_], _, _ => rfl
    | [_, x], _, hp =>
      obtain ⟨vx, hx⟩ := hf x (hp x (by simp))
      simp [wordAt, hx, Bind.bind, Except.bind]
    | [_, x, y], _, hp =>
      obtain ⟨vx, hx⟩ := hf x (hp x (by simp))
      obtain ⟨vy, hy⟩ := hf y (hp y (by simp))
      simp [wordAt, hx, hy, Bind.bind, Except.bind]
    | _ :: _ :: _ :: _ :: _, hl, _ => simp at hl; omega
  · rintro ⟨w, hw, hp⟩
    unfold readAtom
    rw [hs]
    have hc : ∀ w, (∃ v, floatOf pf w = .ok v) ∨ floatOf pf w = .error .valueError := by
      intro w
      unfold floatOf
      cases pf w with
      | none => exact Or.inr rfl
      | some v => exact Or.inl ⟨v, rfl⟩
    match ws, hw with
    | [], hw => simp at hw
    | [_], hw => simp at hw
    | [_, x], hw =>
      simp at hw
      subst hw
      simp [wordAt, hg w hp, Bind.bind, Except.bind]
    | [_, x, y], hw =>
      simp at hw
      rcases hc x with ⟨v, hx⟩ | hx
      · rcases hw with rfl | rfl
        · rw [hg w hp] at hx; cases hx
        · simp [wordAt, hx, hg w hp, Bind.bind, Except.bind]
      · simp [wordAt, hx, Bind.bind, Except.bind]
    | _ :: x :: y :: z :: _, hw =>
      simp at hw
      rcases hc x with ⟨v, hx⟩ | hx
      · rcases hc y with ⟨v', hy⟩ | hy
        · rcases hw with rfl | rfl | rfl
          · rw [hg w hp] at hx; cases hx
          · rw [hg w hp] at hy; cases hy
          · simp [wordAt, hx, hy, hg w hp, Bind.bind, Except.bind]
        · simp [wordAt, hx, hy, Bind.bind, Except.bind]
      · simp [wordAt, hx, Bind.bind, Except.bind]

theorem describes_scale {line : List Char} {a : Atom} (h : Describes pf 1 line a) (f : ℝ) :
    Describes pf f line { a with coordinate := fun k => a.coordinate k * f } := by
  obtain ⟨name, x, y, z, rest, vx, vy, vz, charge, mass, hw, hx, hy, hz, hc, hm, rfl⟩ := h
  refine ⟨name, x, y, z, rest, vx, vy, vz, charge, mass, hw, hx, hy, hz, hc, hm, ?_⟩
  congr 1
  funext k
  fin_cases k <;> simp

/-- C124: with the unit angstrom, the same text gives the same atoms with coordinates larger by the factor 1.889725989. -/
theorem C124_units (hx : ¬ ".xyz".toList <:+: s) (hs : ';' ∈ s) (h : initMolecule pf readFile s q "bohr".toList = .ok m) :
    initMolecule pf readFile s q "Angstrom".toList = .ok { m with atoms := m.atoms.map fun a =>
      { a with coordinate := fun k => a.coordinate k * 1.889725989 } } := by
  obtain ⟨f, pieces, atoms, hu, h1, h2, h3, h4, rfl⟩ := (C124_text hx hs).1 h
  have hf : f = 1 := by
    cases hu with
    | angstrom h => exact absurd h (by decide)
    | au h => rfl
    | bohr h => rfl
  subst hf
  refine (C124_text hx hs).2 ⟨_, pieces, _, UnitIs.angstrom rfl, h1, h2, h3, ?_, rfl⟩
  rw [List.forall₂_map_right_iff]
  exact h4.imp fun _ _ h => describes_scale h _

/-- Elements without a standard mass have mass zero in the table, so a molecule of such elements has a total mass of zero
and its center of mass is a division by zero. -/
theorem C124_mass_disagree : (("Tc".toList, (0 : ℚ)) ∈ massTable) ∧ (massTable.filter fun x => x.2 == 0).length = 34 := by
  decide +kernel

/-- Reads the words 0 and 1 as numbers. -/
noncomputable def digitFloat (w : List Char) : Option ℝ :=
  if w = ['0'] then some 0 else if w = ['1'] then some 1 else none

theorem digitFloat_zero : digitFloat ['0'] = some 0 := if_pos rfl
theorem digitFloat_one : digitFloat ['1'] = some 1 := by
  unfold digitFloat
  rw [if_neg (by decide), if_pos rfl]

/-- Water, with a blank piece at the end. -/
example : initMolecule digitFloat readFile "O 0 0 0; H 1 0 0 ;\tH 0 1 0;".toList 0 "AU".toList =
    .ok ⟨0, [⟨"O", ![0 * 1, 0 * 1, 0 * 1], 8, ((15.999 : ℚ) : ℝ)⟩, ⟨"H", ![1 * 1, 0 * 1, 0 * 1], 1, ((1.008 : ℚ) : ℝ)⟩,
      ⟨"H", ![0 * 1, 1 * 1, 0 * 1], 1, ((1.008 : ℚ) : ℝ)⟩], [], 0⟩ := by
  refine (C124_text (by decide) (by decide)).2 ⟨1, ["O 0 0 0".toList, " H 1 0 0 ".toList, "\tH 0 1 0".toList, []], _, UnitIs.au rfl,
    by decide, by decide, by decide, ?_, rfl⟩
  rw [show (["O 0 0 0".toList, " H 1 0 0 ".toList, "\tH 0 1 0".toList, []].filter fun l => !l.all isSpace) =
    ["O 0 0 0".toList, " H 1 0 0 ".toList, "\tH 0 1 0".toList] by decide]
  refine List.Forall₂.cons ?_ (List.Forall₂.cons ?_ (List.Forall₂.cons ?_ List.Forall₂.nil))
  · exact ⟨['O'], ['0'], ['0'], ['0'], [], 0, 0, 0, 8, 15.999, splitWords_iff.1 (by decide), digitFloat_zero, digitFloat_zero,
      digitFloat_zero, by decide +kernel, by decide +kernel, rfl⟩
  · exact ⟨['H'], ['1'], ['0'], ['0'], [], 1, 0, 0, 1, 1.008, splitWords_iff.1 (by decide), digitFloat_one, digitFloat_zero,
      digitFloat_zero, by decide +kernel, by decide +kernel, rfl⟩
  · exact ⟨['H'], ['0'], ['1'], ['0'], [], 0, 1, 0, 1, 1.008, splitWords_iff.1 (by decide), digitFloat_zero, digitFloat_one,
      digitFloat_zero, by decide +kernel, by decide +kernel, rfl⟩

/-- A blank line in an xyz file raises. -/
example : readAtom digitFloat 1 "\n".toList = .error .indexError :=
  (C124_line_errors (splitWords_iff.1 (show splitWords "\n".toList [] = [] by decide))).2.1 (by decide) (by simp)

/-- Names in capitals or lower case are unknown. -/
example : readAtom digitFloat 1 "HE 0 0 0".toList = .error .keyError :=
  (C124_line_errors (splitWords_iff.1 (show splitWords "HE 0 0 0".toList [] = [['H', 'E'], ['0'], ['0'], ['0']] by decide))).1
    ['H', 'E'] ['0'] ['0'] ['0'] [] rfl (by simp [digitFloat_zero]) (by decide +kernel)

end SQ
