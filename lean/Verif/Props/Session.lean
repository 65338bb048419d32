import Verif.Spec.Session
import Mathlib.Tactic.Common

/-! # C125, C126: sessions and the log -/

namespace SQ

variable {M V : Type} {d : Drivers M V} {sb : String → M → M ⊕ M}

/-- The value of a kind for the molecule. -/
noncomputable def kindOf (d : Drivers M V) (m : M) : IntKind → V
  | .overlap => d.overlap m
  | .kinetic => d.kinetic m
  | .nuclear => d.nuclear m
  | .eri => d.eri m (d.cauchySchwarz m) ((10 : ℝ) ^ (-12 : ℤ))

/-- The session has molecule object `i` holding `m` and integral object `j` for it, with right values in its cache. -/
structure Sound (d : Drivers M V) (m : M) (i j : ℕ) (s : Session M V) : Prop where
  molecule : s.molecule = some i
  integral : s.integral = some j
  mol : s.mols[i]? = some m
  int : ∃ o, s.ints[j]? = some o ∧ o.mol = i ∧ o.cs = d.cauchySchwarz m ∧ ∀ k v, o.cache k = some v → v = kindOf d m k

theorem Sound.read {m : M} {i j : ℕ} {s : Session M V} (h : Sound d m i j s) (k : IntKind) :
    ∃ s', s.read d k j = (.ok (kindOf d m k), s') ∧ Sound d m i j s' ∧ s'.hf = s.hf := by
  obtain ⟨o, h1, h2, h3, h4⟩ := h.int
  unfold Session.read
  rw [h1]
  cases hc : o.cache k with
  | some v =>
    refine ⟨s, ?_, h, rfl⟩
    simp only [hc]
    rw [h4 k v hc]
  | none =>
    have hm : s.mols[o.mol]? = some m := by rw [h2]; exact h.mol
    simp only [hc, hm]
    refine ⟨{ s with ints := s.ints.set j { o with cache := Function.update o.cache k (some (kindOf d m k)) } }, ?_, ?_, rfl⟩
    · rw [h3]
      cases k <;> rfl
    · refine ⟨h.molecule, h.integral, h.mol, { o with cache := Function.update o.cache k (some (kindOf d m k)) }, ?_, h2, h3, ?_⟩
      · simp only
        rw [List.getElem?_set_self]
        exact (List.getElem?_eq_some_iff.1 h1).1
      · intro k' v hv
        simp only at hv
        by_cases e : k' = k
        · subst e
          rw [Function.update_self] at hv
          exact (Option.some.inj hv).symm
        · rw [Function.update_of_ne e] at hv
          exact h4 k' v hv

theorem Sound.run {m : M} {i j : ℕ} {s : Session M V} (h : Sound d m i j s) (hf : s.hf = some (i, j)) :
    ∃ s', s.runHartreeFock d = (.ok (hfInputOf d m), s') ∧ Sound d m i j s' ∧ s'.hf = some (i, j) := by
  unfold Session.runHartreeFock
  obtain ⟨s1, a1, b1, c1⟩ := h.read .overlap
  obtain ⟨s2, a2, b2, c2⟩ := b1.read .kinetic
  obtain ⟨s3, a3, b3, c3⟩ := b2.read .nuclear
  obtain ⟨s4, a4, b4, c4⟩ := b3.read .eri
  refine ⟨s4, ?_, b4, by rw [c4, c3, c2, c1, hf]⟩
  simp only [hf, a1, a2, a3, a4, b4.mol]
  rfl

theorem sound_setBasis {b : String} {m : M} {i : ℕ} {s s' : Session M V} (hi : s.molecule = some i)
    (h : s.setBasisOf d sb b i = (.ok (), s')) (hm : s'.mols[i]? = some m) : Sound d m i s.ints.length s' := by
  unfold Session.setBasisOf at h
  cases h0 : s.mols[i]? with
  | none => rw [h0] at h; simp at h
  | some m0 =>
    rw [h0] at h
    cases hb : sb b m0 with
    | inr m1 => simp [hb] at h
    | inl m1 =>
      simp only [hb] at h
      obtain rfl := congrArg Prod.snd h
      have hm1 : m1 = m := by
        have hlt := (List.getElem?_eq_some_iff.1 h0).1
        simp only [List.getElem?_set_self hlt] at hm
        exact Option.some.inj hm
      subst hm1
      refine ⟨hi, rfl, hm, ⟨i, fun _ => none, d.cauchySchwarz m1⟩, ?_, rfl, rfl, fun k v hv => by cases hv⟩
      simp

theorem Sound.passive {m : M} {i j : ℕ} {s : Session M V} (h : Sound d m i j s) {op : SessionOp M} (ho : op.Passive)
    (hf : s.hf = some (i, j)) : Sound d m i j (s.step d sb op) ∧ (s.step d sb op).hf = some (i, j) := by
  cases op with
  | setMolecule new basis => exact ho.elim
  | setBasisSet b => exact ho.elim
  | initHartreeFock =>
    simp only [Session.step, Session.initHartreeFock, h.molecule, h.integral]
    exact ⟨⟨rfl, rfl, h.mol, h.int⟩, trivial⟩
  | readIntegral k =>
    simp only [Session.step, h.integral]
    obtain ⟨s', h1, h2, h3⟩ := h.read k
    rw [h1]
    exact ⟨h2, by rw [h3, hf]⟩
  | runHartreeFock =>
    simp only [Session.step]
    obtain ⟨s', h1, h2, h3⟩ := h.run hf
    rw [h1]
    exact ⟨h2, h3⟩

/-- C125: in any session, when a basis set has been set without an exception - together with a molecule or after it - and
Hartree-Fock is initialised then, every Hartree-Fock run gets the current molecule and the integrals of it in its current
basis set, whatever was read or run in between, as long as the molecule and the basis set are left alone. -/
theorem C125_session (before : List (SessionOp M)) (b : String) (new : Option (Res M)) (after : List (SessionOp M))
    (ha : ∀ op ∈ after, op.Passive) (s1 : Session M V)
    (h1 : (match new with
      | some m => (before.foldl (Session.step d sb) Session.init).setMolecule d sb m (some b)
      | none => (before.foldl (Session.step d sb) Session.init).setBasisSet d sb b) = (.ok (), s1))
    (hm : s1.molecule ≠ none) :
    ∃ i m s2, s1.molecule = some i ∧ s1.mols[i]? = some m ∧
      (after.foldl (Session.step d sb) s1.initHartreeFock.2).runHartreeFock d = (.ok (hfInputOf d m), s2) := by
  have key : ∃ i j m, Sound d m i j s1 := by
    generalize before.foldl (Session.step d sb) Session.init = s0 at h1
    have fin : ∀ (s : Session M V) (i : ℕ), s.molecule = some i → s.setBasisOf d sb b i = (.ok (), s1) →
        ∃ i j m, Sound d m i j s1 := by
      intro s i hi h
      have hlt : ∃ m, s1.mols[i]? = some m := by
        unfold Session.setBasisOf at h
        cases h0 : s.mols[i]? with
        | none => rw [h0] at h; simp at h
        | some m0 =>
          rw [h0] at h
          cases hb : sb b m0 with
          | inr m1 => simp [hb] at h
          | inl m1 =>
            simp only [hb] at h
            obtain rfl := congrArg Prod.snd h
            exact ⟨m1, List.getElem?_set_self (List.getElem?_eq_some_iff.1 h0).1⟩
      obtain ⟨m, hm⟩ := hlt
      exact ⟨i, _, m, sound_setBasis hi h hm⟩
    cases new with
    | some new =>
      simp only at h1
      unfold Session.setMolecule at h1
      cases new with
      | error er => simp at h1
      | ok m => exact fin _ _ rfl h1
    | none =>
      simp only at h1
      unfold Session.setBasisSet at h1
      cases hi : s0.molecule with
      | none =>
        simp only [hi] at h1
        obtain rfl := congrArg Prod.snd h1
        exact absurd hi hm
      | some i =>
        simp only [hi] at h1
        exact fin s0 i hi h1
  obtain ⟨i, j, m, hs⟩ := key
  have h2 : Sound d m i j s1.initHartreeFock.2 ∧ s1.initHartreeFock.2.hf = some (i, j) := by
    simp only [Session.initHartreeFock, hs.molecule, hs.integral]
    exact ⟨⟨rfl, rfl, hs.mol, hs.int⟩, trivial⟩
  have h3 : ∀ (after : List (SessionOp M)) (s : Session M V), (∀ op ∈ after, op.Passive) → Sound d m i j s → s.hf = some (i, j) →
      Sound d m i j (after.foldl (Session.step d sb) s) ∧ (after.foldl (Session.step d sb) s).hf = some (i, j) := by
    intro after
    induction after with
    | nil => intro s _ h1 h2; exact ⟨h1, h2⟩
    | cons op after ih =>
      intro s hp h1 h2
      obtain ⟨k1, k2⟩ := h1.passive (sb := sb) (hp op List.mem_cons_self) h2
      exact ih _ (fun op ho => hp op (List.mem_cons_of_mem _ ho)) k1 k2
  obtain ⟨k1, k2⟩ := h3 after _ ha h2.1 h2.2
  obtain ⟨s2, k3, -, -⟩ := k1.run k2
  exact ⟨i, m, s2, hs.molecule, hs.mol, k3⟩

/-- Changing the basis set after Hartree-Fock was initialised: the Hartree-Fock object keeps its integral object, which
refers to the changed molecule. Arrays read before are of the old basis set, the others of the new one, and the
Cauchy-Schwarz matrix is of the old one, so a run gets arrays of different basis sets. -/
theorem C125_mixed_disagree (m m' : M) (b b' : String) (h : sb b m = .inl m) (h' : sb b' m = .inl m') :
    let s := [SessionOp.setMolecule (.ok m) (some b), .initHartreeFock, .readIntegral .overlap, .setBasisSet b'].foldl
      (Session.step d sb) Session.init
    (s.runHartreeFock d).1 = .ok ⟨m', d.overlap m, d.kinetic m', d.nuclear m', d.eri m' (d.cauchySchwarz m) ((10 : ℝ) ^ (-12 : ℤ))⟩ := by
  simp [Session.step, Session.init, Session.setMolecule, Session.setBasisOf, Session.setBasisSet, Session.initHartreeFock,
    Session.read, Session.runHartreeFock, h, h', Function.update]

/-- If the basis set cannot be set for a new molecule, the exception leaves the integral object of the old molecule in place:
Hartree-Fock initialised after it gets the new molecule and the integrals of the old one. -/
theorem C125_failed_disagree (m m' p : M) (b b' : String) (h : sb b m = .inl m) (h' : sb b' m' = .inr p) :
    let s := [SessionOp.setMolecule (.ok m) (some b), .setMolecule (.ok m') (some b'), .initHartreeFock].foldl
      (Session.step d sb) Session.init
    (s.runHartreeFock d).1 = .ok { hfInputOf d m with mol := p } := by
  simp [Session.step, Session.init, Session.setMolecule, Session.setBasisOf, Session.initHartreeFock,
    Session.read, Session.runHartreeFock, h, h', hfInputOf, Function.update]

/-- Numbers in place of molecules and arrays, for the example. -/
def numDrivers : Drivers ℕ ℕ := ⟨fun m => m + 1, id, id, id, fun m _ _ => m, fun m _ => m⟩

example : ∃ i m s2, (Session.setBasisSet numDrivers (fun _ m => .inl (m + 10)) "a"
      ([SessionOp.setMolecule (.ok 3) none].foldl (Session.step numDrivers fun _ m => .inl (m + 10)) Session.init)).2.molecule = some i ∧
    (Session.setBasisSet numDrivers (fun _ m => .inl (m + 10)) "a"
      ([SessionOp.setMolecule (.ok 3) none].foldl (Session.step numDrivers fun _ m => .inl (m + 10)) Session.init)).2.mols[i]? = some m ∧
    ([SessionOp.readIntegral .kinetic, .runHartreeFock].foldl (Session.step numDrivers fun _ m => .inl (m + 10))
      (Session.setBasisSet numDrivers (fun _ m => .inl (m + 10)) "a" ([SessionOp.setMolecule (.ok 3) none].foldl
        (Session.step numDrivers fun _ m => .inl (m + 10)) Session.init)).2.initHartreeFock.2).runHartreeFock numDrivers =
      (.ok (hfInputOf numDrivers m), s2) :=
  C125_session [.setMolecule (.ok 3) none] "a" none [.readIntegral .kinetic, .runHartreeFock]
    (by intro op ho; simp at ho; rcases ho with rfl | rfl <;> trivial) _ rfl
    (by simp [Session.step, Session.init, Session.setMolecule, Session.setBasisSet, Session.setBasisOf])

/-! ### C126 -/

/-- C126: with output on everything that is logged is printed, in order; with output off and warnings on the warnings are;
otherwise nothing. -/
theorem C126_printed_partial (l : Logger) (calls : List LogCall) :
    (calls.foldl (fun l c => l.add c.content c.warning) l).printed =
      (calls.filter fun c => l.printOutput || (c.warning && l.printWarnings)).foldl (fun s c => s ++ c.text) l.printed := by
  induction calls generalizing l with
  | nil => rfl
  | cons c calls ih =>
    rw [List.foldl_cons, ih]
    have h1 : (l.add c.content c.warning).printOutput = l.printOutput := by
      unfold Logger.add
      simp only
      split_ifs <;> rfl
    have h2 : (l.add c.content c.warning).printWarnings = l.printWarnings := by
      unfold Logger.add
      simp only
      split_ifs <;> rfl
    rw [h1, h2, List.filter_cons]
    have h3 : (if c.warning = true then "WARNING: " ++ (c.content ++ "\n") else c.content ++ "\n") = c.text := by
      unfold LogCall.text
      cases c.warning
      · simp
      · simp [String.append_assoc]
    unfold Logger.add
    simp only [h3]
    cases l.printOutput <;> cases c.warning <;> cases l.printWarnings <;> simp

/-- The log itself, which `_HartreeFock.log` returns, stays empty whatever is logged. -/
theorem C126_log_disagree (calls : List LogCall) :
    (calls.foldl (fun l c => l.add c.content c.warning) Logger.init).log = "" := by
  have : ∀ (calls : List LogCall) (l : Logger), (calls.foldl (fun l c => l.add c.content c.warning) l).log = l.log := by
    intro calls
    induction calls with
    | nil => intro l; rfl
    | cons c calls ih =>
      intro l
      rw [List.foldl_cons, ih]
      unfold Logger.add
      simp only
      split_ifs <;> rfl
  exact this calls _

end SQ
