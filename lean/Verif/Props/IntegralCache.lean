import Mathlib.Tactic.NormNum
import Mathlib.Data.List.Induction
import Verif.Model.IntegralCache

/-!
# Property C68: integrals are computed once and for the current molecule
-/

namespace SQ

variable {M V : Type}

/-- The object after a sequence of operations. -/
def IntObj.after (d : Drivers M V) (o : IntObj M V) (ops : List IntOp) : IntObj M V := ops.foldl (IntObj.step d) o

/-- The operations in force: the last value given to a flag. -/
def lastOr {α : Type} (f : IntOp → Option α) (start : α) (ops : List IntOp) : α :=
  ops.foldl (fun a op => (f op).getD a) start

/-- Has the quantity been read while storing was on? -/
def storedRead (k : IntKind) (ops : List IntOp) : Prop :=
  ∃ before after, ops = before ++ .read k :: after ∧
    lastOr (fun op => match k, op with
      | .eri, .setStore2e b => some b
      | .overlap, .setStore1e b => some b
      | .kinetic, .setStore1e b => some b
      | .nuclear, .setStore1e b => some b
      | _, _ => none) true before = true

/-- What is known of the object after a sequence of operations without a change of the threshold. -/
structure IntInv (d : Drivers M V) (mol : M) (ops : List IntOp) (o : IntObj M V) : Prop where
  molEq : o.mol = mol
  cs : o.cs = d.cauchySchwarz mol
  threshold : o.threshold = (10 : ℝ) ^ (-12 : ℤ)
  store1e : o.store1e = lastOr (fun op => match op with | .setStore1e b => some b | _ => none) true ops
  store2e : o.store2e = lastOr (fun op => match op with | .setStore2e b => some b | _ => none) true ops
  force : o.force = lastOr (fun op => match op with | .setForce b => some b | _ => none) false ops
  value : ∀ k v, o.cache k = some v → v = o.compute d k
  filled : ∀ k, (o.cache k).isSome ↔ storedRead k ops

theorem lastOr_append {α : Type} (f : IntOp → Option α) (start : α) (ops : List IntOp) (op : IntOp) :
    lastOr f start (ops ++ [op]) = (f op).getD (lastOr f start ops) := by
  simp [lastOr]

theorem stores_eq (d : Drivers M V) {mol : M} {ops : List IntOp} {o : IntObj M V} (h : IntInv d mol ops o)
    (k : IntKind) :
    o.stores k = lastOr (fun op => match k, op with
      | .eri, .setStore2e b => some b
      | .overlap, .setStore1e b => some b
      | .kinetic, .setStore1e b => some b
      | .nuclear, .setStore1e b => some b
      | _, _ => none) true ops := by
  cases k
  · exact h.store1e.trans (by congr 1; funext op; cases op <;> rfl)
  · exact h.store1e.trans (by congr 1; funext op; cases op <;> rfl)
  · exact h.store1e.trans (by congr 1; funext op; cases op <;> rfl)
  · exact h.store2e.trans (by congr 1; funext op; cases op <;> rfl)

theorem storedRead_append (k : IntKind) (ops : List IntOp) (op : IntOp) :
    storedRead k (ops ++ [op]) ↔ storedRead k ops ∨ (op = .read k ∧
      lastOr (fun op => match k, op with
      | .eri, .setStore2e b => some b
      | .overlap, .setStore1e b => some b
      | .kinetic, .setStore1e b => some b
      | .nuclear, .setStore1e b => some b
      | _, _ => none) true ops = true) := by
  constructor
  · rintro ⟨before, after, h, hl⟩
    rcases List.eq_nil_or_concat after with rfl | ⟨after', x, rfl⟩
    · right
      have := List.append_inj' h rfl
      refine ⟨by simpa using this.2, ?_⟩
      rw [this.1]; exact hl
    · left
      rw [List.concat_eq_append, ← List.cons_append, ← List.append_assoc] at h
      have := List.append_inj' h rfl
      exact ⟨before, after', this.1, hl⟩
  · rintro (⟨before, after, h, hl⟩ | ⟨h, hl⟩)
    · exact ⟨before, after ++ [op], by rw [h]; simp, hl⟩
    · exact ⟨ops, [], by rw [h], hl⟩

theorem intInv_step (d : Drivers M V) {mol : M} {ops : List IntOp} {o : IntObj M V} (h : IntInv d mol ops o)
    (op : IntOp) (hop : ∀ t, op ≠ .setThreshold t) : IntInv d mol (ops ++ [op]) (o.step d op) := by
  cases op with
  | setThreshold t => exact absurd rfl (hop t)
  | setStore1e b =>
    exact { h with
      store1e := by simp [lastOr_append, IntObj.step]
      store2e := by simpa [lastOr_append, IntObj.step] using h.store2e
      force := by simpa [lastOr_append, IntObj.step] using h.force
      value := fun k v hv => (h.value k v hv).trans (by cases k <;> rfl)
      filled := fun k => (h.filled k).trans (by simp [storedRead_append]) }
  | setStore2e b =>
    exact { h with
      store1e := by simpa [lastOr_append, IntObj.step] using h.store1e
      store2e := by simp [lastOr_append, IntObj.step]
      force := by simpa [lastOr_append, IntObj.step] using h.force
      value := fun k v hv => (h.value k v hv).trans (by cases k <;> rfl)
      filled := fun k => (h.filled k).trans (by simp [storedRead_append]) }
  | setForce b =>
    exact { h with
      store1e := by simpa [lastOr_append, IntObj.step] using h.store1e
      store2e := by simpa [lastOr_append, IntObj.step] using h.store2e
      force := by simp [lastOr_append, IntObj.step]
      value := fun k v hv => (h.value k v hv).trans (by cases k <;> rfl)
      filled := fun k => (h.filled k).trans (by simp [storedRead_append]) }
  | read k =>
    have hst := stores_eq d h k
    by_cases hs : o.stores k = true
    · have hkeep : (o.step d (.read k) = o ∧ (o.cache k).isSome) ∨
          o.step d (.read k) = { o with cache := Function.update o.cache k (some (o.compute d k)) } := by
        simp only [IntObj.step, IntObj.read, hs, if_true]
        cases hc : o.cache k <;> cases hf : o.force <;> simp
      rcases hkeep with ⟨hk, hsome⟩ | hk
      · rw [hk]
        refine { h with
          store1e := by simpa [lastOr_append] using h.store1e
          store2e := by simpa [lastOr_append] using h.store2e
          force := by simpa [lastOr_append] using h.force
          filled := fun k' => ?_ }
        rw [storedRead_append, h.filled]
        constructor
        · exact Or.inl
        · rintro (h' | ⟨h', _⟩)
          · exact h'
          · cases h'; exact (h.filled k).1 hsome
      · rw [hk]
        refine { h with
          store1e := by simpa [lastOr_append] using h.store1e
          store2e := by simpa [lastOr_append] using h.store2e
          force := by simpa [lastOr_append] using h.force
          value := fun k' v hv => ?_
          filled := fun k' => ?_ }
        · by_cases hkk : k' = k
          · subst hkk
            simp only [Function.update_self, Option.some.injEq] at hv
            rw [← hv]; cases k' <;> rfl
          · simp only [Function.update_of_ne hkk] at hv
            exact (h.value k' v hv).trans (by cases k' <;> rfl)
        · rw [storedRead_append]
          by_cases hkk : k' = k
          · subst hkk
            simp only [Function.update_self, Option.isSome_some, true_iff]
            simp only [true_and]
            exact Or.inr (hst ▸ hs)
          · simp only [Function.update_of_ne hkk]
            rw [h.filled]
            constructor
            · exact Or.inl
            · rintro (h' | ⟨h', _⟩)
              · exact h'
              · cases h'; exact absurd rfl hkk
    · have hk : o.step d (.read k) = o := by simp [IntObj.step, IntObj.read, hs]
      rw [hk]
      refine { h with
        store1e := by simpa [lastOr_append] using h.store1e
        store2e := by simpa [lastOr_append] using h.store2e
        force := by simpa [lastOr_append] using h.force
        filled := fun k' => ?_ }
      rw [storedRead_append, h.filled]
      constructor
      · exact Or.inl
      · rintro (h' | ⟨h', hl⟩)
        · exact h'
        · cases h'
          exact absurd (hst.trans hl) hs

theorem intInv_after (d : Drivers M V) (mol : M) (ops : List IntOp) (hops : ∀ t, IntOp.setThreshold t ∉ ops) :
    IntInv d mol ops ((IntObj.init d mol).after d ops) := by
  induction ops using List.reverseRecOn with
  | nil =>
    refine ⟨rfl, rfl, rfl, rfl, rfl, rfl, fun k v hv => (nomatch hv), fun k => ?_⟩
    simp only [IntObj.after, List.foldl_nil, IntObj.init, Option.isSome_none, Bool.false_eq_true, false_iff]
    rintro ⟨b, a, h, _⟩
    simp at h
  | append_singleton ops op ih =>
    have h1 := ih (fun t ht => hops t (List.mem_append_left _ ht))
    have h2 := intInv_step d h1 op (fun t ht => hops t (by rw [ht]; simp))
    simpa [IntObj.after, List.foldl_append] using h2

/-- **C68.** After any sequence of reads and changes of the storage flags, a read returns what the driver gives
for the object's molecule, and it runs the driver exactly when storing is off, recomputation is forced, or the
quantity has not been read before with storing on. (The threshold is left alone; see
`C68_threshold_disagree`.) -/
theorem C68_reads (d : Drivers M V) (mol : M) (ops : List IntOp) (hops : ∀ t, IntOp.setThreshold t ∉ ops)
    (k : IntKind) :
    let o := (IntObj.init d mol).after d ops
    (o.read d k).1 = (match k with
      | .overlap => d.overlap mol
      | .kinetic => d.kinetic mol
      | .nuclear => d.nuclear mol
      | .eri => d.eri mol (d.cauchySchwarz mol) ((10 : ℝ) ^ (-12 : ℤ))) ∧
    ((o.read d k).2.1 = true ↔ o.stores k = false ∨ o.force = true ∨ ¬ storedRead k ops) := by
  intro o
  have h : IntInv d mol ops o := intInv_after d mol ops hops
  have hcomp : o.compute d k = (match k with
      | .overlap => d.overlap mol
      | .kinetic => d.kinetic mol
      | .nuclear => d.nuclear mol
      | .eri => d.eri mol (d.cauchySchwarz mol) ((10 : ℝ) ^ (-12 : ℤ))) := by
    cases k <;> simp only [IntObj.compute, h.molEq, h.cs, h.threshold]
  rw [← hcomp, ← h.filled k]
  unfold IntObj.read
  cases hs : o.stores k
  · simp
  · cases hc : o.cache k with
    | none => cases o.force <;> simp
    | some v => cases o.force <;> simp [h.value k v hc]

/-- Changing the screening threshold after the two-electron integrals have been stored has no effect on what is
read: the tensor is still the one for the old threshold. -/
theorem C68_threshold_disagree (d : Drivers M V) (mol : M) (t : ℝ) :
    let o := (IntObj.init d mol).after d [.read .eri, .setThreshold t]
    o.threshold = t ∧ (o.read d .eri).1 = d.eri mol (d.cauchySchwarz mol) ((10 : ℝ) ^ (-12 : ℤ)) ∧
    (o.read d .eri).2.1 = false := by
  simp [IntObj.after, IntObj.step, IntObj.read, IntObj.init, IntObj.stores, IntObj.compute]

/-! ### The facade -/

/-- The calls on the facade. -/
inductive FacadeOp (M : Type) where
  | setMolecule (new : Res M) (basis : Option String)
  | setBasisSet (b : String)

/-- One call. -/
noncomputable def Facade.step (d : Drivers M V) (sb : String → M → Res M) (f : Facade M V) :
    FacadeOp M → Res (Facade M V)
  | .setMolecule new basis => f.setMolecule d sb new basis
  | .setBasisSet b => f.setBasisSet d sb b

/-- A sequence of calls; it ends at the first exception. -/
noncomputable def Facade.run (d : Drivers M V) (sb : String → M → Res M) (f : Facade M V) :
    List (FacadeOp M) → Res (Facade M V)
  | [] => .ok f
  | op :: ops => do
    let f ← f.step d sb op
    f.run d sb ops

/-- **C68, for the facade.** As long as every molecule is set together with a basis set, the integral object
always belongs to the current molecule. -/
theorem C68_facade_partial (d : Drivers M V) (sb : String → M → Res M) (ops : List (FacadeOp M))
    (hops : ∀ new, FacadeOp.setMolecule new none ∉ ops) (f f' : Facade M V)
    (hf : f.integral.map IntObj.mol = f.molecule) (h : f.run d sb ops = .ok f') :
    f'.integral.map IntObj.mol = f'.molecule := by
  induction ops generalizing f with
  | nil => cases h; exact hf
  | cons op ops ih =>
    simp only [Facade.run] at h
    cases hstep : f.step d sb op with
    | error e => rw [hstep] at h; cases h
    | ok g =>
      rw [hstep] at h
      refine ih (fun new hn => hops new (List.mem_cons_of_mem _ hn)) g ?_ h
      cases op with
      | setMolecule new basis =>
        cases basis with
        | none => exact absurd (List.mem_cons_self) (hops new)
        | some b =>
          simp only [Facade.step, Facade.setMolecule] at hstep
          cases new with
          | error e => cases hstep
          | ok m =>
            simp only [bind, Except.bind] at hstep
            cases hsb : sb b m with
            | error e => rw [hsb] at hstep; cases hstep
            | ok m' => rw [hsb] at hstep; cases hstep; rfl
      | setBasisSet b =>
        simp only [Facade.step, Facade.setBasisSet] at hstep
        cases hm : f.molecule with
        | none => rw [hm] at hstep; cases hstep; exact hf
        | some m =>
          rw [hm] at hstep
          simp only [bind, Except.bind] at hstep
          cases hsb : sb b m with
          | error e => rw [hsb] at hstep; cases hstep
          | ok m' => rw [hsb] at hstep; cases hstep; rfl

/-- **C68 does not hold for the facade.** Setting a new molecule without naming a basis set keeps the integral
object of the old molecule: its overlap matrix is the old molecule's. -/
theorem C68_facade_disagree (d : Drivers M V) (sb : String → M → Res M) (m₁ m₂ : M) (b : String)
    (hb : sb b m₁ = .ok m₁) :
    ∃ f o, Facade.run d sb ⟨none, none⟩ [.setMolecule (.ok m₁) (some b), .setMolecule (.ok m₂) none] = .ok f ∧
      f.molecule = some m₂ ∧ f.integral = some o ∧ (o.read d .overlap).1 = d.overlap m₁ := by
  refine ⟨⟨some m₂, some (IntObj.init d m₁)⟩, IntObj.init d m₁, ?_, rfl, rfl, rfl⟩
  simp [Facade.run, Facade.step, Facade.setMolecule, bind, Except.bind, hb]

/-! ### The integral manager -/

/-- What the source of a manager holds, for a SlowQuant object after any use of it. -/
def IntSource.value (d : Drivers M V) : IntSource M V → IntKind → Option V
  | .slowquant o, .kinetic => some (o.compute d .kinetic)
  | .slowquant o, .nuclear => some (o.compute d .nuclear)
  | .slowquant o, .eri => some (o.compute d .eri)
  | .pyscf kin _ _, .kinetic => some kin
  | .pyscf _ nuc _, .nuclear => some nuc
  | .pyscf _ _ eri, .eri => some eri
  | _, _ => none

/-- The source's caches hold driver values. -/
def IntSource.Sound (d : Drivers M V) : IntSource M V → Prop
  | .slowquant o => ∀ k v, o.cache k = some v → v = o.compute d k
  | _ => True

theorem source_read (d : Drivers M V) (s : IntSource M V) (hs : s.Sound d) (k : IntKind) (hk : k ≠ .overlap)
    (v : V) (hv : s.value d k = some v) :
    ∃ s', s.read d k = .ok (v, s') ∧ s'.Sound d ∧ ∀ k', s'.value d k' = s.value d k' := by
  cases s with
  | other => cases k <;> cases hv
  | pyscf kin nuc eri =>
    cases k
    · exact absurd rfl hk
    all_goals
      cases hv
      exact ⟨_, rfl, trivial, fun _ => rfl⟩
  | slowquant o =>
    have hv' : v = o.compute d k := by
      cases k
      · exact absurd rfl hk
      all_goals (cases hv; rfl)
    have hread : (o.read d k).1 = v ∧ ((o.read d k).2.2 = o ∨
        (o.read d k).2.2 = { o with cache := Function.update o.cache k (some v) }) := by
      unfold IntObj.read
      cases hst : o.stores k
      · simp [hv']
      · cases hc : o.cache k with
        | none => cases o.force <;> simp [hv']
        | some w => cases o.force <;> simp [hv', hs k w hc]
    refine ⟨.slowquant (o.read d k).2.2, by simp only [IntSource.read, hread.1], ?_, ?_⟩
    · rcases hread.2 with h | h <;> rw [h]
      · exact hs
      · intro k' w hw
        by_cases hkk : k' = k
        · subst hkk
          simp only [Function.update_self, Option.some.injEq] at hw
          rw [← hw, hv']; cases k' <;> rfl
        · simp only [Function.update_of_ne hkk] at hw
          exact (hs k' w hw).trans (by cases k' <;> rfl)
    · intro k'
      rcases hread.2 with h | h <;> rw [h]
      cases k' <;> rfl

/-- The value a read of the manager must have. -/
def mgrValue [Add V] (kin nuc eri : V) : MgrOp → V
  | .kin => kin
  | .nuc => nuc
  | .eri => eri
  | .hAo => nuc + kin

/-- Invariant of a manager whose source has the given integrals. -/
structure MgrInv [Add V] (d : Drivers M V) (kin nuc eri : V) (g : IntMgr M V) : Prop where
  sound : g.src.Sound d
  kinV : g.src.value d .kinetic = some kin
  nucV : g.src.value d .nuclear = some nuc
  eriV : g.src.value d .eri = some eri
  kinC : ∀ v, g.kin = some v → v = kin
  nucC : ∀ v, g.nuc = some v → v = nuc
  eriC : ∀ v, g.eri = some v → v = eri
  hC : ∀ v, g.hAo = some v → v = nuc + kin

theorem mgr_readKin [Add V] (d : Drivers M V) {kin nuc eri : V} {g : IntMgr M V} (h : MgrInv d kin nuc eri g) :
    ∃ g', g.readKin d = .ok (kin, g') ∧ MgrInv d kin nuc eri g' := by
  unfold IntMgr.readKin
  cases hc : g.kin with
  | some v => exact ⟨g, by rw [h.kinC v hc], h⟩
  | none =>
    obtain ⟨s', hr, h1, h2⟩ := source_read d g.src h.sound .kinetic (by decide) kin h.kinV
    refine ⟨{ g with src := s', kin := some kin }, by simp only [hr, bind, Except.bind], ?_⟩
    exact ⟨h1, (h2 _).trans h.kinV, (h2 _).trans h.nucV, (h2 _).trans h.eriV,
      fun v hv => by cases hv; rfl, h.nucC, h.eriC, h.hC⟩

theorem mgr_readNuc [Add V] (d : Drivers M V) {kin nuc eri : V} {g : IntMgr M V} (h : MgrInv d kin nuc eri g) :
    ∃ g', g.readNuc d = .ok (nuc, g') ∧ MgrInv d kin nuc eri g' := by
  unfold IntMgr.readNuc
  cases hc : g.nuc with
  | some v => exact ⟨g, by rw [h.nucC v hc], h⟩
  | none =>
    obtain ⟨s', hr, h1, h2⟩ := source_read d g.src h.sound .nuclear (by decide) nuc h.nucV
    refine ⟨{ g with src := s', nuc := some nuc }, by simp only [hr, bind, Except.bind], ?_⟩
    exact ⟨h1, (h2 _).trans h.kinV, (h2 _).trans h.nucV, (h2 _).trans h.eriV,
      h.kinC, fun v hv => by cases hv; rfl, h.eriC, h.hC⟩

theorem mgr_readEri [Add V] (d : Drivers M V) {kin nuc eri : V} {g : IntMgr M V} (h : MgrInv d kin nuc eri g) :
    ∃ g', g.readEri d = .ok (eri, g') ∧ MgrInv d kin nuc eri g' := by
  unfold IntMgr.readEri
  cases hc : g.eri with
  | some v => exact ⟨g, by rw [h.eriC v hc], h⟩
  | none =>
    obtain ⟨s', hr, h1, h2⟩ := source_read d g.src h.sound .eri (by decide) eri h.eriV
    refine ⟨{ g with src := s', eri := some eri }, by simp only [hr, bind, Except.bind], ?_⟩
    exact ⟨h1, (h2 _).trans h.kinV, (h2 _).trans h.nucV, (h2 _).trans h.eriV,
      h.kinC, h.nucC, fun v hv => by cases hv; rfl, h.hC⟩

theorem mgr_read [Add V] (d : Drivers M V) {kin nuc eri : V} {g : IntMgr M V} (h : MgrInv d kin nuc eri g)
    (op : MgrOp) : ∃ g', g.read d op = .ok (mgrValue kin nuc eri op, g') ∧ MgrInv d kin nuc eri g' := by
  cases op with
  | kin => exact mgr_readKin d h
  | nuc => exact mgr_readNuc d h
  | eri => exact mgr_readEri d h
  | hAo =>
    simp only [IntMgr.read, IntMgr.readHao, mgrValue]
    cases hc : g.hAo with
    | some v => exact ⟨g, by rw [h.hC v hc], h⟩
    | none =>
      obtain ⟨g1, hr1, h1⟩ := mgr_readNuc d h
      obtain ⟨g2, hr2, h2⟩ := mgr_readKin d h1
      refine ⟨{ g2 with hAo := some (nuc + kin) }, ?_, ?_⟩
      · cases hsrc : g.src with
        | other => have := h.kinV; rw [hsrc] at this; cases this
        | slowquant o => simp only [hr1, bind, Except.bind, hr2]
        | pyscf => simp only [hr1, bind, Except.bind, hr2]
      · exact { h2 with hC := fun v hv => by cases hv; rfl }

/-- **C68, for the integral manager.** Whatever is read from a manager, in whatever order and how often, the
values are those its source gives (for a SlowQuant object: the drivers' values for its molecule), and the core
Hamiltonian is the sum of nuclear attraction and kinetic energy. An unknown source always raises `ValueError`. -/
theorem C68_manager [Add V] (d : Drivers M V) (s : IntSource M V) (hs : s.Sound d) (kin nuc eri : V)
    (hk : s.value d .kinetic = some kin) (hn : s.value d .nuclear = some nuc)
    (he : s.value d .eri = some eri) (ops : List MgrOp) :
    ∃ g, (ops.foldlM (fun g op => (g.read d op).map Prod.snd) (IntMgr.init s) : Res (IntMgr M V)) = .ok g ∧
      ∀ op, ∃ g', g.read d op = .ok (mgrValue kin nuc eri op, g') := by
  have main : ∀ (ops : List MgrOp) (g : IntMgr M V), MgrInv d kin nuc eri g →
      ∃ g', (ops.foldlM (fun g op => (g.read d op).map Prod.snd) g : Res (IntMgr M V)) = .ok g' ∧
        MgrInv d kin nuc eri g' := by
    intro ops
    induction ops with
    | nil => exact fun g hg => ⟨g, rfl, hg⟩
    | cons op ops ih =>
      intro g hg
      obtain ⟨g1, hr, hg1⟩ := mgr_read d hg op
      obtain ⟨g2, hr2, hg2⟩ := ih g1 hg1
      refine ⟨g2, ?_, hg2⟩
      rw [List.foldlM_cons, hr]
      exact hr2
  obtain ⟨g, hr, hg⟩ := main ops (IntMgr.init s)
    ⟨hs, hk, hn, he, fun v h => (nomatch h), fun v h => (nomatch h), fun v h => (nomatch h),
      fun v h => (nomatch h)⟩
  refine ⟨g, hr, fun op => ?_⟩
  obtain ⟨g', h, _⟩ := mgr_read d hg op
  exact ⟨g', h⟩

/-- A manager of an unknown object raises on every read. -/
theorem C68_manager_unknown [Add V] (d : Drivers M V) (op : MgrOp) :
    (IntMgr.init (.other : IntSource M V)).read d op = .error .valueError := by
  cases op <;> rfl

/-- Two reads, one driver call, the same value; then a forced one. -/
example : let d : Drivers ℕ ℕ := ⟨fun m => m + 1, id, id, id, fun m _ _ => m, fun m _ => m⟩
    let o := (IntObj.init d 4).after d [.read .overlap]
    (o.read d .overlap).1 = 5 ∧ (o.read d .overlap).2.1 = false ∧
    ((o.after d [.setForce true]).read d .overlap).2.1 = true :=
  ⟨rfl, rfl, rfl⟩

end SQ
