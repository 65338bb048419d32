import Verif.Lemmas.Spin
import Verif.Props.Structures
import Verif.Props.Ucc
import Verif.Props.PerfectPairing

/-!
# C122: spin-adapted ansatzes keep the total spin

`sSq`, `sZ`, `HasSpin`, `SpinKeeping`, `KeepsSpin`, `ClosedShell`, `UpsCall.Adapted`: Spec/Spin.lean.
-/

namespace SQ

/-! ### States -/

theorem HasSpin.chain {N : ℕ} {s m : ℝ} {x y : Fock ℝ} {l : List (FOp ℝ × ℝ)} (h : HasSpin N s m x)
    (hc : ExpChain l x y) (hl : ∀ t ∈ l, SpinFree N t.1) : HasSpin N s m y :=
  ⟨hc.eigen (adjoint_sSq N) (fun t ht => (hl t ht).sq) h.1, hc.eigen (adjoint_sZ N) (fun t ht => (hl t ht).z) h.2⟩

theorem spinFree_layout {off n N : ℕ} {types : List String} {indices : List (List ℕ)} {Ts : List (FOp ℝ)}
    (h : Layout off n types indices Ts) (hN : off + n ≤ N) (k : KeepsSpin types indices) : ∀ T ∈ Ts, SpinFree N T := by
  induction h with
  | nil => intro T hT; cases hT
  | cons he _ ih =>
    intro T hT
    rcases List.mem_cons.1 hT with rfl | hT
    · exact spinFree_keeping he (k (_, _) (List.mem_cons_self)) hN
    · exact ih (fun x hx => k x (by simp [hx])) T hT

section
variable {tiny : ℝ → Bool} {ci : CIInfo} {n : ℕ} {th : Threads}

/-- C122: a unitary product ansatz made of spin-adapted and pair excitations turns a state of total spin `s` and
projection `m` into such a state, for all parameters; so does its inverse. -/
theorem C122_ups (ht : ExactTiny tiny) (hs : AnsatzSpace ci n) (hth : th.Fair ci.idx2det.length)
    {st : AnsatzStruct} {Ts : List (FOp ℝ)} (h : Layout ci.offset n st.types st.indices Ts)
    (hk : KeepsSpin st.types st.indices) (thetas : List ℝ) (dagger : Bool) (v : Vec ℝ) {N : ℕ}
    (hN : ci.offset + n ≤ N) {s m : ℝ} (hv : HasSpin N s m (stateOf ci v)) :
    ∃ w, constructUps (propVec tiny th ci) tiny ci.offset st thetas dagger v = .ok w ∧
      HasSpin N s m (stateOf ci w) := by
  have hf := spinFree_layout h hN hk
  obtain ⟨⟨w, h1, h2⟩, ⟨w', h1', h2'⟩⟩ := C26_state ht hs hth h thetas v
  cases dagger
  · exact ⟨w, h1, hv.chain h2 fun t ht => hf _ (List.of_mem_zip ht).1⟩
  · exact ⟨w', h1', hv.chain h2' fun t ht => hf _ (List.mem_reverse.1 (List.of_mem_zip ht).1)⟩

/-- C122: the same for the UCC state. -/
theorem C122_ucc (ht : ExactTiny tiny) (hs : AnsatzSpace ci n) {st : AnsatzStruct} {Ts : List (FOp ℝ)}
    (h : Layout ci.offset n st.types st.indices Ts) (hk : KeepsSpin st.types st.indices) (thetas : List ℝ)
    (dagger : Bool) (v : Vec ℝ) {N : ℕ} (hN : ci.offset + n ≤ N) {s m : ℝ} (hv : HasSpin N s m (stateOf ci v)) :
    ∃ w, constructUcc tiny ci st thetas dagger v = .ok w ∧ HasSpin N s m (stateOf ci w) := by
  have hf := spinFree_layout h hN hk
  have hu : ∀ (types : List String) (Ts : List (FOp ℝ)) (thetas : List ℝ), (∀ T ∈ Ts, SpinFree N T) →
      SpinFree N (uccOp types Ts thetas) := by
    intro types Ts
    induction Ts generalizing types with
    | nil => intro thetas _; cases types <;> exact SpinFree.zero
    | cons T Ts ih =>
      intro thetas hT
      match types, thetas with
      | [], _ => exact SpinFree.zero
      | _ :: _, [] => exact SpinFree.zero
      | ty :: types, θ :: thetas =>
        exact ((hT T (by simp)).smul _).add (ih types thetas fun T' h' => hT T' (by simp [h']))
  obtain ⟨w, h1, h2⟩ := C72_exponential ht hs h thetas dagger v
  exact ⟨w, h1, hv.chain (.cons h2 (.nil _)) fun t ht => by
    rw [List.mem_singleton.1 ht]; exact (hu _ _ _ hf).smul _⟩
end

/-! ### Which structures -/

theorem keepsSpin_of_entries {types : List String} {indices : List (List ℕ)} {es : List Entry}
    (h1 : types = es.map Entry.ty) (h2 : indices = es.map Entry.idx) (h : ∀ e ∈ es, SpinKeeping e.ty e.idx) :
    KeepsSpin types indices := by
  subst h1 h2
  intro x hx
  rw [List.zip_map', List.mem_map] at hx
  obtain ⟨e, he, rfl⟩ := hx
  exact h e he

theorem keeping_tiled (n : ℕ) (t q s L : ℤ) (k : ℕ) : ∀ e ∈ tiledLayer n t q s L k, SpinKeeping e.ty e.idx := by
  have block : ∀ (skip : Bool) (p : ℕ), ∀ e ∈ tiledBlock t q skip p, SpinKeeping e.ty e.idx := by
    intro skip p e he
    unfold tiledBlock at he
    rw [List.mem_append, List.mem_append] at he
    rcases he with (he | he) | he
    · split_ifs at he
      · rw [List.mem_singleton.1 he]; exact .adapted (by simp) _
      · cases he
    · rw [List.mem_singleton.1 he]
      exact SpinKeeping.pair p (p + 1)
    · split_ifs at he
      · cases he
      · rw [List.mem_singleton.1 he]; exact .adapted (by simp) _
      · cases he
  intro e he
  unfold tiledLayer at he
  rw [List.mem_append] at he
  rcases he with he | he <;> obtain ⟨p, -, he⟩ := List.mem_flatMap.1 he <;> exact block _ p e he

theorem keeping_fucc {L : OrbLists} {o : Options}
    (ho : ∀ k ∈ ["S", "GS", "D", "GD", "T", "Q", "5", "6"], o.flag k = 0) :
    ∀ e ∈ fuccLayer L o, SpinKeeping e.ty e.idx := by
  intro e he
  have h := (mem_fuccLayer (L := L) (o := o)).1 ⟨e, he, rfl, rfl⟩
  generalize e.ty = ty at h
  generalize e.idx = idx at h
  cases h with
  | spin k hk hs =>
    obtain ⟨k1, k6⟩ := hk
    exact absurd (ho _ (by interval_cases k <;> decide)) hs
  | generalizedSingle hs => exact absurd (ho _ (by decide)) hs
  | saSingle => exact .adapted (by simp) _
  | generalizedSaSingle => exact .adapted (by simp) _
  | generalizedDouble hs => exact absurd (ho _ (by decide)) hs
  | pairDouble _ i a => exact .pair i a
  | generalizedPairDouble _ i a => exact .pair i a
  | saDouble hs i j a b c h1 h2 h3 =>
    refine .adapted ?_ _
    rcases h3 with ⟨-, -, h⟩ | ⟨-, -, h⟩ | ⟨-, -, h⟩ | ⟨-, -, h | h⟩ <;> rw [h] <;> decide

theorem keeping_sds {L : OrbLists} {o : Options} (hd : o.flag "D" = 0) (hp : o.flag "pD" = 0) :
    ∀ e ∈ sdsLayer L o, SpinKeeping e.ty e.idx := by
  intro e he
  unfold sdsLayer at he
  simp only [List.mem_append, mem_blockIf] at he
  rcases he with (⟨h, -⟩ | ⟨h, -⟩) | ⟨-, he⟩
  · exact absurd hd h
  · exact absurd hp h
  · obtain ⟨x, hx, he⟩ := List.mem_flatMap.1 he
    obtain ⟨a, i, h1, h2, rfl⟩ := ((C35_generalized_singles L.numOrbs).2.2.2 x).1 hx
    simp only [sdsGenPairBody, List.mem_cons, List.not_mem_nil, or_false] at he
    rcases he with rfl | rfl | rfl
    · exact .adapted (by simp) _
    · exact .pair i a
    · exact .adapted (by simp) _

/-- C122: tUPS and QNP structures, and the others unless they are asked for spin-orbital excitations that are not
pair excitations, consist of entries that keep the spin. -/
theorem C122_structures {n : ℕ} (calls : List UpsCall) (h : ∀ c ∈ calls, c.Fits n ∧ c.Adapted) :
    let s := calls.foldl UpsCall.run {}
    KeepsSpin s.types s.indices := by
  intro s
  have step : ∀ {s : UpsStruct} {es : List Entry}, Built s es → ∀ c : UpsCall, c.Fits n → c.Adapted →
      ∃ l, Built (c.run s) (es ++ l) ∧ ∀ e ∈ l, SpinKeeping e.ty e.idx := by
    intro s es hb c hf ha
    have keep : ∃ l : List Entry, Built s (es ++ l) ∧ ∀ e ∈ l, SpinKeeping e.ty e.idx :=
      ⟨[], by simpa using hb, by simp⟩
    match c, hf, ha with
    | .tiled m o, _, _ =>
      unfold UpsCall.run createTiled
      dsimp only
      split
      · exact keep
      · split_ifs
        · exact keep
        · exact keep
        · refine ⟨_, hb.addAll _, fun e he => ?_⟩
          obtain ⟨k, -, he⟩ := List.mem_flatMap.1 he
          exact keeping_tiled _ _ _ _ _ _ e he
    | .fucc L o, _, ha =>
      unfold UpsCall.run createFucc
      dsimp only
      split
      · exact keep
      · split_ifs
        · exact keep
        · refine ⟨_, hb.addAll _, fun e he => ?_⟩
          obtain ⟨k, -, he⟩ := List.mem_flatMap.1 he
          exact keeping_fucc ha e he
    | .sds L o, hf, ha =>
      unfold UpsCall.run createSds
      dsimp only
      split
      · exact keep
      · split_ifs
        · exact keep
        · refine ⟨_, hb.addAll _, fun e he => ?_⟩
          obtain ⟨k, -, he⟩ := List.mem_flatMap.1 he
          exact keeping_sds ha hf.2.2 e he
  have key : ∀ (calls : List UpsCall) {s : UpsStruct} {es : List Entry}, (∀ c ∈ calls, c.Fits n ∧ c.Adapted) →
      Built s es → (∀ e ∈ es, SpinKeeping e.ty e.idx) →
      ∃ es', Built (calls.foldl UpsCall.run s) es' ∧ ∀ e ∈ es', SpinKeeping e.ty e.idx := by
    intro calls
    induction calls with
    | nil => intro s es _ hb he; exact ⟨es, hb, he⟩
    | cons c calls ih =>
      intro s es hc hb he
      obtain ⟨l, hb', hl⟩ := step hb c (hc c (by simp)).1 (hc c (by simp)).2
      refine ih (fun c' h' => hc c' (by simp [h'])) hb' fun e h' => ?_
      rcases List.mem_append.1 h' with h' | h'
      · exact he e h'
      · exact hl e h'
  obtain ⟨es, hb, he⟩ := key calls h built_nil (by simp)
  exact keepsSpin_of_entries hb.types hb.indices he

/-- C122: UCC structures of singles and doubles consist of entries that keep the spin. -/
theorem C122_ucc_structures (L : OrbLists) (calls : List UccCall)
    (h : ∀ c ∈ calls, c = .saSingles ∨ c = .saDoubles) :
    let s := calls.foldl (UccCall.run L) {}
    KeepsSpin s.types s.indices := by
  intro s
  have key : ∀ (calls : List UccCall) (s : UccStruct) (es : List Entry), (∀ c ∈ calls, c = .saSingles ∨ c = .saDoubles) →
      UccBuilt s es → (∀ e ∈ es, SpinKeeping e.ty e.idx) →
      ∃ es', UccBuilt (calls.foldl (UccCall.run L) s) es' ∧ ∀ e ∈ es', SpinKeeping e.ty e.idx := by
    intro calls
    induction calls with
    | nil => intro s es _ h hg; exact ⟨es, h, hg⟩
    | cons c calls ih =>
      intro s es hc h hg
      have step : ∃ l, UccBuilt (c.run L s) (es ++ l) ∧ ∀ e ∈ l, SpinKeeping e.ty e.idx := by
        rcases hc c (by simp) with rfl | rfl
        · refine ⟨_, UccBuilt.fold (g := fun x : ℕ × ℕ × ℝ => ⟨"sa_single", [x.2.1, x.1], some 4⟩)
            (iterateT1sa L.occ L.unocc) (fun _ _ _ => rfl) h, fun e he => ?_⟩
          obtain ⟨x, hx, rfl⟩ := List.mem_map.1 he
          exact .adapted (by simp) _
        · refine ⟨_, UccBuilt.fold (f := UccStruct.addSaDouble)
            (g := fun x : SaDouble => ⟨saDoubleName x.case, [x.i, x.j, x.a, x.b], none⟩)
            (iterateT2sa L.occ L.unocc) (fun x hx s => ?_) h, fun e he => ?_⟩
          · obtain ⟨-, -, h3⟩ := mem_T2sa hx
            unfold UccStruct.addSaDouble UccStruct.add
            rcases h3 with ⟨-, -, h⟩ | ⟨-, -, h⟩ | ⟨-, -, h⟩ | ⟨-, -, h | h⟩ <;> rw [h] <;> rfl
          · obtain ⟨x, hx, rfl⟩ := List.mem_map.1 he
            obtain ⟨-, -, h3⟩ := mem_T2sa hx
            refine .adapted ?_ _
            rcases h3 with ⟨-, -, h⟩ | ⟨-, -, h⟩ | ⟨-, -, h⟩ | ⟨-, -, h | h⟩ <;> rw [h] <;> simp [saDoubleName]
      obtain ⟨l, b, g⟩ := step
      rw [List.foldl_cons]
      refine ih _ _ (fun c' h' => hc c' (by simp [h'])) b fun e he => ?_
      rcases List.mem_append.1 he with he | he
      · exact hg e he
      · exact g e he
  obtain ⟨es, hb, he⟩ := key calls {} [] h ⟨rfl, rfl, rfl⟩ (by simp)
  exact keepsSpin_of_entries hb.1 hb.2.1 he

/-! ### Reference determinants -/

theorem number_ket (p : ℕ) (S : Finset ℕ) : (cr p * an p : FOp ℝ) (ket S) = (if p ∈ S then (1 : ℝ) else 0) • ket S := by
  show cr p (an p (sgl S 1)) = _
  rw [an_single]
  by_cases h : p ∈ S
  · rw [if_pos h, if_pos h, cr_single, if_neg (Finset.notMem_erase p S), Finset.insert_erase h, one_mul,
      phase_erase_ge S p p (lt_irrefl p), phase_sq, one_smul]
  · rw [if_neg h, if_neg h, map_zero, zero_smul]

/-- C122: a determinant of doubly occupied orbitals is a singlet. -/
theorem C122_closed_shell (N : ℕ) {S : Finset ℕ} (h : ClosedShell S) : HasSpin N 0 0 (ket S) := by
  have hp : sPlus N (ket S) = 0 := by
    unfold sPlus spinSum
    rw [LinearMap.sum_apply]
    refine Finset.sum_eq_zero fun p _ => ?_
    show cr (2 * p + 0) (an (2 * p + 1) (sgl S 1)) = 0
    rw [an_single, add_zero]
    by_cases h1 : 2 * p + 1 ∈ S
    · rw [if_pos h1, cr_single, if_pos (Finset.mem_erase.2 ⟨by omega, (h p).2 h1⟩)]
    · rw [if_neg h1, map_zero]
  have hz : sZ N (ket S) = 0 := by
    unfold sZ spinSum
    rw [LinearMap.smul_apply, LinearMap.sub_apply, LinearMap.sum_apply, LinearMap.sum_apply, ← Finset.sum_sub_distrib,
      Finset.sum_eq_zero, smul_zero]
    intro p _
    rw [number_ket, number_ket, add_zero, if_congr (h p) rfl rfl, sub_self]
  refine ⟨?_, by rw [hz, zero_smul]⟩
  unfold sSq
  rw [LinearMap.add_apply, Module.End.mul_apply, Module.End.mul_apply, LinearMap.add_apply, hp, hz, map_zero, zero_add,
    Module.End.one_apply, zero_add, zero_mul, zero_smul]
  show sZ N (ket S) = 0
  exact hz

/-- C122: from the Hartree-Fock or the perfect-pairing determinant, spin-adapted ansatzes give singlets, for all
parameters. -/
theorem C122_singlet {tiny : ℝ → Bool} {th : Threads} (ht : ExactTiny tiny) {ci : CIInfo} {nI nA nV o : ℕ} (hA : 0 < nA)
    (ho : o ≤ nA) (hci : getIndexing nI nA nV o o = .ok ci) (hth : th.Fair ci.idx2det.length) (calls : List UpsCall)
    (hc : ∀ c ∈ calls, c.Fits nA ∧ c.Adapted) (thetas : List ℝ) {det : List Bool}
    (hd : det = hfDet (2 * nA) (2 * o) ∨ ppDet (2 * nA) (2 * o) = .ok det) :
    ∃ v w : Vec ℝ, reference ci det = .ok v ∧
      constructUps (propVec tiny th ci) tiny ci.offset (calls.foldl UpsCall.run {}).ansatz thetas false v = .ok w ∧
      ∀ N, nA ≤ N → HasSpin N 0 0 (stateOf ci w) := by
  obtain ⟨ci', g1, g2, g3⟩ := (C26_spaces nI nA nV o o 0).1 hA
  obtain rfl : ci' = ci := Except.ok.inj (g1.symm.trans hci)
  have hv : ∃ v : Vec ℝ, reference ci' det = .ok v ∧ ∃ S, ClosedShell S ∧ stateOf ci' v = ket S := by
    rcases hd with rfl | hd
    · obtain ⟨v, h1, h2⟩ := C73_hartree_fock (R := ℝ) hA ho hci
      exact ⟨v, h1, _, fun p => by simp only [Finset.mem_range]; omega, h2⟩
    · obtain ⟨det', e1, -, -, -, v, h1, h2⟩ := C73_perfect_pairing (R := ℝ) hA ho hci
      obtain rfl : det' = det := Except.ok.inj (e1.symm.trans hd)
      refine ⟨v, h1, _, fun p => ?_, h2⟩
      rw [Finset.mem_filter, Finset.mem_filter, Finset.mem_range, Finset.mem_range, show 2 * p / 2 = p by omega,
        show (2 * p + 1) / 2 = p by omega]
      exact and_congr_left fun _ => by omega
  obtain ⟨v, h1, S, hS, h2⟩ := hv
  obtain ⟨Ts, hT⟩ := (C36_ups_layout calls fun c h => (hc c h).1).1 ci'.offset
  have off : ci'.offset = 0 := by have := g2.fits; omega
  rw [← g3] at hT
  obtain ⟨w, hw, -⟩ := C122_ups ht g2 hth hT (C122_structures calls hc) thetas false v (N := nA) (by omega)
    (by rw [h2]; exact C122_closed_shell nA hS)
  refine ⟨v, w, h1, hw, fun N hN => ?_⟩
  obtain ⟨w', hw', hs⟩ := C122_ups ht g2 hth hT (C122_structures calls hc) thetas false v (N := N) (by omega)
    (by rw [h2]; exact C122_closed_shell N hS)
  obtain rfl : w = w' := Except.ok.inj (hw.symm.trans hw')
  exact hs

/-- C122: the Hamiltonian built by `hamiltonian_full_space` keeps the spin: it maps states of total spin `s` and
projection `m` to such states, and has no matrix elements between states of different total spin. -/
theorem C122_hamiltonian {tiny : ℝ → Bool} (ht : ExactTiny tiny) (h : ℕ → ℕ → ℝ) (g : ℕ → ℕ → ℕ → ℕ → ℝ)
    {n N : ℕ} (hN : n ≤ N) : ∃ H, hamiltonianFull tiny h g n = .ok H ∧
      (∀ {s m : ℝ} {x : Fock ℝ}, HasSpin N s m x → HasSpin N s m (sumOp H x)) ∧
      ∀ {s m s' m' : ℝ} {x y : Fock ℝ}, HasSpin N s m x → HasSpin N s' m' y → s * (s + 1) ≠ s' * (s' + 1) →
        inner x (sumOp H y) = 0 := by
  obtain ⟨H, h1, -, h3⟩ := den_hamiltonianFull ht h g n
  have hf : SpinFree N (sumOp H) := by
    rw [h3]
    simp only [list_sum_range]
    refine SpinFree.add ?_ ?_
    · exact SpinFree.sum fun p hp => SpinFree.sum fun q hq =>
        (SpinFree.E ((Finset.mem_range.1 hp).trans_le hN) ((Finset.mem_range.1 hq).trans_le hN)).smul _
    · exact SpinFree.sum fun p hp => SpinFree.sum fun q hq => SpinFree.sum fun r hr => SpinFree.sum fun t ht =>
        (SpinFree.e ((Finset.mem_range.1 hp).trans_le hN) ((Finset.mem_range.1 hq).trans_le hN)
          ((Finset.mem_range.1 hr).trans_le hN) ((Finset.mem_range.1 ht).trans_le hN)).smul _
  have keep : ∀ {s m : ℝ} {x : Fock ℝ}, HasSpin N s m x → HasSpin N s m (sumOp H x) := by
    intro s m x hx
    have e1 : sSq N (sumOp H x) = sumOp H (sSq N x) := congrArg (fun T : FOp ℝ => T x) hf.sq.eq.symm
    have e2 : sZ N (sumOp H x) = sumOp H (sZ N x) := congrArg (fun T : FOp ℝ => T x) hf.z.eq.symm
    exact ⟨by rw [e1, hx.1, map_smul], by rw [e2, hx.2, map_smul]⟩
  refine ⟨H, h1, keep, fun {s m s' m' x y} hx hy hne => ?_⟩
  have e := adjoint_sSq N x (sumOp H y)
  rw [hx.1, (keep hy).1, inner_smul_left, inner_smul_right] at e
  exact (mul_eq_zero.1 (by rw [sub_mul, sub_eq_zero]; exact e)).resolve_left (sub_ne_zero.2 hne)

/-! ### Cases meeting the hypotheses, and the need for them -/

example : (UpsCall.tiled 4 [("n_layers", 2), ("do_tups", 1)]).Fits 4 ∧
    (UpsCall.tiled 4 [("n_layers", 2), ("do_tups", 1)]).Adapted := ⟨rfl, trivial⟩

/-- k-SA-fUpCCGSD. -/
example : (UpsCall.fucc ⟨[0, 1], [2, 3], [0, 1, 2, 3], [4, 5, 6, 7], 4⟩ [("SAGS", 1), ("GpD", 1), ("n_layers", 1)]).Fits 4 ∧
    (UpsCall.fucc ⟨[0, 1], [2, 3], [0, 1, 2, 3], [4, 5, 6, 7], 4⟩ [("SAGS", 1), ("GpD", 1), ("n_layers", 1)]).Adapted :=
  ⟨⟨⟨by decide, by decide, by decide⟩, rfl⟩, show ∀ k ∈ _, _ by decide⟩

/-- A spin-orbital single does not keep the spin: `a†_2 a_0` on the closed-shell determinant of orbital 0 gives one with
`S₊` not zero, so not a singlet. -/
theorem C122_single_needed : sPlus 2 ((cr 2 * an 0 : FOp ℝ) (ket {0, 1})) ≠ 0 := by
  have e1 : (cr 2 * an 0 : FOp ℝ) (ket {0, 1}) = sgl {1, 2} ((1 : ℝ) * phase ({0, 1} : Finset ℕ) 0 * phase ({1} : Finset ℕ) 2) := by
    show cr 2 (an 0 (sgl {0, 1} 1)) = _
    rw [an_single, if_pos (by decide), cr_single, if_neg (by decide), show ({0, 1} : Finset ℕ).erase 0 = {1} by decide,
      show insert 2 ({1} : Finset ℕ) = {1, 2} by decide]
  rw [e1]
  unfold sPlus spinSum
  rw [LinearMap.sum_apply, Finset.sum_range_succ, Finset.sum_range_one]
  have e2 : ∀ c : ℝ, (cr (2 * 0 + 0) * an (2 * 0 + 1) : FOp ℝ) (sgl {1, 2} c)
      = sgl {0, 2} (c * phase ({1, 2} : Finset ℕ) 1 * phase ({2} : Finset ℕ) 0) := by
    intro c
    show cr 0 (an 1 (sgl {1, 2} c)) = _
    rw [an_single, if_pos (by decide), cr_single, if_neg (by decide)]
    rfl
  have e3 : ∀ c : ℝ, (cr (2 * 1 + 0) * an (2 * 1 + 1) : FOp ℝ) (sgl {1, 2} c) = 0 := by
    intro c
    show cr 2 (an 3 (sgl {1, 2} c)) = _
    rw [an_single, if_neg (by decide), map_zero]
  rw [e2, e3, add_zero]
  intro h
  have := congrArg (fun x : Fock ℝ => coeff x {0, 2}) h
  simp only [coeff_sgl, coeff_zero, if_pos] at this
  have hne : ∀ (S : Finset ℕ) (p : ℕ), (phase S p : ℝ) ≠ 0 := fun S p => pow_ne_zero _ (by norm_num)
  simp [hne] at this

end SQ
