import Verif.Lemmas.TranspileCsf

/-!
# C138: determinants and superpositions on a transpiled ansatz

`P`, `S`: the pass managers of Qiskit, assumed to keep the meaning of circuits (`FaithfulStages`). `A`: the ansatz circuit.
`st`: the circuit of a determinant or of a superposition of two. `Ansatz0.probFrom` is the distribution of `st` and the
ansatz circuit themselves, without any transpilation.
-/

namespace SQ

section
variable {V : Type} {P : PassManagers V} {S : PassStages V} {A : Ansatz0}

/-- The interface after proper calls. -/
theorem proper_good (F : FaithfulManagers P A) (v2 : Bool) (backend : Option V) {opts : PassOpts V} (isa : Bool)
    (ho : KnownOptions opts) (cs : List (TCall V)) (hcs : ∀ c ∈ cs, ProperCall A c) :
    let q := (TQI.start P A v2 backend opts isa).calls P A cs
    GoodTQI P A q ∧ (q.v2 = true → q.isa = true) := by
  obtain ⟨h0, h1, h2, -⟩ := start_good (P := P) F v2 backend isa ho
  exact calls_good F h0 (fun h => by rw [h1, ← h2, h]; rfl) cs hcs

/-- C138. After any calls with known options that do not switch `ISA` off: the circuit of a determinant is made, gives every
outcome of every label with the probability of the untranspiled circuits, and is read on the qubits of the read-out
matrix, in their order. -/
theorem C138_determinants (F : FaithfulManagers P A) (v2 : Bool) (backend : Option V) {opts : PassOpts V} (isa : Bool)
    (ho : KnownOptions opts) (cs : List (TCall V)) (hcs : ∀ c ∈ cs, ProperCall A c) (st : List (CGate A.n)) :
    let q := (TQI.start P A v2 backend opts isa).calls P A cs
    ∃ c, q.detCirc A st = .ok c ∧ q.layoutConflict A c = .ok 0 ∧
      ∀ p op, ∃ r, q.measure A c p op = .ok r ∧ ∀ b, r.prob b = A.probFrom st p op b := by
  obtain ⟨g, gv⟩ := proper_good F v2 backend isa ho cs hcs
  intro q
  obtain ⟨c, h1, h2, h3, h4⟩ := good_det F g st
  refine ⟨c, h1, h4, fun p op => ?_⟩
  obtain ⟨r, hr, -, hp⟩ := good_measure F g gv h2 h3 p op
  exact ⟨r, hr, hp⟩

/-- C138. Likewise every circuit that is made for a superposition, with whatever option, gives every outcome of every label
with the probability of the untranspiled circuits. -/
theorem C138_superpositions (F : FaithfulStages P S A) (v2 : Bool) (backend : Option V) {opts : PassOpts V} (isa : Bool)
    (ho : KnownOptions opts) (cs : List (TCall V)) (hcs : ∀ c ∈ cs, ProperCall A c) (option : ℕ) (st : List (CGate A.n))
    (fuel : ℕ) {c : TCirc}
    (hc : ((TQI.start P A v2 backend opts isa).calls P A cs).superCirc P S A option st fuel = .ok c) (p : List ℝ)
    (op : List Char) :
    ∃ r, ((TQI.start P A v2 backend opts isa).calls P A cs).measure A c p op = .ok r ∧
      ∀ b, r.prob b = A.probFrom st p op b := by
  obtain ⟨g, gv⟩ := proper_good F.managers v2 backend isa ho cs hcs
  obtain ⟨h1, h2, -⟩ := good_super F g hc
  obtain ⟨r, hr, -, hp⟩ := good_measure F.managers g gv h1 h2 p op
  exact ⟨r, hr, hp⟩

/-- C138. Without `ISA`, and with the options 1 and 2, a circuit is always made. With the options 3 and 4 it is made if the
options have a backend whose coupling map is connected and has no cycles (see `C53_ring_disagree` for cycles). Other
numbers raise a `ValueError`. -/
theorem C138_available (F : FaithfulStages P S A) (v2 : Bool) (backend : Option V) {opts : PassOpts V} (isa : Bool)
    (ho : KnownOptions opts) (cs : List (TCall V)) (hcs : ∀ c ∈ cs, ProperCall A c) (option : ℕ) (st : List (CGate A.n)) :
    let q := (TQI.start P A v2 backend opts isa).calls P A cs
    (q.isa = false ∨ option = 1 ∨ option = 2 → ∀ fuel, ∃ c, q.superCirc P S A option st fuel = .ok c) ∧
    (q.isa = true → option = 3 ∨ option = 4 → ∀ b edges a, q.opts.get "backend" = some b → S.coupling b = some edges →
      q.ansatz = some a → Within edges a.n → Connected edges a.n → IsForest edges →
      ∃ sweeps, ∀ fuel ≥ sweeps, ∃ c, q.superCirc P S A option st fuel = .ok c) ∧
    (q.isa = true → option = 0 ∨ 4 < option → ∀ fuel, q.superCirc P S A option st fuel = .error .valueError) := by
  obtain ⟨g, gv⟩ := proper_good F.managers v2 backend isa ho cs hcs
  intro q
  refine ⟨fun h fuel => ?_, fun hi h b edges a hb he ha hw hcon hfor => ?_, fun hi h fuel => ?_⟩
  · unfold TQI.superCirc
    by_cases hi : q.isa = true
    · rw [if_pos hi]
      obtain ⟨h1, -, -, -, h5⟩ := g.settled hi
      have hpm := (g.on hi).1
      have off : ¬ q.isa = false := by simp [hi]
      rcases h with h | rfl | rfl
      · exact absurd h off
      · rw [h1, hpm]
        exact ⟨_, rfl⟩
      · rw [h1, h5]
        exact ⟨_, rfl⟩
    · have hi' : q.isa = false := by simpa using hi
      rw [if_neg hi, g.rawOff hi']
      exact ⟨_, front_raw st⟩
  · obtain ⟨-, h2, -, -, h5⟩ := g.settled hi
    obtain rfl := Option.some.inj (h2.symm.trans ha)
    have key : ∀ o, ∃ sweeps, ∀ fuel ≥ sweeps, ∃ c, q.fixedOrderCirc P S A st o fuel = .ok c := by
      intro o
      obtain ⟨sweeps, hs⟩ := layoutCompose_ok F q.opts.manager st hw hcon hfor o
      refine ⟨sweeps, fun fuel hfu => ?_⟩
      obtain ⟨c, hc⟩ := hs fuel hfu
      refine ⟨c, ?_⟩
      unfold TQI.fixedOrderCirc
      rw [h2, h5, hb, fixedOptions_eq]
      dsimp only
      rw [he]
      exact hc
    unfold TQI.superCirc
    simp only [if_pos hi]
    rcases h with rfl | rfl
    · exact key false
    · exact key true
  · unfold TQI.superCirc
    rw [if_pos hi]
    match option, h with
    | 0, _ => rfl
    | 1, h => omega
    | 2, h => omega
    | 3, h => omega
    | 4, h => omega
    | _ + 5, _ => rfl

/-- C138. The options 3 and 4 keep the order of the qubits: the check of layouts finds no conflict. The default option never
leads to a `ValueError`; with read-out mitigation for the ansatz it is 4. -/
theorem C138_fixed_order (F : FaithfulStages P S A) (v2 : Bool) (backend : Option V) {opts : PassOpts V} (isa : Bool)
    (ho : KnownOptions opts) (cs : List (TCall V)) (hcs : ∀ c ∈ cs, ProperCall A c) (st : List (CGate A.n)) :
    let q := (TQI.start P A v2 backend opts isa).calls P A cs
    (∀ option fuel c, q.isa = false ∨ option = 3 ∨ option = 4 → q.superCirc P S A option st fuel = .ok c →
      q.layoutConflict A c = .ok 0) ∧
    ∀ mFlag ansatz0 plus, ∃ o, q.csfsOption mFlag ansatz0 plus 0 = .ok o ∧ o ∈ [1, 2, 4] ∧
      (mFlag = true → plus = false → ansatz0 = true → ∀ a, q.ansatz = some a → a.layout.isSome → o = 4) ∧
      (mFlag = false → o = 1) := by
  obtain ⟨g, gv⟩ := proper_good F.managers v2 backend isa ho cs hcs
  intro q
  refine ⟨fun option fuel c h hc => (good_super F g hc).2.2.1 h, fun mFlag ansatz0 plus => ?_⟩
  have ha : ∃ a, q.ansatz = some a := by
    by_cases hi : q.isa = true
    · exact ⟨_, (g.settled hi).2.1⟩
    · exact ⟨_, g.rawOff (by simpa using hi)⟩
  obtain ⟨a, ha⟩ := ha
  unfold TQI.csfsOption
  rw [if_pos rfl, ha]
  cases mFlag with
  | false => exact ⟨1, rfl, by simp, fun h => (by cases h), fun _ => rfl⟩
  | true =>
    rw [if_pos rfl]
    dsimp only
    by_cases hl : a.layout.isSome ∧ plus = false
    · rw [if_pos hl]
      cases ansatz0 with
      | false => exact ⟨2, rfl, by simp, fun _ _ h => (by cases h), fun h => (by cases h)⟩
      | true => exact ⟨4, rfl, by simp, fun _ _ _ _ _ _ => rfl, fun h => (by cases h)⟩
    · rw [if_neg hl]
      refine ⟨1, rfl, by simp, fun _ h _ a' ha' hs => ?_, fun _ => rfl⟩
      obtain rfl := Option.some.inj ha'
      exact absurd ⟨hs, h⟩ hl

/-- The check of layouts lets only circuits pass whose qubits are those of the read-out matrix. -/
theorem conflict_cases {q : TQI V} {c : TCirc} {k : ℕ} (h : q.layoutConflict A c = .ok k) (hraw : q.isa = false → c.layout = none) :
    (c.finals A).Perm (q.calibrationQubits A) ∧ (k = 0 → c.finals A = q.calibrationQubits A) ∧
      (k ≠ 0 → q.isa = true ∧ c.finals A ≠ q.finalIdx) := by
  unfold TQI.layoutConflict at h
  unfold TQI.calibrationQubits
  by_cases hi : q.isa = true
  · rw [if_neg (by simp [hi])] at h
    rw [if_pos hi]
    split_ifs at h with h1 h2
    · obtain rfl := Except.ok.inj h
      exact ⟨by rw [h2], fun _ => h2, fun h => absurd rfl h⟩
    · obtain rfl := Except.ok.inj h
      exact ⟨by simpa using h1, fun h => absurd h (by simp), fun _ => ⟨hi, h2⟩⟩
  · have hi' : q.isa = false := by simpa using hi
    rw [if_pos hi', if_pos (by rw [hraw hi']; rfl)] at h
    obtain rfl := Except.ok.inj h
    rw [if_neg hi]
    have : c.finals A = List.range A.n := by
      unfold TCirc.finals
      rw [hraw hi']
    exact ⟨by rw [this], fun _ => this, fun h => absurd rfl h⟩

/-- There is such a distribution for every read-out matrix and all layouts with the same qubits. -/
theorem readThrough_exists {n : ℕ} {new ref : List ℤ} (hnew : new.length = n) (hp : new.Perm ref) (hnd : new.Nodup)
    (M : Matrix (Fin (2 ^ n)) (Fin (2 ^ n)) ℝ) (x : ℕ → ℝ) : ∃ dist, ReadThrough M ref new x dist := by
  have hex : ∀ c : Fin (2 ^ n), ∃ c' : ℕ, c' < 2 ^ n ∧ SameOutcome new ref c' c :=
    fun c => (C51_outcomes hnew hp hnd c.2).exists
  have hback : ∀ b' : ℕ, ∃ b : Fin (2 ^ n), b' < 2 ^ n → SameOutcome new ref b' b := by
    intro b'
    by_cases hb' : b' < 2 ^ n
    · obtain ⟨b, ⟨hb, h⟩, -⟩ := C51_outcomes (hp.length_eq ▸ hnew) hp.symm (hp.nodup_iff.1 hnd) hb'
      exact ⟨⟨b, hb⟩, fun _ i j hi hj hij => (h j i hj hi hij.symm).symm⟩
    · exact ⟨⟨0, by positivity⟩, fun h => absurd h hb'⟩
  choose f hf using hex
  choose g hg using hback
  have hkeys : ∀ w : ℕ → ℝ, (((List.range (2 ^ n)).map fun b => (b, (0 : ℝ))).map fun kv => (kv.1, w kv.1)).map Prod.fst
      = List.range (2 ^ n) := by
    intro w
    rw [List.map_map, List.map_map]
    exact List.map_id' _
  obtain ⟨w, hw⟩ : ∃ w : ℕ → ℝ, ∀ b, w b = ∑ c, M (g b) c * x (f c) := ⟨_, fun _ => rfl⟩
  refine ⟨((List.range (2 ^ n)).map fun b => (b, (0 : ℝ))).map fun kv => (kv.1, w kv.1), ?_, fun b => ?_,
    fun y hy b b' hb' hbb => ?_⟩
  · rw [hkeys w]
    exact List.nodup_range
  · rw [hkeys w, List.mem_range]
  · rw [lookup_rewrite w, if_pos (by
      rw [List.map_map]
      exact List.mem_map.2 ⟨b', List.mem_range.2 hb', rfl⟩)]
    have e : g b' = b := by
      have h1 := hg b' hb'
      have flip : ∀ {a c : ℕ}, SameOutcome new ref a c → SameOutcome ref new c a :=
        fun h i j hi hj hij => (h j i hj hi hij.symm).symm
      exact Fin.ext ((C51_outcomes (hp.length_eq ▸ hnew) hp.symm (hp.nodup_iff.1 hnd) hb').unique
        ⟨(g b').2, flip h1⟩ ⟨b.2, flip hbb⟩)
    rw [hw, e]
    congr 1
    exact Finset.sum_congr rfl fun c _ => by rw [hy c (f c) (hf c).1 (hf c).2]

/-- C138. Read-out mitigation: let `M` be the true read-out matrix on the qubits that were calibrated. If the distribution
of a determinant or superposition circuit is read through it and the check of layouts lets the circuit pass, then the
corrected distribution has the probabilities of the untranspiled circuits, even if the qubits are read in another order.
-/
theorem C138_corrected (F : FaithfulStages P S A) (v2 : Bool) (backend : Option V) {opts : PassOpts V} (isa : Bool)
    (ho : KnownOptions opts) (cs : List (TCall V)) (hcs : ∀ c ∈ cs, ProperCall A c) (st : List (CGate A.n)) {c : TCirc}
    (M : Matrix (Fin (2 ^ A.n)) (Fin (2 ^ A.n)) ℝ) (hM : M.det ≠ 0) (ansatz0 : Bool) (p : List ℝ) (op : List Char)
    (dist : Distr) {k : ℕ} :
    let q := (TQI.start P A v2 backend opts isa).calls P A cs
    q.detCirc A st = .ok c ∨ (∃ option fuel, q.superCirc P S A option st fuel = .ok c) →
    q.layoutConflict A c = .ok k → (k = 0 ∨ ansatz0 = false) →
    ReadThrough M ((q.calibrationQubits A).map Int.ofNat) ((c.finals A).map Int.ofNat) (A.probFrom st p op) dist →
    ∃ dist', q.correct A ansatz0 M⁻¹ c dist = .ok dist' ∧ ∀ b < 2 ^ A.n, dist'.lookup b = some (A.probFrom st p op b) := by
  obtain ⟨g, gv⟩ := proper_good F.managers v2 backend isa ho cs hcs
  intro q hmade hk hk0 hread
  have hright : (q.isa = true → RightCirc (A.from st) c) ∧ (q.isa = false → c = rawCirc (A.from st)) ∧
      (k = 0 ∨ (q.isa = true → c.layout = none → q.finalIdx = List.range A.n)) := by
    rcases hmade with h | ⟨option, fuel, h⟩
    · obtain ⟨c', h1, h2, h3, h4⟩ := good_det F.managers g st
      obtain rfl := Except.ok.inj (h1.symm.trans h)
      exact ⟨h2, h3, Or.inl (Except.ok.inj (hk.symm.trans h4))⟩
    · obtain ⟨h1, h2, -, h4⟩ := good_super F g h
      exact ⟨h1, h2, Or.inr h4⟩
  obtain ⟨c1, c2, c3⟩ := conflict_cases hk fun hi => by rw [hright.2.1 hi]; rfl
  have hdist : DistinctQubits A.n c.n (c.finals A) := by
    by_cases hi : q.isa = true
    · exact (hright.1 hi).1
    · have := hright.2.1 (by simpa using hi)
      rw [this]
      exact distinct_range A.n
  have hlen : ((c.finals A).map Int.ofNat).length = A.n := by rw [List.length_map]; exact hdist.1
  have hnd : ((c.finals A).map Int.ofNat).Nodup := hdist.2.1.map fun a b h => Int.ofNat.inj h
  have hperm : ((c.finals A).map Int.ofNat).Perm ((q.calibrationQubits A).map Int.ofNat) := c1.map _
  obtain ⟨r1, r2, r3⟩ := hread
  have hlt : ∀ kv ∈ dist, kv.1 < 2 ^ A.n := fun kv h => (r2 _).1 (List.mem_map_of_mem h)
  have hinv : ∀ (y : Fin (2 ^ A.n) → ℝ) b, (∑ c, M⁻¹ b c * ∑ e, M c e * y e) = y b := by
    intro y b
    have h1 : M⁻¹ * M = 1 := Matrix.nonsing_inv_mul M (isUnit_iff_ne_zero.2 hM)
    have h2 : (M⁻¹ * M).mulVec y b = y b := by rw [h1, Matrix.one_mulVec]
    rw [← Matrix.mulVec_mulVec] at h2
    exact h2
  unfold TQI.correct
  rw [hk]
  by_cases h0 : k = 0
  · subst h0
    have heq := c2 rfl
    rw [heq] at r3 hlen hnd
    have same : ∀ b : ℕ, SameOutcome ((q.calibrationQubits A).map Int.ofNat) ((q.calibrationQubits A).map Int.ofNat) b b := by
      intro b i j hi hj hij
      rw [List.getElem?_eq_getElem hi, List.getElem?_eq_getElem hj] at hij
      rw [(List.Nodup.getElem_inj_iff hnd).1 (Option.some.inj hij)]
    have uniq : ∀ b b' : ℕ, b < 2 ^ A.n → b' < 2 ^ A.n →
        SameOutcome ((q.calibrationQubits A).map Int.ofNat) ((q.calibrationQubits A).map Int.ofNat) b' b → b' = b := by
      intro b b' hb hb' h
      exact (C51_outcomes hlen (List.Perm.refl _) hnd hb).unique ⟨hb', h⟩ ⟨hb, same b⟩
    obtain ⟨d, hd, hl⟩ := C74_measured_partial M⁻¹ r1 hlt
    refine ⟨d, hd, fun b hb => ?_⟩
    have hy : ∀ b : Fin (2 ^ A.n), distAt dist b = ∑ c, M b c * A.probFrom st p op c := by
      intro b
      have := r3 (fun c => A.probFrom st p op c) (fun c c' hc' h => by rw [uniq c c' c.2 hc' h]) b b b.2 (same b)
      unfold distAt
      rw [this]
      rfl
    have := hl ⟨b, hb⟩
    rw [if_pos ((r2 b).2 hb)] at this
    rw [this]
    congr 1
    simp only [hy]
    exact hinv (fun c => A.probFrom st p op c) ⟨b, hb⟩
  · obtain ⟨hi, hne⟩ := c3 h0
    have hz : ansatz0 = false := hk0.resolve_left h0
    have hcal : q.calibrationQubits A = q.finalIdx := by
      unfold TQI.calibrationQubits
      rw [if_pos hi]
    rw [hcal] at r3 hperm
    obtain ⟨d, hd, hl⟩ := C51_v2 hlen hperm hnd M⁻¹ r1 hlt
    cases hlay : c.layout with
    | none =>
      exfalso
      refine hne ?_
      rw [hright.2.2.resolve_left h0 hi hlay]
      unfold TCirc.finals
      rw [hlay]
    | some l =>
      have hfin : c.finals A = l.2 := by
        unfold TCirc.finals
        rw [hlay]
      rw [hfin] at hd hl hperm hnd hlen r3
      refine ⟨d, ?_, fun b' hb' => ?_⟩
      · split
        · next h => cases h
        · next h => exact absurd (Except.ok.inj h) h0
        · rw [hz, if_neg (by simp)]
          exact hd
      · obtain ⟨b, hb, hbb⟩ : ∃ b < 2 ^ A.n, SameOutcome (l.2.map Int.ofNat) (q.finalIdx.map Int.ofNat) b' b := by
          have hnd' := hperm.nodup_iff.1 hnd
          obtain ⟨b, ⟨hb, h⟩, -⟩ := C51_outcomes (hperm.length_eq ▸ hlen) hperm.symm hnd' hb'
          exact ⟨b, hb, fun i j hi hj hij => (h j i hj hi hij.symm).symm⟩
        have hex : ∀ c : Fin (2 ^ A.n), ∃ c' : ℕ, c' < 2 ^ A.n ∧
            SameOutcome (l.2.map Int.ofNat) (q.finalIdx.map Int.ofNat) c' c :=
          fun c => (C51_outcomes hlen hperm hnd c.2).exists
        choose f hf using hex
        have hfu : ∀ (c : Fin (2 ^ A.n)) (c' : ℕ), c' < 2 ^ A.n →
            SameOutcome (l.2.map Int.ofNat) (q.finalIdx.map Int.ofNat) c' c → c' = f c := fun c c' hc' h =>
          (C51_outcomes hlen hperm hnd c.2).unique ⟨hc', h⟩ (hf c)
        have hy := r3 (fun c => A.probFrom st p op (f c)) fun c c' hc' h => by rw [hfu c c' hc' h]
        have := hl (fun b => ∑ c, M b c * A.probFrom st p op (f c)) (fun c c' hc' h => by
          unfold distAt
          rw [hy c c' hc' h]
          rfl) ⟨b, hb⟩ b' hb' hbb
        rw [this, hinv (fun c => A.probFrom st p op (f c)), hfu ⟨b, hb⟩ b' hb' hbb]

end

/-- The options 3 and 4 need a backend in the options: without one, which `ISA` allows, they raise an `AttributeError`. -/
theorem C138_no_backend_disagree {V : Type} (P : PassManagers V) (S : PassStages V) (A : Ansatz0) {q : TQI V}
    (hi : q.isa = true) (hb : q.opts.get "backend" = none) (st : List (CGate A.n)) (fuel : ℕ) :
    q.superCirc P S A 3 st fuel = .error .attributeError ∧ q.superCirc P S A 4 st fuel = .error .attributeError := by
  have key : ∀ o, q.fixedOrderCirc P S A st o fuel = .error .attributeError := by
    intro o
    unfold TQI.fixedOrderCirc
    rw [hb]
    split
    · next h => cases h
    · rfl
  unfold TQI.superCirc
  simp only [if_pos hi]
  exact ⟨key false, key true⟩

/-! ### An example: two qubits, exchanged in circuits with more than two gates -/

section example_

/-- Pass managers that exchange the two qubits at the end of circuits with more than two gates. -/
def exchangeManagers : PassManagers ℕ where
  run _ n raw := match n, raw with
    | 2, raw => if 2 < (raw []).length then ⟨2, fun p => raw p ++ [.c (.swap 0 1)], some ([0, 1], [1, 0])⟩
      else ⟨2, raw, some ([0, 1], [0, 1])⟩
    | n, raw => ⟨n, raw, none⟩
  xMeas _ := [.c (.h 0)]
  yMeas _ := [.c (.sdg 0), .c (.h 0)]
  level3 := 3
  seed1234 := 1234
  layoutValue _ := 7

/-- Their other stages do nothing; every backend has the coupling 0-1. -/
def exchangeStages : PassStages ℕ where
  routing _ n raw := match n, raw with
    | 2, raw => if 2 < (raw []).length then [1, 0] else [0, 1]
    | _, _ => []
  translate _ _ raw := raw
  optimize _ _ raw := raw
  coupling _ := some [(0, 1)]

/-- An ansatz with two gates. -/
def pairAnsatz : Ansatz0 := ⟨2, [.c (.x 0)], fun _ => [.c (.cx 0 1), .c (.x 0)], 0⟩

theorem distinct01 : DistinctQubits 2 2 [0, 1] := ⟨rfl, by decide, by decide⟩
theorem distinct10 : DistinctQubits 2 2 [1, 0] := ⟨rfl, by decide, by decide⟩

theorem exchange_run (pm : String → Option ℕ) (raw : List ℝ → List (CGate 2)) : exchangeManagers.run pm raw =
    if 2 < (raw []).length then ⟨2, fun p => raw p ++ [.c (.swap 0 1)], some ([0, 1], [1, 0])⟩
      else ⟨2, raw, some ([0, 1], [0, 1])⟩ := rfl

theorem exchange_faithful (pm : String → Option ℕ) (raw : List ℝ → List (CGate 2)) :
    FaithfulTo raw (exchangeManagers.run pm raw) := by
  have h0 : ∀ ψ : QState 2, onQubits distinct01.at ψ = ψ := onQubits_id _ (by decide)
  rw [exchange_run]
  split_ifs
  · refine ⟨distinct01, distinct10, fun p ψ => ⟨1, norm_one, ?_⟩⟩
    rw [h0, one_smul, runGates_append]
    generalize runGates (raw p) ψ = χ
    funext l
    change (Gate.swap 0 1).act χ l = _
    unfold onQubits
    rw [if_pos (by
      intro k hk
      exfalso
      revert hk k
      decide)]
    change χ _ = χ _
    congr 1
    funext i
    fin_cases i <;> rfl
  · refine ⟨distinct01, distinct01, fun p ψ => ⟨1, norm_one, ?_⟩⟩
    rw [h0, h0, one_smul]

theorem exchange_routing (pm : String → Option ℕ) (raw : List ℝ → List (CGate 2)) (l : List ℕ × List ℕ)
    (hl : (exchangeManagers.run pm raw).layout = some l) :
    (exchangeStages.routing pm raw).Perm (List.range (exchangeManagers.run pm raw).n) ∧
      ∀ i k : ℕ, l.1[i]? = some k → l.2[i]? = (exchangeStages.routing pm raw)[k]? := by
  have key : ∀ i k : ℕ, [0, 1][i]? = some k → [1, 0][i]? = [1, 0][k]? ∧ [0, 1][i]? = [0, 1][k]? := by
    rintro (_ | _ | i) k h
    · obtain rfl := Option.some.inj h
      exact ⟨rfl, rfl⟩
    · obtain rfl := Option.some.inj h
      exact ⟨rfl, rfl⟩
    · cases h
  have hr : exchangeStages.routing pm raw = if 2 < (raw []).length then [1, 0] else [0, 1] := rfl
  rw [exchange_run] at hl ⊢
  rw [hr]
  by_cases h2 : 2 < (raw []).length
  · rw [if_pos h2] at hl
    rw [if_pos h2, if_pos h2]
    obtain rfl := Option.some.inj hl
    have hp : [1, 0].Perm (List.range 2) := by decide
    exact ⟨hp, fun i k h => (key i k h).1⟩
  · rw [if_neg h2] at hl
    rw [if_neg h2, if_neg h2]
    obtain rfl := Option.some.inj hl
    have hp : [0, 1].Perm (List.range 2) := by decide
    exact ⟨hp, fun i k h => (key i k h).2⟩

theorem exchange_stages : FaithfulStages exchangeManagers exchangeStages pairAnsatz where
  managers := ⟨fun pm => exchange_faithful pm _, fun _ => ⟨1, norm_one, fun ψ => by rw [one_smul]; rfl⟩,
    fun _ => ⟨1, norm_one, fun ψ => by rw [one_smul]; rfl⟩⟩
  run pm raw := exchange_faithful pm raw
  layout pm raw raw' := by
    have h : ∀ raw : List ℝ → List (CGate 2), (exchangeManagers.run pm raw).n = 2 ∧
        (exchangeManagers.run pm raw).layout.isSome = true := by
      intro raw
      rw [exchange_run]
      split_ifs <;> exact ⟨rfl, rfl⟩
    exact ⟨(h raw).1.trans (h raw').1.symm, (h raw).2.trans (h raw').2.symm⟩
  fixed pm raw raw' l hl := by
    have h : ∀ pm (raw : List ℝ → List (CGate 2)), (exchangeManagers.run pm raw).n = 2 ∧
        ∃ f, (exchangeManagers.run pm raw).layout = some ([0, 1], f) := by
      intro pm raw
      rw [exchange_run]
      split_ifs <;> exact ⟨rfl, _, rfl⟩
    obtain ⟨h1, f, h2⟩ := h pm raw
    obtain rfl := Option.some.inj (h2.symm.trans hl)
    exact ⟨(h _ raw').1.trans h1.symm, (h _ raw').2⟩
  routing pm raw l hl := exchange_routing pm raw l hl
  translate _ _ _ _ ψ := ⟨1, norm_one, by rw [one_smul]; rfl⟩
  optimize _ _ _ _ ψ := ⟨1, norm_one, by rw [one_smul]; rfl⟩

/-- A superposition of 01 and 10. -/
def pairState : List (CGate 2) := [.c (.h 0), .c (.cx 0 1), .c (.x 0)]

/-- The backend 5 as an option. -/
def deviceOption : PassOpts ℕ := fun k => if k = "backend" then some (some 5) else none

theorem device_known : KnownOptions deviceOption := by
  intro k hk
  unfold deviceOption
  rw [if_neg]
  rintro rfl
  exact hk (by simp [allowedOptions])

/-- A wave function for a backend. -/
noncomputable def pairQI : TQI ℕ := TQI.start exchangeManagers pairAnsatz true (some 5) deviceOption true

/-- The qubits of the transpiled superposition are exchanged; option 4 puts them back. -/
example : (exchangeManagers.run (fun _ => none) fun _ => pairState).layout = some ([0, 1], [1, 0]) := rfl

theorem pair_settled : GoodTQI exchangeManagers pairAnsatz pairQI ∧ pairQI.isa = true :=
  ⟨(start_good exchange_stages.managers true (some 5) true device_known).1,
    (start_good exchange_stages.managers true (some 5) true device_known).2.1⟩

theorem pair_backend : pairQI.opts.get "backend" = some 5 := by
  obtain ⟨q', e, -, -, -, g3, -⟩ := construct_good (P := exchangeManagers) exchange_stages.managers
    (TQI.defaults exchangeManagers ⟨true, some 5, true, deviceOption, none, none, false, none, none, [], [], none, none, none⟩)
    (defaults_known device_known) (fun _ => Or.inl rfl) (fun _ h => by cases h)
  change (TQI.construct exchangeManagers pairAnsatz (TQI.defaults exchangeManagers
    ⟨true, some 5, true, deviceOption, none, none, false, none, none, [], [], none, none, none⟩)).2.opts.get "backend" = _
  rw [e]
  change q'.opts.get "backend" = some 5
  rw [g3]
  exact defaults_get (q := ⟨true, some 5, true, deviceOption, none, none, false, none, none, [], [], none, none, none⟩) rfl

example : ∃ sweeps, ∀ fuel ≥ sweeps, ∃ c, pairQI.superCirc exchangeManagers exchangeStages pairAnsatz 4 pairState fuel = .ok c ∧
    pairQI.layoutConflict pairAnsatz c = .ok 0 := by
  obtain ⟨g, hi⟩ := pair_settled
  have hw : Within [(0, 1)] 2 := by unfold Within; decide
  have hcon : Connected [(0, 1)] 2 := by
    intro a ha b hb
    interval_cases a <;> interval_cases b
    · exact ⟨[0], rfl, rfl, by simp⟩
    · exact ⟨[0, 1], rfl, rfl, by simp [Coupled]⟩
    · exact ⟨[1, 0], rfl, rfl, by simp [Coupled]⟩
    · exact ⟨[1], rfl, rfl, by simp⟩
  have hfor : IsForest [(0, 1)] := by
    refine ⟨id, ?_, ?_⟩
    · rintro u v (h | h) <;> simp at h <;> simp only [id] <;> omega
    · rintro v u w (h | h) (h' | h') <;> simp at h h' <;> simp only [id] <;> omega
  obtain ⟨sweeps, h⟩ := (C138_available exchange_stages true (some 5) true device_known [] (by simp) 4 pairState).2.1 hi
    (Or.inr rfl) 5 [(0, 1)] _ pair_backend rfl (g.settled hi).2.1 hw hcon hfor
  refine ⟨sweeps, fun fuel hf => ?_⟩
  obtain ⟨c, hc⟩ := h fuel hf
  exact ⟨c, hc, (C138_fixed_order exchange_stages true (some 5) true device_known [] (by simp) pairState).1 4 fuel c
    (Or.inr (Or.inr rfl)) hc⟩

/-- With option 2 the two qubits are read in the other order, and the correction is done with the matrix relabelled. -/
example : ∃ c, pairQI.superCirc exchangeManagers exchangeStages pairAnsatz 2 pairState 0 = .ok c ∧
    pairQI.layoutConflict pairAnsatz c = .ok 1 := by
  obtain ⟨g, hi⟩ := pair_settled
  obtain ⟨h1, h2, -, h4, h5⟩ := g.settled hi
  refine ⟨⟨2, fun _ => pairState ++ [.c (.cx 0 1), .c (.x 0)] ++ [.c (.swap 0 1)], some ([0, 1], [1, 0])⟩, ?_, ?_⟩
  · unfold TQI.superCirc
    rw [if_pos hi]
    rw [h1, h5]
    rfl
  · have hf : pairQI.finalIdx = [0, 1] := h4
    unfold TQI.layoutConflict
    rw [if_neg (by simp [hi]), hf]
    rfl

end example_

end SQ
