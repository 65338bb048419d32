import Verif.Spec.TranspileCsf
import Verif.Lemmas.Transpile
import Verif.Props.Layout

/-!
# Lemmas: state circuits in front of a transpiled ansatz
-/

namespace SQ

/-- The ansatz with another state circuit. -/
def Ansatz0.from (A : Ansatz0) (st : List (CGate A.n)) : Ansatz0 := { A with state := st }

section
variable {V : Type} {P : PassManagers V} {S : PassStages V} {A : Ansatz0}

theorem FaithfulManagers.from (F : FaithfulManagers P A) (st : List (CGate A.n)) : FaithfulManagers P (A.from st) :=
  ⟨F.ansatz, F.xMeas, F.yMeas⟩

theorem frontAt_ok {c : TCirc} {m : ℕ} {qs : List ℕ} (h : DistinctQubits m c.n qs) (gs : List ℝ → List (CGate m)) :
    frontAt c qs gs = .ok ⟨c.n, fun p => (gs p).map (CGate.place h.at) ++ c.gates p, c.layout⟩ := dif_pos h

theorem frontAt_eq {c d : TCirc} {m : ℕ} {qs : List ℕ} {gs : List ℝ → List (CGate m)} (e : frontAt c qs gs = .ok d) :
    ∃ h : DistinctQubits m c.n qs, d = ⟨c.n, fun p => (gs p).map (CGate.place h.at) ++ c.gates p, c.layout⟩ := by
  unfold frontAt at e
  split_ifs at e with h
  exact ⟨h, (Except.ok.inj e).symm⟩

/-- A right circuit is measured rightly. -/
theorem measure_right (F : FaithfulManagers P A) {q : TQI V} (hi : (q.v2 || q.isa) = true) {pm : String → Option V}
    (hx : q.xy = some (P.xMeas pm, P.yMeas pm)) {c : TCirc} (hr : RightCirc A c) (p : List ℝ) (op : List Char) :
    ∃ r, q.measure A c p op = .ok r ∧ r.read = c.finals A ∧ ∀ b, r.prob b = A.prob p op b := by
  obtain ⟨hd, hrun⟩ := hr
  refine ⟨⟨c.n, c.gates p ++ (cbsWith A.n (P.xMeas pm, P.yMeas pm) op).map (CGate.place hd.at), c.finals A⟩, ?_, rfl, ?_⟩
  · unfold TQI.measure
    rw [if_pos hi, hx]
    dsimp only
    rw [composeAt_ok hd (cbsWith A.n (P.xMeas pm, P.yMeas pm) op)]
    rfl
  · intro b
    obtain ⟨s, hs, es⟩ := hrun p
    obtain ⟨t, ht, et⟩ := cbsWith_run F pm op (runGates (A.state ++ A.raw p) (allZero A.n))
    refine prob_onQubits ⟨c.n, _, _⟩ hd (s * t) (by rw [norm_mul, hs, ht, one_mul])
      (runCircuit (toCBS A.n op) (runGates (A.state ++ A.raw p) (allZero A.n))) ?_ b
    dsimp only
    rw [runGates_append, es, runGates_smul, mul_smul]
    congr 1
    have := runGates_place hd.at_inj (cbsWith A.n (P.xMeas pm, P.yMeas pm) op)
      (runGates (A.state ++ A.raw p) (allZero A.n))
    rw [et, onQubits_smul] at this
    exact this

theorem CGate.place_self {n : ℕ} {f : Fin n → Fin n} (h : ∀ i, f i = i) (g : CGate n) : g.place f = g := by
  obtain rfl : f = id := funext h
  cases g with
  | c g => cases g <;> rfl
  | p g => cases g <;> rfl

/-- Without transpilation. -/
theorem front_raw (st : List (CGate A.n)) :
    frontAt ⟨A.n, A.raw, none⟩ (List.range A.n) (fun _ => st) = .ok (rawCirc (A.from st)) := by
  have h : DistinctQubits A.n (TCirc.mk A.n A.raw none).n (List.range A.n) := distinct_range A.n
  rw [frontAt_ok h]
  have e : st.map (CGate.place h.at) = st :=
    (List.map_congr_left fun g _ => CGate.place_self (distinct_range_at h) g).trans (List.map_id' st)
  rw [e]
  rfl

/-- A right circuit without layout, without `ISA`. -/
theorem measure_raw {q : TQI V} (hv : q.v2 = false) (hi : q.isa = false) (p : List ℝ) (op : List Char) :
    ∃ r, q.measure A (rawCirc A) p op = .ok r ∧ r.read = (rawCirc A).finals A ∧ ∀ b, r.prob b = A.prob p op b := by
  refine ⟨⟨A.n, A.state ++ A.raw p ++ ((toCBS A.n op).map CGate.c).map (CGate.place (distinct_range A.n).at),
    List.range A.n⟩, ?_, rfl, fun b => ?_⟩
  · unfold TQI.measure
    rw [if_neg (by simp [hv, hi])]
    have := composeAt_ok (distinct_range A.n) ((toCBS A.n op).map CGate.c)
    change (composeAt A.n (List.range A.n) ((toCBS A.n op).map CGate.c) >>= _) = _
    rw [this]
    rfl
  · refine prob_onQubits ⟨A.n, _, _⟩ (distinct_range A.n) 1 norm_one
      (runCircuit (toCBS A.n op) (runGates (A.state ++ A.raw p) (allZero A.n))) ?_ b
    rw [one_smul]
    have := runGates_place (distinct_range A.n).at_inj ((toCBS A.n op).map CGate.c)
      (runGates (A.state ++ A.raw p) (allZero A.n))
    rw [onQubits_id _ (distinct_range_at _), runGates_c] at this
    exact (runGates_append _ _ _).trans this

/-! ### Right circuits -/

/-- Options 1 and 2: everything transpiled together. -/
theorem run_right {st : List (CGate A.n)} {out : TCirc} (h : FaithfulTo (fun p => st ++ A.raw p) out) :
    RightCirc (A.from st) out := by
  rcases out with ⟨N, gates, _ | ⟨ini, fin⟩⟩
  · obtain ⟨rfl, hF⟩ := h
    refine ⟨distinct_range A.n, fun p => ?_⟩
    obtain ⟨t, ht, e⟩ := hF p (allZero A.n)
    refine ⟨t, ht, e.trans (congrArg (t • ·) ?_)⟩
    exact (onQubits_id _ (distinct_range_at (distinct_range A.n)) _).symm
  · obtain ⟨hi, hf, hF⟩ := h
    refine ⟨hf, fun p => ?_⟩
    obtain ⟨t, ht, e⟩ := hF p (allZero A.n)
    rw [onQubits_allZero] at e
    exact ⟨t, ht, e⟩

/-- A state circuit on the qubits of the initial layout, in front. -/
theorem front_right {a : TCirc} {l : List ℕ × List ℕ} (ha : a.layout = some l) (hF : FaithfulTo A.raw a) {m : ℕ} (hm : m = a.n)
    (gs : List ℝ → List (CGate m)) (st : List (CGate A.n)) (hi : DistinctQubits A.n m l.1)
    (hs : ∀ p, ∃ s : ℂ, ‖s‖ = 1 ∧ runGates (gs p) (allZero m) = s • onQubits hi.at (runGates st (allZero A.n))) :
    ∃ c, frontAt a (List.range m) gs = .ok c ∧ c.layout = a.layout ∧ RightCirc (A.from st) c := by
  rcases a with ⟨N, gates, lay⟩
  obtain rfl : lay = some l := ha
  obtain rfl : m = N := hm
  obtain ⟨ini, fin⟩ := l
  obtain ⟨hi', hf, hF⟩ := hF
  have hd : DistinctQubits m (TCirc.mk m gates (some (ini, fin))).n (List.range m) := distinct_range m
  refine ⟨_, frontAt_ok hd gs, rfl, hf, fun p => ?_⟩
  obtain ⟨s, hs, es⟩ := hs p
  obtain ⟨t, ht, et⟩ := hF p (runGates st (allZero A.n))
  refine ⟨s * t, by rw [norm_mul, hs, ht, one_mul], ?_⟩
  have e : (gs p).map (CGate.place hd.at) = gs p :=
    (List.map_congr_left fun g _ => CGate.place_self (distinct_range_at hd) g).trans (List.map_id' (gs p))
  dsimp only
  rw [e, runGates_append, es, runGates_smul, et, mul_smul]
  congr 2
  exact congrArg _ (runGates_append _ _ _).symm

/-- A state circuit in front, without a layout. -/
theorem front_right_none {a : TCirc} (ha : a.layout = none) (hF : FaithfulTo A.raw a) {t : TCirc} (ht : t.layout = none)
    {st : List (CGate A.n)} (hT : FaithfulTo (fun _ => st) t) :
    ∃ c, frontAt a (List.range t.n) t.gates = .ok c ∧ c.layout = a.layout ∧ RightCirc (A.from st) c := by
  rcases a with ⟨N, gates, lay⟩
  rcases t with ⟨M, tgates, tlay⟩
  obtain rfl : lay = none := ha
  obtain rfl : tlay = none := ht
  obtain ⟨rfl, hF⟩ := hF
  obtain ⟨rfl, hT⟩ := hT
  have hd : DistinctQubits A.n (TCirc.mk A.n gates none).n (List.range A.n) := distinct_range A.n
  refine ⟨_, frontAt_ok hd tgates, rfl, distinct_range A.n, fun p => ?_⟩
  obtain ⟨s, hs, es⟩ := hT p (allZero A.n)
  obtain ⟨t, ht, et⟩ := hF p (runGates st (allZero A.n))
  refine ⟨s * t, by rw [norm_mul, hs, ht, one_mul], ?_⟩
  have e : (tgates p).map (CGate.place hd.at) = tgates p :=
    (List.map_congr_left fun g _ => CGate.place_self (distinct_range_at hd) g).trans (List.map_id' (tgates p))
  have h1 := onQubits_id _ (distinct_range_at (distinct_range A.n)) (runGates (st ++ A.raw p) (allZero A.n))
  refine Eq.trans ?_ (congrArg ((s * t) • ·) h1.symm)
  dsimp only at es et ⊢
  rw [e, runGates_append, es, runGates_smul, et, mul_smul]
  congr 2
  exact (runGates_append _ _ _).symm

/-- The determinants on a transpiled ansatz. -/
theorem det_right {a : TCirc} (hF : FaithfulTo A.raw a) (st : List (CGate A.n)) :
    ∃ c, frontAt a (a.layout.elim (List.range a.n) Prod.fst) (fun _ => st) = .ok c ∧ c.layout = a.layout ∧
      RightCirc (A.from st) c := by
  rcases a with ⟨N, gates, _ | ⟨ini, fin⟩⟩
  · obtain ⟨rfl, hF⟩ := hF
    have h1 : FaithfulTo A.raw ⟨A.n, gates, none⟩ := ⟨rfl, hF⟩
    have h2 : FaithfulTo (fun _ => st) ⟨A.n, fun _ => st, none⟩ := ⟨rfl, fun _ _ => ⟨1, norm_one, by rw [one_smul]⟩⟩
    exact front_right_none (t := ⟨A.n, fun _ => st, none⟩) rfl h1 rfl h2
  · obtain ⟨hi, hf, hF⟩ := hF
    have hd : DistinctQubits A.n (TCirc.mk N gates (some (ini, fin))).n ini := hi
    refine ⟨_, frontAt_ok hd _, rfl, hf, fun p => ?_⟩
    obtain ⟨t, ht, e⟩ := hF p (runGates st (allZero A.n))
    refine ⟨t, ht, ?_⟩
    dsimp only
    have h0 := runGates_place hi.at_inj st (allZero A.n)
    rw [onQubits_allZero] at h0
    rw [runGates_append]
    refine (congrArg (runGates (gates p)) h0).trans (e.trans ?_)
    congr 2
    exact (runGates_append _ _ _).symm

theorem optimized_right (hO : ∀ pm (n : ℕ) (gs : List ℝ → List (CGate n)) p, SameUpToPhase (S.optimize pm gs p) (gs p))
    (pm : String → Option V) (o : Bool) {c : TCirc} (h : RightCirc A c) : RightCirc A (optimized S pm o c) := by
  unfold optimized
  cases o with
  | false => exact h
  | true =>
    obtain ⟨hd, hr⟩ := h
    refine ⟨hd, fun p => ?_⟩
    obtain ⟨s, hs, e⟩ := hr p
    obtain ⟨t, ht, e'⟩ := hO pm _ c.gates p (allZero c.n)
    refine ⟨t * s, by rw [norm_mul, hs, ht, one_mul], e'.trans ?_⟩
    rw [e, mul_smul]
    rfl

theorem optimized_layout (pm : String → Option V) (o : Bool) (c : TCirc) : (optimized S pm o c).layout = c.layout := by
  unfold optimized
  split <;> rfl

/-- The swaps put the qubits back. -/
theorem swaps_restore {m n : ℕ} {ini fin perm : List ℕ} (hi : DistinctQubits m n ini) (hf : DistinctQubits m n fin)
    (hp : perm.Perm (List.range n)) (h : ∀ i k : ℕ, ini[i]? = some k → fin[i]? = perm[k]?) {edges : List (ℕ × ℕ)} {fuel : ℕ}
    {swaps : List (Gate n)} (hs : addPermutationGate n perm edges fuel = .ok swaps) (χ : QState m) :
    runCircuit swaps (onQubits hf.at χ) = onQubits hi.at χ := by
  have hl : perm.length = n := by rw [hp.length_eq, List.length_range]
  have hlt : ∀ k (hk : k < perm.length), perm[k] < n := fun k hk => List.mem_range.1 (hp.mem_iff.1 (List.getElem_mem hk))
  let π : Fin n → Fin n := fun k => ⟨perm[(k : ℕ)]'(by rw [hl]; exact k.2), hlt _ _⟩
  have hnd : perm.Nodup := hp.symm.nodup List.nodup_range
  have hinj : Function.Injective π := fun a b hab =>
    Fin.ext ((List.Nodup.getElem_inj_iff hnd).1 (congrArg Fin.val hab))
  have hbij : Function.Bijective π := Finite.injective_iff_bijective.1 hinj
  let e := Equiv.ofBijective π hbij
  have hfi : ∀ i, hf.at i = π (hi.at i) := by
    intro i
    have h1 : ini[(i : ℕ)]? = some (hi.at i : ℕ) := List.getElem?_eq_getElem _
    have h2 : fin[(i : ℕ)]? = some (hf.at i : ℕ) := List.getElem?_eq_getElem _
    have h3 : perm[(hi.at i : ℕ)]? = some (π (hi.at i) : ℕ) := List.getElem?_eq_getElem _
    have := h _ _ h1
    rw [h2, h3] at this
    exact Fin.ext (Option.some.inj this)
  funext l
  rw [(C53_on_return hs).2 (onQubits hf.at χ) l (fun k => l (e.symm k)) (by
    intro p q hpq
    have : q = e p := by
      have h3 : perm[(p : ℕ)]? = some (π p : ℕ) := List.getElem?_eq_getElem _
      rw [h3] at hpq
      exact Fin.ext (Option.some.inj hpq).symm
    rw [this, Equiv.symm_apply_apply])]
  unfold onQubits
  have hval : ∀ i, e.symm (hf.at i) = hi.at i := fun i => by
    rw [hfi]; exact e.symm_apply_apply _
  refine if_congr ⟨fun hk k hn => ?_, fun hk k hn => ?_⟩ (by simp only [hval]) rfl
  · have := hk (e k) fun i hh => hn i (by rw [← hval, hh, Equiv.symm_apply_apply])
    dsimp only at this
    rwa [Equiv.symm_apply_apply] at this
  · refine hk _ fun i hh => hn i ?_
    rw [hfi]
    change e _ = k
    rw [hh, Equiv.apply_symm_apply]

theorem faithful_some {raw : List ℝ → List (CGate A.n)} {out : TCirc} {l : List ℕ × List ℕ} (hl : out.layout = some l)
    (h : FaithfulTo raw out) : ∃ (hi : DistinctQubits A.n out.n l.1) (hf : DistinctQubits A.n out.n l.2), ∀ p ψ, ∃ s : ℂ,
      ‖s‖ = 1 ∧ runGates (out.gates p) (onQubits hi.at ψ) = s • onQubits hf.at (runGates (raw p) ψ) := by
  rcases out with ⟨N, gates, lay⟩
  obtain rfl : lay = some l := hl
  exact h

/-- The transpiled state circuit with its qubits put back leaves the state on the qubits of the initial layout. -/
theorem restoreOrder_right (F : FaithfulStages P S A) {pm : String → Option V} {st : List (CGate A.n)}
    {coupling : Option (List (ℕ × ℕ))} {fuel : ℕ} {l : List ℕ × List ℕ} (hl : (P.run pm fun _ => st).layout = some l)
    {gs : List ℝ → List (CGate (P.run pm fun _ => st).n)} (e : restoreOrder P S A pm st coupling fuel = .ok gs) :
    ∃ hi : DistinctQubits A.n (P.run pm fun _ => st).n l.1, ∀ p, ∃ s : ℂ, ‖s‖ = 1 ∧
      runGates (gs p) (allZero _) = s • onQubits hi.at (runGates st (allZero A.n)) := by
  obtain ⟨hi, hf, hF⟩ := faithful_some hl (F.run pm fun _ => st)
  have hR := F.routing pm (fun _ => st) l hl
  unfold restoreOrder at e
  rw [hl] at e
  dsimp only at e
  obtain ⟨ini, fin⟩ := l
  dsimp only at hi hf hF hR e
  refine ⟨hi, fun p => ?_⟩
  obtain ⟨s, hs, es⟩ := hF p (allZero A.n)
  rw [onQubits_allZero] at es
  split_ifs at e with hne
  · cases coupling with
    | none => cases e
    | some edges =>
      dsimp only at e
      cases ha : addPermutationGate _ (S.routing pm fun _ => st) edges fuel with
      | error x => rw [ha] at e; cases e
      | ok swaps =>
        rw [ha] at e
        obtain rfl := Except.ok.inj e
        obtain ⟨t1, ht1, e1⟩ := F.optimize pm _ (S.translate pm fun p => (P.run pm fun _ => st).gates p ++ swaps.map CGate.c) p (allZero _)
        obtain ⟨t2, ht2, e2⟩ := F.translate pm _ (fun p => (P.run pm fun _ => st).gates p ++ swaps.map CGate.c) p (allZero _)
        refine ⟨t1 * (t2 * s), by rw [norm_mul, norm_mul, ht1, ht2, hs]; norm_num, ?_⟩
        rw [e1, e2]
        dsimp only
        rw [runGates_append, es, runGates_smul, runGates_c, swaps_restore hi hf hR.1 hR.2 ha, mul_smul, mul_smul]
  · obtain rfl := Except.ok.inj e
    have : ini = fin := by simpa using hne
    subst this
    exact ⟨s, hs, es⟩

/-- `layout_conserving_compose` with the pass manager of the fixed layout. -/
theorem layoutCompose_right (F : FaithfulStages P S A) {pm : String → Option V} {st : List (CGate A.n)}
    {coupling : Option (List (ℕ × ℕ))} {o : Bool} {fuel : ℕ} {c : TCirc}
    (e : layoutCompose P S A (P.run pm A.raw) st
      ((P.run pm A.raw).layout.elim pm fun l => withLayout P pm l.1) coupling o fuel = .ok c) :
    c.layout = (P.run pm A.raw).layout ∧ RightCirc (A.from st) c := by
  unfold layoutCompose at e
  have hF := F.run pm A.raw
  cases hl : (P.run pm A.raw).layout with
  | none =>
    rw [hl, if_neg (by simp)] at e
    have hn : (P.run pm fun _ => st).layout = none := by
      have := (F.layout pm A.raw fun _ => st).2
      rw [hl] at this
      exact Option.isNone_iff_eq_none.1 (by simpa using this.symm)
    obtain ⟨d, h1, h2, h3⟩ := front_right_none hl hF hn (F.run pm fun _ => st)
    change (frontAt _ (List.range (P.run pm fun _ => st).n) (P.run pm fun _ => st).gates).map _ = _ at e
    rw [h1] at e
    obtain rfl := Except.ok.inj e
    exact ⟨(optimized_layout _ _ _).trans (h2.trans hl), optimized_right F.optimize pm o h3⟩
  | some l =>
    rw [hl, if_pos (by simp)] at e
    change (restoreOrder P S A (withLayout P pm l.1) st coupling fuel >>= _) = _ at e
    obtain ⟨hn, f, hf⟩ := F.fixed pm A.raw (fun _ => st) l hl
    cases hr : restoreOrder P S A (withLayout P pm l.1) st coupling fuel with
    | error x => rw [hr] at e; cases e
    | ok gs =>
      rw [hr] at e
      obtain ⟨hi, hs⟩ := restoreOrder_right F hf hr
      obtain ⟨d, h1, h2, h3⟩ := front_right hl hF hn gs st hi hs
      change (frontAt _ (List.range (P.run (withLayout P pm l.1) fun _ => st).n) gs).map _ = _ at e
      rw [h1] at e
      obtain rfl := Except.ok.inj e
      exact ⟨(optimized_layout _ _ _).trans (h2.trans hl), optimized_right F.optimize _ o h3⟩

/-- It returns if the qubits can be put back. -/
theorem layoutCompose_ok (F : FaithfulStages P S A) (pm : String → Option V) (st : List (CGate A.n))
    {edges : List (ℕ × ℕ)} (hw : Within edges (P.run pm A.raw).n) (hcon : Connected edges (P.run pm A.raw).n)
    (hfor : IsForest edges) (o : Bool) :
    ∃ sweeps, ∀ fuel ≥ sweeps, ∃ c, layoutCompose P S A (P.run pm A.raw) st
      ((P.run pm A.raw).layout.elim pm fun l => withLayout P pm l.1) (some edges) o fuel = .ok c := by
  have hF := F.run pm A.raw
  unfold layoutCompose
  cases hl : (P.run pm A.raw).layout with
  | none =>
    refine ⟨0, fun fuel _ => ?_⟩
    rw [if_neg (by simp)]
    have hn : (P.run pm fun _ => st).layout = none := by
      have := (F.layout pm A.raw fun _ => st).2
      rw [hl] at this
      exact Option.isNone_iff_eq_none.1 (by simpa using this.symm)
    obtain ⟨d, h1, -, -⟩ := front_right_none hl hF hn (F.run pm fun _ => st)
    refine ⟨optimized S pm o d, ?_⟩
    change (frontAt _ (List.range (P.run pm fun _ => st).n) (P.run pm fun _ => st).gates).map _ = _
    rw [h1]
    rfl
  | some l =>
    obtain ⟨hn, f, hf⟩ := F.fixed pm A.raw (fun _ => st) l hl
    have hperm := (F.routing (withLayout P pm l.1) (fun _ => st) _ hf).1
    obtain ⟨sweeps, hsw⟩ := C53_tree_partial hperm (hn ▸ hw) (hn ▸ hcon) hfor
    refine ⟨sweeps, fun fuel hfu => ?_⟩
    rw [if_pos (by simp)]
    change ∃ c, (restoreOrder P S A (withLayout P pm l.1) st (some edges) fuel >>= _) = Except.ok c
    have hres : ∃ gs, restoreOrder P S A (withLayout P pm l.1) st (some edges) fuel = .ok gs := by
      obtain ⟨swaps, hswaps⟩ := hsw fuel hfu
      unfold restoreOrder
      rw [hf]
      dsimp only
      split_ifs
      · rw [hswaps]
        exact ⟨_, rfl⟩
      · exact ⟨_, rfl⟩
    obtain ⟨gs, hr⟩ := hres
    rw [hr]
    obtain ⟨hi, hs⟩ := restoreOrder_right F hf hr
    obtain ⟨d, h1, -, -⟩ := front_right hl hF hn gs st hi hs
    refine ⟨optimized S (withLayout P pm l.1) o d, ?_⟩
    change (frontAt _ (List.range (P.run (withLayout P pm l.1) fun _ => st).n) gs).map _ = _
    rw [h1]
    rfl

/-! ### The interface after proper calls -/

theorem fixedOptions_eq (o : PassOpts V) (out : TCirc) :
    fixedOptions P o o.manager out = out.layout.elim o.manager fun l => withLayout P o.manager l.1 := by
  unfold fixedOptions withLayout
  cases out.layout <;> rfl

/-- Final qubits of a transpiled circuit. -/
theorem finals_elim {raw : List ℝ → List (CGate A.n)} {out : TCirc} (h : FaithfulTo raw out) :
    out.layout.elim (List.range out.n) Prod.snd = out.finals A := by
  rcases out with ⟨N, gates, _ | l⟩
  · obtain ⟨rfl, -⟩ := h
    rfl
  · rfl

theorem good_det (F : FaithfulManagers P A) {q : TQI V} (h : GoodTQI P A q) (st : List (CGate A.n)) :
    ∃ c, q.detCirc A st = .ok c ∧ (q.isa = true → RightCirc (A.from st) c) ∧ (q.isa = false → c = rawCirc (A.from st)) ∧
      q.layoutConflict A c = .ok 0 := by
  unfold TQI.detCirc
  by_cases hi : q.isa = true
  · obtain ⟨-, h2, h3, h4, -⟩ := h.settled hi
    have hF := F.ansatz q.opts.manager
    obtain ⟨c, e, e1, e2⟩ := det_right hF st
    refine ⟨c, ?_, fun _ => e2, fun h => by simp [hi] at h, ?_⟩
    · rw [h2]
      dsimp only
      rw [if_pos hi, h3, e]
    · have hc : c.finals A = q.finalIdx := by
        rw [h4, finals_elim hF]
        unfold TCirc.finals
        rw [e1]
      unfold TQI.layoutConflict
      rw [if_neg (by simp [hi]), hc, if_neg (by simp), if_pos rfl]
  · have hi' : q.isa = false := by simpa using hi
    refine ⟨rawCirc (A.from st), ?_, fun h => absurd h hi, fun _ => rfl, ?_⟩
    · rw [h.rawOff hi']
      dsimp only
      rw [if_neg hi, front_raw]
    · unfold TQI.layoutConflict
      rw [if_pos hi']
      exact if_pos rfl

theorem good_super (F : FaithfulStages P S A) {q : TQI V} (h : GoodTQI P A q) {option : ℕ} {st : List (CGate A.n)} {fuel : ℕ}
    {c : TCirc} (e : q.superCirc P S A option st fuel = .ok c) :
    (q.isa = true → RightCirc (A.from st) c) ∧ (q.isa = false → c = rawCirc (A.from st)) ∧
      (q.isa = false ∨ option = 3 ∨ option = 4 → q.layoutConflict A c = .ok 0) ∧
      (q.isa = true → c.layout = none → q.finalIdx = List.range A.n) := by
  unfold TQI.superCirc at e
  by_cases hi : q.isa = true
  · rw [if_pos hi] at e
    obtain ⟨h1, h2, -, h4, h5⟩ := h.settled hi
    have hpm := (h.on hi).1
    have fixed : ∀ o, q.fixedOrderCirc P S A st o fuel = .ok c →
        c.layout = (P.run q.opts.manager A.raw).layout ∧ RightCirc (A.from st) c := by
      intro o e
      unfold TQI.fixedOrderCirc at e
      rw [h2, h5, fixedOptions_eq] at e
      cases hb : q.opts.get "backend" with
      | none => rw [hb] at e; cases e
      | some b =>
        rw [hb] at e
        exact layoutCompose_right F e
    have conflict : c.layout = (P.run q.opts.manager A.raw).layout → q.layoutConflict A c = .ok 0 := by
      intro e1
      have hc : c.finals A = q.finalIdx := by
        rw [h4, finals_elim (F.run q.opts.manager A.raw)]
        unfold TCirc.finals
        rw [e1]
      unfold TQI.layoutConflict
      rw [if_neg (by simp [hi]), hc, if_neg (by simp), if_pos rfl]
    have off : ¬ q.isa = false := by simp [hi]
    have bare : (P.run q.opts.manager A.raw).layout = none → q.finalIdx = List.range A.n := by
      intro hn
      rw [h4, finals_elim (F.run q.opts.manager A.raw)]
      unfold TCirc.finals
      rw [hn]
    match option, e with
    | 0, e => cases e
    | 1, e =>
      rw [h1, hpm] at e
      obtain rfl := Except.ok.inj e
      refine ⟨fun _ => run_right (F.run _ _), fun h => absurd h off, fun h => (by simp [off] at h), fun _ hn => bare ?_⟩
      have := (F.layout q.opts.manager A.raw fun p => st ++ A.raw p).2
      rw [hn] at this
      exact Option.isNone_iff_eq_none.1 (by simpa using this)
    | 2, e =>
      rw [h1, h5] at e
      obtain rfl := Except.ok.inj e
      refine ⟨fun _ => run_right (F.run _ _), fun h => absurd h off, fun h => (by simp [off] at h), fun _ hn => bare ?_⟩
      cases hl : (P.run q.opts.manager A.raw).layout with
      | none => rfl
      | some l =>
        rw [fixedOptions_eq, hl] at hn
        obtain ⟨-, f, hf⟩ := F.fixed q.opts.manager A.raw (fun p => st ++ A.raw p) l hl
        exact absurd (hf.symm.trans hn) (by simp)
    | 3, e =>
      obtain ⟨e1, e2⟩ := fixed false e
      exact ⟨fun _ => e2, fun h => absurd h off, fun _ => conflict e1, fun _ hn => bare (e1.symm.trans hn)⟩
    | 4, e =>
      obtain ⟨e1, e2⟩ := fixed true e
      exact ⟨fun _ => e2, fun h => absurd h off, fun _ => conflict e1, fun _ hn => bare (e1.symm.trans hn)⟩
    | _ + 5, e => cases e
  · have hi' : q.isa = false := by simpa using hi
    rw [if_neg hi, h.rawOff hi'] at e
    dsimp only at e
    rw [front_raw] at e
    obtain rfl := Except.ok.inj e
    refine ⟨fun h => absurd h hi, fun _ => rfl, fun _ => ?_, fun h => absurd h hi⟩
    unfold TQI.layoutConflict
    rw [if_pos hi']
    exact if_pos rfl

/-- Measuring such circuits. -/
theorem good_measure (F : FaithfulManagers P A) {q : TQI V} (h : GoodTQI P A q) (hv : q.v2 = true → q.isa = true)
    {st : List (CGate A.n)} {c : TCirc} (h1 : q.isa = true → RightCirc (A.from st) c) (h2 : q.isa = false → c = rawCirc (A.from st))
    (p : List ℝ) (op : List Char) :
    ∃ r, q.measure A c p op = .ok r ∧ r.read = c.finals A ∧ ∀ b, r.prob b = A.probFrom st p op b := by
  by_cases hi : q.isa = true
  · exact measure_right (F.from st) (by simp [hi]) (h.on hi).2.1 (h1 hi) p op
  · have hi' : q.isa = false := by simpa using hi
    obtain rfl := h2 hi'
    refine measure_raw (A := A.from st) ?_ hi' p op
    cases hv' : q.v2 with
    | false => rfl
    | true => exact absurd (hv hv') hi

end

end SQ
