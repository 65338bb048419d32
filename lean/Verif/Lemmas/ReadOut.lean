import Verif.Spec.ReadOut
import Verif.Lemmas.SamplerUse
import Verif.Lemmas.LayoutCorrect
import Verif.Lemmas.ResponseLoop
import Verif.Props.Determinants
import Verif.Props.Layout

/-! # Lemmas: read-out matrices -/

namespace SQ

open Finset

/-! ### Calibration -/

theorem productBits_eq (n : ℕ) :
    productBits n = (List.range (2 ^ n)).map fun v => (List.range n).reverse.map fun k => if v.testBit k then 1 else 0 := by
  induction n with
  | zero => rfl
  | succ n ih =>
    have hr : (List.range (n + 1)).reverse = n :: (List.range n).reverse := by
      rw [List.range_succ, List.reverse_append]; rfl
    have h2 : List.range (2 ^ (n + 1)) = List.range (2 ^ n) ++ (List.range (2 ^ n)).map (2 ^ n + ·) := by
      rw [pow_succ, Nat.mul_two, List.range_add]
    unfold productBits
    rw [List.flatMap_cons, List.flatMap_cons, List.flatMap_nil, List.append_nil, ih, h2, List.map_append, List.map_map, List.map_map,
      List.map_map, hr]
    congr 1
    · refine List.map_congr_left fun v hv => ?_
      have := Nat.testBit_lt_two_pow (List.mem_range.1 hv)
      simp [this]
    · refine List.map_congr_left fun v hv => ?_
      have hv := List.mem_range.1 hv
      have h1 : (2 ^ n + v).testBit n = true := by
        rw [Nat.testBit_two_pow_add_eq, Nat.testBit_lt_two_pow hv]; rfl
      simp only [Function.comp_apply, List.map_cons, h1, if_true]
      congr 1
      refine List.map_congr_left fun k hk => ?_
      have hk : k < n := List.mem_range.1 (List.mem_reverse.1 hk)
      rw [Nat.testBit_two_pow_add_gt hk]

theorem combGates_run (n v : ℕ) :
    runCircuit (combGates n ((List.range n).reverse.map fun k => if v.testBit k then 1 else 0)) (zeroState n)
      = basis (qubitBits n v) := by
  have e : combGates n ((List.range n).reverse.map fun k => if v.testBit k then 1 else 0)
      = (List.finRange n).flatMap fun i : Fin n => if v.testBit i = true then [.x i] else [] := by
    unfold combGates
    congr 1
    funext i
    rw [← List.map_reverse, List.reverse_reverse, List.getElem?_map, List.getElem?_range i.2]
    by_cases h : v.testBit i = true <;> simp [h]
  rw [e, zeroState, run_flips _ _ (List.nodup_finRange _)]
  congr 1
  funext i
  unfold qubitBits
  cases h : v.testBit i <;> simp [List.mem_finRange]

theorem toCBS_plain {n : ℕ} {head : List Char} (hX : 'X' ∉ head) (hY : 'Y' ∉ head) : toCBS n head = [] := by
  unfold toCBS
  rw [List.flatMap_eq_nil_iff]
  intro i _
  have h1 : ¬ head.reverse[(i : ℕ)]? = some 'X' := fun h => hX (List.mem_reverse.1 (List.mem_of_getElem? h))
  have h2 : ¬ head.reverse[(i : ℕ)]? = some 'Y' := fun h => hY (List.mem_reverse.1 (List.mem_of_getElem? h))
  rw [if_neg h1, if_neg h2]

theorem prob_basis {n v b : ℕ} (hv : v < 2 ^ n) (hb : b < 2 ^ n) : prob (basis (qubitBits n v)) b = if b = v then 1 else 0 := by
  unfold prob basis
  by_cases h : b = v
  · simp [h]
  · rw [if_neg h, if_neg fun e => h (outcome_injOn hb hv e)]; simp

theorem ReadDistr.at {n : ℕ} {M : Matrix (Fin (2 ^ n)) (Fin (2 ^ n)) ℝ} {ψ : QState n} {d : Distr} (h : ReadDistr n M ψ d)
    (b : Fin (2 ^ n)) : distAt d b = readProb M ψ b := by
  unfold distAt
  cases hl : d.lookup (b : ℕ) with
  | some x =>
    obtain ⟨l1, l2, he, -⟩ := List.lookup_eq_some_iff.1 hl
    obtain ⟨_, h2⟩ := h.value ((b : ℕ), x) (by rw [he]; simp)
    exact h2
  | none =>
    refine (h.rest b fun hm => ?_).symm
    obtain ⟨kv, hk, e⟩ := List.mem_map.1 hm
    have := List.lookup_eq_none_iff.1 hl kv hk
    simp [e] at this

theorem makeMinv_ok {n : ℕ} (hn : n ≤ 8) {M : Matrix (Fin (2 ^ n)) (Fin (2 ^ n)) ℝ} (hM : ReadOutMatrix M)
    {measure : Prog n → List Char → Distr} (h : ∀ g head, ReadDistr n M (runCircuit (toCBS n head) g.run) (measure g head)) :
    makeMinv n [] measure = .ok M⁻¹ := by
  unfold makeMinv
  rw [if_neg (by omega)]
  set prog : ℕ → Prog n := fun v => ⟨[], [], combGates n ((List.range n).reverse.map fun k => if v.testBit k then 1 else 0)⟩ with hp
  set zs : List Char := List.replicate n 'Z' with hz
  have hcal : calibration n [] = (List.range (2 ^ n)).map prog := by
    unfold calibration
    rw [productBits_eq, List.map_map]
    rfl
  have hcols : (calibration n []).mapM (fun g => distVector (2 ^ n) (measure g zs))
      = .ok ((calibration n []).map fun g => (List.range (2 ^ n)).map (distAt (measure g zs))) :=
    mapM_ok fun g _ => distVector_eq (h g zs).nodup fun kv hk => ((h g zs).value kv hk).1
  rw [hcols, hcal, List.map_map]
  simp only [ok_bind]
  have hmat : (Matrix.of fun a b : Fin (2 ^ n) => (((List.range (2 ^ n)).map
      ((fun g => (List.range (2 ^ n)).map (distAt (measure g zs))) ∘ prog)).getD b []).getD a 0) = M := by
    ext a b
    rw [Matrix.of_apply]
    simp only [List.getD_eq_getElem?_getD, List.getElem?_map, List.getElem?_range b.2, List.getElem?_range a.2, Option.map_some,
      Option.getD_some, Function.comp_apply]
    rw [(h (prog b) zs).at a, toCBS_plain (by rw [hz]; intro h; have := List.eq_of_mem_replicate h; cases this)
      (by rw [hz]; intro h; have := List.eq_of_mem_replicate h; cases this)]
    have hr : (prog b).run = basis (qubitBits n b) := combGates_run n b
    unfold readProb
    rw [hr, sum_eq_single b]
    · rw [show runCircuit [] (basis (qubitBits n b)) = basis (qubitBits n b) from rfl, prob_basis b.2 b.2, if_pos rfl, mul_one]
    · intro c _ hc
      rw [show runCircuit [] (basis (qubitBits n b)) = basis (qubitBits n b) from rfl, prob_basis b.2 c.2,
        if_neg fun e => hc (Fin.ext e), mul_zero]
    · simp
  rw [hmat, if_neg hM.invertible]

/-! ### Correction -/

theorem prob_nonneg {n : ℕ} (ψ : QState n) (b : ℕ) : 0 ≤ prob ψ b := Complex.normSq_nonneg _

/-- What is not read does not occur. -/
theorem unread {n : ℕ} {M : Matrix (Fin (2 ^ n)) (Fin (2 ^ n)) ℝ} (hM : ReadOutMatrix M) {ψ : QState n} {b : Fin (2 ^ n)}
    (h : readProb M ψ b = 0) : prob ψ b = 0 := by
  unfold readProb at h
  have := (sum_eq_zero_iff_of_nonneg fun c _ => mul_nonneg (hM.nonneg b c) (prob_nonneg ψ c)).1 h b (mem_univ b)
  exact (mul_eq_zero.1 this).resolve_left (hM.correct b).ne'

theorem inv_read {n : ℕ} {M : Matrix (Fin (2 ^ n)) (Fin (2 ^ n)) ℝ} (hM : ReadOutMatrix M) (ψ : QState n) (a : Fin (2 ^ n)) :
    ∑ c, M⁻¹ a c * readProb M ψ c = prob ψ a := by
  have h1 : M⁻¹ * M = 1 := Matrix.nonsing_inv_mul M (isUnit_iff_ne_zero.2 hM.invertible)
  have h2 : (M⁻¹ * M).mulVec (fun b => prob ψ b) a = prob ψ a := by rw [h1, Matrix.one_mulVec]
  rw [← Matrix.mulVec_mulVec] at h2
  exact h2

theorem correct_exact {n : ℕ} {M : Matrix (Fin (2 ^ n)) (Fin (2 ^ n)) ℝ} (hM : ReadOutMatrix M) {ψ : QState n} {head : List Char}
    {raw : Distr} (h : ReadDistr n M (runCircuit (toCBS n head) ψ) raw) :
    ∃ d, correctDistribution raw M⁻¹ = .ok d ∧ ExactDistr n ψ head d := by
  have hlt : ∀ kv ∈ raw, kv.1 < 2 ^ n := fun kv hk => (h.value kv hk).1
  let g : ℕ → ℝ := fun v => prob (runCircuit (toCBS n head) ψ) v
  refine ⟨raw.map fun kv => (kv.1, g kv.1), ?_, ?_⟩
  · unfold correctDistribution
    rw [distVector_eq h.nodup hlt]
    show (do
      let Cnew ← matVec M⁻¹ ((List.range (2 ^ n)).map (distAt raw))
      raw.mapM fun kv : ℕ × ℝ => match Cnew[kv.1]? with
        | some x => .ok (kv.1, x)
        | none => .error .indexError) = _
    rw [matVec_eq M⁻¹ _ g (fun a => by
      refine (inv_read hM (runCircuit (toCBS n head) ψ) a).symm.trans (sum_congr rfl fun c _ => ?_)
      rw [h.at c])]
    refine mapM_ok fun kv hkv => ?_
    rw [List.getElem?_map, List.getElem?_range (hlt kv hkv)]
    rfl
  · have hk : (raw.map fun kv => (kv.1, g kv.1)).map Prod.fst = raw.map Prod.fst := by rw [List.map_map]; rfl
    refine ⟨by simpa using h.nonempty, by rw [hk]; exact h.nodup, fun kv hkv => ?_, fun b hb hn => ?_⟩
    · obtain ⟨x, hx, rfl⟩ := List.mem_map.1 hkv
      exact ⟨hlt x hx, rfl⟩
    · rw [hk] at hn
      exact unread hM (b := ⟨b, hb⟩) (h.rest ⟨b, hb⟩ hn)

theorem read_one {n : ℕ} (ψ : QState n) (a : Fin (2 ^ n)) : readProb 1 ψ a = prob ψ a := by
  unfold readProb
  have : (1 : Matrix (Fin (2 ^ n)) (Fin (2 ^ n)) ℝ).mulVec (fun b => prob ψ b) a = prob ψ a := by rw [Matrix.one_mulVec]
  exact this

theorem exact_of_one {n : ℕ} {ψ : QState n} {head : List Char} {raw : Distr}
    (h : ReadDistr n 1 (runCircuit (toCBS n head) ψ) raw) : ExactDistr n ψ head raw := by
  refine ⟨h.nonempty, h.nodup, fun kv hk => ?_, fun b hb hn => ?_⟩
  · obtain ⟨h1, h2⟩ := h.value kv hk
    rw [read_one] at h2
    exact ⟨h1, h2⟩
  · have := h.rest ⟨b, hb⟩ hn
    rwa [read_one] at this

/-! ### Post-selection -/

theorem sum_prob {n : ℕ} (ψ : QState n) (h : qinner ψ ψ = 1) : ∑ b ∈ range (2 ^ n), prob ψ b = 1 := by
  have e : ∑ b ∈ range (2 ^ n), prob ψ b = ∑ f : Fin n → Bool, Complex.normSq (ψ f) :=
    sum_outcome fun f => Complex.normSq (ψ f)
  rw [e]
  unfold qinner at h
  have : ((∑ f : Fin n → Bool, Complex.normSq (ψ f) : ℝ) : ℂ) = 1 := by
    rw [← h]
    push_cast
    exact sum_congr rfl fun b _ => Complex.normSq_eq_conj_mul_self
  exact_mod_cast this

theorem postselect_exact {norb : ℕ} {e : ℕ × ℕ} {ψ : QState (2 * norb)} (hψ : HasElectrons norb e ψ) {head : List Char}
    (hX : 'X' ∉ head) (hY : 'Y' ∉ head) {d : Distr} (h : ExactDistr (2 * norb) ψ head d) :
    ∃ d', postselection d .jordanWigner e (2 * norb) = .ok d' ∧ ExactDistr (2 * norb) ψ head d' := by
  have hc : runCircuit (toCBS (2 * norb) head) ψ = ψ := by rw [toCBS_plain hX hY]; rfl
  obtain ⟨h1, h2, h3, h4⟩ := h
  rw [hc] at h3 h4
  obtain ⟨kept, k1, k2, -, -, k3⟩ := C54_jw d (fun kv hk => (h3 kv hk).1) e.1 e.2
  have hnd : (kept.map Prod.fst).Nodup := h2.sublist (k1.map _)
  have hout : ∀ b < 2 ^ (2 * norb), b ∉ kept.map Prod.fst → prob ψ b = 0 := by
    intro b hb hn
    by_cases hd : b ∈ d.map Prod.fst
    · obtain ⟨kv, hk, rfl⟩ := List.mem_map.1 hd
      by_contra hp
      exact hn (List.mem_map_of_mem ((k2 kv hk).2 (hψ.1 _ hb hp)))
    · exact h4 b hb hd
  have hval : ∀ kv ∈ kept, kv.1 < 2 ^ (2 * norb) ∧ kv.2 = prob ψ kv.1 := fun kv hk => h3 kv (k1.subset hk)
  have hsum : (kept.map Prod.snd).sum = 1 := by
    have e1 : kept.map Prod.snd = (kept.map Prod.fst).map (prob ψ) := by
      rw [List.map_map]
      exact List.map_congr_left fun kv hk => (hval kv hk).2
    rw [e1, ← List.sum_toFinset _ hnd, ← sum_prob ψ hψ.2]
    refine sum_subset (fun b hb => ?_) fun b hb hn => ?_
    · obtain ⟨kv, hk, rfl⟩ := List.mem_map.1 (List.mem_toFinset.1 hb)
      exact mem_range.2 (hval kv hk).1
    · exact hout b (mem_range.1 hb) fun hm => hn (List.mem_toFinset.2 hm)
  obtain ⟨d', e1, e2, e3, e4⟩ := k3 (by rw [hsum]; exact one_ne_zero)
  refine ⟨d', e1, fun hd => ?_, by rw [e2]; exact hnd, fun kv hk => ?_, fun b hb hn => ?_⟩
  · rw [hd] at e4; simp at e4
  · obtain ⟨p', hp, hq⟩ := (e3 kv.1 kv.2).1 hk
    rw [hsum, div_one] at hq
    rw [hc, hq]
    exact hval _ hp
  · rw [e2] at hn
    rw [hc]
    exact hout b hb hn

/-! ### One distribution -/

variable {norb : ℕ}

/-- The flags `m` remove the read-out errors for the state. -/
def Good (e : ℕ × ℕ) (M : Matrix (Fin (2 ^ (2 * norb))) (Fin (2 ^ (2 * norb))) ℝ) (m : ℕ) (ψ : QState (2 * norb)) : Prop :=
  (m.testBit 0 = true ∧ 2 * norb ≤ 8 ∨ m.testBit 0 = false ∧ M = 1) ∧ (m.testBit 3 = true → HasElectrons norb e ψ)

theorem toInt_bits (f : Flags) : f.toInt.testBit 0 = f.mMit.truthy ∧ f.toInt.testBit 1 = f.ansatz0.truthy ∧
    f.toInt.testBit 3 = f.postsel.truthy := by
  unfold Flags.toInt
  cases h1 : f.mMit.truthy <;> cases h2 : f.ansatz0.truthy <;> cases h3 : f.ansatz0Plus.truthy <;>
    cases h4 : f.postsel.truthy <;> simp [List.zipIdx, h1, h2, h3, h4] <;> decide

theorem good_of {e : ℕ × ℕ} {M : Matrix (Fin (2 ^ (2 * norb))) (Fin (2 ^ (2 * norb))) ℝ} {f : Flags} {ψ : QState (2 * norb)}
    (h2 : f.Corrects M) (h3 : f.postsel.truthy = true → HasElectrons norb e ψ) : Good e M f.toInt ψ := by
  obtain ⟨b0, -, b3⟩ := toInt_bits f
  unfold Good
  rw [b0, b3]
  exact ⟨h2, h3⟩

/-- Data: raw data are as read, and data for good flags are exact. -/
def Rd (e : ℕ × ℕ) (M : Matrix (Fin (2 ^ (2 * norb))) (Fin (2 ^ (2 * norb))) ℝ) (ψ : QState (2 * norb)) (m : ℕ) (head : List Char)
    (d : Distr) : Prop :=
  (m = 0 → ReadDistr (2 * norb) M (runCircuit (toCBS (2 * norb) head) ψ) d) ∧
    (Good e M m ψ → ExactDistr (2 * norb) ψ head d)

theorem rd_raw {e : ℕ × ℕ} {M : Matrix (Fin (2 ^ (2 * norb))) (Fin (2 ^ (2 * norb))) ℝ} {ψ : QState (2 * norb)} {head : List Char}
    {d : Distr} (h : ReadDistr (2 * norb) M (runCircuit (toCBS (2 * norb) head) ψ) d) : Rd e M ψ 0 head d := by
  refine ⟨fun _ => h, fun hg => ?_⟩
  rcases hg.1 with h0 | h0
  · simp at h0
  · have := h0.2
    subst this
    exact exact_of_one h

variable {S : Primitive (2 * norb)} {ansatz : List ℝ → List (PGate (2 * norb))} {K : Calib}
  {M : Matrix (Fin (2 ^ (2 * norb))) (Fin (2 ^ (2 * norb))) ℝ}

theorem mitigation_exact (hS : ReadOut S M) (hM : ReadOutMatrix M) (hj : K.mapper = .jordanWigner) {id : ℕ × ℕ}
    (hid : id.2.testBit 1 = false) {m : ℕ} {ψ : QState (2 * norb)} (hg : Good K.numElec M m ψ) {head : List Char} {raw : Distr}
    (h : ReadDistr (2 * norb) M (runCircuit (toCBS (2 * norb) head) ψ) raw) :
    ∃ d, applyMitigation S ansatz K id m head raw = .ok d ∧ ExactDistr (2 * norb) ψ head d := by
  obtain ⟨h1, h3⟩ := hg
  have first : ∃ d, applyMatrix S ansatz K id m raw = .ok d ∧ ExactDistr (2 * norb) ψ head d := by
    unfold applyMatrix
    rcases h1 with ⟨h0, hn⟩ | ⟨h0, rfl⟩
    · obtain ⟨d, e1, e2⟩ := correct_exact hM h
      refine ⟨d, ?_, e2⟩
      rw [if_pos h0]
      unfold matrixOf
      rw [if_neg (by rw [hid]; simp), makeMinv_ok hn hM (fun g head => hS id.1 K.shots 1 g head)]
      exact e1
    · exact ⟨raw, by rw [if_neg (by rw [h0]; simp)], exact_of_one h⟩
  obtain ⟨d, e1, e2⟩ := first
  unfold applyMitigation
  rw [e1]
  simp only [ok_bind]
  unfold applySelection
  by_cases hb : m.testBit 3 = true
  · rw [if_pos hb]
    by_cases hx : 'X' ∉ head ∧ 'Y' ∉ head
    · rw [if_pos hx, hj]
      exact postselect_exact (h3 hb) hx.1 hx.2 e2
    · rw [if_neg hx]
      exact ⟨d, rfl, e2⟩
  · rw [if_neg hb]
    exact ⟨d, rfl, e2⟩

/-! ### Mitigating what is missing -/

theorem isEmpty_ok {data : SaverData} {m : ℕ} (hm : m ≠ 0) : ∃ b, data.isEmpty m = .ok b := by
  unfold SaverData.isEmpty
  split
  · exact ⟨_, rfl⟩
  · split_ifs with h1 h2
    · exact ⟨_, rfl⟩
    · exact absurd h2.1 hm
    · exact absurd h2.1 hm
    · exact ⟨_, rfl⟩

theorem emptyHeads_cons {m : ℕ} {c : CliqueHead} {cs : List CliqueHead} {l : List (List Char × Distr)}
    (h : emptyHeadsDistr m (c :: cs) = .ok l) :
    (c.data.isEmpty m = .ok false ∧ emptyHeadsDistr m cs = .ok l) ∨
    (c.data.isEmpty m = .ok true ∧ ∃ raw r, c.data.lookup 0 = some raw ∧ emptyHeadsDistr m cs = .ok r ∧ l = (c.head, raw) :: r) := by
  unfold emptyHeadsDistr at h
  cases he : c.data.isEmpty m with
  | error e => rw [he] at h; cases h
  | ok b =>
    rw [he] at h
    cases b with
    | false => exact Or.inl ⟨rfl, h⟩
    | true =>
      refine Or.inr ⟨rfl, ?_⟩
      change (do let raw ← c.data.get 0; _) = _ at h
      unfold SaverData.get at h
      cases hg : c.data.lookup 0 with
      | none => rw [hg] at h; cases h
      | some raw =>
        rw [hg] at h
        change (do let r ← emptyHeadsDistr m cs; _) = _ at h
        cases hr : emptyHeadsDistr m cs with
        | error e => rw [hr] at h; cases h
        | ok r =>
          rw [hr] at h
          exact ⟨raw, r, rfl, rfl, (Except.ok.inj h).symm⟩

theorem emptyHeads_total {m : ℕ} (hm : m ≠ 0) {cs : List CliqueHead} (h : ∀ c ∈ cs, c.data.isEmpty 0 = .ok false) :
    ∃ l, emptyHeadsDistr m cs = .ok l := by
  induction cs with
  | nil => exact ⟨[], rfl⟩
  | cons c cs ih =>
    obtain ⟨r, hr⟩ := ih fun x hx => h x (by simp [hx])
    obtain ⟨b, hb⟩ := isEmpty_ok (data := c.data) hm
    obtain ⟨d, h1, -⟩ := isEmpty_false.1 (h c (by simp))
    unfold emptyHeadsDistr
    rw [hb]
    cases b with
    | false => exact ⟨r, hr⟩
    | true =>
      refine ⟨(c.head, d) :: r, ?_⟩
      change (do let raw ← c.data.get 0; _) = _
      unfold SaverData.get
      rw [h1]
      change (do let r ← emptyHeadsDistr m cs; _) = _
      rw [hr]
      rfl

theorem update_after_empty {m : ℕ} {cs : List CliqueHead} (hnd : (headsOf cs).Nodup) {l : List (List Char × Distr)}
    (h : emptyHeadsDistr m cs = .ok l) {ds : List Distr} (hl : ds.length = l.length) (hne : ∀ d ∈ ds, d ≠ []) :
    (updateAll m ((l.map Prod.fst).zip ds) cs).1 = .ok () ∧
      ∀ c ∈ (updateAll m ((l.map Prod.fst).zip ds) cs).2, c.data.isEmpty m = .ok false := by
  induction cs generalizing l ds with
  | nil =>
    unfold emptyHeadsDistr at h
    cases h
    exact ⟨rfl, by simp [updateAll]⟩
  | cons c cs ih =>
    have hnd' : c.head ∉ headsOf cs ∧ (headsOf cs).Nodup := List.nodup_cons.1 hnd
    have hno : ∀ (r : List (List Char × Distr)) (ds : List Distr), emptyHeadsDistr m cs = .ok r →
        ∀ x ∈ (r.map Prod.fst).zip ds, x.1 ≠ c.head := by
      intro r ds hr x hx e
      obtain ⟨y, hy, e2⟩ := List.mem_map.1 (List.of_mem_zip (a := x.1) (b := x.2) hx).1
      obtain ⟨c', h1, h2, -⟩ := emptyHeads_mem hr y hy
      exact hnd'.1 (by rw [← e, ← e2, ← h2]; exact List.mem_map_of_mem h1)
    rcases emptyHeads_cons h with ⟨h1, h2⟩ | ⟨h1, raw, r, -, h2, rfl⟩
    · obtain ⟨i1, i2⟩ := ih hnd'.2 h2 hl hne
      rw [updateAll_cons_notMem (hno l ds h2)]
      refine ⟨i1, fun b hb => ?_⟩
      rcases List.mem_cons.1 hb with rfl | hb
      · exact h1
      · exact i2 b hb
    · cases ds with
      | nil => simp at hl
      | cons d ds =>
        obtain ⟨i1, i2⟩ := ih hnd'.2 h2 (by simpa using hl) fun x hx => hne x (by simp [hx])
        have hstep : updateAll m ((((c.head, raw) :: r).map Prod.fst).zip (d :: ds)) (c :: cs) =
            updateAll m ((r.map Prod.fst).zip ds) (⟨c.head, c.data.add d m⟩ :: cs) := by
          rw [List.map_cons, List.zip_cons_cons, updateAll, updateHeads, if_pos rfl, h1, updateHeads_notMem hnd'.1]
        rw [hstep, updateAll_cons_notMem (c := ⟨c.head, c.data.add d m⟩) (hno r ds h2)]
        refine ⟨i1, fun b hb => ?_⟩
        rcases List.mem_cons.1 hb with rfl | hb
        · refine isEmpty_false.2 ⟨d, ?_, hne d (by simp)⟩
          show (dictPut c.data m d).lookup m = some d
          rw [lookup_dictPut, if_pos rfl]
        · exact i2 b hb

theorem emptyHeads_full {m : ℕ} {cs : List CliqueHead} (h : emptyHeadsDistr m cs = .ok []) :
    ∀ c ∈ cs, c.data.isEmpty m = .ok false := by
  induction cs with
  | nil => simp
  | cons c cs ih =>
    rcases emptyHeads_cons h with ⟨h1, h2⟩ | ⟨-, raw, r, -, -, e⟩
    · intro x hx
      rcases List.mem_cons.1 hx with rfl | hx
      · exact h1
      · exact ih h2 x hx
    · cases e

/-- Mitigation that never fails fills every head. -/
theorem mitigateStep_total {m : ℕ} (hm : m ≠ 0) {cs : List CliqueHead} (hnd : (headsOf cs).Nodup)
    (hfull : ∀ c ∈ cs, c.data.isEmpty 0 = .ok false) (mit : List Char → Distr → Res Distr)
    (hmit : ∀ c ∈ cs, ∀ raw, c.data.lookup 0 = some raw → ∃ d, mit c.head raw = .ok d ∧ d ≠ []) :
    (mitigateStep mit m cs).1 = .ok () ∧ ∀ c ∈ (mitigateStep mit m cs).2, c.data.isEmpty m = .ok false := by
  obtain ⟨l, hl⟩ := emptyHeads_total hm hfull
  unfold mitigateStep
  rw [hl]
  simp only
  by_cases h0 : l = []
  · rw [if_pos h0]
    subst h0
    exact ⟨rfl, emptyHeads_full hl⟩
  · rw [if_neg h0]
    obtain ⟨ds, e1, e2⟩ := mapM_ok_exists (f := fun hd : List Char × Distr => mit hd.1 hd.2) (fun _ d => d ≠ []) l (fun x hx => by
      obtain ⟨c, h1, h2, h3⟩ := emptyHeads_mem hl x hx
      rw [← h2]
      exact hmit c h1 _ h3)
    rw [e1]
    simp only
    obtain ⟨u1, u2⟩ := update_after_empty hnd hl e2.length_eq.symm (fun d hd => by
      obtain ⟨i, hi, rfl⟩ := List.mem_iff_getElem.1 hd
      exact (List.forall₂_iff_get.1 e2).2 i (by rw [e2.length_eq]; exact hi) hi)
    unfold updateDistr
    cases e3 : updateAll m ((l.map Prod.fst).zip ds) cs with
    | mk r cs' =>
      rw [e3] at u1 u2
      cases u1
      exact ⟨checkAllocated_ok u2, u2⟩

theorem value_good {n : ℕ} (hn : 0 < n) {ψ : QState n} {P : ℕ → List Char → Distr → Prop} {m : ℕ}
    (hP : ∀ hd d, P m hd d → ExactDistr n ψ hd d) {cs : List CliqueHead} {ops : List CliqueOp}
    (h : Hist n P cs ops) (hfull : ∀ c ∈ cs, c.data.isEmpty m = .ok false) {obs : List (List Char × ℝ)}
    (hp : ∀ pc ∈ obs, PauliLabel n pc.1) (hadd : CliqueOp.add (obs.map Prod.fst) ∈ ops) :
    valueFrom cs m obs = .ok (labelSum ψ obs) := by
  have hheads := h.heads
  obtain ⟨h1, h2, h3⟩ := h
  have hg : ∀ pc ∈ obs, ∃ d, getDistr pc.1 m cs = .ok d := by
    intro pc hpc
    obtain ⟨c, hc, -, -, hr⟩ := read_located cs (hheads.found pc.1
      (List.mem_flatMap.2 ⟨_, hadd, List.mem_map_of_mem hpc⟩))
    exact (hr m).2 (hfull c hc)
  obtain ⟨v, hv⟩ := valueFrom_total hn cs m obs hp hg 0
  obtain ⟨ds, d1, d2, d3⟩ := valueFrom_ok hn cs m obs hp 0 v hv
  unfold valueFrom
  rw [hv, d3, zero_add, zip_sum obs ds d1]
  intro x hx
  have hxm : x.1 ∈ obs := (List.of_mem_zip (a := x.1) (b := x.2) hx).1
  obtain ⟨-, -, hloc⟩ := C46_history ops h2
  obtain ⟨head, -, hcov, -, hget⟩ := hloc _ hadd x.1.1 (List.mem_map_of_mem hxm)
  rw [← h1] at hget
  obtain ⟨-, op', ho, hgv⟩ := hget m x.2 (d2 x hx)
  have := exact_average (hp _ hxm) hcov (hP _ _ (h3 op' ho _ _ _ hgv))
  rw [← this, Complex.ofReal_re]

end SQ
