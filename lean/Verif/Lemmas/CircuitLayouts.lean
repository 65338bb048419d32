import Verif.Props.Structures
import Verif.Spec.CircuitLayouts

/-! # Entries of the ansatz structures that have circuits -/

namespace SQ

def CircEntry (n : ℕ) (e : Entry) : Prop := ∃ T, CircuitExc n e.ty e.idx T

theorem circ_single {n i a : ℕ} (ha : a < 2 * n) (h : i < a) (hs : i % 2 = a % 2) (R : Option ℕ) :
    CircEntry n ⟨"single", [i, a], R⟩ := by
  refine ⟨_, CircuitExc.single i a (fun p hp => ?_) (.inl ⟨hs, h⟩)⟩
  simp only [List.mem_cons, List.not_mem_nil, or_false] at hp
  rcases hp with rfl | rfl <;> omega

theorem circ_double {n i j a b : ℕ} (hij : i ≠ j) (hab : a ≠ b) (ha : a < 2 * n) (hb : b < 2 * n) (h1 : i < a) (h2 : i < b)
    (h3 : j < a) (h4 : j < b) (hs : SameSpin [a, b] [i, j]) (R : Option ℕ) : CircEntry n ⟨"double", [i, j, a, b], R⟩ := by
  refine ⟨_, CircuitExc.double i j a b (fun p hp => ?_) ?_ (fun p hp q hq => ?_) ?_⟩
  · simp only [List.mem_cons, List.not_mem_nil, or_false] at hp
    rcases hp with rfl | rfl | rfl | rfl <;> omega
  · simp only [List.nodup_cons, List.mem_cons, List.not_mem_nil, or_false, not_or, not_false_eq_true, List.nodup_nil,
      and_true]
    omega
  · simp only [List.mem_cons, List.not_mem_nil, or_false] at hp hq
    rcases hp with rfl | rfl <;> rcases hq with rfl | rfl <;> assumption
  · have e : ([i, j, a, b] : List ℕ) = [i, j] ++ [a, b] := rfl
    rw [e, List.countP_append, hs.1]
    omega

theorem circ_pair {n i a : ℕ} (h : i < a) (ha : a < n) (R : Option ℕ) :
    CircEntry n ⟨"double", [2 * i, 2 * i + 1, 2 * a, 2 * a + 1], R⟩ := by
  refine circ_double (by omega) (by omega) (by omega) (by omega) (by omega) (by omega) (by omega) (by omega) ?_ R
  have e1 : 2 * i % 2 = 0 := by omega
  have e2 : (2 * i + 1) % 2 = 1 := by omega
  have e3 : 2 * a % 2 = 0 := by omega
  have e4 : (2 * a + 1) % 2 = 1 := by omega
  constructor <;> simp [e2, e4]

theorem circ_sa {n i a : ℕ} (h : i < a) (ha : a < n) (R : Option ℕ) : CircEntry n ⟨"sa_single", [i, a], R⟩ :=
  ⟨_, CircuitExc.saSingle i a h ha⟩

theorem circ_tiledLayer (n : ℕ) (t q s L : ℤ) (k : ℕ) : ∀ e ∈ tiledLayer n t q s L k, CircEntry n e := by
  intro e he
  unfold tiledLayer at he
  rw [List.mem_append] at he
  have block : ∀ p, p + 1 < n → ∀ t q skip, ∀ e ∈ tiledBlock t q skip p, CircEntry n e := by
    intro p hp t q skip e he
    have hs : CircEntry n ⟨"sa_single", [p, p + 1], some 4⟩ := circ_sa (by omega) hp _
    unfold tiledBlock at he
    rw [List.mem_append, List.mem_append] at he
    rcases he with (he | he) | he
    · split_ifs at he
      · rw [List.mem_singleton.1 he]; exact hs
      · simp at he
    · rw [List.mem_singleton.1 he]; exact circ_pair (i := p) (a := p + 1) (by omega) hp _
    · split_ifs at he
      · simp at he
      · rw [List.mem_singleton.1 he]; exact hs
      · simp at he
  rcases he with he | he <;>
  · obtain ⟨p, hp, he⟩ := List.mem_flatMap.1 he
    rw [mem_rangeStep2] at hp
    exact block _ (by omega) _ _ _ e he

theorem same_single {i a : ℕ} (h : SameSpin [a] [i]) : i % 2 = a % 2 := by
  have := h.2
  simp only [List.countP_cons, List.countP_nil] at this
  rcases Nat.mod_two_eq_zero_or_one a with h | h <;> rcases Nat.mod_two_eq_zero_or_one i with h' | h' <;>
    simp [h, h'] at this ⊢

theorem spinName_ne {k : ℕ} (hk : 3 ≤ k ∧ k ≤ 6) : spinOption k ∈ ["GD", "T", "Q", "5", "6", "SAD"] := by
  obtain ⟨h1, h2⟩ := hk
  interval_cases k <;> decide

theorem circ_fuccLayer {L : OrbLists} (hL : L.Ok) (hS : L.Ordered) (o : Options)
    (ho : ∀ k ∈ ["GD", "T", "Q", "5", "6", "SAD"], o.flag k = 0) : ∀ e ∈ fuccLayer L o, CircEntry L.numOrbs e := by
  have hun : ∀ p ∈ L.unocc, p < L.numOrbs := fun p hp => hL.spat p (List.mem_append_right _ hp)
  have huns : ∀ p ∈ L.unoccSpin, p < 2 * L.numOrbs := fun p hp => hL.spin p (List.mem_append_right _ hp)
  intro e he
  have h := mem_fuccLayer.1 ⟨e, he, rfl, rfl⟩
  obtain ⟨ty, idx, R⟩ := e
  simp only at h
  cases h with
  | spin k hk hf I A hI hA lI lA hs =>
    match k, hk with
    | 1, _ =>
      match I, A, lI, lA with
      | [i], [a], _, _ =>
        have h1 : i ∈ L.occSpin := hI.subset (by simp)
        have h2 : a ∈ L.unoccSpin := hA.subset (by simp)
        exact circ_single (huns a h2) (hS.spin i h1 a h2) (same_single hs) R
    | 2, _ =>
      match I, A, lI, lA with
      | [i, j], [a, b], _, _ =>
        have h1 : i ∈ L.occSpin := hI.subset (by simp)
        have h2 : j ∈ L.occSpin := hI.subset (by simp)
        have h3 : a ∈ L.unoccSpin := hA.subset (by simp)
        have h4 : b ∈ L.unoccSpin := hA.subset (by simp)
        have n1 : i ≠ j := by have := hI.nodup hS.nodupOcc; simpa using this
        have n2 : a ≠ b := by have := hA.nodup hS.nodupUnocc; simpa using this
        exact circ_double n1 n2 (huns _ h3) (huns _ h4) (hS.spin _ h1 _ h3) (hS.spin _ h1 _ h4) (hS.spin _ h2 _ h3)
          (hS.spin _ h2 _ h4) hs R
    | k + 3, hk =>
      exact absurd (ho _ (spinName_ne (k := k + 3) ⟨by omega, hk.2⟩)) hf
  | generalizedSingle hf i a h ha hs => exact circ_single ha h (same_single hs) R
  | saSingle hf i a hi ha => exact circ_sa (hS.spat i hi a ha) (hun a ha) R
  | generalizedSaSingle hf i a h ha => exact circ_sa h ha R
  | generalizedDouble hf i j a b h hb hs => exact absurd (ho "GD" (by simp)) hf
  | pairDouble hf i a hi ha => exact circ_pair (hS.spat i hi a ha) (hun a ha) R
  | generalizedPairDouble hf i a h ha => exact circ_pair h ha R
  | saDouble hf i j a b c h1 h2 h3 => exact absurd (ho "SAD" (by simp)) hf

theorem circ_sdsLayer {L : OrbLists} (hL : L.Ok) (hS : L.Ordered) (o : Options) (hp : o.flag "pD" = 0) :
    ∀ e ∈ sdsLayer L o, CircEntry L.numOrbs e := by
  obtain ⟨-, t2, -⟩ := t_spin L.occSpin L.unoccSpin
  have huns : ∀ p ∈ L.unoccSpin, p < 2 * L.numOrbs := fun p hp => hL.spin p (List.mem_append_right _ hp)
  intro e he
  unfold sdsLayer at he
  simp only [List.mem_append, mem_blockIf] at he
  rcases he with (⟨-, he⟩ | ⟨hf, -⟩) | ⟨-, he⟩
  · obtain ⟨x, hx, he⟩ := List.mem_flatMap.1 he
    obtain ⟨A, I, hA, hI, h3, h4, h5, rfl⟩ := t2 x hx
    match A, I, h3, h4 with
    | [a, b], [i, j], _, _ =>
      have h1 : i ∈ L.occSpin := hI.subset (by simp)
      have h2 : j ∈ L.occSpin := hI.subset (by simp)
      have h3 : a ∈ L.unoccSpin := hA.subset (by simp)
      have h4 : b ∈ L.unoccSpin := hA.subset (by simp)
      have n1 : i ≠ j := by have := hI.nodup hS.nodupOcc; simpa using this
      have n2 : a ≠ b := by have := hA.nodup hS.nodupUnocc; simpa using this
      obtain ⟨m1, m2⟩ := mod_cases h5
      simp only [interleave, sdsBody, List.mem_cons, List.not_mem_nil, or_false] at he
      rcases he with rfl | rfl | rfl
      · split_ifs with h
        · exact circ_single (huns _ h3) (hS.spin _ h1 _ h3) h _
        · exact circ_single (huns _ h4) (hS.spin _ h1 _ h4) (m2 h).1 _
      · exact circ_double n1 n2 (huns _ h3) (huns _ h4) (hS.spin _ h1 _ h3) (hS.spin _ h1 _ h4) (hS.spin _ h2 _ h3)
          (hS.spin _ h2 _ h4) h5 _
      · split_ifs with h
        · exact circ_single (huns _ h4) (hS.spin _ h2 _ h4) (m1 h) _
        · exact circ_single (huns _ h3) (hS.spin _ h2 _ h3) (m2 h).2 _
  · exact absurd hp hf
  · obtain ⟨x, hx, he⟩ := List.mem_flatMap.1 he
    obtain ⟨a, i, h1, h2, rfl⟩ := ((C35_generalized_singles L.numOrbs).2.2.2 x).1 hx
    simp only [sdsGenPairBody, List.mem_cons, List.not_mem_nil, or_false] at he
    have hs : CircEntry L.numOrbs ⟨"sa_single", [2 * i / 2, 2 * a / 2], some 4⟩ := circ_sa (by omega) (by omega) _
    rcases he with rfl | rfl | rfl
    · exact hs
    · exact circ_pair h1 h2 _
    · exact hs

theorem circ_run {s : UpsStruct} {es : List Entry} (h : Built s es) (c : UpsCall) :
    ∃ l, Built (c.run s) (es ++ l) ∧ ∀ n, c.HasCircuit n → ∀ e ∈ l, CircEntry n e := by
  have keep' : ∀ P : ℕ → Prop, ∃ l : List Entry, Built s (es ++ l) ∧ ∀ n, P n → ∀ e ∈ l, CircEntry n e := fun _ =>
    ⟨[], by simpa using h, by simp⟩
  match c with
  | .tiled m o =>
    unfold UpsCall.run createTiled
    dsimp only
    split
    · exact keep' _
    · split_ifs
      · exact keep' _
      · exact keep' _
      · refine ⟨_, h.addAll _, fun n hn e he => ?_⟩
        obtain rfl : m = n := hn
        obtain ⟨k, -, he⟩ := List.mem_flatMap.1 he
        exact circ_tiledLayer _ _ _ _ _ _ e he
  | .fucc L o =>
    unfold UpsCall.run createFucc
    dsimp only
    split
    · exact keep' _
    · split_ifs
      · exact keep' _
      · refine ⟨_, h.addAll _, fun n hn e he => ?_⟩
        obtain ⟨hL, hS, rfl, ho⟩ := hn
        obtain ⟨k, -, he⟩ := List.mem_flatMap.1 he
        exact circ_fuccLayer hL hS o ho e he
  | .sds L o =>
    unfold UpsCall.run createSds
    dsimp only
    split
    · exact keep' _
    · split_ifs
      · exact keep' _
      · refine ⟨_, h.addAll _, fun n hn e he => ?_⟩
        obtain ⟨hL, hS, rfl, hp⟩ := hn
        obtain ⟨k, -, he⟩ := List.mem_flatMap.1 he
        exact circ_sdsLayer hL hS o hp e he

theorem circ_runs (calls : List UpsCall) : ∀ {s : UpsStruct} {es : List Entry}, Built s es →
    ∃ l, Built (calls.foldl UpsCall.run s) (es ++ l) ∧ ∀ n, (∀ c ∈ calls, c.HasCircuit n) → ∀ e ∈ l, CircEntry n e := by
  induction calls with
  | nil => intro s es h; exact ⟨[], by simpa using h, by simp⟩
  | cons c calls ih =>
    intro s es h
    obtain ⟨l1, b1, g1⟩ := circ_run h c
    obtain ⟨l2, b2, g2⟩ := ih b1
    rw [List.append_assoc] at b2
    refine ⟨l1 ++ l2, b2, fun n hn e he => ?_⟩
    rcases List.mem_append.1 he with he | he
    · exact g1 n (hn c (by simp)) e he
    · exact g2 n (fun c hc => hn c (by simp [hc])) e he

theorem circLayout_of_entries {n : ℕ} (es : List Entry) (h : ∀ e ∈ es, CircEntry n e) :
    ∃ Ts, CircuitLayout n (es.map Entry.ty) (es.map Entry.idx) Ts := by
  induction es with
  | nil => exact ⟨[], .nil⟩
  | cons e es ih =>
    obtain ⟨Ts, hT⟩ := ih fun e he => h e (by simp [he])
    obtain ⟨T, hT'⟩ := h e (by simp)
    exact ⟨T :: Ts, .cons hT' hT⟩

end SQ
