import Verif.Lemmas.CIExtended
import Verif.Lemmas.Fold

/-!
# Properties C16-C18: determinant spaces

Spec: `SQ.InCAS`, `SQ.InExtended` (which sets of occupied spin orbitals belong to a space),
`SQ.decode` (which set a determinant integer stands for), `CIInfo.Mem`, `CIInfo.Valid`.
-/

namespace SQ

/-! ## C16 -/

/-- C16: the spin strings are exactly the 0/1 lists of length `n` with `k` ones (none for negative
`k`) ... -/
theorem C16_strings (n : ℕ) (k : ℤ) (s : List ℕ) : s ∈ genSpinStrings n k ↔
    s.length = n ∧ (∀ x ∈ s, x = 0 ∨ x = 1) ∧ (s.count 1 : ℤ) = k := by
  rw [mem_gen, occ_or]

/-- ... each once ... -/
theorem C16_nodup (n : ℕ) (k : ℤ) : (genSpinStrings n k).Nodup := gen_nodup n k

/-- ... `C(n, k)` of them ... -/
theorem C16_count (n k : ℕ) : (genSpinStrings n k).length = n.choose k := gen_length n k

/-- ... and none for a negative number of electrons. -/
theorem C16_negative (n : ℕ) (k : ℤ) (h : k < 0) : genSpinStrings n k = [] := gen_neg n h

example : [0, 1, 1] ∈ genSpinStrings 3 2 := by decide
example : genSpinStrings 3 2 = [[1, 1, 0], [1, 0, 1], [0, 1, 1]] := by decide

/-! ## C17 -/

theorem decode_nodup {n : ℕ} {l : List ℕ} (hn : l.Nodup)
    (h : ∀ d ∈ l, ∃ a b : List ℕ, a.length = n ∧ b.length = n ∧ Occ a ∧ Occ b ∧ d = detOf a b) :
    (l.map (decode n)).Nodup := by
  refine List.Nodup.map_on ?_ hn
  intro x hx y hy hxy
  obtain ⟨a, b, h1, h2, h3, h4, rfl⟩ := h x hx
  obtain ⟨a', b', g1, g2, g3, g4, rfl⟩ := h y hy
  have e1 : a = a' := by
    refine occ_ext h1 g1 h3 g3 fun p _ => ?_
    rw [← (mem_decode_detOf h1 h2 h3 h4).1, ← (mem_decode_detOf g1 g2 g3 g4).1, hxy]
  have e2 : b = b' := by
    refine occ_ext h2 g2 h4 g4 fun p _ => ?_
    rw [← (mem_decode_detOf h1 h2 h3 h4).2, ← (mem_decode_detOf g1 g2 g3 g4).2, hxy]
  rw [e1, e2]

/-- The determinants of the complete active space in the order of the code. -/
def casDets (n : ℕ) (na nb : ℤ) : List ℕ :=
  (pairs (genSpinStrings n na) (genSpinStrings n nb)).map fun p => detOf p.1 p.2

theorem mem_casDets {n : ℕ} {na nb : ℤ} {d : ℕ} : d ∈ casDets n na nb ↔
    ∃ a b, a ∈ genSpinStrings n na ∧ b ∈ genSpinStrings n nb ∧ d = detOf a b := by
  unfold casDets
  rw [List.mem_map]
  constructor
  · rintro ⟨⟨s, t⟩, hp, rfl⟩
    obtain ⟨h1, h2⟩ := mem_pairs.1 hp
    exact ⟨s, t, h1, h2, rfl⟩
  · rintro ⟨s, t, hs, ht, rfl⟩
    exact ⟨(s, t), mem_pairs.2 ⟨hs, ht⟩, rfl⟩

theorem casDets_nodup (n : ℕ) (na nb : ℤ) : (casDets n na nb).Nodup :=
  nodup_dets (n := n) (nodup_pairs (gen_nodup _ _) (gen_nodup _ _)) fun p hp => by
    obtain ⟨h1, h2⟩ := mem_pairs.1 hp
    rw [mem_gen] at h1 h2
    exact ⟨h1.1, h2.1, h1.2.1, h2.2.1⟩

theorem getIndexing_eq {nA : ℕ} (hA : 0 < nA) (nI nV : ℕ) (na nb : ℤ) :
    getIndexing nI nA nV na nb = .ok { nI := nI, nA := nA, nV := nV, idx2det := casDets nA na nb
                                       det2idx := (casDets nA na nb).zipIdx } := by
  unfold getIndexing
  rw [foldlM_pairs indexStep]
  have := foldlM_noskip (pairs (genSpinStrings nA na) (genSpinStrings nA nb)) (by
    intro p hp
    obtain ⟨h1, h2⟩ := mem_pairs.1 hp
    rw [mem_gen] at h1 h2
    exact detStr_ne_nil hA h1.1 h2.1) [] (casDets_nodup nA na nb)
  have e : ((pairs (genSpinStrings nA na) (genSpinStrings nA nb)).foldlM
      (fun st p => indexStep st p.1 p.2) ({} : Indexing)) = .ok (Indexing.of (casDets nA na nb)) := by
    exact this
  unfold pairs at e
  rw [e]
  rfl

theorem inCAS_iff {n : ℕ} {na nb : ℤ} {S : Finset ℕ} : (∃ d ∈ casDets n na nb, decode n d = S) ↔
    InCAS n na nb S := by
  constructor
  · rintro ⟨d, hd, rfl⟩
    obtain ⟨a, b, ha, hb, rfl⟩ := mem_casDets.1 hd
    rw [mem_gen] at ha hb
    obtain ⟨s1, s2⟩ := spatOf_decode ha.1 hb.1 ha.2.1 hb.2.1
    exact ⟨decode_sub _ _, by rw [s1, card_ones]; exact ha.2.2, by rw [s2, card_ones]; exact hb.2.2⟩
  · rintro ⟨hS, h1, h2⟩
    refine ⟨_, mem_casDets.2 ⟨occOf n (spatOf n 0 S), occOf n (spatOf n 1 S), ?_, ?_, rfl⟩, decode_occOf hS⟩
    · rw [mem_gen, ← card_ones, ones_occOf (spatOf_sub _ _ _)]
      exact ⟨occOf_length _ _, occOf_occ _ _, h1⟩
    · rw [mem_gen, ← card_ones, ones_occOf (spatOf_sub _ _ _)]
      exact ⟨occOf_length _ _, occOf_occ _ _, h2⟩

/-- C17: for at least one active orbital `get_indexing` succeeds; the space holds exactly the
determinants with `na` alpha and `nb` beta electrons, each once, and `det2idx` inverts `idx2det`. -/
theorem C17_space {nA : ℕ} (hA : 0 < nA) (nI nV : ℕ) (na nb : ℤ) :
    ∃ ci, getIndexing nI nA nV na nb = .ok ci ∧ ci.nI = nI ∧ ci.nA = nA ∧ ci.nV = nV ∧ ci.offset = 0 ∧ ci.Valid ∧
      (ci.idx2det.map (decode nA)).Nodup ∧ ∀ S, ci.Mem S ↔ InCAS nA na nb S := by
  refine ⟨_, getIndexing_eq hA nI nV na nb, rfl, rfl, rfl, rfl, ?_, ?_, fun S => inCAS_iff⟩
  · refine valid_of_list rfl rfl (casDets_nodup _ _ _) fun d hd => ?_
    obtain ⟨a, b, ha, hb, rfl⟩ := mem_casDets.1 hd
    rw [mem_gen] at ha hb
    exact detOf_lt ha.1 hb.1 ha.2.1 hb.2.1
  · refine decode_nodup (casDets_nodup _ _ _) fun d hd => ?_
    obtain ⟨a, b, ha, hb, rfl⟩ := mem_casDets.1 hd
    rw [mem_gen] at ha hb
    exact ⟨a, b, ha.1, hb.1, ha.2.1, hb.2.1, rfl⟩

/-- C17: the number of determinants. -/
theorem C17_count {nA : ℕ} (hA : 0 < nA) (nI nV na nb : ℕ) (ci : CIInfo)
    (h : getIndexing nI nA nV na nb = .ok ci) : ci.idx2det.length = nA.choose na * nA.choose nb := by
  rw [getIndexing_eq hA] at h
  rw [← Except.ok.inj h]
  simp [casDets, length_pairs, gen_length]

/-- Edge case of the code: without active orbitals (and electrons) `int("", 2)` raises `ValueError`. -/
theorem C17_no_orbitals_raises (nI nV : ℕ) : getIndexing nI 0 nV 0 0 = .error .valueError := rfl

example : InCAS 2 1 1 {0, 3} := by
  unfold InCAS spatOf; decide
example : ∃ ci, getIndexing 1 2 1 1 1 = .ok ci ∧ ci.idx2det = [12, 9, 6, 3] := ⟨_, rfl, rfl⟩

/-! ## C18 -/

theorem block_prefix {nI nA nV : ℕ} {na nb : ℤ} :
    (blockDets nA (List.replicate nI 1, List.replicate nV 0) (List.replicate nI 1, List.replicate nV 0)
      na nb).map (decode (nI + nA + nV)) = (casDets nA na nb).map fun d => withCore (2 * nI) (decode nA d) := by
  unfold blockDets casDets
  rw [List.map_map, List.map_map]
  apply List.map_congr_left
  rintro ⟨a, b⟩ hp
  obtain ⟨ha, hb⟩ := mem_pairs.1 hp
  rw [mem_gen] at ha hb
  dsimp only [Function.comp] at ha hb ⊢
  have hfill : ∀ c : List ℕ, c.length = nA → Occ c →
      (List.replicate nI 1 ++ c ++ List.replicate nV 0).length = nI + nA + nV ∧
      Occ (List.replicate nI 1 ++ c ++ List.replicate nV 0) ∧
      ∀ p, (List.replicate nI 1 ++ c ++ List.replicate nV 0).getD p 0 = 1 ↔
        p < nI ∨ (nI ≤ p ∧ c.getD (p - nI) 0 = 1) := by
    intro c hc oc
    refine ⟨by simp [hc]; omega, ?_, ?_⟩
    · rw [Occ.append, Occ.append]
      refine ⟨⟨?_, oc⟩, ?_⟩
      · intro x hx; rw [List.eq_of_mem_replicate hx]
      · intro x hx; rw [List.eq_of_mem_replicate hx]; omega
    · intro p
      rw [List.append_assoc]
      rcases Nat.lt_or_ge p nI with hpI | hpI
      · rw [List.getD_append _ _ _ _ (by simpa using hpI), List.getD_eq_getElem _ _ (by simpa using hpI)]
        simp [hpI]
      · rw [List.getD_append_right _ _ _ _ (by simpa using hpI), List.length_replicate]
        rcases Nat.lt_or_ge (p - nI) nA with h2 | h2
        · rw [List.getD_append _ _ _ _ (by omega)]
          constructor
          · exact fun h => Or.inr ⟨hpI, h⟩
          · rintro (h | h)
            · omega
            · exact h.2
        · rw [List.getD_append_right _ _ _ _ (by omega), List.getD_eq_default c _ (by omega)]
          constructor
          · intro h
            rw [List.getD_eq_getElem?_getD, List.getElem?_replicate] at h
            split at h <;> simp at h
          · rintro (h | h)
            · omega
            · omega
  obtain ⟨la, oa, ga⟩ := hfill a ha.1 ha.2.1
  obtain ⟨lb, ob, gb⟩ := hfill b hb.1 hb.2.1
  have hd := fun p => mem_decode_detOf la lb oa ob (p := p)
  have hs := fun p => mem_decode_detOf ha.1 hb.1 ha.2.1 hb.2.1 (p := p)
  ext q
  rcases Nat.lt_or_ge q (2 * nI) with hq | hq
  · simp only [mem_withCore_lt hq, iff_true]
    rcases Nat.even_or_odd' q with ⟨p, rfl | rfl⟩
    · rw [(hd p).1, ga]; exact Or.inl (by omega)
    · rw [(hd p).2, gb]; exact Or.inl (by omega)
  · obtain ⟨r, rfl⟩ := Nat.exists_eq_add_of_le hq
    rw [mem_withCore_add]
    rcases Nat.even_or_odd' r with ⟨p, rfl | rfl⟩
    · rw [show 2 * nI + 2 * p = 2 * (nI + p) by ring, (hd _).1, ga, (hs p).1, Nat.add_sub_cancel_left]
      constructor
      · rintro (h | h)
        · omega
        · exact h.2
      · exact fun h => Or.inr ⟨by omega, h⟩
    · rw [show 2 * nI + (2 * p + 1) = 2 * (nI + p) + 1 by ring, (hd _).2, gb, (hs p).2,
        Nat.add_sub_cancel_left]
      constructor
      · rintro (h | h)
        · omega
        · exact h.2
      · exact fun h => Or.inr ⟨by omega, h⟩

theorem getIndexingExtended_eq {nI nA nV : ℕ} (hN : 0 < nI + nA + nV) (na nb order : ℤ) (ho : order ≤ 2) :
    getIndexingExtended nI nA nV na nb order = .ok
      { nI := 0, nA := nI + nA + nV, nV := 0
        idx2det := (extendedDets nI nA nV na nb (decide (order = 2))).foldl pushNew []
        det2idx := ((extendedDets nI nA nV na nb (decide (order = 2))).foldl pushNew []).zipIdx
        offset := nI } := by
  unfold getIndexingExtended
  rw [if_neg (by omega), extendedLoop_eq hN]
  rfl

/-- C18: `get_indexing_extended` (orbital count positive, order at most 2) succeeds; the space is over
all orbitals, holds exactly the determinants of `InExtended`, each once, and `det2idx` inverts
`idx2det`. -/
theorem C18_space {nI nA nV : ℕ} (hN : 0 < nI + nA + nV) (na nb order : ℤ) (ho : order ≤ 2) :
    ∃ ci, getIndexingExtended nI nA nV na nb order = .ok ci ∧ ci.nI = 0 ∧ ci.nA = nI + nA + nV ∧
      ci.nV = 0 ∧ ci.offset = nI ∧ ci.Valid ∧ (ci.idx2det.map (decode (nI + nA + nV))).Nodup ∧
      ∀ S, ci.Mem S ↔ InExtended nI nA nV na nb (decide (order = 2)) S := by
  set l := (extendedDets nI nA nV na nb (decide (order = 2))).foldl pushNew [] with hl
  have hmem : ∀ d, d ∈ l ↔ ∃ α β, ExtClass nI nA nV na nb (decide (order = 2)) α β ∧ d = detOf α β := by
    intro d
    rw [hl, mem_pushAll, ← mem_extendedDets]; simp
  have hnd : l.Nodup := nodup_pushAll _ _ List.nodup_nil
  refine ⟨_, getIndexingExtended_eq hN na nb order ho, rfl, rfl, rfl, rfl, ?_, ?_, fun S => ?_⟩
  · refine valid_of_list rfl rfl hnd fun d hd => ?_
    obtain ⟨α, β, hc, rfl⟩ := (hmem d).1 hd
    obtain ⟨h1, h2⟩ := hc.full
    exact detOf_lt h1.1 h2.1 h1.2.1 h2.2.1
  · refine decode_nodup hnd fun d hd => ?_
    obtain ⟨α, β, hc, rfl⟩ := (hmem d).1 hd
    obtain ⟨h1, h2⟩ := hc.full
    exact ⟨α, β, h1.1, h2.1, h1.2.1, h2.2.1, rfl⟩
  · rw [← mem_extended_set]
    constructor
    · rintro ⟨d, hd, rfl⟩
      obtain ⟨α, β, hc, rfl⟩ := (hmem d).1 hd
      exact ⟨α, β, hc, rfl⟩
    · rintro ⟨α, β, hc, rfl⟩
      exact ⟨_, (hmem _).2 ⟨α, β, hc, rfl⟩, rfl⟩

/-- C18: the unextended space comes first, in the same order, with the inactive orbitals filled and the
virtual ones empty. -/
theorem C18_prefix {nI nA nV : ℕ} (hA : 0 < nA) (na nb order : ℤ) (base ext : CIInfo)
    (hb : getIndexing nI nA nV na nb = .ok base)
    (he : getIndexingExtended nI nA nV na nb order = .ok ext) :
    ∃ rest, ext.idx2det.map (decode (nI + nA + nV))
      = (base.idx2det.map fun d => withCore (2 * nI) (decode nA d)) ++ rest := by
  by_cases ho : order > 2
  · unfold getIndexingExtended at he
    rw [if_pos ho] at he; cases he
  rw [getIndexing_eq hA] at hb
  rw [getIndexingExtended_eq (by omega) _ _ _ (by omega)] at he
  rw [← Except.ok.inj hb, ← Except.ok.inj he]
  dsimp only
  rw [← block_prefix (nV := nV)]
  unfold extendedDets
  dsimp only
  rw [List.foldl_append, List.foldl_append, List.foldl_append]
  have hnd : ((blockDets nA (List.replicate nI 1, List.replicate nV 0)
      (List.replicate nI 1, List.replicate nV 0) na nb)).Nodup := by
    refine List.Nodup.of_map (decode (nI + nA + nV)) ?_
    rw [block_prefix, ← Function.comp_def (withCore (2 * nI)) (decode nA), ← List.map_map]
    refine List.Nodup.map (fun x y h => withCore_inj h) ?_
    refine decode_nodup (casDets_nodup _ _ _) fun d hd => ?_
    obtain ⟨a, b, ha, hb, rfl⟩ := mem_casDets.1 hd
    rw [mem_gen] at ha hb
    exact ⟨a, b, ha.1, hb.1, ha.2.1, hb.2.1, rfl⟩
  rw [pushAll_nodup _ [] (by simpa using hnd), List.nil_append]
  obtain ⟨r1, e1⟩ := prefix_pushAll ((genSingles nI nV ++ if decide (order = 2) = true then genDoubles nI nV else []).flatMap
    fun p => blockDets nA p (List.replicate nI 1, List.replicate nV 0) (activeElec na nI p) nb)
    (blockDets nA (List.replicate nI 1, List.replicate nV 0) (List.replicate nI 1, List.replicate nV 0) na nb)
  rw [e1]
  obtain ⟨r2, e2⟩ := prefix_pushAll ((genSingles nI nV ++ if decide (order = 2) = true then genDoubles nI nV else []).flatMap
    fun p => blockDets nA (List.replicate nI 1, List.replicate nV 0) p na (activeElec nb nI p))
    (blockDets nA (List.replicate nI 1, List.replicate nV 0) (List.replicate nI 1, List.replicate nV 0) na nb ++ r1)
  rw [e2]
  obtain ⟨r3, e3⟩ := prefix_pushAll (if decide (order = 2) = true then
      (genSingles nI nV).flatMap fun p => (genSingles nI nV).flatMap fun q =>
        blockDets nA p q (activeElec na nI p) (activeElec nb nI q) else [])
    (blockDets nA (List.replicate nI 1, List.replicate nV 0) (List.replicate nI 1, List.replicate nV 0) na nb
      ++ r1 ++ r2)
  rw [e3]
  exact ⟨(r1 ++ r2 ++ r3).map (decode (nI + nA + nV)), by simp⟩

/-- C18: an order above two raises `ValueError`. -/
theorem C18_order_raises (nI nA nV : ℕ) (na nb order : ℤ) (h : order > 2) :
    getIndexingExtended nI nA nV na nb order = .error .valueError := by
  unfold getIndexingExtended; rw [if_pos h]

/-- The space depends on the order only through being 2: order 1, 0 and negative orders all give
singles. -/
theorem C18_low_orders (nI nA nV : ℕ) (na nb order : ℤ) (h : order < 2) :
    getIndexingExtended nI nA nV na nb order = getIndexingExtended nI nA nV na nb 1 := by
  unfold getIndexingExtended extendedLoop
  rw [if_neg (show ¬ order > 2 by omega), if_neg (show ¬ (1 : ℤ) > 2 by omega)]
  simp only [if_neg (show ¬ order = 2 by omega), if_neg (show ¬ (1 : ℤ) = 2 by omega)]

instance (nI nA nV k σ : ℕ) (S : Finset ℕ) : Decidable (AtMost nI nA nV k σ S) := by
  unfold AtMost; infer_instance
instance (n : ℕ) (a b : ℤ) (S : Finset ℕ) : Decidable (InCAS n a b S) := by unfold InCAS; infer_instance
instance (nI nA nV : ℕ) (a b : ℤ) (d : Bool) (S : Finset ℕ) : Decidable (InExtended nI nA nV a b d S) := by
  unfold InExtended; infer_instance

/-- One inactive alpha electron moved to the virtual orbital. -/
example : InExtended 1 1 1 1 1 false {1, 2, 3, 4} := by decide
/-- Two holes with different spins need the doubles. -/
example : ¬ InExtended 1 1 1 1 1 false {2, 3, 4, 5} ∧ InExtended 1 1 1 1 1 true {2, 3, 4, 5} := by decide

end SQ
