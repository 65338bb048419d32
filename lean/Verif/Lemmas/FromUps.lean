import Verif.Lemmas.SamplerStart
import Verif.Model.FromUps
import Verif.Props.AnsatzChoice
import Verif.Props.OrbitalSpaces

/-! # Lemmas: circuit wave functions made from UPS wave functions -/

namespace SQ

open Finset

theorem calls_circuit {n : ℕ} {s : UpsStruct} {calls : List UpsCall} (e1 : s = calls.foldl UpsCall.run {})
    (e2 : ∀ c ∈ calls, c.HasCircuit n) (hs : s.nParams ≤ 10 ^ 9) :
    s.types.length = s.nParams ∧ s.names.length = s.nParams ∧ ∃ Ts, CircuitLayout n s.types s.indices Ts ∧
      Layout 0 n s.types s.indices Ts ∧ ∀ θs, ∃ gs R, upslayout2circuit n s.types s.indices θs = .ok (gs, R) ∧
        checkParameters R (R.map Prod.fst) = .ok (R, s.names) := by
  obtain ⟨b1, -, b3, -⟩ := C36_ups_consistent calls
  obtain ⟨Ts, gs, R, a1, a2, -⟩ := C90_structures calls e2 (fun _ => 0)
  rw [← e1] at a1 a2 b1 b3
  refine ⟨b1, b3, Ts, a1, a2, fun θs => ?_⟩
  obtain ⟨Ts', gs, R, -, -, a3, a4, -⟩ := C90_structures calls e2 θs
  obtain ⟨gs', R', c1, c2, -⟩ := C90_layout a1 θs
  rw [← e1] at a3 a4
  rw [a3] at c1
  cases c1
  refine ⟨gs, R, a3, ?_⟩
  rw [b1] at c2
  unfold checkParameters
  rw [c2, circuitParameters_range hs, ← c2, a4]
  have hl : R.length = s.names.length := by rw [← a4, List.length_map]
  have hR : (if R.length = 0 then s.names.foldl (fun d p => dictSet d p 2) R else R) = R := by
    split_ifs with h0
    · rw [hl] at h0
      rw [List.length_eq_zero_iff.1 h0]; rfl
    · rfl
  simp only [hR]
  rw [if_neg (by simpa using hl), if_neg]
  rw [Bool.not_eq_true, List.any_eq_false]
  intro p hp
  rw [← a4, List.mem_map] at hp
  obtain ⟨x, hx, rfl⟩ := hp
  rw [Bool.not_eq_true, Option.isNone_eq_false_iff, List.lookup_isSome_iff]
  exact ⟨x, hx, by simp⟩

theorem upsLayout_calls {name : String} {L : OrbLists} {o o' : Options} {s : UpsStruct}
    (h : upsLayout name L o = (.ok s, o'))
    (hf : name ∈ ["fucc", "fuccsd", "ksafupccgsd", "fuccpd", "safuccsd"] →
      ∀ k ∈ ["GD", "T", "Q", "5", "6", "SAD"], o'.flag k = 0)
    (hp : name ∈ ["sdsfuccsd", "ksasdsfupccgsd"] → o'.flag "pD" = 0) (hL : L.Ok) (hO : L.Ordered) :
    ∃ calls : List UpsCall, s = calls.foldl UpsCall.run {} ∧ ∀ c ∈ calls, c.HasCircuit L.numOrbs := by
  have done : ∀ {r : Res Unit × UpsStruct}, builtLayout r = .ok s → s = r.2 := by
    rintro ⟨_ | _, r⟩ h
    · cases h
    · cases h; rfl
  unfold upsLayout at h
  by_cases h1 : name ∈ ["tups", "qnp"]
  · rw [if_pos h1] at h
    exact ⟨[.tiled L.numOrbs _], done (congrArg Prod.fst h), by simp [UpsCall.HasCircuit]⟩
  rw [if_neg h1] at h
  by_cases h2 : name ∈ ["fucc", "fuccsd", "ksafupccgsd", "fuccpd", "safuccsd"]
  · rw [if_pos h2] at h
    obtain rfl : _ = o' := congrArg Prod.snd h
    refine ⟨[.fucc L _], done (congrArg Prod.fst h), ?_⟩
    · simp only [List.mem_singleton, forall_eq]
      exact ⟨hL, hO, rfl, hf h2⟩
  rw [if_neg h2] at h
  by_cases h3 : name ∈ ["sdsfuccsd", "ksasdsfupccgsd"]
  · rw [if_pos h3] at h
    obtain rfl : _ = o' := congrArg Prod.snd h
    refine ⟨[.sds L _], done (congrArg Prod.fst h), ?_⟩
    · simp only [List.mem_singleton, forall_eq]
      exact ⟨hL, hO, rfl, hp h3⟩
  rw [if_neg h3] at h
  cases h

theorem spaces_fits {numOrbs numElec cas0 cas1 : ℕ} (h : CasFits numOrbs numElec cas0 cas1) :
    let s := mkSpaces numOrbs numElec cas0 cas1
    upsSpaces numOrbs numElec [cas0, cas1] = .ok s ∧ s.numActiveElec = cas0 ∧ s.numActiveOrbs = cas1 ∧
      s.activeSpin.length = 2 * cas1 ∧ s.lists.Ok ∧ s.lists.Ordered ∧ s.lists.numOrbs = cas1 ∧
      circuitSpaces numOrbs numElec cas0 cas1 = .ok s := by
  intro s
  obtain ⟨nI, nV, o, rfl, rfl, rfl, ho⟩ : ∃ nI nV o, numOrbs = nI + cas1 + nV ∧ numElec = 2 * (nI + o) ∧ cas0 = 2 * o ∧ o ≤ cas1 := by
    have h1 := h.evenElec
    have h2 := h.evenActive
    have h3 := h.enoughElec
    have h4 := h.enoughActive
    have h5 := h.enoughOrbs
    exact ⟨(numElec - cas0) / 2, numOrbs - cas1 - (numElec - cas0) / 2, cas0 / 2, by omega, by omega, by omega, by omega⟩
  have e := mkSpaces_eq (nI := nI) (nA := cas1) (nV := nV) ho
  have hs : s = mkSpaces (nI + cas1 + nV) (2 * (nI + o)) (2 * o) cas1 := rfl
  rw [e] at hs
  have n1 : s.numActiveElec = 2 * o := by rw [hs]
  refine ⟨?_, n1, by rw [hs], ?_, ?_, ?_, by rw [hs]; rfl, ?_⟩
  · unfold upsSpaces
    simp only
    rw [show mkSpaces (nI + cas1 + nV) (2 * (nI + o)) (2 * o) cas1 = s from rfl, n1, if_neg (by omega)]
  · rw [hs]
    simp [rangeFrom]
  · rw [hs]
    constructor
    · intro p hp
      simp only [Spaces.lists, List.mem_append, List.mem_range, mem_rangeFrom'] at hp ⊢
      omega
    · intro p hp
      simp only [Spaces.lists, List.mem_append, List.mem_range, mem_rangeFrom'] at hp ⊢
      omega
    · intro p hp
      simp only [Spaces.lists, List.mem_range, mem_rangeFrom'] at hp ⊢
      omega
  · rw [hs]
    constructor
    · intro p hp a ha
      simp only [Spaces.lists, List.mem_range, mem_rangeFrom'] at hp ha
      omega
    · intro p hp a ha
      simp only [Spaces.lists, List.mem_range, mem_rangeFrom'] at hp ha
      omega
    · exact List.nodup_range
    · simp only [Spaces.lists, rangeFrom]
      exact List.nodup_range.map fun a b h => by simpa using h
  · unfold circuitSpaces
    rw [if_neg (by omega)]
    congr 1
    rw [hs, e]

/-- The string of a determinant. -/
def detText (det : List Bool) : List Char := det.map fun b => if b then '1' else '0'

theorem isDet_text {n : ℕ} {f : List Bool} (h : f.length = n) : IsDet n (detText (doubled f)) := by
  unfold IsDet detText
  refine ⟨by rw [List.length_map, doubled_length, h], fun c hc => ?_⟩
  obtain ⟨b, -, rfl⟩ := List.mem_map.1 hc
  cases b <;> simp

theorem detSet_text {n : ℕ} {f : List Bool} (h : f.length = n) :
    detSet (detText (doubled f)) = (range (2 * n)).filter fun p => f[p / 2]? = some true := by
  unfold detSet
  rw [(isDet_text h).1]
  ext p
  simp only [mem_filter, detText, List.getElem?_map, doubled_getElem?, Option.map_eq_some_iff]
  constructor
  · rintro ⟨h1, b, h2, h3⟩
    cases b
    · simp at h3
    · exact ⟨h1, h2⟩
  · rintro ⟨h1, h2⟩
    exact ⟨h1, true, h2, rfl⟩

theorem default_text {n m : ℕ} (h : m ≤ n) :
    defaultDet n (m, m) = detText (doubled (List.replicate m true ++ List.replicate (n - m) false)) := by
  unfold defaultDet detText
  rw [doubled_append, doubled_replicate, doubled_replicate, List.map_append, List.map_replicate, List.map_replicate]
  simp only [if_true, Bool.false_eq_true, if_false]
  congr 2
  · omega
  · omega

/-- The start of circuit and state vector. -/
theorem start_det {n m : ℕ} (hm : m ≤ n) (o : Options) : ∃ c f, startCircuit n (m, m) o = .ok c ∧ f.length = n ∧
    f.count true = m ∧ (if o.flag "do_pp" ≠ 0 then ppDet (2 * n) (2 * m) else .ok (hfDet (2 * n) (2 * m))) = .ok (doubled f) ∧
    runCircuit c (zeroState _) = basis (detBits n (detText (doubled f))) := by
  unfold startCircuit
  by_cases h : o.flag "do_pp" ≠ 0
  · rw [if_pos h, if_pos h]
    obtain ⟨c, g1, g2⟩ := C55_determinant (isDet_text (pairing_length hm))
    refine ⟨c, pairing n m, ?_, pairing_length hm, pairing_count hm, ppDet_eq hm, g2⟩
    rw [show (m, m).1 + (m, m).2 = 2 * m by simp only; omega, ppDet_eq hm]
    exact g1
  · rw [if_neg h, if_neg h]
    refine ⟨_, List.replicate m true ++ List.replicate (n - m) false, rfl, by simp; omega, by simp [List.count_replicate], ?_, ?_⟩
    · rw [hfDet_eq hm]
    · rw [hfCircuit_start, default_text hm]

end SQ
