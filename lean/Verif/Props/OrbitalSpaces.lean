import Verif.Spec.OrbitalSpaces
import Verif.Spec.Iterators
import Verif.Spec.Density
import Verif.Lemmas.OrbitalSpaces

/-!
# C38: orbital spaces and orbital rotations

`CasFits`, `Rotates`: Spec/OrbitalSpaces.lean; `Lists`: Spec/Iterators.lean.
-/

namespace SQ

theorem lists_rangeFrom (a m b : ℕ) (h : b = a + m) : Lists (rangeFrom a m) (fun p => a ≤ p ∧ p < b) := by
  refine ⟨?_, fun x => ?_⟩
  · unfold rangeFrom
    exact List.nodup_range.map fun x y h => by simpa using h
  · unfold rangeFrom
    simp only [List.mem_map, List.mem_range]
    constructor
    · rintro ⟨k, hk, rfl⟩; omega
    · intro hx; exact ⟨x - a, by omega, by omega⟩

theorem lists_range (n b : ℕ) (h : b = n) : Lists (List.range n) (fun p => p < b) :=
  ⟨List.nodup_range, fun x => by rw [List.mem_range, h]⟩

theorem casFits_split {numOrbs numElec cas0 cas1 : ℕ} (h : CasFits numOrbs numElec cas0 cas1) :
    ∃ nI nV o, o ≤ cas1 ∧ numOrbs = nI + cas1 + nV ∧ numElec = 2 * (nI + o) ∧ cas0 = 2 * o ∧
      nI = (numElec - cas0) / 2 := by
  obtain ⟨h1, h2, h3, h4, h5⟩ := h
  exact ⟨(numElec - cas0) / 2, numOrbs - (numElec - cas0) / 2 - cas1, cas0 / 2, by omega, by omega,
    by omega, by omega, rfl⟩

/-- C38: every spin orbital is in exactly one of the inactive, active and virtual lists (whatever the
active space asked for, for any number of electrons that fits the orbitals), the active ones split into
occupied and unoccupied. -/
theorem C38_spin_orbitals (numOrbs numElec cas0 cas1 : ℕ) (hN : numElec ≤ 2 * numOrbs) :
    let s := mkSpaces numOrbs numElec cas0 cas1
    Lists (s.inactiveSpin ++ s.activeSpin ++ s.virtualSpin) (fun p => p < 2 * numOrbs) ∧
    s.activeSpin = s.activeOccSpin ++ s.activeUnoccSpin ∧
    (∀ p ∈ s.inactiveSpin ++ s.activeOccSpin, p < numElec) ∧
    (∀ p ∈ s.activeUnoccSpin ++ s.virtualSpin, numElec ≤ p) := by
  intro s
  have hl := lists_range numElec numElec rfl
  have hh := lists_rangeFrom numElec (2 * numOrbs - numElec) (2 * numOrbs) (by omega)
  have e1 : s.inactiveSpin = (List.range numElec).filter fun i : ℕ => !decide ((i : ℤ) ∈ activeSpace numElec cas0 cas1) := rfl
  have e2 : s.activeOccSpin = (List.range numElec).filter fun i : ℕ => decide ((i : ℤ) ∈ activeSpace numElec cas0 cas1) := rfl
  have e3 : s.activeUnoccSpin = (rangeFrom numElec (2 * numOrbs - numElec)).filter
      fun i : ℕ => decide ((i : ℤ) ∈ activeSpace numElec cas0 cas1) := rfl
  have e4 : s.virtualSpin = (rangeFrom numElec (2 * numOrbs - numElec)).filter
      fun i : ℕ => !decide ((i : ℤ) ∈ activeSpace numElec cas0 cas1) := rfl
  have e5 : s.activeSpin = s.activeOccSpin ++ s.activeUnoccSpin := rfl
  refine ⟨⟨?_, fun p => ?_⟩, e5, fun p hp => ?_, fun p hp => ?_⟩
  · have key : ((s.inactiveSpin ++ s.activeOccSpin) ++ (s.activeUnoccSpin ++ s.virtualSpin)).Nodup := by
      rw [e1, e2, e3, e4]
      refine List.Nodup.append (List.Nodup.append (hl.1.filter _) (hl.1.filter _) ?_)
        (List.Nodup.append (hh.1.filter _) (hh.1.filter _) ?_) ?_
      · intro x hx hy; simp at hx hy; exact hx.2 hy.2
      · intro x hx hy
        rw [List.mem_filter] at hx hy
        have := hx.2; have := hy.2
        simp_all
      · intro x hx hy
        simp only [List.mem_append, List.mem_filter, hl.2, hh.2] at hx hy
        omega
    rw [e5]
    simpa [List.append_assoc] using key
  · rw [e5, e1, e2, e3, e4]
    simp only [List.mem_append, List.mem_filter, hl.2, hh.2, Bool.not_eq_true', decide_eq_false_iff_not,
      decide_eq_true_eq]
    by_cases h : (p : ℤ) ∈ activeSpace numElec cas0 cas1 <;> simp [h] <;> omega
  · rw [e1, e2] at hp
    simp only [List.mem_append, List.mem_filter, hl.2] at hp
    omega
  · rw [e3, e4] at hp
    simp only [List.mem_append, List.mem_filter, hh.2] at hp
    omega

/-- C38: for an active space that fits a closed-shell molecule the orbitals are, in this order, inactive,
active (occupied, unoccupied) and virtual ones, of the numbers asked for; the spin orbital lists hold the
two spin orbitals of each; the shifted lists count from the first active orbital. -/
theorem C38_orbitals {numOrbs numElec cas0 cas1 : ℕ} (h : CasFits numOrbs numElec cas0 cas1) :
    ∃ s, upsSpaces numOrbs numElec [cas0, cas1] = .ok s ∧ s = mkSpaces numOrbs numElec cas0 cas1 ∧
      let nI := (numElec - cas0) / 2
      let nO := numElec / 2
      Lists s.inactive (fun p => p < nI) ∧
      Lists s.active (fun p => nI ≤ p ∧ p < nI + cas1) ∧
      Lists s.virt (fun p => nI + cas1 ≤ p ∧ p < numOrbs) ∧
      Lists s.activeOcc (fun p => nI ≤ p ∧ p < nO) ∧
      Lists s.activeUnocc (fun p => nO ≤ p ∧ p < nI + cas1) ∧
      Lists s.inactiveSpin (fun p => p / 2 < nI) ∧
      Lists s.activeSpin (fun p => nI ≤ p / 2 ∧ p / 2 < nI + cas1) ∧
      Lists s.virtualSpin (fun p => nI + cas1 ≤ p / 2 ∧ p / 2 < numOrbs) ∧
      Lists s.activeOccSpin (fun p => nI ≤ p / 2 ∧ p / 2 < nO) ∧
      Lists s.activeUnoccSpin (fun p => nO ≤ p / 2 ∧ p / 2 < nI + cas1) ∧
      s.activeShifted.map (· + nI) = s.active ∧ s.activeOccShifted.map (· + nI) = s.activeOcc ∧
      s.activeUnoccShifted.map (· + nI) = s.activeUnocc ∧
      s.activeSpinShifted.map (· + 2 * nI) = s.activeSpin ∧
      s.activeOccSpinShifted.map (· + 2 * nI) = s.activeOccSpin ∧
      s.activeUnoccSpinShifted.map (· + 2 * nI) = s.activeUnoccSpin ∧
      s.numActiveElec = cas0 ∧ s.numActiveOrbs = cas1 ∧ s.numInactiveOrbs = nI ∧
      s.numInactiveOrbs + s.numActiveOrbs + s.numVirtualOrbs = numOrbs := by
  obtain ⟨nI, nV, o, ho, rfl, rfl, rfl, h4⟩ := casFits_split h
  have hm := mkSpaces_eq (nI := nI) (nA := cas1) (nV := nV) (o := o) ho
  refine ⟨_, ?_, rfl, ?_⟩
  · unfold upsSpaces
    have : (mkSpaces (nI + cas1 + nV) (2 * (nI + o)) (2 * o) cas1).numActiveElec = 2 * o := by rw [hm]
    dsimp only
    rw [this, if_neg (by omega)]
  · have hsp : ∀ a m b : ℕ, b = a + m → Lists (rangeFrom (2 * a) (2 * m)) (fun p => a ≤ p / 2 ∧ p / 2 < b) := by
      intro a m b hb
      have := lists_rangeFrom (2 * a) (2 * m) (2 * b) (by omega)
      exact ⟨this.1, fun x => (this.2 x).trans (by omega)⟩
    have hsp' : Lists (List.range (2 * nI)) (fun p => p / 2 < nI) := by
      have := lists_range (2 * nI) (2 * nI) rfl
      exact ⟨this.1, fun x => (this.2 x).trans (by omega)⟩
    have hsh : ∀ a b m c, b = c + a → (rangeFrom a m).map (· + c) = rangeFrom b m := by
      intro a b m c hb
      unfold rangeFrom
      rw [List.map_map]
      exact List.map_congr_left fun x _ => by simp only [Function.comp]; omega
    have hsh' : ∀ b m, (List.range m).map (· + b) = rangeFrom b m := by
      intro b m
      unfold rangeFrom
      exact List.map_congr_left fun x _ => by omega
    rw [hm, ← h4]
    dsimp only
    have hO : 2 * (nI + o) / 2 = nI + o := by omega
    rw [hO]
    exact ⟨lists_range _ _ rfl, lists_rangeFrom _ _ _ rfl, lists_rangeFrom _ _ _ rfl,
      lists_rangeFrom _ _ _ rfl, lists_rangeFrom _ _ _ (by omega),
      hsp', hsp _ _ _ rfl, hsp _ _ _ rfl, hsp _ _ _ rfl, hsp _ _ _ (by omega),
      hsh' _ _, hsh' _ _, hsh _ _ _ _ rfl, hsh' _ _, hsh' _ _, hsh _ _ _ _ (by ring), rfl, rfl, rfl, rfl⟩

/-- C38: the number of entries of `cas` and the parity of the active electrons are checked. -/
theorem C38_errors (numOrbs numElec : ℕ) (cas : List ℕ) :
    (cas.length ≠ 2 → upsSpaces numOrbs numElec cas = .error .valueError) ∧
    (∀ c0 c1, c0 ≤ numElec → c0 ≤ 2 * c1 → c0 % 2 = 1 →
      upsSpaces numOrbs numElec [c0, c1] = .error .valueError) := by
  constructor
  · intro h
    match cas, h with
    | [], _ => rfl
    | [_], _ => rfl
    | [_, _], h => exact absurd rfl h
    | _ :: _ :: _ :: _, _ => rfl
  · intro c0 c1 h0 h2 h1
    have hlen : (mkSpaces numOrbs numElec c0 c1).numActiveElec = c0 := by
      show ((List.range numElec).filter fun i : ℕ => decide ((i : ℤ) ∈ activeSpace numElec c0 c1)).length = c0
      have : ∀ i ∈ List.range numElec, decide ((i : ℤ) ∈ activeSpace numElec c0 c1)
          = decide (numElec - c0 ≤ i) := by
        intro i hi
        rw [List.mem_range] at hi
        refine decide_eq_decide.2 ?_
        rw [mem_activeSpace]
        omega
      rw [List.filter_congr this]
      have hs : List.range numElec = List.range (numElec - c0) ++ rangeFrom (numElec - c0) c0 := by
        rw [← range_split]; congr 1; omega
      rw [hs, List.filter_append]
      have a1 : (List.range (numElec - c0)).filter (fun i => decide (numElec - c0 ≤ i)) = [] := by
        rw [List.filter_eq_nil_iff]; intro a ha; simp at ha ⊢; omega
      have a2 : (rangeFrom (numElec - c0) c0).filter (fun i => decide (numElec - c0 ≤ i))
          = rangeFrom (numElec - c0) c0 := by
        rw [List.filter_eq_self]; intro a ha
        rw [(lists_rangeFrom (numElec - c0) c0 _ rfl).2] at ha; simp; omega
      rw [a1, a2]
      simp [rangeFrom]
    unfold upsSpaces
    dsimp only
    rw [hlen, if_pos (by omega)]

/-- C38: `kappa_idx` holds every pair `p < q` whose rotation can change the energy, once and nothing else;
the redundant list all others; the list without active-active pairs the pairs rotating between the
spaces, its dagger the same pairs reversed; the Hartree-Fock-like list the pairs of an occupied and an
unoccupied orbital, not both active. -/
theorem C38_kappa {numOrbs numElec cas0 cas1 : ℕ} (h : CasFits numOrbs numElec cas0 cas1) (inc : Bool) :
    let s := mkSpaces numOrbs numElec cas0 cas1
    let k := kappaLists s numOrbs inc
    let nI := (numElec - cas0) / 2
    Lists k.kappa (fun pq => (pq.1 < pq.2 ∧ pq.2 < numOrbs) ∧ Rotates nI cas1 inc pq) ∧
    Lists k.redundant (fun pq => (pq.1 < pq.2 ∧ pq.2 < numOrbs) ∧ ¬ Rotates nI cas1 inc pq) ∧
    Lists k.noActiveActive (fun pq => pq.2 < numOrbs ∧ NonRedundant nI cas1 pq) ∧
    k.noActiveActiveDagger = k.noActiveActive.map Prod.swap ∧
    Lists (kappaHfLike s numOrbs) (fun pq => (pq.1 < numElec / 2 ∧ numElec / 2 ≤ pq.2 ∧ pq.2 < numOrbs) ∧
      ¬ (nI ≤ pq.1 ∧ pq.2 < nI + cas1)) := by
  intro s k nI
  obtain ⟨_, nV, o, ho, h1, h2, h3, h4⟩ := casFits_split h
  subst h4
  obtain ⟨s', hs', rfl, hi, ha, hv, hao, hau, -⟩ := C38_orbitals h
  have hk : k = _ := kappaFold s inc (orbitalPairs numOrbs) ⟨[], [], [], []⟩
  have hR : ∀ pq : ℕ × ℕ, pq.2 < numOrbs → pq.1 < pq.2 → (RedundantPair s inc pq ↔ ¬ Rotates nI cas1 inc pq) := by
    intro pq hq hp
    unfold RedundantPair Rotates
    rw [hi.2, hi.2, ha.2, ha.2, hv.2, hv.2]
    cases inc <;> simp <;> omega
  rw [hk]
  have hn := nodup_orbitalPairs numOrbs
  refine ⟨⟨hn.filter _, fun pq => ?_⟩, ⟨hn.filter _, fun pq => ?_⟩, ⟨hn.filter _, fun pq => ?_⟩, ?_,
    ⟨hn.filter _, fun pq => ?_⟩⟩
  · simp only [List.nil_append, List.mem_filter, mem_orbitalPairs, Bool.not_eq_true', decide_eq_false_iff_not]
    refine and_congr_right fun hp => ?_
    rw [hR pq hp.2 hp.1, not_not]
  · simp only [List.nil_append, List.mem_filter, mem_orbitalPairs, decide_eq_true_eq]
    exact and_congr_right fun hp => hR pq hp.2 hp.1
  · simp only [List.nil_append, List.mem_filter, mem_orbitalPairs, decide_eq_true_eq]
    unfold RedundantPair NonRedundant
    rw [hi.2, hi.2, ha.2, ha.2, hv.2, hv.2]
    cases inc <;> simp <;> omega
  · rfl
  · unfold kappaHfLike
    simp only [List.mem_filter, mem_orbitalPairs]
    rw [show s.inactive = (mkSpaces numOrbs numElec cas0 cas1).inactive from rfl]
    simp only [hi.2, hv.2, hau.2, hao.2, s]
    split_ifs <;> simp <;> omega

/-- Disagreement: with an odd number of electrons an even active space passes the check, but spatial
orbital 0 is then listed both as inactive and as active, and three orbitals are active though two were
asked for. -/
theorem C38_odd_electrons_disagree :
    ∃ s, upsSpaces 3 3 [2, 2] = .ok s ∧ s.inactive = [0] ∧ s.active = [0, 1, 2] ∧ s.virt = [2] ∧ s.numActiveOrbs = 2 :=
  ⟨_, rfl, rfl, rfl, rfl, rfl⟩

/-- Disagreement: an active space larger than the molecule is silently cut down to the orbitals there
are, and more active electrons than fit the active orbitals get more orbitals than asked for. -/
theorem C38_oversized_disagree :
    (∃ s, upsSpaces 3 4 [2, 5] = .ok s ∧ s.active = [1, 2] ∧ s.numActiveOrbs = 2) ∧
    (∃ s, upsSpaces 3 4 [4, 1] = .ok s ∧ s.active = [0, 1] ∧ s.numActiveOrbs = 2) :=
  ⟨⟨_, rfl, rfl, rfl⟩, ⟨_, rfl, rfl, rfl⟩⟩

example : CasFits 7 10 4 4 := ⟨by decide, by decide, by decide, by decide, by decide⟩
example : (kappaLists (mkSpaces 4 4 2 2) 4 false).kappa = [(0, 1), (0, 2), (0, 3), (1, 3), (2, 3)] := rfl
example : (kappaLists (mkSpaces 4 4 2 2) 4 true).redundant = [] := rfl

end SQ
