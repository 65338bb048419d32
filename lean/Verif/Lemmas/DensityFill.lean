import Verif.Lemmas.Density
import Verif.Lemmas.EnergySem
import Verif.Props.StateAlgebra

/-! # Filling the active density matrices -/

namespace SQ

/-! ### Loops of writes -/

theorem fill {A X ι : Type} (rd : A → ι → ℝ) (step : A → X → Res A) (F : ι → ℝ) (W : X → ι → Prop)
    (l : List X) (h : ∀ x ∈ l, ∀ a, ∃ a', step a x = .ok a' ∧
      ∀ i, (W x i → rd a' i = F i) ∧ (¬ W x i → rd a' i = rd a i)) :
    ∀ a, ∃ a', l.foldlM step a = .ok a' ∧ ∀ i, ((∃ x ∈ l, W x i) ∨ rd a i = F i → rd a' i = F i) := by
  induction l with
  | nil => intro a; exact ⟨a, rfl, fun i h => by simpa using h⟩
  | cons x l ih =>
    intro a
    obtain ⟨a1, h1, h2⟩ := h x (by simp) a
    obtain ⟨a2, h3, h4⟩ := ih (fun y hy => h y (by simp [hy])) a1
    refine ⟨a2, by rw [List.foldlM_cons, h1]; exact h3, fun i hi => ?_⟩
    by_cases hw : W x i
    · exact h4 i (Or.inr ((h2 i).1 hw))
    · rcases hi with ⟨y, hy, hyi⟩ | hi
      · rcases List.mem_cons.1 hy with rfl | hy
        · exact absurd hyi hw
        · exact h4 i (Or.inl ⟨y, hy, hyi⟩)
      · exact h4 i (Or.inr (by rw [(h2 i).2 hw, hi]))

theorem mem_rangeFrom {a m p : ℕ} : p ∈ rangeFrom a m ↔ a ≤ p ∧ p < a + m := by
  simp only [rangeFrom, List.mem_map, List.mem_range]
  constructor
  · rintro ⟨k, hk, rfl⟩; omega
  · intro h; exact ⟨p - a, by omega, by omega⟩

theorem mem_rdm1Iter {nI nA p q : ℕ} :
    (p, q) ∈ rdm1Iter nI nA ↔ nI ≤ q ∧ q ≤ p ∧ p < nI + nA := by
  simp only [rdm1Iter, List.mem_flatMap, List.mem_map, mem_rangeFrom, Prod.mk.injEq]
  constructor
  · rintro ⟨a, h1, b, h2, rfl, rfl⟩; omega
  · intro h; exact ⟨p, by omega, q, by omega, rfl, rfl⟩

theorem mem_rdm2Iter {nI nA p q r s : ℕ} :
    (p, q, r, s) ∈ rdm2Iter nI nA ↔ (nI ≤ q ∧ q ≤ p ∧ p < nI + nA) ∧ (nI ≤ r ∧ r ≤ p) ∧
      nI ≤ s ∧ s < sLim p q r := by
  simp only [rdm2Iter, List.mem_flatMap, List.mem_map, mem_rangeFrom, Prod.mk.injEq]
  constructor
  · rintro ⟨a, h1, b, h2, c, h3, d, h4, rfl, rfl, rfl, rfl⟩; omega
  · intro h; exact ⟨p, by omega, q, by omega, r, by omega, s, by omega, rfl, rfl, rfl, rfl⟩

variable {nI nA : ℕ} {Ψs : List (Fock ℝ)}

theorem rdm1Loop_sem {ev : ℕ → ℕ → Res ℝ}
    (hev : ∀ p q, p < nA → q < nA → ev (nI + p) (nI + q) = .ok (mean Ψs (E (nI + p) (nI + q)))) :
    ∃ R, rdm1Loop ev nI nA = .ok R ∧
      ∀ p q, p < nA → q < nA → R p q = mean Ψs (E (nI + p) (nI + q)) := by
  obtain ⟨R, h1, h2⟩ := fill (ι := ℕ × ℕ) (fun (a : Mat ℝ) i => a i.1 i.2)
    (fun a pq => do
      let val ← ev pq.1 pq.2
      let p := pq.1 - nI
      let q := pq.2 - nI
      pure (set2 (set2 a p q val) q p val))
    (fun i => mean Ψs (E (nI + i.1) (nI + i.2)))
    (fun x i => (i.1 = x.1 - nI ∧ i.2 = x.2 - nI) ∨ (i.1 = x.2 - nI ∧ i.2 = x.1 - nI))
    (rdm1Iter nI nA) (by
      rintro ⟨p, q⟩ hx a
      rw [mem_rdm1Iter] at hx
      obtain ⟨p, rfl⟩ : ∃ k, p = nI + k := ⟨p - nI, by omega⟩
      obtain ⟨q, rfl⟩ : ∃ k, q = nI + k := ⟨q - nI, by omega⟩
      refine ⟨_, by dsimp only; rw [hev p q (by omega) (by omega)]; rfl, ?_⟩
      rintro ⟨i, j⟩
      dsimp only
      simp only [Nat.add_sub_cancel_left]
      unfold set2
      constructor
      · rintro (⟨rfl, rfl⟩ | ⟨rfl, rfl⟩)
        · split_ifs with h1 h2
          · rfl
          · rfl
          · exact absurd ⟨rfl, rfl⟩ h2
        · rw [if_pos ⟨rfl, rfl⟩, mean_E_symm]
      · intro h
        rw [not_or] at h
        rw [if_neg h.2, if_neg h.1]) (fun _ _ => 0)
  refine ⟨R, h1, fun p q hp hq => h2 (p, q) (Or.inl ?_)⟩
  rcases Nat.le_total q p with h | h
  · exact ⟨(nI + p, nI + q), mem_rdm1Iter.2 (by omega), Or.inl (by simp)⟩
  · exact ⟨(nI + q, nI + p), mem_rdm1Iter.2 (by omega), Or.inr (by simp)⟩

/-- The written tuples. -/
def w4 (p q r s : ℕ) (i : ℕ × ℕ × ℕ × ℕ) : Prop :=
  i = (p, q, r, s) ∨ i = (r, s, p, q) ∨ i = (q, p, s, r) ∨ i = (s, r, q, p)

theorem cover4 (p q r s : ℕ) : ∃ p' q' r' s', w4 p' q' r' s' (p, q, r, s) ∧
    q' ≤ p' ∧ r' ≤ p' ∧ s' < sLim p' q' r' := by
  have key : ∀ a b c d : ℕ, b ≤ a → c ≤ a → d ≤ a → ∃ p' q' r' s', w4 p' q' r' s' (a, b, c, d) ∧
      q' ≤ p' ∧ r' ≤ p' ∧ s' < sLim p' q' r' := by
    intro a b c d h1 h2 h3
    by_cases e1 : a = b
    · subst e1
      rcases Nat.le_total d c with h | h
      · exact ⟨a, a, c, d, Or.inl rfl, le_rfl, h2, by unfold sLim; rw [if_pos rfl]; omega⟩
      · exact ⟨a, a, d, c, Or.inr (Or.inr (Or.inl rfl)), le_rfl, h3, by unfold sLim; rw [if_pos rfl]; omega⟩
    by_cases e2 : a = c
    · subst e2
      by_cases e3 : a = d
      · subst e3
        exact ⟨a, a, a, b, Or.inr (Or.inl rfl), le_rfl, le_rfl, by unfold sLim; rw [if_pos rfl]; omega⟩
      rcases Nat.le_total d b with h | h
      · exact ⟨a, b, a, d, Or.inl rfl, h1, le_rfl, by
          unfold sLim; rw [if_neg e1, if_pos rfl]; omega⟩
      · exact ⟨a, d, a, b, Or.inr (Or.inl rfl), h3, le_rfl, by
          unfold sLim; rw [if_neg e3, if_pos rfl]; omega⟩
    by_cases e3 : b < c
    · by_cases e4 : d = a
      · subst e4
        exact ⟨d, c, b, d, Or.inr (Or.inr (Or.inr rfl)), h2, h1, by
          unfold sLim; rw [if_neg e2, if_neg e1, if_neg (by omega)]; omega⟩
      · exact ⟨a, b, c, d, Or.inl rfl, h1, h2, by
          unfold sLim; rw [if_neg e1, if_neg e2, if_pos e3]; omega⟩
    · exact ⟨a, b, c, d, Or.inl rfl, h1, h2, by
        unfold sLim; rw [if_neg e1, if_neg e2, if_neg e3]; omega⟩
  have tr : ∀ {a b c d : ℕ}, (∃ p' q' r' s', w4 p' q' r' s' (a, b, c, d) ∧ q' ≤ p' ∧ r' ≤ p' ∧
      s' < sLim p' q' r') → ∀ {a' b' c' d' : ℕ}, w4 a b c d (a', b', c', d') →
      ∃ p' q' r' s', w4 p' q' r' s' (a', b', c', d') ∧ q' ≤ p' ∧ r' ≤ p' ∧ s' < sLim p' q' r' := by
    rintro a b c d ⟨p', q', r', s', h, hr⟩ a' b' c' d' h'
    refine ⟨p', q', r', s', ?_, hr⟩
    unfold w4 at h h' ⊢
    simp only [Prod.mk.injEq] at h h' ⊢
    rcases h' with ⟨rfl, rfl, rfl, rfl⟩ | ⟨rfl, rfl, rfl, rfl⟩ | ⟨rfl, rfl, rfl, rfl⟩ | ⟨rfl, rfl, rfl, rfl⟩ <;>
    rcases h with h | h | h | h <;> simp only [h, true_and, and_true, true_or, or_true]
  by_cases m1 : q ≤ p ∧ r ≤ p ∧ s ≤ p
  · exact key p q r s m1.1 m1.2.1 m1.2.2
  by_cases m2 : p ≤ q ∧ r ≤ q ∧ s ≤ q
  · exact tr (key q p s r m2.1 m2.2.2 m2.2.1) (Or.inr (Or.inr (Or.inl rfl)))
  by_cases m3 : p ≤ r ∧ q ≤ r ∧ s ≤ r
  · exact tr (key r s p q m3.2.2 m3.1 m3.2.1) (Or.inr (Or.inl rfl))
  · exact tr (key s r q p (by omega) (by omega) (by omega)) (Or.inr (Or.inr (Or.inr rfl)))

theorem set4_writes (a : Arr4) (F : ℕ → ℕ → ℕ → ℕ → ℝ) (p q r s : ℕ)
    (e1 : F r s p q = F p q r s) (e2 : F q p s r = F p q r s) (e3 : F s r q p = F p q r s) (i j k l : ℕ) :
    (w4 p q r s (i, j, k, l) → set4 (set4 (set4 (set4 a p q r s (F p q r s)) r s p q (F p q r s)) q p s r
      (F p q r s)) s r q p (F p q r s) i j k l = F i j k l) ∧
    (¬ w4 p q r s (i, j, k, l) → set4 (set4 (set4 (set4 a p q r s (F p q r s)) r s p q (F p q r s)) q p s r
      (F p q r s)) s r q p (F p q r s) i j k l = a i j k l) := by
  unfold set4 w4
  simp only [Prod.mk.injEq]
  constructor
  · intro h
    have hF : F p q r s = F i j k l := by
      rcases h with ⟨rfl, rfl, rfl, rfl⟩ | ⟨rfl, rfl, rfl, rfl⟩ | ⟨rfl, rfl, rfl, rfl⟩ | ⟨rfl, rfl, rfl, rfl⟩
      · rfl
      · exact e1.symm
      · exact e2.symm
      · exact e3.symm
    rw [hF]
    by_cases c1 : i = s ∧ j = r ∧ k = q ∧ l = p
    · rw [if_pos c1]
    rw [if_neg c1]
    by_cases c2 : i = q ∧ j = p ∧ k = s ∧ l = r
    · rw [if_pos c2]
    rw [if_neg c2]
    by_cases c3 : i = r ∧ j = s ∧ k = p ∧ l = q
    · rw [if_pos c3]
    rw [if_neg c3]
    rw [if_pos (by tauto)]
  · intro h
    simp only [not_or] at h
    rw [if_neg h.2.2.2, if_neg h.2.2.1, if_neg h.2.1, if_neg h.1]

/-- One iteration of the `rdm2` loop. -/
noncomputable def rdm2Step (ev : ℕ → ℕ → ℕ → ℕ → Res ℝ) (rdm1 : Mat ℝ) (nI : ℕ) (a : Arr4)
    (x : ℕ × ℕ × ℕ × ℕ) : Res Arr4 := do
  let val0 ← ev x.1 x.2.1 x.2.2.1 x.2.2.2
  let p := x.1 - nI
  let q := x.2.1 - nI
  let r := x.2.2.1 - nI
  let s := x.2.2.2 - nI
  let val := if x.2.1 = x.2.2.1 then val0 - rdm1 p s else val0
  pure (set4 (set4 (set4 (set4 a p q r s val) r s p q val) q p s r val) s r q p val)

theorem rdm2Loop_sem {ev : ℕ → ℕ → ℕ → ℕ → Res ℝ} {rdm1 : Mat ℝ}
    (h1 : ∀ p q, p < nA → q < nA → rdm1 p q = mean Ψs (E (nI + p) (nI + q)))
    (hev : ∀ p q r s, p < nA → q < nA → r < nA → s < nA → ev (nI + p) (nI + q) (nI + r) (nI + s)
      = .ok (mean Ψs (E (nI + p) (nI + q) * E (nI + r) (nI + s)))) :
    ∃ R, rdm2Loop ev rdm1 nI nA = .ok R ∧ ∀ p q r s, p < nA → q < nA → r < nA → s < nA →
      R p q r s = mean Ψs (e (nI + p) (nI + q) (nI + r) (nI + s)) := by
  have hstep : ∀ x ∈ rdm2Iter nI nA, ∀ a : Arr4, ∃ a', rdm2Step ev rdm1 nI a x = .ok a' ∧
      ∀ i : ℕ × ℕ × ℕ × ℕ, (w4 (x.1 - nI) (x.2.1 - nI) (x.2.2.1 - nI) (x.2.2.2 - nI) i →
        a' i.1 i.2.1 i.2.2.1 i.2.2.2 = mean Ψs (e (nI + i.1) (nI + i.2.1) (nI + i.2.2.1) (nI + i.2.2.2))) ∧
        (¬ w4 (x.1 - nI) (x.2.1 - nI) (x.2.2.1 - nI) (x.2.2.2 - nI) i →
          a' i.1 i.2.1 i.2.2.1 i.2.2.2 = a i.1 i.2.1 i.2.2.1 i.2.2.2) := by
    rintro ⟨p, q, r, s⟩ hx a
    rw [mem_rdm2Iter] at hx
    have hs : s ≤ p := by
      have := hx.2.2.2
      unfold sLim at this
      split_ifs at this <;> omega
    obtain ⟨p, rfl⟩ : ∃ k, p = nI + k := ⟨p - nI, by omega⟩
    obtain ⟨q, rfl⟩ : ∃ k, q = nI + k := ⟨q - nI, by omega⟩
    obtain ⟨r, rfl⟩ : ∃ k, r = nI + k := ⟨r - nI, by omega⟩
    obtain ⟨s, rfl⟩ : ∃ k, s = nI + k := ⟨s - nI, by omega⟩
    have hval : (if nI + q = nI + r then mean Ψs (E (nI + p) (nI + q) * E (nI + r) (nI + s)) - rdm1 p s
        else mean Ψs (E (nI + p) (nI + q) * E (nI + r) (nI + s)))
        = mean Ψs (e (nI + p) (nI + q) (nI + r) (nI + s)) := by
      rw [mean_EE, h1 p s (by omega) (by omega)]
      unfold delta
      split_ifs <;> ring
    refine ⟨_, by
      unfold rdm2Step
      dsimp only
      rw [hev p q r s (by omega) (by omega) (by omega) (by omega), ok_bind]
      simp only [Nat.add_sub_cancel_left]
      rw [hval]
      rfl, ?_⟩
    rintro ⟨i, j, k, l⟩
    dsimp only
    simp only [Nat.add_sub_cancel_left]
    exact set4_writes a (fun p q r s => mean Ψs (e (nI + p) (nI + q) (nI + r) (nI + s))) p q r s
      (by rw [e_symm]) (by rw [mean_e_symm]) (by rw [mean_e_symm, e_symm])
      i j k l
  obtain ⟨R, k1, k2⟩ := fill (fun (a : Arr4) (i : ℕ × ℕ × ℕ × ℕ) => a i.1 i.2.1 i.2.2.1 i.2.2.2)
    (rdm2Step ev rdm1 nI)
    (fun i => mean Ψs (e (nI + i.1) (nI + i.2.1) (nI + i.2.2.1) (nI + i.2.2.2)))
    (fun x i => w4 (x.1 - nI) (x.2.1 - nI) (x.2.2.1 - nI) (x.2.2.2 - nI) i)
    (rdm2Iter nI nA) hstep (fun _ _ _ _ => 0)
  refine ⟨R, k1, fun p q r s hp hq hr hs => k2 (p, q, r, s) (Or.inl ?_)⟩
  obtain ⟨p', q', r', s', c1, c2, c3, c4⟩ := cover4 p q r s
  have hlt : p' < nA := by
    unfold w4 at c1
    simp only [Prod.mk.injEq] at c1
    omega
  have hsl : s' < sLim p' q' r' → nI + s' < sLim (nI + p') (nI + q') (nI + r') := by
    unfold sLim
    split_ifs <;> omega
  exact ⟨(nI + p', nI + q', nI + r', nI + s'), mem_rdm2Iter.2 ⟨by omega, by omega, by omega, hsl c4⟩,
    by simpa using c1⟩

/-! ### The expectation values -/

section
variable {tiny big : ℝ → Bool} {ci : CIInfo} {th : Threads}

theorem E_core (nI p q : ℕ) (x : Fock ℝ) :
    (E (nI + p) (nI + q) : FOp ℝ) (core (2 * nI) x) = core (2 * nI) (E p q x) := by
  have hc : ∀ i (y : Fock ℝ), cr (2 * nI + i) (core (2 * nI) y) = core (2 * nI) (cr i y) := fun i y => by
    simpa [ladder] using ladder_core (R := ℝ) (even_two_mul nI) (i, true) y
  have ha : ∀ i (y : Fock ℝ), an (2 * nI + i) (core (2 * nI) y) = core (2 * nI) (an i y) := fun i y => by
    simpa [ladder] using ladder_core (R := ℝ) (even_two_mul nI) (i, false) y
  unfold E
  simp only [LinearMap.add_apply, Module.End.mul_apply, mul_add, add_assoc, ha, hc, map_add]

/-- `E_pq` of active orbitals on a vector, without folding. -/
theorem E_step (ht : ExactTiny tiny) (hs : AnsatzSpace ci ci.nA) (hth : th.Fair ci.idx2det.length) {p q : ℕ}
    (hp : p < ci.nA) (hq : q < ci.nA) :
    ∃ A, Epq tiny p q = .ok A ∧ ∀ v, ∃ w, applyOp tiny th ci false v A = .ok w ∧
      stateOf ci w = E p q (stateOf ci v) := by
  obtain ⟨A, h1, h2, h3⟩ := den_Epq ht p q
  refine ⟨A, h1, fun v => ?_⟩
  have h0 : ci.offset = 0 := by have := hs.fits; omega
  have hc : ci.ClosedOn (· < 2 * ci.nA) := by
    intro S S' h1 h2 h3 h4
    refine hs.closed S S' h1 (fun p hp => h2 p fun h => hp ?_) h3 h4
    dsimp only at h
    omega
  obtain ⟨w, hw, ew⟩ := applyOp_closed ht hs.valid hc (fun _ h => h) hth v h2
    (keys_Epq (P := (· < 2 * ci.nA)) (both_lt hp) (both_lt hq) A h1)
  exact ⟨w, hw, by rw [ew, h3]⟩

/-- With folding. -/
theorem E_step_folded (ht : ExactTiny tiny) (hs : AnsatzSpace ci ci.nA) (hth : th.Fair ci.idx2det.length)
    {p q : ℕ} (hp : p < ci.nA) (hq : q < ci.nA) :
    ∃ A, Epq tiny (ci.nI + p) (ci.nI + q) = .ok A ∧ ∀ v, ∃ w,
      applyOp tiny th ci false v (getFolded ci.nI ci.nA ci.nV A) = .ok w ∧
      stateOf ci w = E p q (stateOf ci v) := by
  obtain ⟨A, h1, h2, h3⟩ := den_Epq (tiny := tiny) ht (ci.nI + p) (ci.nI + q)
  refine ⟨A, h1, fun v => ?_⟩
  have hk := keys_Epq (P := (· < 2 * (ci.nI + ci.nA + ci.nV))) (both_lt (by omega)) (both_lt (by omega)) A h1
  obtain ⟨w, hw, ew⟩ := applyFold ht hs hth (fun _ _ => .error .valueError) h2 hk v
  obtain ⟨B, -, hB⟩ := E_step (tiny := tiny) ht hs hth hp hq
  obtain ⟨w', -, ew'⟩ := hB v
  refine ⟨w, by simpa [propagateState, propStep] using hw, ?_⟩
  rw [← ew']
  have this' : ∀ i < ci.idx2det.length, w i = w' i := by
    intro i hi
    have key := ew (fun j => if j = i then 1 else 0)
    rw [h3, E_core, inner_core, ← ew', ← dot_eq_inner hs.valid] at key
    have hd : ∀ u : Vec ℝ, dot ci.idx2det.length (fun j => if j = i then 1 else 0) u = u i := by
      intro u
      unfold dot
      rw [list_sum_range]
      simp only [ite_mul, one_mul, zero_mul]
      rw [Finset.sum_ite_eq', if_pos (Finset.mem_range.2 hi)]
    rwa [hd, hd] at key
  unfold stateOf
  refine congrArg List.sum (List.map_congr_left fun x hx => ?_)
  obtain ⟨d, i⟩ := x
  have := List.mem_zipIdx hx
  dsimp only
  rw [this' i (by omega)]

end

end SQ
