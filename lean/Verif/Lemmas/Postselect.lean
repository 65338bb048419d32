import Verif.Spec.Postselect
import Verif.Model.Determinants
import Mathlib.Tactic.Linarith
import Mathlib.Algebra.BigOperators.Ring.Finset
import Mathlib.Data.Nat.Size

/-!
# Lemmas: post-selection
-/

namespace SQ

theorem binFormat_eq {n v : ℕ} (hn : 0 < n) (hv : v < 2 ^ n) : binFormat n v = (List.range n).reverse.map v.testBit := by
  unfold binFormat
  have : Nat.size v ≤ n := Nat.size_le.2 hv
  rw [max_eq_left (by omega)]

theorem range_reverse_split (a b : ℕ) : (List.range (a + b)).reverse = ((List.range b).map (a + ·)).reverse ++ (List.range a).reverse := by
  rw [List.range_add, List.reverse_append]

theorem ones_range (f : ℕ → Bool) (n : ℕ) : countOnes ((List.range n).reverse.map f) = ((Finset.range n).filter fun k => f k = true).card := by
  unfold countOnes
  induction n with
  | zero => simp
  | succ n ih =>
    rw [List.range_succ, List.reverse_append, List.reverse_singleton, List.singleton_append, List.map_cons,
      List.count_cons, ih, Finset.range_add_one, Finset.filter_insert]
    cases h : f n
    · simp
    · simp

theorem halves {h v : ℕ} (hh : 0 < h) (hv : v < 2 ^ (2 * h)) :
    (binFormat (2 * h) v).length / 2 = h ∧
    (binFormat (2 * h) v).take h = (List.range h).reverse.map (fun j => v.testBit (h + j)) ∧
    (binFormat (2 * h) v).drop h = (List.range h).reverse.map v.testBit := by
  rw [binFormat_eq (by omega) hv]
  have e : ((List.range (2 * h)).reverse.map v.testBit)
      = (List.range h).reverse.map (fun j => v.testBit (h + j)) ++ (List.range h).reverse.map v.testBit := by
    rw [two_mul, range_reverse_split, List.map_append, ← List.map_reverse, List.map_map]
    rfl
  rw [e]
  refine ⟨?_, ?_, ?_⟩
  · simp; omega
  · rw [List.take_append_of_le_length (by simp), List.take_of_length_le (by simp)]
  · rw [List.drop_append_of_le_length (by simp), List.drop_of_length_le (by simp), List.nil_append]

theorem keepJW_iff {m v : ℕ} (hv : v < 2 ^ (2 * m)) (na nb : ℕ) :
    keepJW (na, nb) (2 * m) v = true ↔ alphaCount m v.testBit = na ∧ betaCount m v.testBit = nb := by
  unfold keepJW alphaCount betaCount
  rcases Nat.eq_zero_or_pos m with rfl | hm
  · have : v = 0 := by simpa using hv
    subst this
    simp [binFormat, countOnes]
  · obtain ⟨h1, h2, h3⟩ := halves hm hv
    simp only [h1, h2, h3, ones_range, Bool.and_eq_true, decide_eq_true_eq]

/-- Changes of `f` between neighbours up to `k`. -/
def changes (f : ℕ → Bool) (k : ℕ) : ℕ := ∑ j ∈ Finset.range k, if f j ≠ f (j + 1) then 1 else 0

theorem countChanges_eq (f : ℕ → Bool) : ∀ h c, countChanges ((List.range h).reverse.map f) (f h) c = (f 0, c + changes f h) := by
  intro h
  induction h with
  | zero => intro c; simp [countChanges, changes]
  | succ h ih =>
    intro c
    rw [List.range_succ, List.reverse_append, List.reverse_singleton, List.singleton_append, List.map_cons]
    unfold countChanges changes
    rw [Finset.sum_range_succ]
    split_ifs with hne
    · rw [ih]; unfold changes; rw [Prod.mk.injEq]; exact ⟨rfl, by ring⟩
    · have e : f (h + 1) = f h := by
        by_contra h'
        exact hne (fun e => h' e.symm)
      rw [e, ih]; unfold changes; rw [Prod.mk.injEq]; exact ⟨rfl, by ring⟩

theorem countChanges_congr {f g : ℕ → Bool} {h : ℕ} (e : ∀ j < h, f j = g j) (c : ℕ) :
    countChanges ((List.range h).reverse.map f) (g h) c = (g 0, c + changes g h) := by
  rw [← countChanges_eq]
  congr 1
  refine List.map_congr_left fun j hj => e j ?_
  simpa using hj

theorem parityUpTo_zero (occ : ℕ → Bool) : parityUpTo occ 0 = occ 0 := by
  unfold parityUpTo
  rw [zero_add, Finset.range_one, Finset.filter_singleton]
  cases h : occ 0 <;> simp

theorem parityUpTo_succ (occ : ℕ → Bool) (k : ℕ) : parityUpTo occ (k + 1) = xor (parityUpTo occ k) (occ (k + 1)) := by
  unfold parityUpTo
  rw [Finset.range_add_one (n := k + 1), Finset.filter_insert]
  cases h : occ (k + 1)
  · simp
  · rw [if_pos rfl, Finset.card_insert_of_notMem (by simp)]
    rcases Nat.mod_two_eq_zero_or_one ((Finset.filter (fun i => occ i = true) (Finset.range (k + 1))).card) with e | e
    · rw [show ((Finset.filter (fun i => occ i = true) (Finset.range (k + 1))).card + 1) % 2 = 1 by omega, e]; rfl
    · rw [show ((Finset.filter (fun i => occ i = true) (Finset.range (k + 1))).card + 1) % 2 = 0 by omega, e]; rfl

theorem occ_iff (occ : ℕ → Bool) (k : ℕ) : (occ (k + 1) = true) ↔ parityUpTo occ k ≠ parityUpTo occ (k + 1) := by
  rw [parityUpTo_succ]
  cases parityUpTo occ k <;> cases occ (k + 1) <;> simp

theorem alpha_changes (occ : ℕ → Bool) (h : ℕ) :
    alphaCount (h + 1) occ = changes (parityUpTo occ) h + if parityUpTo occ 0 ≠ false then 1 else 0 := by
  unfold alphaCount changes
  rw [Finset.card_filter, Finset.sum_range_succ', parityUpTo_zero]
  congr 1
  · exact Finset.sum_congr rfl fun j _ => if_congr (occ_iff occ j) rfl rfl
  · cases occ 0 <;> simp

theorem beta_changes (occ : ℕ → Bool) (h : ℕ) :
    betaCount (h + 1) occ = changes (fun j => parityUpTo occ (h + 1 + j)) h
      + if parityUpTo occ (h + 1) ≠ parityUpTo occ h then 1 else 0 := by
  unfold betaCount changes
  rw [Finset.card_filter, Finset.sum_range_succ']
  congr 1
  · refine Finset.sum_congr rfl fun j _ => if_congr ?_ rfl rfl
    rw [show h + 1 + (j + 1) = (h + 1 + j) + 1 by omega]
    exact occ_iff occ (h + 1 + j)
  · refine if_congr ?_ rfl rfl
    rw [show h + 1 + 0 = h + 1 by omega, occ_iff]
    exact ne_comm

theorem parity_alpha (occ : ℕ → Bool) (h : ℕ) : parityUpTo occ h = decide (alphaCount (h + 1) occ % 2 = 1) := rfl

theorem parity_total (occ : ℕ → Bool) (h : ℕ) :
    parityUpTo occ (h + 1 + h) = decide ((alphaCount (h + 1) occ + betaCount (h + 1) occ) % 2 = 1) := by
  unfold parityUpTo alphaCount betaCount
  have : ((Finset.range (h + 1 + h + 1)).filter fun i => occ i = true).card
      = ((Finset.range (h + 1)).filter fun i => occ i = true).card + ((Finset.range (h + 1)).filter fun k => occ (h + 1 + k) = true).card := by
    rw [Finset.card_filter, Finset.card_filter, Finset.card_filter, show h + 1 + h + 1 = (h + 1) + (h + 1) by omega, Finset.sum_range_add]
  rw [this]

theorem adjust (b : Bool) (N c : ℕ) :
    (if (b, c).1 = true ∧ N % 2 = 0 then (false, (b, c).2 + 1)
    else if (b, c).1 = false ∧ N % 2 = 1 then (true, (b, c).2 + 1)
    else (b, c)) = (decide (N % 2 = 1), c + if b ≠ decide (N % 2 = 1) then 1 else 0) := by
  rcases Nat.mod_two_eq_zero_or_one N with e | e <;> cases b <;> simp [e]

theorem adjust' (b : Bool) (N c : ℕ) :
    (if (b, c).1 = true ∧ N % 2 = 0 then (b, c).2 + 1
    else if (b, c).1 = false ∧ N % 2 = 1 then (b, c).2 + 1
    else (b, c).2) = c + if b ≠ decide (N % 2 = 1) then 1 else 0 := by
  rcases Nat.mod_two_eq_zero_or_one N with e | e <;> cases b <;> simp [e]

/-- What the parity branch tests for an even number of electrons. -/
theorem keepParity_eq {h v : ℕ} (hh : 0 < h) (hv : v < 2 ^ (2 * h)) {na nb : ℕ} (hs : (na + nb) % 2 = 0) {fa fb : ℕ → Bool}
    (ha : ∀ j < h, v.testBit j = fa j) (ha' : fa h = decide (nb % 2 = 1))
    (hb : ∀ j < h, v.testBit (h + j) = fb j) (hb' : fb h = false) :
    keepParity (na, nb) (2 * h) v = true ↔
      changes fb h + (if fb 0 ≠ decide (nb % 2 = 1) then 1 else 0) = na ∧
      changes fa h + (if fa 0 ≠ false then 1 else 0) = nb := by
  obtain ⟨h1, h2, h3⟩ := halves hh hv
  have hc1 : countChanges ((List.range h).reverse.map fun j => v.testBit (h + j)) false 0 = (fb 0, 0 + changes fb h) := by
    rw [← hb']; exact countChanges_congr hb 0
  have hc2 : countChanges ((List.range h).reverse.map v.testBit) (decide (nb % 2 = 1)) 0 = (fa 0, 0 + changes fa h) := by
    rw [← ha']; exact countChanges_congr ha 0
  have hNN : decide ((na + nb) % 2 = 1) = false := by
    rw [decide_eq_false_iff_not]; omega
  unfold keepParity
  simp only [h1, h2, h3]
  rw [hc1, adjust]
  simp only [hc2]
  rw [adjust', hNN, zero_add, zero_add]
  split_ifs <;> simp_all

theorem keepParity_iff {m v : ℕ} (hm : 1 < m) (hv : v < 2 ^ (2 * m - 2)) {na nb : ℕ} (hs : (na + nb) % 2 = 0) :
    keepParity (na, nb) (2 * m - 2) v = true ↔
      ∃ occ, ReducedParity m v occ ∧ alphaCount m occ = nb ∧ betaCount m occ = na := by
  obtain ⟨h, rfl⟩ : ∃ h, m = h + 1 := ⟨m - 1, by omega⟩
  have hh : 0 < h := by omega
  rw [show 2 * (h + 1) - 2 = 2 * h by omega] at hv ⊢
  unfold ReducedParity
  rw [Nat.add_sub_cancel]
  constructor
  · intro hk
    let Q : ℕ → Bool := fun k => if k < h then v.testBit k else if k = h then decide (nb % 2 = 1)
      else if k ≤ 2 * h then v.testBit (k - 1) else false
    let occ : ℕ → Bool := fun k => if k = 0 then Q 0 else xor (Q k) (Q (k - 1))
    have hpar : ∀ k, parityUpTo occ k = Q k := by
      intro k
      induction k with
      | zero => rw [parityUpTo_zero]; simp [occ]
      | succ k ih =>
        rw [parityUpTo_succ, ih]
        simp only [occ, Nat.add_sub_cancel, Nat.succ_ne_zero, if_false]
        cases Q k <;> cases Q (k + 1) <;> rfl
    have qa : ∀ j < h, v.testBit j = Q j := fun j hj => by simp only [Q]; rw [if_pos hj]
    have qa' : Q h = decide (nb % 2 = 1) := by simp only [Q]; rw [if_neg (lt_irrefl _), if_pos trivial]
    have qb : ∀ j < h, v.testBit (h + j) = Q (h + 1 + j) := fun j hj => by
      simp only [Q]
      rw [if_neg (by omega), if_neg (by omega), if_pos (by omega)]
      congr 1; omega
    have qb' : Q (h + 1 + h) = false := by
      simp only [Q]
      rw [if_neg (by omega), if_neg (by omega), if_neg (by omega)]
    have hk' := (keepParity_eq hh hv hs (fa := Q) (fb := fun j => Q (h + 1 + j)) qa qa' qb qb').1 hk
    have hf : parityUpTo occ = Q := funext hpar
    refine ⟨occ, ⟨fun q hq => ?_, fun q hq => ?_⟩, ?_, ?_⟩
    · rw [hpar]; exact qa q hq
    · rw [hpar]; exact qb q hq
    · rw [alpha_changes, hf]; exact hk'.2
    · rw [beta_changes, hf, qa']; exact hk'.1
  · rintro ⟨occ, ⟨h1, h2⟩, h3, h4⟩
    have e1 : parityUpTo occ h = decide (nb % 2 = 1) := by rw [parity_alpha, h3]
    have e2 : parityUpTo occ (h + 1 + h) = false := by
      rw [parity_total, h3, h4, decide_eq_false_iff_not]; omega
    refine (keepParity_eq hh hv hs (fa := parityUpTo occ) (fb := fun j => parityUpTo occ (h + 1 + j)) h1 e1 h2 e2).2 ⟨?_, ?_⟩
    · rw [← e1]; exact (beta_changes occ h).symm.trans h4
    · exact (alpha_changes occ h).symm.trans h3

end SQ
