import Verif.Spec.Reorder
import Verif.Lemmas.Fold
import Mathlib.Algebra.BigOperators.Group.Finset.Basic
import Mathlib.Algebra.Ring.Parity
import Mathlib.Tactic.Ring

/-! # Lemmas for the spin-blocked reordering -/

namespace SQ

variable {R : Type*} [CommRing R]

/-- Even (alpha) orbitals of `S` strictly between `b` and `m`. -/
def above (S : Finset ℕ) (b m : ℕ) : ℕ := (S.filter fun a => a % 2 = 0 ∧ b < a ∧ a < m).card

theorem above_succ (S : Finset ℕ) {b m : ℕ} (hb : b < m) :
    above S b (m + 1) = above S b m + if m ∈ S ∧ m % 2 = 0 then 1 else 0 := by
  unfold above
  by_cases h : m ∈ S ∧ m % 2 = 0
  · rw [if_pos h]
    have : (S.filter fun a => a % 2 = 0 ∧ b < a ∧ a < m + 1)
        = insert m (S.filter fun a => a % 2 = 0 ∧ b < a ∧ a < m) := by
      ext a
      simp only [Finset.mem_filter, Finset.mem_insert]
      constructor
      · rintro ⟨h1, h2, h3, h4⟩
        by_cases e : a = m
        · exact Or.inl e
        · exact Or.inr ⟨h1, h2, h3, by omega⟩
      · rintro (rfl | ⟨h1, h2, h3, h4⟩)
        · exact ⟨h.1, h.2, hb, by omega⟩
        · exact ⟨h1, h2, h3, by omega⟩
    rw [this, Finset.card_insert_of_notMem]
    simp
  · rw [if_neg h]
    congr 1
    ext a
    simp only [Finset.mem_filter]
    constructor
    · rintro ⟨h1, h2, h3, h4⟩
      refine ⟨h1, h2, h3, ?_⟩
      rcases Nat.lt_succ_iff_lt_or_eq.1 h4 with h5 | rfl
      · exact h5
      · exact absurd ⟨h1, h2⟩ h
    · rintro ⟨h1, h2, h3, h4⟩
      exact ⟨h1, h2, h3, by omega⟩

/-- Closed form of the sign. -/
def oddBelow (S : Finset ℕ) (m : ℕ) : Finset ℕ := S.filter fun b => b % 2 = 1 ∧ b < m

theorem oddBelow_succ (S : Finset ℕ) (m : ℕ) :
    oddBelow S (m + 1) = if m ∈ S ∧ m % 2 = 1 then insert m (oddBelow S m) else oddBelow S m := by
  ext b
  unfold oddBelow
  split
  · next h =>
    simp only [Finset.mem_filter, Finset.mem_insert]
    constructor
    · rintro ⟨h1, h2, h3⟩
      by_cases e : b = m
      · exact Or.inl e
      · exact Or.inr ⟨h1, h2, by omega⟩
    · rintro (rfl | ⟨h1, h2, h3⟩)
      · exact ⟨h.1, h.2, by omega⟩
      · exact ⟨h1, h2, by omega⟩
  · next h =>
    simp only [Finset.mem_filter]
    constructor
    · rintro ⟨h1, h2, h3⟩
      refine ⟨h1, h2, ?_⟩
      rcases Nat.lt_succ_iff_lt_or_eq.1 h3 with h5 | rfl
      · exact h5
      · exact absurd ⟨h1, h2⟩ h
    · rintro ⟨h1, h2, h3⟩
      exact ⟨h1, h2, by omega⟩

theorem reorderLoop_eq (S : Finset ℕ) (n : ℕ) : ∀ (m i al : ℕ) (sg : ℤ), i + m = 2 * n →
    reorderLoop i ((List.range m).reverse.map fun p => if p ∈ S then '1' else '0') al sg
      = sg * ∏ b ∈ oddBelow S m, (-1) ^ (al + above S b m) := by
  intro m
  induction m with
  | zero => intro i al sg _; simp [reorderLoop, oddBelow]
  | succ m ih =>
    intro i al sg him
    have hih := fun al sg => ih (i + 1) al sg (by omega)
    rw [List.range_succ, List.reverse_append]
    simp only [List.reverse_cons, List.reverse_nil, List.nil_append, List.map_append, List.map_cons,
      List.map_nil, List.singleton_append]
    by_cases hS : m ∈ S
    · rcases Nat.mod_two_eq_zero_or_one m with h2 | h2
      · have hi : i % 2 = 1 := by omega
        simp only [reorderLoop, hS, if_true, hi, and_self, hih]
        rw [oddBelow_succ, if_neg (by omega)]
        congr 1
        refine Finset.prod_congr rfl fun b hb => ?_
        have hb' : b < m := by
          unfold oddBelow at hb; exact (Finset.mem_filter.1 hb).2.2
        rw [above_succ S hb', if_pos ⟨hS, h2⟩]
        congr 1; ring
      · have hi : i % 2 = 0 := by omega
        have hne : m ∉ oddBelow S m := by unfold oddBelow; simp
        have h0 : above S m (m + 1) = 0 := by
          unfold above
          rw [Finset.card_eq_zero, Finset.filter_eq_empty_iff]
          rintro a _ ⟨_, h3, h4⟩; omega
        have hr : ∀ b ∈ oddBelow S m, ((-1 : ℤ)) ^ (al + above S b (m + 1)) = (-1) ^ (al + above S b m) := by
          intro b hb
          have hb' : b < m := by
            unfold oddBelow at hb; exact (Finset.mem_filter.1 hb).2.2
          rw [above_succ S hb', if_neg (by omega), add_zero]
        rw [oddBelow_succ, if_pos (show m ∈ S ∧ m % 2 = 1 from ⟨hS, h2⟩), Finset.prod_insert hne, Finset.prod_congr rfl hr, h0]
        simp only [reorderLoop, hS, if_true, hi, and_true, hih, add_zero]
        rw [if_neg (by norm_num)]
        rcases Nat.mod_two_eq_zero_or_one al with ha | ha
        · rw [if_neg (by omega), Even.neg_one_pow (Nat.even_iff.2 ha), one_mul]
        · rw [if_pos ha, Odd.neg_one_pow (Nat.odd_iff.2 ha)]; ring
    · have hr : ∀ b ∈ oddBelow S m, ((-1 : ℤ)) ^ (al + above S b (m + 1)) = (-1) ^ (al + above S b m) := by
        intro b hb
        have hb' : b < m := by
          unfold oddBelow at hb; exact (Finset.mem_filter.1 hb).2.2
        rw [above_succ S hb', if_neg (fun h => hS h.1), add_zero]
      have h01 : ¬ ('0' = '1') := by decide
      simp only [reorderLoop, hS, if_false, h01, and_false, hih]
      rw [oddBelow_succ, if_neg (fun h => hS h.1), Finset.prod_congr rfl hr]

theorem sign_eq (n : ℕ) (S : Finset ℕ) :
    getReorderingSign (occString (2 * n) S)
      = ∏ b ∈ oddBelow S (2 * n), (-1) ^ (above S b (2 * n)) := by
  unfold getReorderingSign occString
  rw [← List.map_reverse, reorderLoop_eq S n (2 * n) 0 0 1 (by omega)]
  simp

/-- Change of the sign when an alpha orbital is added. -/
theorem sign_insert_alpha {n p : ℕ} {S : Finset ℕ} (hp : p ∉ S) (h2 : p % 2 = 0) (hn : p < 2 * n) :
    getReorderingSign (occString (2 * n) (insert p S))
      = (-1) ^ (oddBelow S p).card * getReorderingSign (occString (2 * n) S) := by
  rw [sign_eq, sign_eq]
  have e1 : oddBelow (insert p S) (2 * n) = oddBelow S (2 * n) := by
    unfold oddBelow; rw [Finset.filter_insert, if_neg (by omega)]
  have e2 : ∀ b, above (insert p S) b (2 * n) = above S b (2 * n) + if b < p then 1 else 0 := by
    intro b
    unfold above
    rw [Finset.filter_insert]
    by_cases hb : b < p
    · rw [if_pos ⟨h2, hb, hn⟩, if_pos hb, Finset.card_insert_of_notMem]
      simp [hp]
    · rw [if_neg (fun h => hb h.2.1), if_neg hb, add_zero]
  rw [e1]
  simp only [e2, pow_add]
  rw [Finset.prod_mul_distrib, mul_comm]
  congr 1
  have e3 : oddBelow S p = (oddBelow S (2 * n)).filter (· < p) := by
    unfold oddBelow; ext b; simp only [Finset.mem_filter]
    constructor
    · rintro ⟨a, b, c⟩; exact ⟨⟨a, b, by omega⟩, c⟩
    · rintro ⟨⟨a, b, c⟩, d⟩; exact ⟨a, b, d⟩
  rw [e3, Finset.card_filter, ← Finset.prod_pow_eq_pow_sum]

/-- Change of the sign when a beta orbital is added. -/
theorem sign_insert_beta {n p : ℕ} {S : Finset ℕ} (hp : p ∉ S) (h2 : p % 2 = 1) (hn : p < 2 * n) :
    getReorderingSign (occString (2 * n) (insert p S))
      = (-1) ^ (above S p (2 * n)) * getReorderingSign (occString (2 * n) S) := by
  rw [sign_eq, sign_eq]
  have e1 : oddBelow (insert p S) (2 * n) = insert p (oddBelow S (2 * n)) := by
    unfold oddBelow; rw [Finset.filter_insert, if_pos ⟨h2, hn⟩]
  have e2 : ∀ b, above (insert p S) b (2 * n) = above S b (2 * n) := by
    intro b
    unfold above
    rw [Finset.filter_insert, if_neg (by omega)]
  rw [e1, Finset.prod_insert (by unfold oddBelow; simp [hp])]
  simp only [e2]

theorem f2q_inj {n k l : ℕ} (hk : k < 2 * n) (hl : l < 2 * n) (h : f2q k n = f2q l n) : k = l := by
  unfold f2q at h
  split at h <;> split at h <;> omega

theorem image_filter_card {n p : ℕ} {S : Finset ℕ} (hS : ∀ q ∈ S, q < 2 * n) :
    ((S.image fun q => f2q q n).filter (· < f2q p n)).card
      = (S.filter fun q => f2q q n < f2q p n).card := by
  rw [Finset.filter_image, Finset.card_image_of_injOn]
  intro a ha b hb h
  simp only [Finset.coe_filter, Set.mem_setOf_eq] at ha hb
  exact f2q_inj (hS a ha.1) (hS b hb.1) h

/-- The heart of the matter: signs of both sides when `p ∉ S`. -/
theorem sign_phase {n p : ℕ} {S : Finset ℕ} (hS : ∀ q ∈ S, q < 2 * n) (hp : p ∉ S) (hn : p < 2 * n) :
    (phase S p : ℤ) * getReorderingSign (occString (2 * n) (insert p S))
      = phase (S.image fun q => f2q q n) (f2q p n) * getReorderingSign (occString (2 * n) S) := by
  unfold phase
  rw [image_filter_card hS]
  have split : ∀ (P : ℕ → Prop) [DecidablePred P], (S.filter P).card
      = (S.filter fun q => q % 2 = 0 ∧ P q).card + (S.filter fun q => q % 2 = 1 ∧ P q).card := by
    intro P _
    rw [← Finset.card_union_of_disjoint]
    · congr 1; ext q; simp only [Finset.mem_filter, Finset.mem_union]
      rcases Nat.mod_two_eq_zero_or_one q with h | h <;> simp [h]
    · rw [Finset.disjoint_left]; intro q; simp only [Finset.mem_filter]; omega
  rcases Nat.mod_two_eq_zero_or_one p with h2 | h2
  · rw [sign_insert_alpha hp h2 hn, ← mul_assoc, ← pow_add]
    congr 1
    rw [split (· < p)]
    have e1 : (S.filter fun q => f2q q n < f2q p n) = S.filter fun q => q % 2 = 0 ∧ q < p := by
      apply Finset.filter_congr; intro q hq
      have := hS q hq
      unfold f2q; rw [if_pos h2]
      split <;> constructor <;> intro h <;> omega
    rw [e1]
    unfold oddBelow
    rw [add_assoc, pow_add, ← two_mul, pow_mul]; simp
  · rw [sign_insert_beta hp h2 hn, ← mul_assoc, ← pow_add]
    congr 1
    rw [split (· < p), split fun q => f2q q n < f2q p n]
    have e1 : (S.filter fun q => q % 2 = 1 ∧ f2q q n < f2q p n) = S.filter fun q => q % 2 = 1 ∧ q < p := by
      apply Finset.filter_congr; intro q hq
      have := hS q hq
      unfold f2q; rw [if_neg (by omega : ¬ p % 2 = 0)]
      split <;> constructor <;> intro h <;> omega
    have e2 : (S.filter fun q => q % 2 = 0 ∧ f2q q n < f2q p n).card
        = (S.filter fun q => q % 2 = 0 ∧ q < p).card + above S p (2 * n) := by
      unfold above
      rw [← Finset.card_union_of_disjoint]
      · congr 1; ext q; simp only [Finset.mem_filter, Finset.mem_union]
        unfold f2q; rw [if_neg (by omega : ¬ p % 2 = 0)]
        constructor
        · rintro ⟨a, b, c⟩
          have := hS q a
          rcases lt_trichotomy q p with h | h | h
          · exact Or.inl ⟨a, b, h⟩
          · omega
          · exact Or.inr ⟨a, b, h, this⟩
        · rintro (⟨a, b, c⟩ | ⟨a, b, c, d⟩)
          · have := hS q a
            exact ⟨a, b, by rw [if_pos b]; omega⟩
          · exact ⟨a, b, by rw [if_pos b]; omega⟩
      · rw [Finset.disjoint_left]; intro q; simp only [Finset.mem_filter]; omega
    rw [e1, e2]
    congr 1; omega

theorem phase_cast (S : Finset ℕ) (p : ℕ) : ((phase S p : ℤ) : R) = phase S p := by
  unfold phase; push_cast; rfl

theorem toBlocked_sgl (n : ℕ) (S : Finset ℕ) (c : R) : toBlocked n (sgl S c)
    = sgl (S.image fun p => f2q p n) (c * ((getReorderingSign (occString (2 * n) S) : ℤ) : R)) := by
  unfold toBlocked
  rw [liftOp_single, smul_sgl]

theorem mem_image_f2q {n p : ℕ} {S : Finset ℕ} (hS : ∀ q ∈ S, q < 2 * n) (hn : p < 2 * n) :
    f2q p n ∈ (S.image fun q => f2q q n) ↔ p ∈ S := by
  rw [Finset.mem_image]
  constructor
  · rintro ⟨q, hq, h⟩; rw [← f2q_inj (hS q hq) hn h]; exact hq
  · intro h; exact ⟨p, h, rfl⟩

theorem cr_blocked {n p : ℕ} {S : Finset ℕ} (hS : ∀ q ∈ S, q < 2 * n) (hn : p < 2 * n) (c : R) :
    toBlocked n (cr p (sgl S c)) = cr (f2q p n) (toBlocked n (sgl S c)) := by
  rw [toBlocked_sgl, cr_single, cr_single]
  simp only [mem_image_f2q hS hn]
  split
  · simp
  · next hp =>
    rw [toBlocked_sgl, Finset.image_insert]
    congr 1
    have h := congrArg (Int.cast : ℤ → R) (sign_phase hS hp hn)
    push_cast [phase_cast] at h
    linear_combination c * h

theorem an_blocked {n p : ℕ} {S : Finset ℕ} (hS : ∀ q ∈ S, q < 2 * n) (hn : p < 2 * n) (c : R) :
    toBlocked n (an p (sgl S c)) = an (f2q p n) (toBlocked n (sgl S c)) := by
  rw [toBlocked_sgl, an_single, an_single]
  simp only [mem_image_f2q hS hn]
  split
  · next hp =>
    have hS' : ∀ q ∈ S.erase p, q < 2 * n := fun q hq => hS q (Finset.mem_of_mem_erase hq)
    have hi : (S.erase p).image (fun q => f2q q n) = (S.image fun q => f2q q n).erase (f2q p n) := by
      ext x
      simp only [Finset.mem_image, Finset.mem_erase]
      constructor
      · rintro ⟨q, ⟨h1, h2⟩, rfl⟩
        exact ⟨fun h => h1 (f2q_inj (hS q h2) hn h), q, h2, rfl⟩
      · rintro ⟨h1, q, h2, rfl⟩
        exact ⟨q, ⟨fun h => h1 (by rw [h]), h2⟩, rfl⟩
    rw [toBlocked_sgl, hi]
    congr 1
    have h := congrArg (Int.cast : ℤ → R) (sign_phase hS' (Finset.notMem_erase p S) hn)
    rw [Finset.insert_erase hp, hi] at h
    push_cast [phase_cast] at h
    rw [phase_erase_ge S p p (lt_irrefl _), phase_erase_ge _ _ _ (lt_irrefl _)] at h
    have s1 := phase_sq (R := R) S p
    have s2 := phase_sq (R := R) (S.image fun q => f2q q n) (f2q p n)
    generalize (phase S p : R) = a at *
    generalize (phase (S.image fun q => f2q q n) (f2q p n) : R) = b at *
    generalize ((getReorderingSign (occString (2 * n) (S.erase p)) : ℤ) : R) = u at *
    generalize ((getReorderingSign (occString (2 * n) S) : ℤ) : R) = v at *
    -- a * v = b * u, a² = b² = 1 ⊢ c * a * u = c * v * b
    linear_combination (-c * a * b) * h + c * v * b * s1 - c * a * u * s2
  · simp

end SQ
