import Verif.Spec.Embed
import Verif.Lemmas.Conserve
import Verif.Model.FermionicFold
import Mathlib.Algebra.Ring.Parity

/-! # Lemmas for folding -/

namespace SQ

variable {R : Type*} [CommRing R]

theorem core_sgl (m : ℕ) (S : Finset ℕ) (c : R) : core m (sgl S c) = sgl (withCore m S) c := by
  unfold core; rw [liftOp_single]; simp

theorem mem_withCore_add {m p : ℕ} {S : Finset ℕ} : m + p ∈ withCore m S ↔ p ∈ S := by
  simp [withCore]

theorem mem_withCore_lt {m p : ℕ} {S : Finset ℕ} (h : p < m) : p ∈ withCore m S := by
  simp [withCore, h]

theorem withCore_erase (m p : ℕ) (S : Finset ℕ) :
    (withCore m S).erase (m + p) = withCore m (S.erase p) := by
  ext q
  simp only [withCore, Finset.mem_erase, Finset.mem_union, Finset.mem_range, Finset.mem_image]
  constructor
  · rintro ⟨h1, h2 | ⟨a, h2, rfl⟩⟩
    · exact Or.inl h2
    · exact Or.inr ⟨a, ⟨fun h => h1 (by rw [h]), h2⟩, rfl⟩
  · rintro (h | ⟨a, ⟨h1, h2⟩, rfl⟩)
    · exact ⟨by omega, Or.inl h⟩
    · exact ⟨by omega, Or.inr ⟨a, h2, rfl⟩⟩

theorem withCore_insert (m p : ℕ) (S : Finset ℕ) :
    insert (m + p) (withCore m S) = withCore m (insert p S) := by
  ext q
  simp only [withCore, Finset.mem_insert, Finset.mem_union, Finset.mem_range, Finset.mem_image]
  constructor
  · rintro (rfl | h2 | ⟨a, h2, rfl⟩)
    · exact Or.inr ⟨p, Or.inl rfl, rfl⟩
    · exact Or.inl h2
    · exact Or.inr ⟨a, Or.inr h2, rfl⟩
  · rintro (h | ⟨a, h1 | h1, rfl⟩)
    · exact Or.inr (Or.inl h)
    · exact Or.inl (by rw [h1])
    · exact Or.inr (Or.inr ⟨a, h1, rfl⟩)

theorem phase_withCore {m : ℕ} (hm : Even m) (p : ℕ) (S : Finset ℕ) :
    (phase (withCore m S) (m + p) : R) = phase S p := by
  unfold phase
  have : (withCore m S).filter (· < m + p) = withCore m (S.filter (· < p)) := by
    ext q
    simp only [withCore, Finset.mem_filter, Finset.mem_union, Finset.mem_range, Finset.mem_image]
    constructor
    · rintro ⟨h2 | ⟨a, h2, rfl⟩, h3⟩
      · exact Or.inl h2
      · exact Or.inr ⟨a, ⟨h2, by omega⟩, rfl⟩
    · rintro (h | ⟨a, ⟨h1, h2⟩, rfl⟩)
      · exact ⟨Or.inl h, by omega⟩
      · exact ⟨Or.inr ⟨a, h1, rfl⟩, by omega⟩
  rw [this]
  have hc : ∀ T : Finset ℕ, (withCore m T).card = m + T.card := by
    intro T
    unfold withCore
    rw [Finset.card_union_of_disjoint, Finset.card_range, Finset.card_image_of_injective]
    · intro a b h; simpa using h
    · rw [Finset.disjoint_left]
      intro a h1 h2
      simp only [Finset.mem_range] at h1
      simp only [Finset.mem_image] at h2
      obtain ⟨b, _, rfl⟩ := h2
      omega
  rw [hc, pow_add, hm.neg_one_pow, one_mul]

theorem ladder_core {m : ℕ} (hm : Even m) (o : Lad) (x : Fock R) :
    ladder (m + o.1, o.2) (core m x) = core m (ladder o x) := by
  obtain ⟨p, b⟩ := o
  have : (ladder (m + p, b) : FOp R).comp (core m) = (core m).comp (ladder (p, b)) := by
    apply fhom_ext
    intro S
    cases b
    · simp only [LinearMap.comp_apply, core_sgl, ladder, Bool.false_eq_true, if_false, an_single,
        mem_withCore_add, withCore_erase, phase_withCore hm]
      split
      · rw [core_sgl]
      · simp
    · simp only [LinearMap.comp_apply, core_sgl, ladder, if_true, cr_single,
        mem_withCore_add, withCore_insert, phase_withCore hm]
      split
      · simp
      · rw [core_sgl]
  exact congrArg (fun f => f x) this

theorem strOp_core {m : ℕ} (hm : Even m) (s : Str) (x : Fock R) :
    strOp (s.map fun o => (m + o.1, o.2)) (core m x) = core m (strOp s x) := by
  induction s with
  | nil => simp
  | cons o t ih =>
    simp only [List.map_cons, strOp_cons, Module.End.mul_apply]
    rw [ih, ladder_core hm]

theorem withCore_inj {m : ℕ} {S T : Finset ℕ} (h : withCore m S = withCore m T) : S = T := by
  ext p
  rw [← mem_withCore_add (m := m), h, mem_withCore_add]

theorem inner_core (m : ℕ) (x y : Fock R) : inner (core m x) (core m y) = inner x y := by
  have : ((innerB (R := R)).compl₂ (core m)).comp (core m) = innerB := by
    apply fhom_ext; intro S
    apply fhom_ext; intro T
    simp only [LinearMap.comp_apply, LinearMap.compl₂_apply, innerB_apply, core_sgl,
      inner_single_single]
    by_cases h : S = T
    · simp [h]
    · rw [if_neg h, if_neg fun h' => h (withCore_inj h')]
  exact congrArg (fun f => f x y) this

/-- A filled core orbital: `a†_p a_p |I,x⟩ = |I,x⟩`. -/
theorem num_core {m p : ℕ} (h : p < m) (x : Fock R) : (cr p * an p : FOp R) (core m x) = core m x := by
  have : (cr p * an p : FOp R).comp (core m) = core m := by
    apply fhom_ext; intro S
    simp only [LinearMap.comp_apply, core_sgl, Module.End.mul_apply, an_single,
      if_pos (mem_withCore_lt (S := S) h), cr_single]
    rw [if_neg (by simp), Finset.insert_erase (mem_withCore_lt h), one_mul]
    rw [phase_erase_ge _ _ _ (by omega), phase_sq]
  exact congrArg (fun f => f x) this

/-- Every determinant of `|I,x⟩` comes from one of `x`. -/
theorem coeff_core_ne {m : ℕ} {x : Fock R} {T : Finset ℕ} (h : coeff (core m x) T ≠ 0) :
    ∃ S, coeff x S ≠ 0 ∧ T = withCore m S := by
  by_contra hne
  push Not at hne
  apply h
  apply coeff_apply_eq_zero (T := core m)
  intro S hS
  rw [core_sgl, coeff_sgl, if_neg (Ne.symm (hne S hS))]

theorem cr_past_an {i : ℕ} (L : List ℕ) (hi : i ∉ L) :
    (strOp (L.map fun i => (i, true)) * an i : FOp R)
      = (-1 : R) ^ L.length • (an i * strOp (L.map fun i => (i, true))) := by
  induction L with
  | nil => simp
  | cons j L ih =>
    simp only [List.mem_cons, not_or] at hi
    simp only [List.map_cons, strOp_cons, ladder, if_true, List.length_cons, mul_assoc]
    rw [ih hi.2, mul_smul_comm, ← mul_assoc, ← mul_assoc, an_cr_ne hi.1, pow_succ]
    simp

/-- `a†_{i1}..a†_{ik} a_{i1}..a_{ik}` on a filled core is a sign. -/
theorem core_pairs {m : ℕ} (L : List ℕ) (hL : ∀ i ∈ L, i < m) (hn : L.Nodup) (x : Fock R) :
    (strOp (L.map fun i => (i, true)) * strOp (L.map fun i => (i, false)) : FOp R) (core m x)
      = (-1 : R) ^ (L.length * (L.length - 1) / 2) • core m x := by
  induction L with
  | nil => simp
  | cons i L ih =>
    rw [List.nodup_cons] at hn
    have h1 := ih (fun j hj => hL j (by simp [hj])) hn.2
    have h2 : (strOp ((i :: L).map fun i => (i, true)) * strOp ((i :: L).map fun i => (i, false)) : FOp R)
        = (-1 : R) ^ L.length • ((cr i * an i) *
          (strOp (L.map fun i => (i, true)) * strOp (L.map fun i => (i, false)))) := by
      simp only [List.map_cons, strOp_cons, ladder, if_true, Bool.false_eq_true, if_false]
      rw [mul_assoc, ← mul_assoc (strOp _) (an i), cr_past_an L hn.1]
      simp only [smul_mul_assoc, mul_smul_comm, mul_assoc]
    rw [h2, LinearMap.smul_apply, Module.End.mul_apply, h1, map_smul,
      num_core (hL i (by simp)), smul_smul, ← pow_add]
    congr 2
    simp only [List.length_cons, Nat.add_sub_cancel]
    have := Nat.even_mul_pred_self L.length
    obtain ⟨c, hc⟩ := this
    have h4 : (L.length + 1) * L.length = L.length * (L.length - 1) + 2 * L.length := by
      cases L.length with
      | zero => rfl
      | succ n => simp only [Nat.add_sub_cancel]; ring
    omega

/-- An empty orbital above the active space. -/
theorem an_core_zero {m n v : ℕ} (h : m + n ≤ v) {x : Fock R} (hx : Below n x) :
    an v (core m x) = 0 := by
  apply fock_ext
  intro S'
  rw [coeff_zero]
  apply coeff_apply_eq_zero
  intro S hS
  rw [an_single]
  rw [if_neg]
  · simp
  · intro hv
    obtain ⟨S0, h0, rfl⟩ := coeff_core_ne hS
    simp only [withCore, Finset.mem_union, Finset.mem_range, Finset.mem_image] at hv
    rcases hv with hv | ⟨a, ha, rfl⟩
    · omega
    · have := hx S0 h0 a ha; omega

theorem weight_core {m n i : ℕ} {x : Fock R} (hx : Below n x) {T : Finset ℕ}
    (h : coeff (core m x) T ≠ 0) :
    (i < m → weight (fun o => if o = i then 1 else 0) T = 1) ∧
    (m + n ≤ i → weight (fun o => if o = i then 1 else 0) T = 0) := by
  obtain ⟨S, h1, rfl⟩ := coeff_core_ne h
  unfold weight
  rw [Finset.sum_ite_eq']
  constructor
  · intro hi; rw [if_pos (mem_withCore_lt hi)]
  · intro hi
    rw [if_neg]
    intro hm
    simp only [withCore, Finset.mem_union, Finset.mem_range, Finset.mem_image] at hm
    rcases hm with hv | ⟨a, ha, rfl⟩
    · omega
    · have := hx S h1 a ha; omega

/-! ### Shape of a sorted key -/

theorem split_filter {α : Type*} (p : α → Bool) (l : List α)
    (h : l.Pairwise fun a b => p b = true → p a = true) :
    l = l.filter p ++ l.filter (fun a => !p a) := by
  induction l with
  | nil => rfl
  | cons a l ih =>
    rw [List.pairwise_cons] at h
    by_cases ha : p a = true
    · rw [List.filter_cons_of_pos ha, List.filter_cons_of_neg (by simp [ha]), List.cons_append,
        ← ih h.2]
    · have : l.filter p = [] := by
        rw [List.filter_eq_nil_iff]
        intro b hb hpb
        exact ha (h.1 b hb hpb)
      have ih' := ih h.2
      rw [this, List.nil_append] at ih'
      rw [List.filter_cons_of_neg ha, List.filter_cons_of_pos (by simp [ha]), this, List.nil_append,
        ← ih']

/-- The six lists are the filtered key. -/
theorem foldSort_eq (nI nA nV : ℕ) (s : Str) : ∀ L : FoldLists,
    s.foldl (foldSort nI nA nV) L =
      { virt := L.virt ++ (s.filter fun o => !o.2 && decide (2 * nI + 2 * nA ≤ o.1)
            && decide (o.1 < 2 * nI + 2 * nA + 2 * nV)).map (·.1)
        virtD := L.virtD ++ (s.filter fun o => o.2 && decide (2 * nI + 2 * nA ≤ o.1)
            && decide (o.1 < 2 * nI + 2 * nA + 2 * nV)).map (·.1)
        inact := L.inact ++ (s.filter fun o => !o.2 && decide (o.1 < 2 * nI)).map (·.1)
        inactD := L.inactD ++ (s.filter fun o => o.2 && decide (o.1 < 2 * nI)).map (·.1)
        act := L.act ++ (s.filter fun o => !o.2 && decide (2 * nI ≤ o.1)
            && decide (o.1 < 2 * nI + 2 * nA)).map fun o => (o.1 - 2 * nI, o.2)
        actD := L.actD ++ (s.filter fun o => o.2 && decide (2 * nI ≤ o.1)
            && decide (o.1 < 2 * nI + 2 * nA)).map fun o => (o.1 - 2 * nI, o.2) } := by
  induction s with
  | nil => intro L; simp
  | cons o t ih =>
    intro L
    obtain ⟨p, b⟩ := o
    rw [List.foldl_cons, ih]
    unfold foldSort
    cases b
    · by_cases h1 : p < 2 * nI
      · have a1 : ¬ 2 * nI + 2 * nA ≤ p := by omega
        have a2 : ¬ 2 * nI ≤ p := by omega
        simp [h1, a1, a2]
      · by_cases h2 : p < 2 * nI + 2 * nA
        · have a1 : ¬ 2 * nI + 2 * nA ≤ p := by omega
          have a2 : 2 * nI ≤ p := by omega
          simp [h1, h2, a1, a2]
        · have a1 : 2 * nI + 2 * nA ≤ p := by omega
          by_cases h3 : p < 2 * nI + 2 * nA + 2 * nV
          · simp [h1, h2, h3, a1]
          · simp [h1, h2, h3]
    · by_cases h1 : p < 2 * nI
      · have a1 : ¬ 2 * nI + 2 * nA ≤ p := by omega
        have a2 : ¬ 2 * nI ≤ p := by omega
        simp [h1, a1, a2]
      · by_cases h2 : p < 2 * nI + 2 * nA
        · have a1 : ¬ 2 * nI + 2 * nA ≤ p := by omega
          have a2 : 2 * nI ≤ p := by omega
          simp [h1, h2, a1, a2]
        · have a1 : 2 * nI + 2 * nA ≤ p := by omega
          by_cases h3 : p < 2 * nI + 2 * nA + 2 * nV
          · simp [h1, h2, h3, a1]
          · simp [h1, h2, h3]

theorem ketFlip_eq (k : ℕ) : ketFlip k = (-1) ^ (k * (k - 1) / 2) := by
  induction k with
  | zero => rfl
  | succ k ih =>
    have h1 : ketFlip (k + 1) = if (k + 1) % 2 = 0 then ketFlip k * (-1) else ketFlip k := by
      unfold ketFlip; rw [List.range_succ, List.foldl_append]; rfl
    rw [h1, ih]
    have h4 : (k + 1) * (k + 1 - 1) = k * (k - 1) + 2 * k := by
      cases k with
      | zero => rfl
      | succ n => simp only [Nat.add_sub_cancel]; ring
    have h5 : (k + 1) * (k + 1 - 1) / 2 = k * (k - 1) / 2 + k := by omega
    rw [h5, pow_add]
    split
    · have : Odd k := by rw [Nat.odd_iff]; omega
      rw [this.neg_one_pow]
    · have : Even k := by rw [Nat.even_iff]; omega
      rw [this.neg_one_pow, mul_one]

/-- Moving a block of annihilators past a disjointly indexed one. -/
theorem an_block_move (A L : List ℕ) :
    (strOp (A.map fun i => (i, false)) * strOp (L.map fun i => (i, false)) : FOp R)
      = (-1 : R) ^ (A.length * L.length) •
        (strOp (L.map fun i => (i, false)) * strOp (A.map fun i => (i, false))) := by
  induction A with
  | nil => simp
  | cons a A ih =>
    simp only [List.map_cons, strOp_cons, ladder, Bool.false_eq_true, if_false, List.length_cons]
    rw [mul_assoc, ih, mul_smul_comm, ← mul_assoc, an_move, smul_mul_assoc, smul_smul, ← pow_add,
      mul_assoc]
    congr 2
    ring

theorem strOp_contains_an {v : ℕ} {A : List ℕ} (hv : v ∈ A) {z : Fock R} (hz : an v z = 0) :
    (strOp (A.map fun i => (i, false)) : FOp R) z = 0 := by
  obtain ⟨l1, l2, rfl⟩ := List.append_of_mem hv
  simp only [List.map_append, List.map_cons, strOp_append, strOp_cons, ladder, Bool.false_eq_true,
    if_false]
  rw [an_move]
  simp only [Module.End.mul_apply, LinearMap.smul_apply, hz, map_zero, smul_zero]

theorem map_fst_cr (s : Str) (h : ∀ o ∈ s, o.2 = true) :
    (s.map (·.1)).map (fun i => (i, true)) = s := by
  rw [List.map_map]
  conv_rhs => rw [← List.map_id s]
  apply List.map_congr_left
  intro o ho
  have := h o ho
  obtain ⟨p, b⟩ := o
  simp_all

theorem map_fst_an (s : Str) (h : ∀ o ∈ s, o.2 = false) :
    (s.map (·.1)).map (fun i => (i, false)) = s := by
  rw [List.map_map]
  conv_rhs => rw [← List.map_id s]
  apply List.map_congr_left
  intro o ho
  have := h o ho
  obtain ⟨p, b⟩ := o
  simp_all

theorem NormalOrdered.split {s : Str} (h : NormalOrdered s) :
    s = s.filter (·.2) ++ s.filter (fun o => !o.2) :=
  split_filter _ _ (h.imp fun hab hb => by
    rcases hab with ⟨h1, h2⟩ | ⟨h1, h2⟩
    · exact h1
    · rw [h1]; exact hb)

/-- A normal-ordered block splits at any index bound. -/
theorem NormalOrdered.split_bound {s : Str} (h : NormalOrdered s) (b : Bool) (hb : ∀ o ∈ s, o.2 = b)
    (m : ℕ) : s = s.filter (fun o => decide (m ≤ o.1)) ++ s.filter (fun o => !decide (m ≤ o.1)) := by
  apply split_filter
  unfold NormalOrdered at h
  rw [List.pairwise_iff_forall_sublist] at h ⊢
  intro o o' hoo h1
  have hm := hoo.subset
  have e1 := hb o (hm (by simp))
  have e2 := hb o' (hm (by simp))
  rcases h hoo with ⟨g1, g2⟩ | ⟨_, g2⟩
  · rw [e1] at g1; rw [e2] at g2; rw [g1] at g2; simp at g2
  · simp only [decide_eq_true_eq] at h1 ⊢; omega

theorem NormalOrdered.filter {s : Str} (h : NormalOrdered s) (p : Lad → Bool) :
    NormalOrdered (s.filter p) := List.Pairwise.filter p h

theorem NormalOrdered.nodup_fst {s : Str} (h : NormalOrdered s) (b : Bool)
    (hb : ∀ o ∈ s, o.2 = b) : (s.map (·.1)).Pairwise (· > ·) := by
  rw [List.pairwise_map]
  unfold NormalOrdered at h
  rw [List.pairwise_iff_forall_sublist] at h ⊢
  intro o o' hoo
  have hm := hoo.subset
  have e1 := hb o (hm (by simp))
  have e2 := hb o' (hm (by simp))
  rcases h hoo with ⟨g1, g2⟩ | ⟨_, g2⟩
  · rw [e1] at g1; rw [e2] at g2; rw [g1] at g2; simp at g2
  · exact g2

/-- Strictly descending lists with the same members are equal. -/
theorem desc_eq_of_mem {l1 l2 : List ℕ} (h1 : l1.Pairwise (· > ·)) (h2 : l2.Pairwise (· > ·))
    (h : ∀ a, a ∈ l1 ↔ a ∈ l2) : l1 = l2 := by
  have n1 : l1.Nodup := h1.imp fun h => by omega
  have n2 : l2.Nodup := h2.imp fun h => by omega
  have hp : l1.Perm l2 := (List.perm_ext_iff_of_nodup n1 n2).2 h
  exact hp.eq_of_pairwise (fun a b _ _ h3 h4 => by omega) h1 h2

/-- Change of the occupation of spin orbital `i` by a string. -/
theorem strWeight_ind (i : ℕ) (s : Str) :
    strWeight (fun o => if o = i then 1 else 0) s
      = ((s.filter (·.2)).map (·.1)).count i - ((s.filter fun o => !o.2).map (·.1)).count i := by
  unfold strWeight
  induction s with
  | nil => simp
  | cons o t ih =>
    obtain ⟨p, b⟩ := o
    cases b
    · by_cases h : p = i
      · simp [h, ih]; ring
      · simp [h, ih]
    · by_cases h : p = i
      · simp [h, ih]; ring
      · simp [h, ih]

theorem shift_back (m : ℕ) (s : Str) (h : ∀ o ∈ s, m ≤ o.1) :
    (s.map fun o => (o.1 - m, o.2)).map (fun o => (m + o.1, o.2)) = s := by
  rw [List.map_map]
  conv_rhs => rw [← List.map_id s]
  apply List.map_congr_left
  intro o ho
  have := h o ho
  ext
  · simp; omega
  · simp

theorem fold_main (nI : ℕ) {cA cI aA aI : Str} (hcA : ∀ o ∈ cA, 2 * nI ≤ o.1)
    (haA : ∀ o ∈ aA, 2 * nI ≤ o.1)
    (cI2 : ∀ o ∈ cI, o.2 = true) (aI2 : ∀ o ∈ aI, o.2 = false) (aA2 : ∀ o ∈ aA, o.2 = false)
    (aIlt : ∀ i ∈ aI.map (·.1), i < 2 * nI) (daI : (aI.map (·.1)).Pairwise (· > ·))
    (hne : cI.map (·.1) = aI.map (·.1)) (y : Fock R) :
    (strOp cA * strOp cI * (strOp aA * strOp aI) : FOp R) (core (2 * nI) y)
      = ((-1 : R) ^ (aA.length * aI.length) * (-1) ^ (aI.length * (aI.length - 1) / 2)) •
        core (2 * nI) (strOp ((cA.map fun o => (o.1 - 2 * nI, o.2)) ++
          aA.map fun o => (o.1 - 2 * nI, o.2)) y) := by
  have em : Even (2 * nI) := even_two_mul nI
  have h1 : (strOp aA * strOp aI : FOp R) = (-1 : R) ^ (aA.length * aI.length) • (strOp aI * strOp aA) := by
    have := an_block_move (R := R) (aA.map (·.1)) (aI.map (·.1))
    rw [map_fst_an aA aA2, map_fst_an aI aI2, List.length_map, List.length_map] at this
    exact this
  have h2 : (strOp cA * strOp cI * (strOp aA * strOp aI) : FOp R) = (-1 : R) ^ (aA.length * aI.length) •
      (strOp cA * ((strOp cI * strOp aI) * strOp aA)) := by
    rw [h1]
    simp only [mul_smul_comm, mul_assoc]
  have h3 : strOp aA (core (2 * nI) y)
      = core (2 * nI) (strOp (aA.map fun o => (o.1 - 2 * nI, o.2)) y) := by
    rw [← strOp_core em, shift_back _ _ haA]
  have h4 : ∀ z : Fock R, (strOp cI * strOp aI : FOp R) (core (2 * nI) z)
      = (-1 : R) ^ (aI.length * (aI.length - 1) / 2) • core (2 * nI) z := by
    intro z
    have hnd : (aI.map (·.1)).Nodup := daI.imp fun h => by omega
    have := core_pairs (aI.map (·.1)) aIlt hnd z
    rw [← hne, map_fst_cr cI cI2, hne, map_fst_an aI aI2, List.length_map] at this
    exact this
  have h5 : ∀ z : Fock R, strOp cA (core (2 * nI) z)
      = core (2 * nI) (strOp (cA.map fun o => (o.1 - 2 * nI, o.2)) z) := by
    intro z
    rw [← strOp_core em, shift_back _ _ hcA]
  rw [h2, LinearMap.smul_apply, Module.End.mul_apply, Module.End.mul_apply, h3, h4, map_smul, h5,
    smul_smul, strOp_append, Module.End.mul_apply]

theorem foldKey_sem (nI nA nV : ℕ) {s : Str} (hn : NormalOrdered s) (hb : Balanced s)
    (hr : ∀ o ∈ s, o.1 < 2 * (nI + nA + nV)) {x y : Fock R} (hx : Below (2 * nA) x)
    (hy : Below (2 * nA) y) :
    inner (core (2 * nI) x) (strOp s (core (2 * nI) y)) =
      match foldKey nI nA nV s with
      | none => 0
      | some (k, fac) => (fac : R) * inner x (strOp k y) := by
  have hs := hn.split
  set c := s.filter (·.2) with hc
  set a := s.filter (fun o => !o.2) with ha
  have hc2 : ∀ o ∈ c, o.2 = true := fun o ho => by simpa using (List.mem_filter.1 ho).2
  have ha2 : ∀ o ∈ a, o.2 = false := fun o ho => by simpa using (List.mem_filter.1 ho).2
  have hcn : NormalOrdered c := hn.filter _
  have han : NormalOrdered a := hn.filter _
  have sa : strOp s = (strOp c * strOp a : FOp R) := by rw [← strOp_append, ← hs]
  -- a weight argument used twice
  have wt : ∀ i d, (∀ T, coeff (core (2 * nI) x) T ≠ 0 → weight (fun o => if o = i then 1 else 0) T = d) →
      (∀ T, coeff (core (2 * nI) y) T ≠ 0 → weight (fun o => if o = i then 1 else 0) T = d) →
      (i ∈ c.map (·.1) ∧ i ∉ a.map (·.1)) ∨ (i ∈ a.map (·.1) ∧ i ∉ c.map (·.1)) →
      inner (core (2 * nI) x) (strOp s (core (2 * nI) y)) = 0 := by
    intro i d h1 h2 h3
    refine inner_eq_zero_of_shift (shift_strOp _ s) h1 h2 ?_
    rw [strWeight_ind, ← hc, ← ha]
    rcases h3 with ⟨h3, h4⟩ | ⟨h3, h4⟩
    · have := List.count_pos_iff.2 h3
      rw [List.count_eq_zero.2 h4]; omega
    · have := List.count_pos_iff.2 h3
      rw [List.count_eq_zero.2 h4]; omega
  unfold foldKey
  rw [foldSort_eq]
  simp only [List.nil_append, List.length_map]
  by_cases hv : ∃ o ∈ s, 2 * nI + 2 * nA ≤ o.1
  · -- a virtual index
    have hcond : (s.filter fun o => !o.2 && decide (2 * nI + 2 * nA ≤ o.1)
            && decide (o.1 < 2 * nI + 2 * nA + 2 * nV)).length ≠ 0 ∨
        (s.filter fun o => o.2 && decide (2 * nI + 2 * nA ≤ o.1)
            && decide (o.1 < 2 * nI + 2 * nA + 2 * nV)).length ≠ 0 := by
      obtain ⟨o, ho, hov⟩ := hv
      have hlt := hr o ho
      cases hb2 : o.2
      · left
        exact (List.length_pos_of_mem (List.mem_filter.2 ⟨ho, by simp [hb2]; omega⟩)).ne'
      · right
        exact (List.length_pos_of_mem (List.mem_filter.2 ⟨ho, by simp [hb2]; omega⟩)).ne'
    rw [if_pos hcond]
    obtain ⟨o, ho, hov⟩ := hv
    by_cases hin : o.1 ∈ a.map (·.1)
    · rw [sa, Module.End.mul_apply]
      have : strOp a (core (2 * nI) y) = 0 := by
        rw [← map_fst_an a ha2]
        exact strOp_contains_an hin (an_core_zero hov hy)
      rw [this]; simp
    · have hmem : o ∈ c ∨ o ∈ a := by
        rw [hs] at ho; exact List.mem_append.1 ho
      refine wt o.1 0 (fun T hT => (weight_core hx hT).2 hov) (fun T hT => (weight_core hy hT).2 hov)
        (Or.inl ⟨?_, hin⟩)
      rcases hmem with h | h
      · exact List.mem_map_of_mem h
      · exact absurd (List.mem_map_of_mem h) hin
  · have hv' : ∀ o ∈ s, o.1 < 2 * nI + 2 * nA := by
      intro o ho; by_contra h; exact hv ⟨o, ho, by omega⟩
    have hnv : ¬ ((s.filter fun o => !o.2 && decide (2 * nI + 2 * nA ≤ o.1)
            && decide (o.1 < 2 * nI + 2 * nA + 2 * nV)).length ≠ 0 ∨
        (s.filter fun o => o.2 && decide (2 * nI + 2 * nA ≤ o.1)
            && decide (o.1 < 2 * nI + 2 * nA + 2 * nV)).length ≠ 0) := by
      push Not
      constructor
      · rw [List.length_eq_zero_iff, List.filter_eq_nil_iff]
        intro o ho; have := hv' o ho; simp; omega
      · rw [List.length_eq_zero_iff, List.filter_eq_nil_iff]
        intro o ho; have := hv' o ho; simp; omega
    rw [if_neg hnv]
    -- the four blocks
    have eID : (s.filter fun o => o.2 && decide (o.1 < 2 * nI))
        = c.filter (fun o => !decide (2 * nI ≤ o.1)) := by
      rw [hc, List.filter_filter]
      apply List.filter_congr; intro o _
      by_cases h : o.1 < 2 * nI
      · have : ¬ 2 * nI ≤ o.1 := by omega
        simp [h, this]
      · have : 2 * nI ≤ o.1 := by omega
        simp [h, this]
    have eI : (s.filter fun o => !o.2 && decide (o.1 < 2 * nI))
        = a.filter (fun o => !decide (2 * nI ≤ o.1)) := by
      rw [ha, List.filter_filter]
      apply List.filter_congr; intro o _
      by_cases h : o.1 < 2 * nI
      · have : ¬ 2 * nI ≤ o.1 := by omega
        simp [h, this]
      · have : 2 * nI ≤ o.1 := by omega
        simp [h, this]
    have eAD : (s.filter fun o => o.2 && decide (2 * nI ≤ o.1) && decide (o.1 < 2 * nI + 2 * nA))
        = c.filter (fun o => decide (2 * nI ≤ o.1)) := by
      rw [hc, List.filter_filter]
      apply List.filter_congr; intro o ho
      have := hv' o ho
      simp [this, Bool.and_comm]
    have eA : (s.filter fun o => !o.2 && decide (2 * nI ≤ o.1) && decide (o.1 < 2 * nI + 2 * nA))
        = a.filter (fun o => decide (2 * nI ≤ o.1)) := by
      rw [ha, List.filter_filter]
      apply List.filter_congr; intro o ho
      have := hv' o ho
      simp [this, Bool.and_comm]
    rw [eID, eI, eAD, eA]
    have sc := hcn.split_bound true hc2 (2 * nI)
    have sn := han.split_bound false ha2 (2 * nI)
    set cA := c.filter (fun o => decide (2 * nI ≤ o.1)) with hcA
    set cI := c.filter (fun o => !decide (2 * nI ≤ o.1)) with hcI
    set aA := a.filter (fun o => decide (2 * nI ≤ o.1)) with haA
    set aI := a.filter (fun o => !decide (2 * nI ≤ o.1)) with haI
    have cI2 : ∀ o ∈ cI, o.2 = true := fun o ho => hc2 o (List.mem_filter.1 ho).1
    have aI2 : ∀ o ∈ aI, o.2 = false := fun o ho => ha2 o (List.mem_filter.1 ho).1
    have aA2 : ∀ o ∈ aA, o.2 = false := fun o ho => ha2 o (List.mem_filter.1 ho).1
    have cIlt : ∀ i ∈ cI.map (·.1), i < 2 * nI := by
      intro i hi
      obtain ⟨o, ho, rfl⟩ := List.mem_map.1 hi
      have := (List.mem_filter.1 ho).2
      simp at this; omega
    have aIlt : ∀ i ∈ aI.map (·.1), i < 2 * nI := by
      intro i hi
      obtain ⟨o, ho, rfl⟩ := List.mem_map.1 hi
      have := (List.mem_filter.1 ho).2
      simp at this; omega
    have dcI := (hcn.filter fun o => !decide (2 * nI ≤ o.1)).nodup_fst true cI2
    have daI := (han.filter fun o => !decide (2 * nI ≤ o.1)).nodup_fst false aI2
    by_cases hne : cI.map (·.1) ≠ aI.map (·.1)
    · rw [if_pos hne]
      have : ∃ i, ¬ (i ∈ cI.map (·.1) ↔ i ∈ aI.map (·.1)) := by
        by_contra hall
        push Not at hall
        exact hne (desc_eq_of_mem dcI daI hall)
      obtain ⟨i, hi⟩ := this
      have hsub1 : ∀ i, i < 2 * nI → (i ∈ c.map (·.1) ↔ i ∈ cI.map (·.1)) := by
        intro i hi
        simp only [List.mem_map, hcI, List.mem_filter]
        constructor
        · rintro ⟨o, ho, rfl⟩; exact ⟨o, ⟨ho, by simp; omega⟩, rfl⟩
        · rintro ⟨o, ⟨ho, _⟩, rfl⟩; exact ⟨o, ho, rfl⟩
      have hsub2 : ∀ i, i < 2 * nI → (i ∈ a.map (·.1) ↔ i ∈ aI.map (·.1)) := by
        intro i hi
        simp only [List.mem_map, haI, List.mem_filter]
        constructor
        · rintro ⟨o, ho, rfl⟩; exact ⟨o, ⟨ho, by simp; omega⟩, rfl⟩
        · rintro ⟨o, ⟨ho, _⟩, rfl⟩; exact ⟨o, ho, rfl⟩
      have hlt : i < 2 * nI := by
        by_contra hge
        apply hi
        constructor
        · intro h; exact absurd (cIlt i h) hge
        · intro h; exact absurd (aIlt i h) hge
      refine wt i 1 (fun T hT => (weight_core hx hT).1 hlt) (fun T hT => (weight_core hy hT).1 hlt) ?_
      rw [hsub1 i hlt, hsub2 i hlt]
      tauto
    · rw [if_neg hne]
      push Not at hne
      simp only
      have lenI : cI.length = aI.length := by
        have := congrArg List.length hne; simpa using this
      have lenA : cA.length = aA.length := by
        have h1 : c.length = a.length := by
          unfold Balanced at hb
          rw [List.countP_eq_length_filter, List.countP_eq_length_filter] at hb
          exact hb
        have h2 := congrArg List.length sc
        have h3 := congrArg List.length sn
        rw [List.length_append] at h2 h3
        omega
      have main := fold_main nI (cA := cA) (cI := cI) (aA := aA) (aI := aI)
        (fun o ho => by simpa using (List.mem_filter.1 ho).2)
        (fun o ho => by simpa using (List.mem_filter.1 ho).2) cI2 aI2 aA2 aIlt daI hne y
      rw [← strOp_append, ← strOp_append, ← sc, ← sn, ← sa] at main
      rw [main, inner_smul_right, inner_core]
      congr 1
      rw [lenI, lenA, ketFlip_eq]
      push_cast
      congr 1
      by_cases ho : aI.length % 2 = 1 ∧ aA.length % 2 = 1
      · rw [if_pos ho]
        have : Odd (aA.length * aI.length) := by
          rw [Nat.odd_mul, Nat.odd_iff, Nat.odd_iff]; exact ⟨ho.2, ho.1⟩
        rw [this.neg_one_pow]
      · rw [if_neg ho]
        have : Even (aA.length * aI.length) := by
          rw [Nat.even_mul, Nat.even_iff, Nat.even_iff]; omega
        rw [this.neg_one_pow]

theorem sumOp_accTo (d : Dict R) (k : Str) (v : R) :
    (sumOp (accTo d k v) : FOp R) = sumOp d + v • strOp k := by
  induction d with
  | nil => simp [accTo]
  | cons kv t ih =>
    obtain ⟨k', v'⟩ := kv
    simp only [accTo]
    split
    · next h => subst h; simp only [sumOp_cons, add_smul]; abel
    · simp only [sumOp_cons, ih]; abel

theorem getFolded_sem (nI nA nV : ℕ) (A : Dict R) (hn : ∀ kv ∈ A, NormalOrdered kv.1)
    (hb : ∀ kv ∈ A, Balanced kv.1) (hr : ∀ kv ∈ A, ∀ o ∈ kv.1, o.1 < 2 * (nI + nA + nV))
    {x y : Fock R} (hx : Below (2 * nA) x) (hy : Below (2 * nA) y) :
    inner x (sumOp (getFolded nI nA nV A) y)
      = inner (core (2 * nI) x) (sumOp A (core (2 * nI) y)) := by
  have key : ∀ (A : Dict R) (d : Dict R), (∀ kv ∈ A, NormalOrdered kv.1) → (∀ kv ∈ A, Balanced kv.1) →
      (∀ kv ∈ A, ∀ o ∈ kv.1, o.1 < 2 * (nI + nA + nV)) →
      inner x (sumOp (A.foldl (foldStep nI nA nV) d) y)
      = inner x (sumOp d y) + inner (core (2 * nI) x) (sumOp A (core (2 * nI) y)) := by
    intro A
    induction A with
    | nil => intro d _ _ _; simp
    | cons kv t ih =>
      intro d hn hb hr
      rw [List.foldl_cons, ih _ (fun z hz => hn z (by simp [hz])) (fun z hz => hb z (by simp [hz]))
        (fun z hz => hr z (by simp [hz]))]
      have h1 := foldKey_sem nI nA nV (hn kv (by simp)) (hb kv (by simp)) (hr kv (by simp)) hx hy
      rw [sumOp_cons, LinearMap.add_apply, inner_add_right, LinearMap.smul_apply, inner_smul_right, h1]
      unfold foldStep
      cases hk : foldKey nI nA nV kv.1 with
      | none => simp
      | some kf =>
        obtain ⟨k, fac⟩ := kf
        simp only
        rw [sumOp_accTo, LinearMap.add_apply, inner_add_right, LinearMap.smul_apply, inner_smul_right]
        ring
  have := key A [] hn hb hr
  simpa [getFolded] using this

end SQ
