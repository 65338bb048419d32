import Mathlib.Tactic.Module
import Verif.Lemmas.ResponseGens

/-!
# Lemmas for the response matrices: excitations from a closed-shell determinant are orthonormal
-/

namespace SQ

theorem delta_flip (p q : ℕ) : (delta p q : ℝ) = delta q p := by simp [delta, eq_comm]

/-- A normalised state in which the orbitals `occ` are doubly occupied and the orbitals `unocc` are empty. -/
structure ClosedRef (Φ : Fock ℝ) (occ unocc : List ℕ) : Prop where
  norm : inner Φ Φ = 1
  empty : ∀ a ∈ unocc, an (2 * a) Φ = 0 ∧ an (2 * a + 1) Φ = 0
  full : ∀ i ∈ occ, cr (2 * i) Φ = 0 ∧ cr (2 * i + 1) Φ = 0
  disj : ∀ i ∈ occ, i ∉ unocc

namespace ClosedRef

variable {Φ : Fock ℝ} {occ unocc : List ℕ} (h : ClosedRef Φ occ unocc)
include h

theorem E_unocc {a : ℕ} (ha : a ∈ unocc) (p : ℕ) : E p a Φ = 0 := by
  unfold E
  rw [LinearMap.add_apply, Module.End.mul_apply, Module.End.mul_apply, (h.empty a ha).1, (h.empty a ha).2]
  simp

theorem E_occ {i : ℕ} (hi : i ∈ occ) (j : ℕ) : E i j Φ = (2 * delta i j : ℝ) • Φ := by
  have key : ∀ p q : ℕ, cr p Φ = 0 → (cr p * an q : FOp ℝ) Φ = (if p = q then (1 : ℝ) else 0) • Φ := by
    intro p q hp
    have e : (cr p * an q : FOp ℝ) = (if q = p then 1 else 0) - an q * cr p := by rw [an_cr]; abel
    rw [e, LinearMap.sub_apply, Module.End.mul_apply, hp, map_zero, sub_zero]
    by_cases hpq : p = q
    · simp [hpq]
    · simp [hpq, Ne.symm hpq]
  unfold E
  rw [LinearMap.add_apply, key _ _ (h.full i hi).1, key _ _ (h.full i hi).2, ← add_smul]
  congr 1
  unfold delta
  by_cases hij : i = j
  · simp [hij]; norm_num
  · have h1 : ¬ 2 * i = 2 * j := by omega
    have h2 : ¬ 2 * i + 1 = 2 * j + 1 := by omega
    simp [hij]

/-- `E_ia E_bj |Φ⟩ = 2 δ_ab δ_ij |Φ⟩`. -/
theorem E_one {i j a b : ℕ} (hi : i ∈ occ) (ha : a ∈ unocc) :
    E i a (E b j Φ) = (2 * delta a b * delta i j : ℝ) • Φ := by
  have e := congrArg (fun T : FOp ℝ => T Φ) (E_comm (R := ℝ) i a b j)
  simp only [LinearMap.sub_apply, Module.End.mul_apply, LinearMap.smul_apply, h.E_unocc ha, map_zero, sub_zero,
    smul_zero] at e
  rw [e, h.E_occ hi, smul_smul]
  congr 1
  ring

theorem inner_one {i j a b : ℕ} (hi : i ∈ occ) (ha : a ∈ unocc) :
    inner (E a i Φ) (E b j Φ) = 2 * delta a b * delta i j := by
  rw [adjoint_E, h.E_one hi ha, inner_smul_right, h.norm, mul_one]

/-- `E_ia E_ck E_dl |Φ⟩`. -/
theorem E_two {i a c k d l : ℕ} (hi : i ∈ occ) (ha : a ∈ unocc) (hk : k ∈ occ) (hd : d ∈ unocc) :
    E i a (E c k (E d l Φ)) = (2 * delta a c * delta i k : ℝ) • E d l Φ - (delta a c * delta i l : ℝ) • E d k Φ
      - (delta i k * delta a d : ℝ) • E c l Φ + (2 * delta a d * delta i l : ℝ) • E c k Φ := by
  have e := congrArg (fun T : FOp ℝ => T (E d l Φ)) (E_comm (R := ℝ) i a c k)
  have e1 := congrArg (fun T : FOp ℝ => T Φ) (E_comm (R := ℝ) i k d l)
  have e2 := congrArg (fun T : FOp ℝ => T Φ) (E_comm (R := ℝ) c a d l)
  have hkd : k ≠ d := by rintro rfl; exact h.disj _ hk hd
  have hd0 : (delta k d : ℝ) = 0 := if_neg hkd
  simp only [LinearMap.sub_apply, Module.End.mul_apply, LinearMap.smul_apply, h.E_unocc ha, map_zero, sub_zero,
    h.E_occ hi, h.E_one hi ha, map_smul, hd0, zero_smul, zero_sub, smul_zero, LinearMap.neg_apply] at e e1 e2
  rw [sub_eq_iff_eq_add] at e e1
  rw [e, e1, e2, delta_flip l i, delta_flip k i]
  module

/-- `⟨Φ| E_jb E_ia E_ck E_dl |Φ⟩`. -/
theorem inner_two {i j a b c k d l : ℕ} (hi : i ∈ occ) (ha : a ∈ unocc) (hj : j ∈ occ) (hb : b ∈ unocc)
    (hk : k ∈ occ) (hd : d ∈ unocc) :
    inner (E a i (E b j Φ)) (E c k (E d l Φ)) =
      4 * delta a c * delta b d * delta i k * delta j l + 4 * delta a d * delta b c * delta i l * delta j k
      - 2 * delta a c * delta b d * delta i l * delta j k - 2 * delta a d * delta b c * delta i k * delta j l := by
  rw [adjoint_E, h.E_two hi ha hk hd]
  simp only [inner_add_right, inner_sub_right, inner_smul_right, h.inner_one hj hb]
  ring

/-- The two couplings of a double excitation: `s = 1` and `s = -1`. -/
theorem inner_coupled (s t : ℝ) {i j a b c k d l : ℕ} (hi : i ∈ occ) (ha : a ∈ unocc) (hj : j ∈ occ) (hb : b ∈ unocc)
    (hk : k ∈ occ) (hl : l ∈ occ) (hd : d ∈ unocc) :
    inner ((E a i * E b j + s • (E a j * E b i) : FOp ℝ) Φ) ((E c k * E d l + t • (E c l * E d k) : FOp ℝ) Φ) =
      ((4 + 4 * s * t - 2 * s - 2 * t) * (delta i k * delta j l)
        + (4 * s + 4 * t - 2 - 2 * s * t) * (delta i l * delta j k)) * (delta a c * delta b d)
      + ((4 + 4 * s * t - 2 * s - 2 * t) * (delta i l * delta j k)
        + (4 * s + 4 * t - 2 - 2 * s * t) * (delta i k * delta j l)) * (delta a d * delta b c) := by
  simp only [LinearMap.add_apply, LinearMap.smul_apply, Module.End.mul_apply, inner_add_left, inner_add_right,
    inner_smul_left, inner_smul_right, h.inner_two hi ha hj hb hk hd, h.inner_two hi ha hj hb hl hd,
    h.inner_two hj ha hi hb hk hd, h.inner_two hj ha hi hb hl hd]
  ring

end ClosedRef

theorem pairFrom_swap {L : List ℕ} (hL : L.Nodup) {a b : ℕ} (h1 : PairFrom L a b) (h2 : PairFrom L b a) : a = b := by
  rcases h1 with h1 | h1
  · exact h1.1
  rcases h2 with h2 | h2
  · exact h2.1.symm
  by_contra hab
  clear hab
  induction L with
  | nil => simp at h1
  | cons x L ih =>
    obtain ⟨hx, hL⟩ := List.nodup_cons.1 hL
    rcases List.sublist_cons_iff.1 h1 with g1 | ⟨r, e1, g1⟩
    · rcases List.sublist_cons_iff.1 h2 with g2 | ⟨r', e2, g2⟩
      · exact ih hL g1 g2
      · injection e2 with e2 e3
        subst e2
        exact hx (g1.subset (List.mem_cons_of_mem _ (List.mem_singleton_self _)))
    · injection e1 with e1 e3
      subst e1
      rcases List.sublist_cons_iff.1 h2 with g2 | ⟨r', e2, g2⟩
      · exact hx (g2.subset (List.mem_cons_of_mem _ (List.mem_singleton_self _)))
      · injection e2 with e2 e4
        subst e2 e3
        exact hx (g1.subset (by simp))

theorem PairFrom.mem {L : List ℕ} {a b : ℕ} (h : PairFrom L a b) : a ∈ L ∧ b ∈ L := by
  rcases h with ⟨rfl, h⟩ | h
  · exact ⟨h, h⟩
  · exact ⟨h.subset (by simp), h.subset (by simp)⟩

/-- The sum over the two ways two ordered pairs may agree. -/
theorem pairFrom_delta {L : List ℕ} (hL : L.Nodup) {a b c d : ℕ} (h1 : PairFrom L a b) (h2 : PairFrom L c d) :
    (delta a c * delta b d : ℝ) = (if a = c ∧ b = d then 1 else 0) ∧
    (delta a d * delta b c : ℝ) = if a = c ∧ b = d ∧ a = b then 1 else 0 := by
  unfold delta
  constructor
  · by_cases p : a = c <;> by_cases q : b = d <;> simp [p, q]
  · by_cases p : a = d
    · by_cases q : b = c
      · subst p q
        have := pairFrom_swap hL h1 h2
        subst this
        simp
      · have : ¬ (a = c ∧ b = d ∧ a = b) := by rintro ⟨rfl, rfl, rfl⟩; exact q rfl
        simp [q, this]
    · have : ¬ (a = c ∧ b = d ∧ a = b) := by rintro ⟨rfl, rfl, rfl⟩; exact p rfl
      simp [p, this]

theorem saDoubleOp_eq (x : SaDouble) : saDoubleOp x =
    (if x.case = 5 then 1 / (2 * Real.sqrt 3) else
      1 / 2 * (Real.sqrt ((if x.a = x.b then 2 else 1) * (if x.i = x.j then 2 else 1)))⁻¹) •
      (E x.a x.i * E x.b x.j + (if x.case = 5 then (-1 : ℝ) else 1) • (E x.a x.j * E x.b x.i)) := by
  unfold saDoubleOp
  split <;> simp [sub_eq_add_neg]

theorem saDoubles_ortho {Φ : Fock ℝ} {occ unocc : List ℕ} (h : ClosedRef Φ occ unocc) (ho : occ.Nodup)
    (hu : unocc.Nodup) {x y : SaDouble} (hx : x ∈ iterateT2sa occ unocc) (hy : y ∈ iterateT2sa occ unocc) :
    (x = y → inner (saDoubleOp x Φ) (saDoubleOp y Φ) = 1) ∧ (x ≠ y → inner (saDoubleOp x Φ) (saDoubleOp y Φ) = 0) := by
  obtain ⟨x1, x2, x3, x4⟩ := ((C35_sa_doubles ho hu).2 x).1 hx
  obtain ⟨y1, y2, y3, y4⟩ := ((C35_sa_doubles ho hu).2 y).1 hy
  rw [saDoubleOp_eq, saDoubleOp_eq, LinearMap.smul_apply, LinearMap.smul_apply, inner_smul_left, inner_smul_right,
    h.inner_coupled _ _ x1.mem.1 x2.mem.1 x1.mem.2 x2.mem.2 y1.mem.1 y1.mem.2 y2.mem.2,
    (pairFrom_delta ho x1 y1).1, (pairFrom_delta ho x1 y1).2, (pairFrom_delta hu x2 y2).1,
    (pairFrom_delta hu x2 y2).2]
  obtain ⟨a, i, b, j, f, c⟩ := x
  obtain ⟨a', i', b', j', f', c'⟩ := y
  dsimp only at *
  have sq : ∀ X : ℝ, 0 < X → (Real.sqrt X)⁻¹ * (Real.sqrt X)⁻¹ = X⁻¹ := fun X hX => by
    rw [← mul_inv, Real.mul_self_sqrt hX.le]
  by_cases e : i = i' ∧ j = j' ∧ a = a' ∧ b = b'
  · obtain ⟨rfl, rfl, rfl, rfl⟩ := e
    by_cases hc : c = c'
    · subst hc
      obtain rfl : f = f' := by rw [x4, y4]
      refine ⟨fun _ => ?_, fun k => absurd rfl k⟩
      have q3 := sq 3 (by norm_num)
      have q := sq ((if a = b then 2 else 1) * (if i = j then 2 else 1)) (by split_ifs <;> norm_num)
      clear x4 y4 hx hy
      generalize (Real.sqrt ((if a = b then 2 else 1) * (if i = j then 2 else 1)))⁻¹ = r at q ⊢
      rcases x3 with ⟨rfl, rfl, rfl⟩ | ⟨rfl, h2, rfl⟩ | ⟨h1, rfl, rfl⟩ | ⟨h1, h2, rfl | rfl⟩
      · rw [if_pos rfl, if_pos rfl] at q
        simp
        linear_combination 4 * q
      · rw [if_pos rfl, if_neg h2] at q
        simp [h2]
        linear_combination 2 * q
      · rw [if_pos rfl, if_neg h1] at q
        simp [h1]
        linear_combination 2 * q
      · rw [if_neg h1, if_neg h2] at q
        simp [h1, h2]
        linear_combination q
      · simp [h1, h2]
        linear_combination 3 * q3
    · refine ⟨fun k => absurd (by injection k) hc, fun _ => ?_⟩
      rcases x3 with ⟨rfl, rfl, rfl⟩ | ⟨rfl, h2, rfl⟩ | ⟨h1, rfl, rfl⟩ | ⟨h1, h2, h3⟩
      · rcases y3 with y | y | y | y <;> omega
      · rcases y3 with y | y | y | y <;> omega
      · rcases y3 with y | y | y | y <;> omega
      · have y5 : c' = 4 ∨ c' = 5 := by rcases y3 with y | y | y | y <;> omega
        have : (c = 4 ∧ c' = 5) ∨ (c = 5 ∧ c' = 4) := by omega
        rcases this with ⟨rfl, rfl⟩ | ⟨rfl, rfl⟩ <;> simp [h1, h2] <;> norm_num
  · have hne : ¬ (SaDouble.mk a i b j f c = ⟨a', i', b', j', f', c'⟩) := by
      rintro ⟨⟩; exact e ⟨rfl, rfl, rfl, rfl⟩
    refine ⟨fun k => absurd k hne, fun _ => ?_⟩
    by_cases e1 : i = i' ∧ j = j'
    · have e2 : ¬ (a = a' ∧ b = b') := fun k => e ⟨e1.1, e1.2, k⟩
      have e3 : ¬ (a = a' ∧ b = b' ∧ a = b) := fun k => e2 ⟨k.1, k.2.1⟩
      simp only [if_neg e2, if_neg e3, mul_zero, add_zero]
    · have e3 : ¬ (i = i' ∧ j = j' ∧ i = j) := fun k => e1 ⟨k.1, k.2.1⟩
      simp only [if_neg e1, if_neg e3, mul_zero, add_zero, zero_mul]

/-! ### Strings on a determinant -/

theorem sublist_ext {L A B : List ℕ} (hL : L.Nodup) (hA : A.Sublist L) (hB : B.Sublist L)
    (h : ∀ p, p ∈ A ↔ p ∈ B) : A = B := by
  induction L generalizing A B with
  | nil => rw [List.sublist_nil.1 hA, List.sublist_nil.1 hB]
  | cons x L ih =>
    obtain ⟨hx, hL⟩ := List.nodup_cons.1 hL
    rcases List.sublist_cons_iff.1 hA with a | ⟨r, rfl, a⟩
    · rcases List.sublist_cons_iff.1 hB with b | ⟨r', rfl, b⟩
      · exact ih hL a b h
      · exact absurd (a.subset ((h x).2 (by simp))) hx
    · rcases List.sublist_cons_iff.1 hB with b | ⟨r', rfl, b⟩
      · exact absurd (b.subset ((h x).1 (by simp))) hx
      · rw [ih hL a b fun p => ?_]
        have := h p
        simp only [List.mem_cons] at this
        by_cases hp : p = x
        · subst hp
          exact ⟨fun k => absurd (a.subset k) hx, fun k => absurd (b.subset k) hx⟩
        · simpa [hp] using this

theorem phase_unit (S : Finset ℕ) (p : ℕ) : (phase S p : ℝ) * phase S p = 1 := phase_sq S p

theorem an_list (I : List ℕ) (hI : I.Nodup) (D : Finset ℕ) (hD : ∀ p ∈ I, p ∈ D) (c : ℝ) (hc : c * c = 1) :
    ∃ s : ℝ, s * s = 1 ∧ (I.map an).prod (sgl D c) = sgl (D \ I.toFinset) s := by
  induction I with
  | nil => exact ⟨c, hc, by simp⟩
  | cons i I ih =>
    obtain ⟨hi, hI⟩ := List.nodup_cons.1 hI
    obtain ⟨s, h1, h2⟩ := ih hI (fun p hp => hD p (by simp [hp]))
    refine ⟨s * phase (D \ I.toFinset) i, by
      rw [mul_mul_mul_comm, h1, phase_unit, one_mul], ?_⟩
    rw [List.map_cons, List.prod_cons, Module.End.mul_apply, h2, an_single, if_pos]
    · congr 1
      ext p
      simp only [Finset.mem_erase, Finset.mem_sdiff, List.mem_toFinset, List.mem_cons]
      tauto
    · simp only [Finset.mem_sdiff, List.mem_toFinset]
      exact ⟨hD i (by simp), hi⟩

theorem cr_list (C : List ℕ) (hC : C.Nodup) (D : Finset ℕ) (hD : ∀ p ∈ C, p ∉ D) (c : ℝ) (hc : c * c = 1) :
    ∃ s : ℝ, s * s = 1 ∧ (C.map cr).prod (sgl D c) = sgl (C.toFinset ∪ D) s := by
  induction C with
  | nil => exact ⟨c, hc, by simp⟩
  | cons i C ih =>
    obtain ⟨hi, hC⟩ := List.nodup_cons.1 hC
    obtain ⟨s, h1, h2⟩ := ih hC (fun p hp => hD p (by simp [hp]))
    refine ⟨s * phase (C.toFinset ∪ D) i, ?_, ?_⟩
    · rw [mul_mul_mul_comm, h1, phase_unit, one_mul]
    rw [List.map_cons, List.prod_cons, Module.End.mul_apply, h2, cr_single, if_neg]
    · congr 1
      ext p
      simp only [Finset.mem_insert, Finset.mem_union, List.mem_toFinset, List.mem_cons]
      tauto
    · simp only [Finset.mem_union, List.mem_toFinset, not_or]
      exact ⟨hi, hD i (by simp)⟩

theorem stringOp_ket {A I : List ℕ} (hl : A.length = I.length) (hA : A.Nodup) (hI : I.Nodup) {D : Finset ℕ}
    (hAD : ∀ p ∈ A, p ∉ D) (hID : ∀ p ∈ I, p ∈ D) :
    ∃ s : ℝ, s * s = 1 ∧ stringOp (interleave A I) (ket D) = sgl (A.toFinset ∪ (D \ I.toFinset)) s := by
  obtain ⟨s, h1, h2⟩ := an_list I.reverse (List.nodup_reverse.2 hI) D (fun p hp => hID p (List.mem_reverse.1 hp)) 1
    (by norm_num)
  obtain ⟨t, h3, h4⟩ := cr_list A hA (D \ I.reverse.toFinset)
    (fun p hp k => hAD p hp (Finset.mem_sdiff.1 k).1) s h1
  refine ⟨t, h3, ?_⟩
  unfold stringOp excite
  rw [creators_interleave _ _ hl, annihilators_interleave _ _ hl, Module.End.mul_apply, h2, h4,
    List.toFinset_reverse]

theorem strings_ortho {occ unocc : List ℕ} (ho : occ.Nodup) (hu : unocc.Nodup) {D : Finset ℕ}
    (hD : ∀ p ∈ occ, p ∈ D) (hD' : ∀ p ∈ unocc, p ∉ D) {k : ℕ} {x y : List ℕ} (hx : SpinExcitation occ unocc k x)
    (hy : SpinExcitation occ unocc k y) :
    (x = y → inner (stringOp x (ket D)) (stringOp y (ket D)) = 1) ∧
    (x ≠ y → inner (stringOp x (ket D)) (stringOp y (ket D)) = 0) := by
  obtain ⟨A, I, a1, i1, a2, i2, -, rfl⟩ := hx
  obtain ⟨B, J, b1, j1, b2, j2, -, rfl⟩ := hy
  obtain ⟨s, s1, s2⟩ := stringOp_ket (a2.trans i2.symm) (a1.nodup hu) (i1.nodup ho)
    (fun p hp => hD' p (a1.subset hp)) (fun p hp => hD p (i1.subset hp))
  obtain ⟨t, t1, t2⟩ := stringOp_ket (b2.trans j2.symm) (b1.nodup hu) (j1.nodup ho)
    (fun p hp => hD' p (b1.subset hp)) (fun p hp => hD p (j1.subset hp))
  refine ⟨fun e => ?_, fun e => ?_⟩
  · rw [← e, s2, inner_single_single, if_pos rfl, s1]
  · rw [s2, t2, inner_single_single, if_neg]
    intro k
    apply e
    have hm : ∀ p, (p ∈ A ∨ (p ∈ D ∧ p ∉ I)) ↔ (p ∈ B ∨ (p ∈ D ∧ p ∉ J)) := fun p => by
      have := congrArg (p ∈ ·) k
      simpa using this
    rw [sublist_ext hu a1 b1 fun p => ?_, sublist_ext ho i1 j1 fun p => ?_]
    · have := hm p
      have q1 := fun k => hD p (i1.subset k)
      have q2 := fun k => hD p (j1.subset k)
      have q3 := fun k => hD' p (a1.subset k)
      have q4 := fun k => hD' p (b1.subset k)
      tauto
    · have := hm p
      have q3 := fun k => hD' p (a1.subset k)
      have q4 := fun k => hD' p (b1.subset k)
      tauto

/-! ### The list of all excitations -/

/-- The operators of `L` give orthonormal states from `Φ`, and raise the weight `w` by `n`. -/
structure OrthoBlock (w : ℕ → ℤ) (Φ : Fock ℝ) (n : ℤ) (L : List (FOp ℝ)) : Prop where
  norm : ∀ T ∈ L, inner (T Φ) (T Φ) = 1
  orth : L.Pairwise fun S T => inner (S Φ) (T Φ) = 0
  shift : ∀ T ∈ L, Shift w T n

theorem OrthoBlock.map {α : Type} {w : ℕ → ℤ} {Φ : Fock ℝ} {n : ℤ} {l : List α} (hl : l.Nodup) (f : α → FOp ℝ)
    (h : ∀ x ∈ l, ∀ y ∈ l, (x = y → inner (f x Φ) (f y Φ) = 1) ∧ (x ≠ y → inner (f x Φ) (f y Φ) = 0))
    (hs : ∀ x ∈ l, Shift w (f x) n) (c : Prop) [Decidable c] :
    OrthoBlock w Φ n (if c then l.map f else []) := by
  split
  · refine ⟨?_, ?_, ?_⟩
    · intro T hT
      obtain ⟨x, hx, rfl⟩ := List.mem_map.1 hT
      exact (h x hx x hx).1 rfl
    · rw [List.pairwise_map]
      exact List.Pairwise.imp_of_mem (fun {a b} ha hb hne => (h a ha b hb).2 hne) hl
    · intro T hT
      obtain ⟨x, hx, rfl⟩ := List.mem_map.1 hT
      exact hs x hx
  · exact ⟨by simp, List.Pairwise.nil, by simp⟩

theorem shift_weight {w : ℕ → ℤ} {D : Finset ℕ} {n : ℤ} {T : FOp ℝ} (h : Shift w T n) (hD : weight w D = 0) :
    ∀ S, coeff (T (ket D)) S ≠ 0 → weight w S = n := fun S hS => by
  rw [h D S hS, hD, zero_add]

theorem shift_orth {w : ℕ → ℤ} {D : Finset ℕ} {n m : ℤ} {S T : FOp ℝ} (hS : Shift w S n) (hT : Shift w T m)
    (hD : weight w D = 0) (hnm : n ≠ m) : inner (S (ket D)) (T (ket D)) = 0 :=
  inner_eq_zero_of_shift (T := 1) (shift_one w) (shift_weight hS hD) (shift_weight hT hD) (by omega)

theorem shift_stringOp {w : ℕ → ℤ} {occ unocc : List ℕ} (h0 : ∀ p ∈ occ, w p = 0) (h1 : ∀ p ∈ unocc, w p = 1)
    {k : ℕ} {x : List ℕ} (hx : SpinExcitation occ unocc k x) : Shift w (stringOp x) k := by
  obtain ⟨A, I, a1, i1, a2, i2, -, rfl⟩ := hx
  have hl := a2.trans i2.symm
  have e1 : (A.map w).sum = (k : ℤ) := by
    rw [List.map_congr_left fun p hp => h1 p (a1.subset hp), ← a2]
    simp
  have e2 : ((I.reverse).map w).sum = 0 := by
    rw [List.map_congr_left fun p hp => h0 p (i1.subset (List.mem_reverse.1 hp))]
    simp
  unfold stringOp
  rw [creators_interleave _ _ hl, annihilators_interleave _ _ hl, excite_eq]
  have := shift_strOp (R := ℝ) w ((A.map fun p => (p, true)) ++ I.reverse.map fun p => (p, false))
  rwa [strWeight_exc, e1, e2, sub_zero] at this

theorem shift_saDouble {w : ℕ → ℤ} {occ unocc : List ℕ}
    (h0 : ∀ p ∈ occ, w (2 * p) = 0 ∧ w (2 * p + 1) = 0) (h1 : ∀ p ∈ unocc, w (2 * p) = 1 ∧ w (2 * p + 1) = 1)
    (x : SaDouble) (hi : x.i ∈ occ) (hj : x.j ∈ occ) (ha : x.a ∈ unocc) (hb : x.b ∈ unocc) :
    Shift w (saDoubleOp x) 2 := by
  have hE : ∀ a ∈ unocc, ∀ i ∈ occ, Shift w (E a i : FOp ℝ) 1 := fun a ha i hi => by
    have := shift_E (R := ℝ) w a i (by rw [(h1 a ha).1, (h1 a ha).2]) (by rw [(h0 i hi).1, (h0 i hi).2])
    rwa [(h1 a ha).1, (h0 i hi).1, sub_zero] at this
  unfold saDoubleOp
  have A := (hE _ ha _ hi).mul (hE _ hb _ hj)
  have B := (hE _ ha _ hj).mul (hE _ hb _ hi)
  split
  · exact (A.sub B).smul _
  · exact (A.add B).smul _

theorem lrOps_ortho {W : RespWf} (hW : W.Proper) (letters : List Char) :
    (∀ (i j : ℕ) (S T : FOp ℝ), (lrOps W letters)[i]? = some S → (lrOps W letters)[j]? = some T →
      inner (S (ket W.refDet)) (T (ket W.refDet)) = if i = j then 1 else 0) ∧
    ∀ T ∈ lrOps W letters, inner (ket W.refDet) (T (ket W.refDet)) = 0 := by
  set D := W.refDet with hDdef
  obtain ⟨ho, hu, hd⟩ := List.nodup_append.1 hW.nodup
  obtain ⟨hos, hus, hds⟩ := List.nodup_append.1 hW.nodupS
  have hD : ∀ p ∈ W.occS, p ∈ D := fun p hp => by simp [hDdef, RespWf.refDet, hp]
  have hD' : ∀ p ∈ W.unoccS, p ∉ D := fun p hp k => by
    simp only [hDdef, RespWf.refDet, Finset.mem_union, Finset.mem_range, List.mem_toFinset] at k
    rcases k with k | k
    · have := (hW.actS p (by simp [hp])).1
      omega
    · exact hds p k p hp rfl
  have so : ∀ i ∈ W.occ, 2 * i ∈ W.occS ∧ 2 * i + 1 ∈ W.occS := fun i hi =>
    ⟨(hW.spin _).1.1 (by rwa [show 2 * i / 2 = i by omega]),
      (hW.spin _).1.1 (by rwa [show (2 * i + 1) / 2 = i by omega])⟩
  have su : ∀ i ∈ W.unocc, 2 * i ∈ W.unoccS ∧ 2 * i + 1 ∈ W.unoccS := fun i hi =>
    ⟨(hW.spin _).2.1 (by rwa [show 2 * i / 2 = i by omega]),
      (hW.spin _).2.1 (by rwa [show (2 * i + 1) / 2 = i by omega])⟩
  have href : ClosedRef (ket D) W.occ W.unocc := by
    refine ⟨by rw [inner_single_single, if_pos rfl, one_mul], fun a ha => ?_, fun i hi => ?_, fun i hi k => hd i hi i k rfl⟩
    · rw [an_single, an_single, if_neg (hD' _ (su a ha).1), if_neg (hD' _ (su a ha).2)]; exact ⟨rfl, rfl⟩
    · rw [cr_single, cr_single, if_pos (hD _ (so i hi).1), if_pos (hD _ (so i hi).2)]; exact ⟨rfl, rfl⟩
  obtain ⟨w, hw⟩ : ∃ w : ℕ → ℤ, w = fun p => if p ∈ W.unoccS then 1 else 0 := ⟨_, rfl⟩
  have w1 : ∀ p ∈ W.unoccS, w p = 1 := fun p hp => by simp [hw, hp]
  have w0 : ∀ p ∈ W.occS, w p = 0 := fun p hp => by
    have : p ∉ W.unoccS := fun k => hds p hp p k rfl
    simp [hw, this]
  have wD : weight w D = 0 := Finset.sum_eq_zero fun p hp => by
    have : p ∉ W.unoccS := fun k => hD' p k hp
    simp [hw, this]
  have v0 : ∀ p ∈ W.occ, w (2 * p) = 0 ∧ w (2 * p + 1) = 0 := fun p hp =>
    ⟨w0 _ (so p hp).1, w0 _ (so p hp).2⟩
  have v1 : ∀ p ∈ W.unocc, w (2 * p) = 1 ∧ w (2 * p + 1) = 1 := fun p hp =>
    ⟨w1 _ (su p hp).1, w1 _ (su p hp).2⟩
  obtain ⟨c1, -⟩ := C35_sa_singles_pairs ho hu
  obtain ⟨-, -, c3, c4, c5, c6⟩ := C35_spin hos hus
  have b1 : OrthoBlock w (ket D) 1 (if 's' ∈ letters then (iterateT1sa W.occ W.unocc).map fun x => qOp x.1 x.2.1 else []) := by
    refine OrthoBlock.map c1.1 _ (fun x hx y hy => ?_) (fun x hx => ?_) _
    · obtain ⟨x1, x2, x3⟩ := (c1.2 x).1 hx
      obtain ⟨y1, y2, y3⟩ := (c1.2 y).1 hy
      have e : inner (qOp x.1 x.2.1 (ket D)) (qOp y.1 y.2.1 (ket D)) = delta x.1 y.1 * delta x.2.1 y.2.1 := by
        unfold qOp
        rw [LinearMap.smul_apply, LinearMap.smul_apply, inner_smul_left, inner_smul_right, href.inner_one x2 x1]
        have : (Real.sqrt 2)⁻¹ * (Real.sqrt 2)⁻¹ = 1 / 2 := by
          rw [← mul_inv, Real.mul_self_sqrt (by norm_num)]; norm_num
        linear_combination 2 * delta x.1 y.1 * delta x.2.1 y.2.1 * this
      rw [e]
      refine ⟨fun k => by rw [k]; simp [delta], fun k => ?_⟩
      by_cases p : x.1 = y.1
      · have q : x.2.1 ≠ y.2.1 := fun q => k (Prod.ext p (Prod.ext q (x3.trans y3.symm)))
        simp [delta, q]
      · simp [delta, p]
    · obtain ⟨x1, x2, x3⟩ := (c1.2 x).1 hx
      have := shift_E (R := ℝ) w x.1 x.2.1 (by rw [(v1 _ x1).1, (v1 _ x1).2]) (by rw [(v0 _ x2).1, (v0 _ x2).2])
      rw [(v1 _ x1).1, (v0 _ x2).1, sub_zero] at this
      exact this.smul _
  have b2 : OrthoBlock w (ket D) 2 (if 'd' ∈ letters then (iterateT2sa W.occ W.unocc).map saDoubleOp else []) := by
    refine OrthoBlock.map (C35_sa_doubles ho hu).1 _ (fun x hx y hy => saDoubles_ortho href ho hu hx hy)
      (fun x hx => ?_) _
    obtain ⟨x1, x2, -, -⟩ := ((C35_sa_doubles ho hu).2 x).1 hx
    exact shift_saDouble v0 v1 x x1.mem.1 x1.mem.2 x2.mem.1 x2.mem.2
  have bs : ∀ (k : ℕ) (l : List (List ℕ)) (hl : Lists l (SpinExcitation W.occS W.unoccS k)) (c : Prop) [Decidable c],
      OrthoBlock w (ket D) k (if c then l.map stringOp else []) := fun k l hl c _ =>
    OrthoBlock.map hl.1 _ (fun x hx y hy => strings_ortho hos hus hD hD' ((hl.2 x).1 hx) ((hl.2 y).1 hy))
      (fun x hx => shift_stringOp w0 w1 ((hl.2 x).1 hx)) c
  have b3 := bs 3 _ c3 ('t' ∈ letters)
  have b4 := bs 4 _ c4 ('q' ∈ letters)
  have b5 := bs 5 _ c5 ('5' ∈ letters)
  have b6 := bs 6 _ c6 ('6' ∈ letters)
  have all : (∀ T ∈ lrOps W letters, inner (T (ket D)) (T (ket D)) = 1) ∧
      (lrOps W letters).Pairwise (fun S T => inner (S (ket D)) (T (ket D)) = 0) ∧
      ∀ T ∈ lrOps W letters, ∃ n : ℤ, 0 < n ∧ Shift w T n := by
    unfold lrOps
    generalize (if 's' ∈ letters then (iterateT1sa W.occ W.unocc).map fun x => qOp x.1 x.2.1 else []) = L1 at *
    generalize (if 'd' ∈ letters then (iterateT2sa W.occ W.unocc).map saDoubleOp else []) = L2 at *
    generalize (if 't' ∈ letters then _ else []) = L3 at *
    generalize (if 'q' ∈ letters then _ else []) = L4 at *
    generalize (if '5' ∈ letters then _ else []) = L5 at *
    generalize (if '6' ∈ letters then _ else []) = L6 at *
    have cross : ∀ {n m : ℤ} {K L : List (FOp ℝ)}, OrthoBlock w (ket D) n K → OrthoBlock w (ket D) m L → n ≠ m →
        ∀ S ∈ K, ∀ T ∈ L, inner (S (ket D)) (T (ket D)) = 0 := fun hK hL hnm S hS T hT =>
      shift_orth (hK.shift S hS) (hL.shift T hT) wD hnm
    refine ⟨?_, ?_, ?_⟩
    · intro T hT
      simp only [List.mem_append] at hT
      rcases hT with ((((h | h) | h) | h) | h) | h
      exacts [b1.norm T h, b2.norm T h, b3.norm T h, b4.norm T h, b5.norm T h, b6.norm T h]
    · simp only [List.pairwise_append, List.mem_append]
      refine ⟨⟨⟨⟨⟨b1.orth, b2.orth, cross b1 b2 (by decide)⟩, b3.orth, ?_⟩, b4.orth, ?_⟩, b5.orth, ?_⟩, b6.orth, ?_⟩
      · rintro S (h | h) T hT
        exacts [cross b1 b3 (by decide) S h T hT, cross b2 b3 (by decide) S h T hT]
      · rintro S ((h | h) | h) T hT
        exacts [cross b1 b4 (by decide) S h T hT, cross b2 b4 (by decide) S h T hT, cross b3 b4 (by decide) S h T hT]
      · rintro S (((h | h) | h) | h) T hT
        exacts [cross b1 b5 (by decide) S h T hT, cross b2 b5 (by decide) S h T hT, cross b3 b5 (by decide) S h T hT,
          cross b4 b5 (by decide) S h T hT]
      · rintro S ((((h | h) | h) | h) | h) T hT
        exacts [cross b1 b6 (by decide) S h T hT, cross b2 b6 (by decide) S h T hT, cross b3 b6 (by decide) S h T hT,
          cross b4 b6 (by decide) S h T hT, cross b5 b6 (by decide) S h T hT]
    · intro T hT
      simp only [List.mem_append] at hT
      rcases hT with ((((h | h) | h) | h) | h) | h
      exacts [⟨_, by decide, b1.shift T h⟩, ⟨_, by decide, b2.shift T h⟩, ⟨_, by decide, b3.shift T h⟩,
        ⟨_, by decide, b4.shift T h⟩, ⟨_, by decide, b5.shift T h⟩, ⟨_, by decide, b6.shift T h⟩]
  obtain ⟨a1, a2, a3⟩ := all
  refine ⟨fun i j S T hS hT => ?_, fun T hT => ?_⟩
  · obtain ⟨li, rfl⟩ := List.getElem?_eq_some_iff.1 hS
    obtain ⟨lj, rfl⟩ := List.getElem?_eq_some_iff.1 hT
    rw [List.pairwise_iff_getElem] at a2
    rcases lt_trichotomy i j with h | h | h
    · rw [if_neg (by omega)]; exact a2 i j li lj h
    · subst h
      rw [if_pos rfl]; exact a1 _ (List.getElem_mem _)
    · rw [if_neg (by omega), inner_comm]; exact a2 j i lj li h
  · obtain ⟨n, n1, n2⟩ := a3 T hT
    have := shift_orth (S := 1) (shift_one w) n2 wD (by omega)
    exact this

end SQ
