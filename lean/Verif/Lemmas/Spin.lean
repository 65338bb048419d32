import Verif.Spec.Spin
import Verif.Lemmas.Excitations
import Verif.Lemmas.AnsatzChain
import Mathlib.Tactic.IntervalCases

/-!
# Spin-adapted operators commute with the spin operators
-/

namespace SQ

section
variable {R : Type*} [CommRing R]

/-- `[a†_p a_q, a†_r a_s] = δ_qr a†_p a_s - δ_ps a†_r a_q`. -/
theorem pair_commutator (p q r s : ℕ) :
    (cr p * an q * (cr r * an s) : FOp R)
      = cr r * an s * (cr p * an q) + (if q = r then cr p * an s else 0) - (if s = p then cr r * an q else 0) := by
  have key : ∀ p q r s : ℕ, (cr p * an q * (cr r * an s) : FOp R)
      = (if q = r then cr p * an s else 0) - cr p * cr r * (an q * an s) := by
    intro p q r s
    calc (cr p * an q * (cr r * an s) : FOp R) = cr p * (an q * cr r) * an s := by noncomm_ring
      _ = cr p * ((if q = r then 1 else 0) - cr r * an q) * an s := by rw [an_cr]
      _ = cr p * (if q = r then 1 else 0) * an s - cr p * cr r * (an q * an s) := by noncomm_ring
      _ = _ := by by_cases h : q = r <;> simp [h]
  have h2 : (cr r * cr p * (an s * an q) : FOp R) = cr p * cr r * (an q * an s) := by
    rw [cr_cr r p, an_an s q, neg_mul_neg]
  rw [key p q r s, key r s p q, h2]
  generalize (cr p * cr r * (an q * an s) : FOp R) = X
  generalize (if q = r then cr p * an s else 0 : FOp R) = Y
  generalize (if s = p then cr r * an q else 0 : FOp R) = Z
  abel
end

/-- `E_pq` commutes with every spin sum over a range of orbitals containing `p` and `q`. -/
theorem commute_E_spinSum {N p q x y : ℕ} (hp : p < N) (hq : q < N) (hx : x < 2) (hy : y < 2) :
    (E p q : FOp ℝ) * spinSum N x y = spinSum N x y * E p q := by
  have key : (E p q : FOp ℝ) * spinSum N x y - spinSum N x y * E p q = 0 := by
    unfold spinSum E
    rw [Finset.mul_sum, Finset.sum_mul, ← Finset.sum_sub_distrib]
    have h : ∀ r ∈ Finset.range N,
        ((cr (2 * p) * an (2 * q) + cr (2 * p + 1) * an (2 * q + 1)) * (cr (2 * r + x) * an (2 * r + y))
          - cr (2 * r + x) * an (2 * r + y) * (cr (2 * p) * an (2 * q) + cr (2 * p + 1) * an (2 * q + 1)) : FOp ℝ)
        = (if r = q then cr (2 * p + x) * an (2 * q + y) else 0)
          - (if r = p then cr (2 * p + x) * an (2 * q + y) else 0) := by
      intro r _
      rw [add_mul, mul_add, pair_commutator (2 * p), pair_commutator (2 * p + 1)]
      have e1 : ((if 2 * q = 2 * r + x then cr (2 * p) * an (2 * r + y) else 0)
          + (if 2 * q + 1 = 2 * r + x then cr (2 * p + 1) * an (2 * r + y) else 0) : FOp ℝ)
          = if r = q then cr (2 * p + x) * an (2 * q + y) else 0 := by
        by_cases hr : r = q
        · subst hr
          interval_cases x <;> simp
        · rw [if_neg (by omega), if_neg (by omega), if_neg hr, add_zero]
      have e2 : ((if 2 * r + y = 2 * p then cr (2 * r + x) * an (2 * q) else 0)
          + (if 2 * r + y = 2 * p + 1 then cr (2 * r + x) * an (2 * q + 1) else 0) : FOp ℝ)
          = if r = p then cr (2 * p + x) * an (2 * q + y) else 0 := by
        by_cases hr : r = p
        · subst hr
          interval_cases y <;> simp
        · rw [if_neg (by omega), if_neg (by omega), if_neg hr, add_zero]
      rw [← e1, ← e2]; abel
    rw [Finset.sum_congr rfl h, Finset.sum_sub_distrib, Finset.sum_ite_eq', Finset.sum_ite_eq',
      if_pos (Finset.mem_range.2 hq), if_pos (Finset.mem_range.2 hp), sub_self]
  exact sub_eq_zero.1 key

/-- `T` commutes with all spin sums over the first `N` orbitals. -/
def SpinFree (N : ℕ) (T : FOp ℝ) : Prop := ∀ x y, x < 2 → y < 2 → Commute T (spinSum N x y)

namespace SpinFree
variable {N : ℕ} {A B : FOp ℝ}

theorem E {p q : ℕ} (hp : p < N) (hq : q < N) : SpinFree N (E p q) := fun _ _ hx hy =>
  commute_E_spinSum hp hq hx hy
theorem mul (h : SpinFree N A) (k : SpinFree N B) : SpinFree N (A * B) := fun x y hx hy =>
  (h x y hx hy).mul_left (k x y hx hy)
theorem add (h : SpinFree N A) (k : SpinFree N B) : SpinFree N (A + B) := fun x y hx hy =>
  (h x y hx hy).add_left (k x y hx hy)
theorem sub (h : SpinFree N A) (k : SpinFree N B) : SpinFree N (A - B) := fun x y hx hy =>
  (h x y hx hy).sub_left (k x y hx hy)
theorem smul (c : ℝ) (h : SpinFree N A) : SpinFree N (c • A) := fun x y hx hy =>
  (h x y hx hy).smul_left c
theorem zero : SpinFree N 0 := fun _ _ _ _ => Commute.zero_left _
theorem one : SpinFree N 1 := fun _ _ _ _ => Commute.one_left _
theorem sum {ι : Type*} {s : Finset ι} {f : ι → FOp ℝ} (h : ∀ i ∈ s, SpinFree N (f i)) :
    SpinFree N (∑ i ∈ s, f i) := fun x y hx hy =>
  Commute.sum_left _ _ _ fun i hi => h i hi x y hx hy

theorem e {p q r s : ℕ} (hp : p < N) (hq : q < N) (hr : r < N) (hs : s < N) :
    SpinFree N (SQ.e p q r s) := by
  have : (SQ.e p q r s : FOp ℝ) = SQ.E p q * SQ.E r s - (delta q r : ℝ) • SQ.E p s := by
    rw [E_mul_E]; abel
  rw [this]
  exact ((E hp hq).mul (E hr hs)).sub ((E hp hs).smul _)

theorem sq (h : SpinFree N A) : Commute A (sSq N) := by
  have hp : Commute A (sPlus N) := h 0 1 (by decide) (by decide)
  have hm : Commute A (sMinus N) := h 1 0 (by decide) (by decide)
  have hz : Commute A (sZ N) := ((h 0 0 (by decide) (by decide)).sub_right (h 1 1 (by decide) (by decide))).smul_right _
  exact (hm.mul_right hp).add_right (hz.mul_right (hz.add_right (Commute.one_right _)))

theorem z (h : SpinFree N A) : Commute A (sZ N) :=
  ((h 0 0 (by decide) (by decide)).sub_right (h 1 1 (by decide) (by decide))).smul_right _
end SpinFree

/-- The excitation of a pair is half of `e_aiai`. -/
theorem pair_half (i a : ℕ) :
    (excite [2 * a, 2 * a + 1] [2 * i + 1, 2 * i] : FOp ℝ) = (1 / 2 : ℝ) • e a i a i := by
  have h1 : (cr (2 * a) * cr (2 * a) : FOp ℝ) = 0 := cr_self _
  have h2 : (cr (2 * a + 1) * cr (2 * a + 1) : FOp ℝ) = 0 := cr_self _
  have h3 : (cr (2 * a + 1) * cr (2 * a) * an (2 * i) * an (2 * i + 1) : FOp ℝ)
      = cr (2 * a) * cr (2 * a + 1) * an (2 * i + 1) * an (2 * i) := by
    rw [cr_cr (2 * a + 1), mul_assoc, an_an (2 * i)]
    simp only [mul_assoc, neg_mul, mul_neg, neg_neg]
  unfold e excite
  rw [h1, h2, h3]
  simp only [List.map_cons, List.map_nil, List.prod_cons, List.prod_nil, mul_one, zero_mul, zero_add, add_zero]
  rw [← two_smul ℝ, smul_smul]
  norm_num [mul_assoc]

theorem spinFree_keeping {off n N : ℕ} {ty : String} {idx : List ℕ} {T : FOp ℝ} (h : Excitation off n ty idx T)
    (k : SpinKeeping ty idx) (hN : off + n ≤ N) : SpinFree N T := by
  have bd : ∀ {l : List ℕ}, (∀ p ∈ l, p < n) → ∀ p ∈ l, p + off < N := fun hl p hp => by
    have := hl p hp; omega
  cases h with
  | spin m hm I A hI hA hr hs =>
    generalize hty : spinName m = ty at k
    generalize hix : I ++ A = ix at k
    cases k with
    | adapted ht idx =>
      obtain ⟨m1, m6⟩ := hm
      exfalso
      subst hty
      interval_cases m <;> revert ht <;> decide
    | pair i a =>
      have hm2 : m = 2 := by
        obtain ⟨m1, m6⟩ := hm
        interval_cases m <;> revert hty <;> decide
      subst hm2
      match I, A, hI, hA with
      | [x, y], [z, w], _, _ =>
        simp only [List.cons_append, List.nil_append, List.cons.injEq, and_true] at hix
        obtain ⟨rfl, rfl, rfl, rfl⟩ := hix
        have hi : i + off < N := by have := hr (2 * i) (by simp); omega
        have ha : a + off < N := by have := hr (2 * a) (by simp); omega
        have e1 := pair_half (i + off) (a + off)
        have e2 := pair_half (a + off) (i + off)
        have s : ∀ t, 2 * t + 2 * off = 2 * (t + off) := fun t => by ring
        have s' : ∀ t, 2 * t + 1 + 2 * off = 2 * (t + off) + 1 := fun t => by ring
        simp only [List.map_cons, List.map_nil, List.reverse_cons, List.reverse_nil, List.nil_append,
          List.cons_append, s, s']
        rw [e1, e2]
        exact ((SpinFree.e ha hi ha hi).smul _).sub ((SpinFree.e hi ha hi ha).smul _)
  | saSingle i a hr =>
    have b := bd hr
    exact (SpinFree.E (b a (by simp)) (b i (by simp))).sub (SpinFree.E (b i (by simp)) (b a (by simp)))
  | saDouble1 i a hd hr =>
    have b := bd hr
    have g : ∀ p q, p ∈ [i, a] → q ∈ [i, a] → SpinFree N (E (p + off) (q + off)) := fun p q hp hq =>
      SpinFree.E (b p hp) (b q hq)
    exact (((g a i (by simp) (by simp)).mul (g a i (by simp) (by simp))).sub
      ((g i a (by simp) (by simp)).mul (g i a (by simp) (by simp)))).smul _
  | saDouble2 i a c hd hr =>
    have b := bd hr
    have g : ∀ p q, p ∈ [i, a, c] → q ∈ [i, a, c] → SpinFree N (E (p + off) (q + off)) := fun p q hp hq =>
      SpinFree.E (b p hp) (b q hq)
    exact (((g a i (by simp) (by simp)).mul (g c i (by simp) (by simp))).sub
      ((g i c (by simp) (by simp)).mul (g i a (by simp) (by simp)))).smul _
  | saDouble3 i j a hd hr =>
    have b := bd hr
    have g : ∀ p q, p ∈ [i, j, a] → q ∈ [i, j, a] → SpinFree N (E (p + off) (q + off)) := fun p q hp hq =>
      SpinFree.E (b p hp) (b q hq)
    exact (((g a i (by simp) (by simp)).mul (g a j (by simp) (by simp))).sub
      ((g j a (by simp) (by simp)).mul (g i a (by simp) (by simp)))).smul _
  | saDouble4 i j a c hd hr =>
    have b := bd hr
    have g : ∀ p q, p ∈ [i, j, a, c] → q ∈ [i, j, a, c] → SpinFree N (E (p + off) (q + off)) := fun p q hp hq =>
      SpinFree.E (b p hp) (b q hq)
    exact ((((g a i (by simp) (by simp)).mul (g c j (by simp) (by simp))).add
      ((g a j (by simp) (by simp)).mul (g c i (by simp) (by simp)))).sub
      (((g j c (by simp) (by simp)).mul (g i a (by simp) (by simp))).add
      ((g i c (by simp) (by simp)).mul (g j a (by simp) (by simp))))).smul _
  | saDouble5 i j a c hd hr =>
    have b := bd hr
    have g : ∀ p q, p ∈ [i, j, a, c] → q ∈ [i, j, a, c] → SpinFree N (E (p + off) (q + off)) := fun p q hp hq =>
      SpinFree.E (b p hp) (b q hq)
    exact ((((g a i (by simp) (by simp)).mul (g c j (by simp) (by simp))).sub
      ((g a j (by simp) (by simp)).mul (g c i (by simp) (by simp)))).sub
      (((g j c (by simp) (by simp)).mul (g i a (by simp) (by simp))).sub
      ((g i c (by simp) (by simp)).mul (g j a (by simp) (by simp))))).smul _

/-! ### Exponentials -/

theorem adjoint_spinSum (N x y : ℕ) : IsAdjoint (spinSum N x y) (spinSum N y x) := by
  unfold spinSum
  induction N with
  | zero => simpa using isAdjoint_zero
  | succ N ih =>
    rw [Finset.sum_range_succ, Finset.sum_range_succ]
    exact ih.add ((adjoint_cr _).mul (adjoint_an _))

theorem adjoint_sZ (N : ℕ) : IsAdjoint (sZ N) (sZ N) :=
  ((adjoint_spinSum N 0 0).sub (adjoint_spinSum N 1 1)).smul _

theorem adjoint_sSq (N : ℕ) : IsAdjoint (sSq N) (sSq N) := by
  have h1 : IsAdjoint (sMinus N * sPlus N) (sMinus N * sPlus N) :=
    (adjoint_spinSum N 1 0).mul (adjoint_spinSum N 0 1)
  have h2 : IsAdjoint (sZ N * (sZ N + 1)) ((sZ N + 1) * sZ N) :=
    (adjoint_sZ N).mul ((adjoint_sZ N).add isAdjoint_one)
  have e : (sZ N + 1) * sZ N = sZ N * (sZ N + 1) := by rw [add_mul, mul_add, one_mul, mul_one]
  rw [e] at h2
  exact h1.add h2

/-- Coefficients of `O y` are finite combinations of coefficients of `y`. -/
theorem coeff_adjoint {O O' : FOp ℝ} (h : IsAdjoint O O') (y : Fock ℝ) (S : Finset ℕ) :
    coeff (O y) S = (show Finset ℕ →₀ ℝ from O' (ket S)).sum fun S' c => c * coeff y S' := by
  have : inner (ket S) (O y) = inner (O' (ket S)) y := (h.symm (ket S) y).symm
  rw [← inner_ket_left S (O y)]
  exact this

/-- An operator that commutes with the generator passes through the exponential. -/
theorem ExpTo.map {T O O' : FOp ℝ} {θ : ℝ} {x y : Fock ℝ} (h : ExpTo T θ x y) (ha : IsAdjoint O O')
    (hc : Commute T O) : ExpTo T θ (O x) (O y) := by
  intro S
  have e : ∀ k, coeff ((T ^ k) (O x)) S = coeff (O ((T ^ k) x)) S := fun k => by
    have := (hc.pow_left k).eq
    exact congrArg (fun z : FOp ℝ => coeff (z x) S) this
  simp only [e, coeff_adjoint ha, Finsupp.sum]
  have : ∀ k : ℕ, θ ^ k / (k.factorial : ℝ) * ∑ S' ∈ (show Finset ℕ →₀ ℝ from O' (ket S)).support,
      (show Finset ℕ →₀ ℝ from O' (ket S)) S' * coeff ((T ^ k) x) S'
      = ∑ S' ∈ (show Finset ℕ →₀ ℝ from O' (ket S)).support,
        (show Finset ℕ →₀ ℝ from O' (ket S)) S' * (θ ^ k / (k.factorial : ℝ) * coeff ((T ^ k) x) S') := fun k => by
    rw [Finset.mul_sum]
    exact Finset.sum_congr rfl fun S' _ => by ring
  simp only [this]
  exact hasSum_sum fun S' _ => (h S').mul_left _

theorem ExpTo.smul {T : FOp ℝ} {θ : ℝ} {x y : Fock ℝ} (h : ExpTo T θ x y) (c : ℝ) : ExpTo T θ (c • x) (c • y) := by
  intro S
  rw [coeff_smul]
  have e : ∀ k : ℕ, θ ^ k / (k.factorial : ℝ) * coeff ((T ^ k) (c • x)) S
      = c * (θ ^ k / (k.factorial : ℝ) * coeff ((T ^ k) x) S) := fun k => by
    rw [map_smul, coeff_smul]; ring
  simp only [e]
  exact (h S).mul_left c

theorem ExpTo.eigen {T O O' : FOp ℝ} {θ c : ℝ} {x y : Fock ℝ} (h : ExpTo T θ x y) (ha : IsAdjoint O O')
    (hc : Commute T O) (hx : O x = c • x) : O y = c • y := by
  have h1 := h.map ha hc
  rw [hx] at h1
  exact fock_ext fun S => (h1 S).unique (h.smul c S)

theorem ExpChain.eigen {l : List (FOp ℝ × ℝ)} {x y : Fock ℝ} (h : ExpChain l x y) {O O' : FOp ℝ}
    (ha : IsAdjoint O O') (hc : ∀ t ∈ l, Commute t.1 O) {c : ℝ} (hx : O x = c • x) : O y = c • y := by
  induction h with
  | nil => exact hx
  | cons h1 _ ih =>
    exact ih (fun t ht => hc t (List.mem_cons_of_mem _ ht)) (h1.eigen ha (hc _ (List.mem_cons_self)) hx)

end SQ
