import Verif.Spec.Trig
import Verif.Lemmas.AnsatzExc
import Verif.Lemmas.AnsatzChain

/-! # Expectation values along one angle are trigonometric polynomials -/

namespace SQ

open Finset

theorem TrigPoly.zero (R : ℕ) : TrigPoly R fun _ => 0 := ⟨fun _ => 0, fun _ => 0, fun x => by simp⟩

theorem TrigPoly.add {R : ℕ} {f g : ℝ → ℝ} (hf : TrigPoly R f) (hg : TrigPoly R g) : TrigPoly R fun x => f x + g x := by
  obtain ⟨a, b, h1⟩ := hf
  obtain ⟨c, d, h2⟩ := hg
  refine ⟨fun k => a k + c k, fun k => b k + d k, fun x => ?_⟩
  dsimp only
  rw [h1, h2, ← sum_add_distrib]
  exact sum_congr rfl fun k _ => by ring

theorem TrigPoly.smul {R : ℕ} {f : ℝ → ℝ} (c : ℝ) (hf : TrigPoly R f) : TrigPoly R fun x => c * f x := by
  obtain ⟨a, b, h1⟩ := hf
  refine ⟨fun k => c * a k, fun k => c * b k, fun x => ?_⟩
  dsimp only
  rw [h1, mul_sum]
  exact sum_congr rfl fun k _ => by ring

theorem TrigPoly.congr {R : ℕ} {f g : ℝ → ℝ} (hf : TrigPoly R f) (h : ∀ x, g x = f x) : TrigPoly R g := by
  obtain ⟨a, b, h1⟩ := hf
  exact ⟨a, b, fun x => (h x).trans (h1 x)⟩

theorem TrigPoly.sum {R : ℕ} {ι : Type*} (t : Finset ι) {f : ι → ℝ → ℝ} (h : ∀ i ∈ t, TrigPoly R (f i)) :
    TrigPoly R fun x => ∑ i ∈ t, f i x := by
  classical
  induction t using Finset.induction_on with
  | empty => simpa using TrigPoly.zero R
  | insert a t ha ih =>
    refine ((h a (by simp)).add (ih fun i hi => h i (by simp [hi]))).congr fun x => ?_
    rw [sum_insert ha]

theorem TrigPoly.cos {R k : ℕ} (h : k ≤ R) : TrigPoly R fun x => Real.cos (k * x) := by
  refine ⟨fun j => if j = k then 1 else 0, fun _ => 0, fun x => ?_⟩
  rw [Finset.sum_eq_single k]
  · simp
  · intro j _ hj; simp [hj]
  · intro hk; exact absurd (mem_range.2 (by omega)) hk

theorem TrigPoly.sin {R k : ℕ} (h : k ≤ R) : TrigPoly R fun x => Real.sin (k * x) := by
  refine ⟨fun _ => 0, fun j => if j = k then 1 else 0, fun x => ?_⟩
  rw [Finset.sum_eq_single k]
  · simp
  · intro j _ hj; simp [hj]
  · intro hk; exact absurd (mem_range.2 (by omega)) hk

theorem TrigPoly.cosZ {R : ℕ} {k : ℤ} (h : k.natAbs ≤ R) : TrigPoly R fun x => Real.cos (k * x) := by
  refine (TrigPoly.cos h).congr fun x => ?_
  rcases Int.natAbs_eq k with e | e
  · rw [← Int.cast_natCast (k.natAbs), ← e]
  · rw [← Int.cast_natCast (k.natAbs)]
    conv_lhs => rw [e]
    push_cast
    rw [neg_mul, Real.cos_neg]

theorem TrigPoly.sinZ {R : ℕ} {k : ℤ} (h : k.natAbs ≤ R) : TrigPoly R fun x => Real.sin (k * x) := by
  rcases Int.natAbs_eq k with e | e
  · refine (TrigPoly.sin h).congr fun x => ?_
    rw [← Int.cast_natCast (k.natAbs), ← e]
  · refine ((TrigPoly.sin h).smul (-1)).congr fun x => ?_
    rw [← Int.cast_natCast (k.natAbs)]
    conv_lhs => rw [e]
    push_cast
    rw [neg_mul, Real.sin_neg]; ring

theorem trig_cc {R k l : ℕ} (hk : k ≤ R) (hl : l ≤ R) : TrigPoly (2 * R) fun x => Real.cos (k * x) * Real.cos (l * x) := by
  refine (((TrigPoly.cosZ (R := 2 * R) (k := (k : ℤ) - l) (by omega)).add
    (TrigPoly.cosZ (R := 2 * R) (k := (k : ℤ) + l) (by omega))).smul (1 / 2)).congr fun x => ?_
  push_cast
  rw [sub_mul, add_mul, Real.cos_sub, Real.cos_add]; ring

theorem trig_ss {R k l : ℕ} (hk : k ≤ R) (hl : l ≤ R) : TrigPoly (2 * R) fun x => Real.sin (k * x) * Real.sin (l * x) := by
  refine (((TrigPoly.cosZ (R := 2 * R) (k := (k : ℤ) - l) (by omega)).add
    ((TrigPoly.cosZ (R := 2 * R) (k := (k : ℤ) + l) (by omega)).smul (-1))).smul (1 / 2)).congr fun x => ?_
  push_cast
  rw [sub_mul, add_mul, Real.cos_sub, Real.cos_add]; ring

theorem trig_sc {R k l : ℕ} (hk : k ≤ R) (hl : l ≤ R) : TrigPoly (2 * R) fun x => Real.sin (k * x) * Real.cos (l * x) := by
  refine (((TrigPoly.sinZ (R := 2 * R) (k := (k : ℤ) + l) (by omega)).add
    (TrigPoly.sinZ (R := 2 * R) (k := (k : ℤ) - l) (by omega))).smul (1 / 2)).congr fun x => ?_
  push_cast
  rw [sub_mul, add_mul, Real.sin_sub, Real.sin_add]; ring

/-- The vector is a trigonometric polynomial of degree `R` in the angle. -/
def TrigVec {V : Type*} [AddCommGroup V] [Module ℝ V] (R : ℕ) (f : ℝ → V) : Prop :=
  ∃ a b : ℕ → V, ∀ x, f x = ∑ k ∈ range (R + 1), (Real.cos (k * x) • a k + Real.sin (k * x) • b k)

section
variable {V W : Type*} [AddCommGroup V] [Module ℝ V] [AddCommGroup W] [Module ℝ W]

theorem TrigVec.map {R : ℕ} {f : ℝ → V} (h : TrigVec R f) (L : V →ₗ[ℝ] W) : TrigVec R fun x => L (f x) := by
  obtain ⟨a, b, h1⟩ := h
  refine ⟨fun k => L (a k), fun k => L (b k), fun x => ?_⟩
  dsimp only
  rw [h1, map_sum]
  exact sum_congr rfl fun k _ => by rw [map_add, map_smul, map_smul]

theorem TrigVec.bilin {R : ℕ} {f : ℝ → V} (h : TrigVec R f) (B : V →ₗ[ℝ] V →ₗ[ℝ] ℝ) :
    TrigPoly (2 * R) fun x => B (f x) (f x) := by
  obtain ⟨a, b, h1⟩ := h
  have e : ∀ x, B (f x) (f x) = ∑ k ∈ range (R + 1), ∑ l ∈ range (R + 1),
      (B (a k) (a l) * (Real.cos (k * x) * Real.cos (l * x)) + B (b k) (b l) * (Real.sin (k * x) * Real.sin (l * x)) +
        (B (b k) (a l) * (Real.sin (k * x) * Real.cos (l * x)) + B (a k) (b l) * (Real.sin (l * x) * Real.cos (k * x)))) := by
    intro x
    rw [h1, map_sum, sum_comm]
    refine sum_congr rfl fun l _ => ?_
    rw [map_sum, LinearMap.sum_apply]
    refine sum_congr rfl fun k _ => ?_
    simp only [map_add, map_smul, LinearMap.add_apply, LinearMap.smul_apply, smul_eq_mul]
    ring
  refine (TrigPoly.sum _ fun k hk => TrigPoly.sum _ fun l hl => ?_).congr e
  have hk := Nat.lt_succ_iff.1 (mem_range.1 hk)
  have hl := Nat.lt_succ_iff.1 (mem_range.1 hl)
  exact (((trig_cc hk hl).smul _).add ((trig_ss hk hl).smul _)).add (((trig_sc hk hl).smul _).add ((trig_sc hl hk).smul _))

theorem TrigPoly.mono {R R' : ℕ} (h : R ≤ R') {f : ℝ → ℝ} (hf : TrigPoly R f) : TrigPoly R' f := by
  obtain ⟨a, b, e⟩ := hf
  refine (TrigPoly.sum (range (R + 1)) fun k hk => ?_ : TrigPoly R' fun x => ∑ k ∈ range (R + 1), (a k * Real.cos (k * x) + b k * Real.sin (k * x))).congr e
  have := mem_range.1 hk
  exact ((TrigPoly.cos (by omega)).smul _).add ((TrigPoly.sin (by omega)).smul _)

end

/-- Exponentials of `T` have frequencies up to `R`. -/
def TrigGen (R : ℕ) (T : FOp ℝ) : Prop := ∃ U : ℝ → FOp ℝ, (∀ θ, IsExp T θ (U θ)) ∧ TrigVec R U

theorem trigGen_one {T : FOp ℝ} (h : T * (T * T) = -T) : TrigGen 1 T := by
  refine ⟨_, (freq1 T h).isExp, fun k => if k = 0 then 1 + T * T else -(T * T), fun _ => T, fun x => ?_⟩
  rw [← u1, sum_range_succ, sum_range_succ, sum_range_zero]
  norm_num
  module

theorem trigGen_two {A B : FOp ℝ} (hA : A * (A * A) = -A) (hB : B * (B * B) = -B) (hc : B * A = A * B) :
    TrigGen 2 (A + B) := by
  set Q := wOp A B
  set P := A + B + wOp A B
  refine ⟨_, (freq12 hA hB hc).isExp, fun k => if k = 0 then 1 + (A + B) * P - (1 / 4 : ℝ) • ((A + B) * Q)
    else if k = 1 then -((A + B) * P) else (1 / 4 : ℝ) • ((A + B) * Q),
    fun k => if k = 1 then P else -((1 / 2 : ℝ) • Q), fun x => ?_⟩
  have e : uSpec (A + B) s12 ![P, -Q] x = 1 + (((Real.sin (1 * x) / 1) • P + ((1 - Real.cos (1 * x)) / 1 ^ 2) • ((A + B) * P))
    + ((Real.sin (2 * x) / 2) • (-Q) + ((1 - Real.cos (2 * x)) / 2 ^ 2) • ((A + B) * (-Q)))) := by
    unfold uSpec
    rw [Fin.sum_univ_two]
    rfl
  rw [show ![A + B + wOp A B, -wOp A B] = ![P, -Q] from rfl, e, sum_range_succ, sum_range_succ, sum_range_succ, sum_range_zero]
  norm_num
  module

def ExpGen (T : FOp ℝ) : Prop := ∃ U : ℝ → FOp ℝ, ∀ θ, IsExp T θ (U θ)

theorem chain_op : ∀ {l : List (FOp ℝ × ℝ)}, (∀ g ∈ l, ExpGen g.1) → ∃ L : FOp ℝ, ∀ x, ExpChain l x (L x)
  | [], _ => ⟨1, fun x => .nil x⟩
  | g :: l, h => by
    obtain ⟨U, hU⟩ := h g (by simp)
    obtain ⟨L, hL⟩ := chain_op (l := l) fun g hg => h g (by simp [hg])
    exact ⟨L * U g.2, fun x => .cons (fun S => hU g.2 x S) (hL _)⟩

theorem chain_trig {R : ℕ} {T : FOp ℝ} (hT : TrigGen R T) : ∀ {Ts : List (FOp ℝ)} {θs : List ℝ} {k : ℕ},
    Ts.length = θs.length → (∀ S ∈ Ts, ExpGen S) → Ts[k]? = some T → ∀ x, ∃ Y : ℝ → Fock ℝ, TrigVec R Y ∧
      ∀ t, ExpChain (Ts.zip (θs.set k t)) x (Y t)
  | [], _, k, _, _, h, _ => by simp at h
  | S :: Ts, [], _, h, _, _, _ => by simp at h
  | S :: Ts, θ :: θs, 0, hl, hg, hk, x => by
    obtain rfl : S = T := by simpa using hk
    obtain ⟨U, hU, hv⟩ := hT
    obtain ⟨L, hL⟩ := chain_op (l := Ts.zip θs) fun g hg' => hg g.1 (List.mem_cons_of_mem _ (List.of_mem_zip hg').1)
    exact ⟨fun t => L (U t x), (hv.map (LinearMap.applyₗ x)).map L, fun t => .cons (fun S => hU t x S) (hL _)⟩
  | S :: Ts, θ :: θs, k + 1, hl, hg, hk, x => by
    obtain ⟨U, hU⟩ := hg S (by simp)
    obtain ⟨Y, hY, hc⟩ := chain_trig hT (Ts := Ts) (θs := θs) (k := k) (by simpa using hl)
      (fun S hS => hg S (by simp [hS])) (by simpa using hk) (U θ x)
    exact ⟨Y, hY, fun t => .cons (fun S => hU θ x S) (hc t)⟩

end SQ
