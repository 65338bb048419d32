import Verif.Lemmas.AnsatzExc
import Mathlib.Analysis.SpecialFunctions.Trigonometric.Deriv
import Mathlib.Analysis.Calculus.Deriv.Mul
import Mathlib.Analysis.Calculus.Deriv.Add

/-! # The whole ansatz as a product of one-parameter groups -/

namespace SQ

/-- Derivative of a curve of states running in a finite-dimensional space. -/
def FDer (f : ℝ → Fock ℝ) (f' : Fock ℝ) (θ : ℝ) : Prop :=
  ∃ (m : ℕ) (a : Fin m → ℝ → ℝ) (a' : Fin m → ℝ) (z : Fin m → Fock ℝ),
    (∀ t, f t = ∑ k, a k t • z k) ∧ (∀ k, HasDerivAt (a k) (a' k) θ) ∧ f' = ∑ k, a' k • z k

theorem FDer.map {f : ℝ → Fock ℝ} {f' : Fock ℝ} {θ : ℝ} (h : FDer f f' θ) (A : FOp ℝ) :
    FDer (fun t => A (f t)) (A f') θ := by
  obtain ⟨m, a, a', z, h1, h2, rfl⟩ := h
  refine ⟨m, a, a', fun k => A (z k), fun t => ?_, h2, ?_⟩
  · beta_reduce; rw [h1, map_sum]; simp only [map_smul]
  · rw [map_sum]; simp only [map_smul]

theorem FDer.const (x : Fock ℝ) (θ : ℝ) : FDer (fun _ => x) 0 θ :=
  ⟨1, fun _ _ => 1, fun _ => 0, fun _ => x, fun t => by simp, fun k => hasDerivAt_const _ _, by simp⟩

theorem FDer.add {f g : ℝ → Fock ℝ} {f' g' : Fock ℝ} {θ : ℝ} (h : FDer f f' θ) (k : FDer g g' θ) :
    FDer (fun t => f t + g t) (f' + g') θ := by
  obtain ⟨m, a, a', z, h1, h2, rfl⟩ := h
  obtain ⟨n, b, b', w, k1, k2, rfl⟩ := k
  refine ⟨m + n, Fin.append a b, Fin.append a' b', Fin.append z w, fun t => ?_, fun k => ?_, ?_⟩
  · beta_reduce; rw [h1, k1, Fin.sum_univ_add]; simp
  · refine Fin.addCases (fun i => ?_) (fun i => ?_) k
    · simpa using h2 i
    · simpa using k2 i
  · rw [Fin.sum_univ_add]; simp

theorem FDer.smul {c : ℝ → ℝ} {c' θ : ℝ} (h : HasDerivAt c c' θ) (x : Fock ℝ) :
    FDer (fun t => c t • x) (c' • x) θ :=
  ⟨1, fun _ => c, fun _ => c', fun _ => x, fun t => by simp, fun _ => h, by simp⟩

theorem FDer.sum {ι : Type*} (s : Finset ι) {f : ι → ℝ → Fock ℝ} {f' : ι → Fock ℝ} {θ : ℝ}
    (h : ∀ i ∈ s, FDer (f i) (f' i) θ) : FDer (fun t => ∑ i ∈ s, f i t) (∑ i ∈ s, f' i) θ := by
  classical
  induction s using Finset.induction_on with
  | empty => simpa using FDer.const 0 θ
  | insert a s ha ih =>
    simp only [Finset.sum_insert ha]
    exact (h a (by simp)).add (ih fun i hi => h i (by simp [hi]))

theorem inner_fsum_right {ι : Type*} (t : Finset ι) (x : Fock ℝ) (f : ι → Fock ℝ) :
    inner x (∑ i ∈ t, f i) = ∑ i ∈ t, inner x (f i) := by
  classical
  induction t using Finset.induction_on with
  | empty => simp
  | insert a t ha ih => rw [Finset.sum_insert ha, Finset.sum_insert ha, inner_add_right, ih]

theorem inner_fsum_left {ι : Type*} (t : Finset ι) (x : Fock ℝ) (f : ι → Fock ℝ) :
    inner (∑ i ∈ t, f i) x = ∑ i ∈ t, inner (f i) x := by
  rw [inner_comm, inner_fsum_right]
  exact Finset.sum_congr rfl fun i _ => inner_comm _ _

/-- Product rule. -/
theorem FDer.inner {f g : ℝ → Fock ℝ} {f' g' : Fock ℝ} {θ : ℝ} (h : FDer f f' θ) (k : FDer g g' θ) :
    HasDerivAt (fun t => SQ.inner (f t) (g t)) (SQ.inner f' (g θ) + SQ.inner (f θ) g') θ := by
  obtain ⟨m, a, a', z, h1, h2, rfl⟩ := h
  obtain ⟨n, b, b', w, k1, k2, rfl⟩ := k
  have e : (fun t => SQ.inner (f t) (g t)) = fun t => ∑ i, ∑ j, a i t * b j t * SQ.inner (z i) (w j) := by
    funext t
    rw [h1, k1, inner_fsum_left]
    refine Finset.sum_congr rfl fun i _ => ?_
    rw [inner_fsum_right]
    refine Finset.sum_congr rfl fun j _ => ?_
    rw [inner_smul_left, inner_smul_right]; ring
  have e' : SQ.inner (∑ i, a' i • z i) (g θ) + SQ.inner (f θ) (∑ j, b' j • w j)
      = ∑ i, ∑ j, (a' i * b j θ + a i θ * b' j) * SQ.inner (z i) (w j) := by
    rw [h1, k1, inner_fsum_left, inner_fsum_left, ← Finset.sum_add_distrib]
    refine Finset.sum_congr rfl fun i _ => ?_
    rw [inner_fsum_right, inner_fsum_right, ← Finset.sum_add_distrib]
    refine Finset.sum_congr rfl fun j _ => ?_
    rw [inner_smul_left, inner_smul_right, inner_smul_left, inner_smul_right]; ring
  rw [e, e']
  exact HasDerivAt.fun_sum fun i _ => HasDerivAt.fun_sum fun j _ => ((h2 i).mul (k2 j)).mul_const _

/-- `U` is the one-parameter group generated by the anti-Hermitian `T`. -/
structure OneParam (T : FOp ℝ) (U : ℝ → FOp ℝ) : Prop where
  zero : U 0 = 1
  group : ∀ θ φ, U θ * U φ = U (θ + φ)
  adj : ∀ θ, IsAdjoint (U θ) (U (-θ))
  isExp : ∀ θ, IsExp T θ (U θ)
  curve : ∀ (y : Fock ℝ) (θ : ℝ), FDer (fun t => U t y) (U θ (T y)) θ

theorem Freq.mul_comm' {m : ℕ} {T : FOp ℝ} {s : Fin m → ℝ} {Q : Fin m → FOp ℝ} (h : Freq T s Q) (θ : ℝ) :
    uSpec T s Q θ * T = ∑ k, (Real.cos (s k * θ) • Q k + (Real.sin (s k * θ) / s k) • (T * Q k)) := by
  unfold uSpec
  rw [add_mul, one_mul, Finset.sum_mul]
  nth_rewrite 1 [← h.sum]
  rw [← Finset.sum_add_distrib]
  refine Finset.sum_congr rfl fun k _ => ?_
  have hk := h.ne k
  rw [add_mul, smul_mul_assoc, smul_mul_assoc, mul_assoc, h.comm, h.sq, smul_smul]
  have : (1 - Real.cos (s k * θ)) / s k ^ 2 * -s k ^ 2 = Real.cos (s k * θ) - 1 := by
    field_simp; ring
  rw [this]
  module

theorem Freq.oneParam {m : ℕ} {T : FOp ℝ} {s : Fin m → ℝ} {Q : Fin m → FOp ℝ} (h : Freq T s Q)
    (hT : Skew T) (hQ : ∀ k, Skew (Q k)) : OneParam T (uSpec T s Q) where
  zero := uSpec_zero
  group := h.group
  adj := h.adjoint hT hQ
  isExp := h.isExp
  curve y θ := by
    have e1 : (fun t => uSpec T s Q t y) = fun t => y + ∑ k, ((Real.sin (s k * t) / s k) • Q k y
          + ((1 - Real.cos (s k * t)) / s k ^ 2) • (T * Q k) y) := by
      funext t
      unfold uSpec
      rw [LinearMap.add_apply, LinearMap.sum_apply]
      rfl
    have e2 : uSpec T s Q θ (T y) = 0 + ∑ k, (Real.cos (s k * θ) • Q k y
        + (Real.sin (s k * θ) / s k) • (T * Q k) y) := by
      rw [← Module.End.mul_apply, h.mul_comm', LinearMap.sum_apply, zero_add]
      rfl
    rw [e1, e2]
    refine (FDer.const y θ).add (FDer.sum _ fun k _ => ?_)
    have hk := h.ne k
    have hl : HasDerivAt (fun t : ℝ => s k * t) (s k) θ := by
      simpa using (hasDerivAt_id θ).const_mul (s k)
    refine (FDer.smul ?_ _).add (FDer.smul ?_ _)
    · have := (hl.sin).div_const (s k)
      rwa [mul_div_assoc, div_self hk, mul_one] at this
    · have := ((hl.cos).const_sub 1).div_const (s k ^ 2)
      have e : Real.sin (s k * θ) / s k = -(-Real.sin (s k * θ) * s k) / s k ^ 2 := by
        field_simp
      rwa [e]

/-- A factor of the ansatz: angle, generator and group. -/
abbrev Fac := ℝ × FOp ℝ × (ℝ → FOp ℝ)

/-- The product; the first factor acts first. -/
noncomputable def opOf : List Fac → FOp ℝ
  | [] => 1
  | g :: l => opOf l * g.2.2 g.1

/-- The inverse sequence. -/
def invFacs (l : List Fac) : List Fac := (l.map fun g => (-g.1, g.2)).reverse

theorem opOf_append (a b : List Fac) : opOf (a ++ b) = opOf b * opOf a := by
  induction a with
  | nil => simp [opOf]
  | cons g a ih => rw [List.cons_append, opOf, opOf, ih, mul_assoc]

theorem opOf_single (g : Fac) : opOf [g] = g.2.2 g.1 := by simp [opOf]

theorem invFacs_cons (g : Fac) (l : List Fac) : invFacs (g :: l) = invFacs l ++ [(-g.1, g.2)] := by
  simp [invFacs]

/-- Every factor is a one-parameter group. -/
def GoodFacs (l : List Fac) : Prop := ∀ g ∈ l, OneParam g.2.1 g.2.2

theorem opOf_inv {l : List Fac} (h : GoodFacs l) :
    opOf (invFacs l) * opOf l = 1 ∧ opOf l * opOf (invFacs l) = 1 := by
  induction l with
  | nil => simp [opOf, invFacs]
  | cons g l ih =>
    obtain ⟨i1, i2⟩ := ih fun x hx => h x (by simp [hx])
    have hg := h g (by simp)
    rw [invFacs_cons, opOf_append, opOf_single, opOf]
    dsimp only
    constructor
    · rw [mul_assoc, ← mul_assoc (opOf (invFacs l)), i1, one_mul, hg.group, neg_add_cancel, hg.zero]
    · rw [mul_assoc, ← mul_assoc (g.2.2 g.1), hg.group, add_neg_cancel, hg.zero, one_mul, i2]

theorem opOf_adj {l : List Fac} (h : GoodFacs l) : IsAdjoint (opOf l) (opOf (invFacs l)) := by
  induction l with
  | nil => simpa [opOf, invFacs] using isAdjoint_one
  | cons g l ih =>
    rw [invFacs_cons, opOf_append, opOf_single, opOf]
    exact (ih fun x hx => h x (by simp [hx])).mul ((h g (by simp)).adj _)

theorem opOf_inner {l : List Fac} (h : GoodFacs l) (x y : Fock ℝ) :
    inner (opOf l x) (opOf l y) = inner x y := by
  rw [opOf_adj h, ← Module.End.mul_apply, (opOf_inv h).1]; rfl

theorem opOf_chain {l : List Fac} (h : GoodFacs l) (x : Fock ℝ) :
    ExpChain (l.map fun g => (g.2.1, g.1)) x (opOf l x) := by
  induction l generalizing x with
  | nil => exact .nil x
  | cons g l ih =>
    rw [List.map_cons, opOf]
    exact .cons (fun S => (h g (by simp)).isExp g.1 x S) (ih (fun y hy => h y (by simp [hy])) _)

theorem expChain_unique {l : List (FOp ℝ × ℝ)} {x y z : Fock ℝ} (h : ExpChain l x y) (k : ExpChain l x z) :
    y = z := by
  induction h with
  | nil => cases k; rfl
  | cons h1 h2 ih =>
    cases k with
    | cons k1 k2 =>
      have : ∀ S, _ := fun S => (h1 S).unique (k1 S)
      have := fock_ext this
      subst this
      exact ih k2

section
variable {tiny : ℝ → Bool} {ci : CIInfo} {n : ℕ} {th : Threads}

/-- Entry `x` of the layout is realised by factor `g`. -/
def Realises (tiny : ℝ → Bool) (th : Threads) (ci : CIInfo) (x : String × List ℕ × ℝ) (g : Fac) : Prop :=
  g.1 = effAngle x.2.2 ∧ OneParam g.2.1 g.2.2 ∧
    ∀ θ, ActsAs ci (applyExc (propVec tiny th ci) tiny ci.offset x.1 x.2.1 θ) (g.2.2 θ)

theorem realises (ht : ExactTiny tiny) (hs : AnsatzSpace ci n) (hth : th.Fair ci.idx2det.length)
    {ty : String} {idx : List ℕ} {T : FOp ℝ} (h : Excitation ci.offset n ty idx T) (θ : ℝ) :
    ∃ U, Realises tiny th ci (ty, idx, θ) (effAngle θ, T, U) := by
  obtain ⟨m, s, Q, h1, h2, h3, h4⟩ := exc_acts ht hs hth h
  exact ⟨_, rfl, h1.oneParam h2 h3, h4⟩

theorem ActsAs.id : ActsAs ci (fun v => .ok v) 1 := fun v => ⟨v, rfl, rfl⟩

theorem step_acts {x : String × List ℕ × ℝ} {g : Fac} (h : Realises tiny th ci x g) (dagger : Bool) :
    ActsAs ci (fun v => upsStep (propVec tiny th ci) tiny ci.offset dagger v x)
      (g.2.2 (if dagger then -g.1 else g.1)) := by
  obtain ⟨h1, h2, h3⟩ := h
  unfold upsStep
  rw [h1]
  unfold effAngle
  by_cases hx : |x.2.2| < (10 : ℝ)⁻¹ ^ 28
  · simp only [if_pos hx, neg_zero, ite_self]
    rw [h2.zero]
    exact ActsAs.id
  · simp only [if_neg hx]
    exact h3 _

theorem fold_acts {L : List (String × List ℕ × ℝ)} {gs : List Fac}
    (h : List.Forall₂ (Realises tiny th ci) L gs) (dagger : Bool) :
    ActsAs ci (fun v => L.foldlM (upsStep (propVec tiny th ci) tiny ci.offset dagger) v)
      (opOf (gs.map fun g => (if dagger then -g.1 else g.1, g.2))) := by
  induction h with
  | nil => exact ActsAs.id
  | cons h1 _ ih =>
    rw [List.map_cons, opOf]
    refine ((step_acts h1 dagger).comp ih).congr (fun v => ?_) rfl
    rw [List.foldlM_cons]

theorem good_of_real {L : List (String × List ℕ × ℝ)} {gs : List Fac}
    (h : List.Forall₂ (Realises tiny th ci) L gs) : GoodFacs gs := by
  induction h with
  | nil => intro g hg; simp at hg
  | cons h1 _ ih =>
    intro g hg
    rcases List.mem_cons.1 hg with rfl | hg
    · exact h1.2.1
    · exact ih g hg

end

end SQ
