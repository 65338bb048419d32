import Verif.Lemmas.AnsatzSem
import Verif.Lemmas.StringCube

/-! # Action of the ansatz factors on CI vectors, continued -/

namespace SQ

theorem stateOf_add (ci : CIInfo) (v w : Vec ℝ) : stateOf ci (v + w) = stateOf ci v + stateOf ci w := by
  unfold stateOf
  rw [← List.sum_map_add]
  congr 1
  refine List.map_congr_left fun p _ => ?_
  show sgl _ (v p.2 + w p.2) = _
  rw [← sgl_add]

theorem stateOf_smul (ci : CIInfo) (c : ℝ) (v : Vec ℝ) : stateOf ci (c • v) = c • stateOf ci v := by
  unfold stateOf
  rw [List.smul_sum, List.map_map]
  congr 1
  refine List.map_congr_left fun p _ => ?_
  show sgl _ (c * v p.2) = c • sgl _ (v p.2)
  rw [smul_sgl]

/-- The function returns, and acts as `U`. -/
def ActsAs (ci : CIInfo) (f : Vec ℝ → Res (Vec ℝ)) (U : FOp ℝ) : Prop :=
  ∀ v, ∃ w, f v = .ok w ∧ stateOf ci w = U (stateOf ci v)

section
variable {tiny : ℝ → Bool} {ci : CIInfo} {n : ℕ} {th : Threads}

theorem propVec_one (d : Dict ℝ) (v : Vec ℝ) : propVec tiny th ci [d] v = applyOp tiny th ci false v d := by
  simp [propVec, propagateState, propStep]

theorem propVec_two (d : Dict ℝ) (v : Vec ℝ) :
    propVec tiny th ci [d, d] v = (propVec tiny th ci [d] v >>= fun w => propVec tiny th ci [d] w) := by
  simp [propVec, propagateState, propStep]

theorem dk_acts (ht : ExactTiny tiny) (hs : AnsatzSpace ci n) (hth : th.Fair ci.idx2det.length)
    {r : Res (Dict ℝ)} {T : FOp ℝ} (h : DK (InBlock ci.offset n) r T) :
    ∃ d, r = .ok d ∧ ActsAs ci (propVec tiny th ci [d]) T ∧
      ActsAs ci (propVec tiny th ci [d, d]) (T * T) := by
  obtain ⟨d, h1, h2, h3, h4⟩ := h
  have hc : ci.ClosedOn (InBlock ci.offset n) := hs.closed
  have a1 : ActsAs ci (propVec tiny th ci [d]) T := by
    intro v
    rw [propVec_one, ← h3]
    refine applyOp_closed ht hs.valid hc (fun p hp => ?_) hth v h2 h4
    have := hs.fits
    have := hp.2
    omega
  refine ⟨d, h1, a1, fun v => ?_⟩
  obtain ⟨w, hw, ew⟩ := a1 v
  obtain ⟨w', hw', ew'⟩ := a1 w
  refine ⟨w', ?_, by rw [ew', ew, Module.End.mul_apply]⟩
  rw [propVec_two, hw]; exact hw'

variable {prop : List (Dict ℝ) → Vec ℝ → Res (Vec ℝ)} {d : Dict ℝ} {T : FOp ℝ}

theorem rotate_acts (h1 : ActsAs ci (prop [d]) T) (h2 : ActsAs ci (prop [d, d]) (T * T)) (x : ℝ) :
    ActsAs ci (rotate prop d x) (1 + Real.sin x • T + (1 - Real.cos x) • (T * T)) := by
  intro v
  obtain ⟨w, hw, ew⟩ := h1 v
  obtain ⟨w', hw', ew'⟩ := h2 v
  refine ⟨v + Real.sin x • w + (1 - Real.cos x) • w', ?_, ?_⟩
  · unfold rotate; rw [hw, hw']; rfl
  · rw [stateOf_add, stateOf_add, stateOf_smul, stateOf_smul, ew, ew']; rfl

/-- The operator added by `series`. -/
noncomputable def serOp (T : FOp ℝ) (S : List ℝ) (θ : ℝ) : List (List ℝ × List ℝ) → FOp ℝ
  | [] => 0
  | (ko, ke) :: ks => sinSum S ko θ • T + cosSum S ke θ • (T * T) + serOp T S θ ks * (T * T)

theorem series_acts (h1 : ActsAs ci (prop [d]) T) (S : List ℝ) (θ : ℝ)
    (ks : List (List ℝ × List ℝ)) (tmp out : Vec ℝ) :
    ∃ w, series prop d S θ ks tmp out = .ok w ∧
      stateOf ci w = stateOf ci out + serOp T S θ ks (stateOf ci tmp) := by
  induction ks generalizing tmp out with
  | nil => exact ⟨out, rfl, by simp [serOp]⟩
  | cons k ks ih =>
    obtain ⟨ko, ke⟩ := k
    obtain ⟨t1, hw, ew⟩ := h1 tmp
    obtain ⟨t2, hw', ew'⟩ := h1 t1
    obtain ⟨w, h, e⟩ := ih t2 (out + sinSum S ko θ • t1 + cosSum S ke θ • t2)
    refine ⟨w, ?_, ?_⟩
    · unfold series; rw [hw]; show (prop [d] t1 >>= _) = _; rw [hw']; exact h
    · rw [e, stateOf_add, stateOf_add, stateOf_smul, stateOf_smul, ew', ew]
      simp only [serOp, LinearMap.add_apply, LinearMap.smul_apply, Module.End.mul_apply]
      abel

theorem series_acts' (h1 : ActsAs ci (prop [d]) T) (S : List ℝ) (θ : ℝ)
    (ks : List (List ℝ × List ℝ)) :
    ActsAs ci (fun v => series prop d S θ ks v v) (1 + serOp T S θ ks) := fun v =>
  series_acts h1 S θ ks v v

theorem ActsAs.comp {f g : Vec ℝ → Res (Vec ℝ)} {U W : FOp ℝ} (hf : ActsAs ci f U)
    (hg : ActsAs ci g W) : ActsAs ci (fun v => f v >>= g) (W * U) := by
  intro v
  obtain ⟨w, hw, ew⟩ := hf v
  obtain ⟨w', hw', ew'⟩ := hg w
  exact ⟨w', by show (f v >>= g) = _; rw [hw]; exact hw', by rw [ew', ew]; rfl⟩

end

/-! ### The closed forms -/

theorem uSpec_inv {m : ℕ} (T : FOp ℝ) (s : Fin m → ℝ) (Q : Fin m → FOp ℝ) (θ : ℝ) (r t : Fin m → ℝ)
    (hr : ∀ k, s k * r k = 1) (hs : ∀ k, s k ^ 2 * t k = 1) :
    uSpec T s Q θ = 1 + ∑ k, ((Real.sin (s k * θ) * r k) • Q k
      + ((1 - Real.cos (s k * θ)) * t k) • (T * Q k)) := by
  unfold uSpec
  congr 1
  refine Finset.sum_congr rfl fun k _ => ?_
  rw [eq_inv_of_mul_eq_one_right (hr k), eq_inv_of_mul_eq_one_right (hs k), div_eq_mul_inv,
    div_eq_mul_inv]

/-- One frequency. -/
noncomputable def s1 : Fin 1 → ℝ := ![1]

theorem freq1 (T : FOp ℝ) (h : T * (T * T) = -T) : Freq T s1 ![T] where
  ne k := by fin_cases k; simp [s1]
  distinct k l hkl := by fin_cases k; fin_cases l; exact absurd rfl hkl
  sum := by simp
  sq k := by fin_cases k; simp [s1, h]
  comm k := by fin_cases k; simp

theorem u1 (T : FOp ℝ) (θ : ℝ) :
    1 + Real.sin θ • T + (1 - Real.cos θ) • (T * T) = uSpec T s1 ![T] θ := by
  simp [uSpec, s1, add_assoc]

theorem cross_sqrt2 : Real.sqrt 2 * Real.sqrt 2 = 2 := by rw [← sq]; exact Real.sq_sqrt (by norm_num)
theorem cross_sqrt3 : Real.sqrt 3 * Real.sqrt 3 = 3 := by rw [← sq]; exact Real.sq_sqrt (by norm_num)

theorem t_ev (T : FOp ℝ) (n : ℕ) : T * T ^ n = T ^ (n + 1) := (pow_succ' T n).symm

theorem pt (T : FOp ℝ) (n : ℕ) : T ^ n * T = T ^ (n + 1) := (pow_succ T n).symm

theorem serOp_nil (T : FOp ℝ) (S : List ℝ) (θ : ℝ) : serOp T S θ [] = 0 := rfl
theorem serOp_cons (T : FOp ℝ) (S : List ℝ) (θ : ℝ) (ko ke : List ℝ) (ks) :
    serOp T S θ ((ko, ke) :: ks)
      = sinSum S ko θ • T ^ 1 + cosSum S ke θ • T ^ 2 + serOp T S θ ks * T ^ 2 := by
  rw [pow_one, sq]; rfl

open Real in
theorem u23 (T : FOp ℝ) (θ : ℝ) : 1 + serOp T S23 θ k23 = uSpec T s23 (Q23 T) θ := by
  rw [uSpec_inv T s23 (Q23 T) θ ![1, √2] ![1, 2]
    (by intro k; have a2 := cross_sqrt2; have a3 := cross_sqrt3
        fin_cases k <;> simp [s23] <;> linarith)
    (by intro k; rw [congrFun s23_sq k]; fin_cases k <;> simp <;> norm_num)]
  rw [Fin.sum_univ_two]
  show 1 + serOp T S23 θ k23 = 1 + (((sin (1 * θ) * (1)) • ((-1 : ℝ) • T ^ 1 + (-2 : ℝ) • T ^ 3) + ((1 - cos (1 * θ)) * (1)) • (T * ((-1 : ℝ) • T ^ 1 + (-2 : ℝ) • T ^ 3))) + ((sin (√2 / 2 * θ) * (√2)) • ((2 : ℝ) • T ^ 1 + (2 : ℝ) • T ^ 3) + ((1 - cos (√2 / 2 * θ)) * (2)) • (T * ((2 : ℝ) • T ^ 1 + (2 : ℝ) • T ^ 3))))
  simp only [k23, serOp_cons, serOp_nil, zero_mul, add_zero, add_mul, smul_mul_assoc, ← pow_add,
    Nat.reduceAdd, sinSum, cosSum, S23, List.zipWith_cons_cons, List.zipWith_nil_left,
    List.zipWith_nil_right, List.sum_cons, List.sum_nil, mul_add, mul_smul_comm, t_ev]
  module

open Real in
theorem u4 (T : FOp ℝ) (θ : ℝ) : 1 + serOp T S4 θ k4 = uSpec T s4 (Q4 T) θ := by
  rw [uSpec_inv T s4 (Q4 T) θ ![1, √2 / 2, √2, 2] ![1, 1 / 2, 2, 4]
    (by intro k; have a2 := cross_sqrt2; have a3 := cross_sqrt3
        fin_cases k <;> simp [s4] <;> linarith)
    (by intro k; rw [congrFun s4_sq k]; fin_cases k <;> simp <;> norm_num)]
  rw [Fin.sum_univ_four]
  show 1 + serOp T S4 θ k4 = 1 + (((sin (1 * θ) * (1)) • ((2/3 : ℝ) • T ^ 1 + (13/3 : ℝ) • T ^ 3 + (22/3 : ℝ) • T ^ 5 + (8/3 : ℝ) • T ^ 7) + ((1 - cos (1 * θ)) * (1)) • (T * ((2/3 : ℝ) • T ^ 1 + (13/3 : ℝ) • T ^ 3 + (22/3 : ℝ) • T ^ 5 + (8/3 : ℝ) • T ^ 7))) + ((sin (√2 * θ) * (√2 / 2)) • ((-1/21 : ℝ) • T ^ 1 + (-1/3 : ℝ) • T ^ 3 + (-2/3 : ℝ) • T ^ 5 + (-8/21 : ℝ) • T ^ 7) + ((1 - cos (√2 * θ)) * (1 / 2)) • (T * ((-1/21 : ℝ) • T ^ 1 + (-1/3 : ℝ) • T ^ 3 + (-2/3 : ℝ) • T ^ 5 + (-8/21 : ℝ) • T ^ 7))) + ((sin (√2 / 2 * θ) * (√2)) • ((-8/3 : ℝ) • T ^ 1 + (-44/3 : ℝ) • T ^ 3 + (-52/3 : ℝ) • T ^ 5 + (-16/3 : ℝ) • T ^ 7) + ((1 - cos (√2 / 2 * θ)) * (2)) • (T * ((-8/3 : ℝ) • T ^ 1 + (-44/3 : ℝ) • T ^ 3 + (-52/3 : ℝ) • T ^ 5 + (-16/3 : ℝ) • T ^ 7))) + ((sin (1 / 2 * θ) * (2)) • ((64/21 : ℝ) • T ^ 1 + (32/3 : ℝ) • T ^ 3 + (32/3 : ℝ) • T ^ 5 + (64/21 : ℝ) • T ^ 7) + ((1 - cos (1 / 2 * θ)) * (4)) • (T * ((64/21 : ℝ) • T ^ 1 + (32/3 : ℝ) • T ^ 3 + (32/3 : ℝ) • T ^ 5 + (64/21 : ℝ) • T ^ 7))))
  simp only [k4, serOp_cons, serOp_nil, zero_mul, add_zero, add_mul, smul_mul_assoc, ← pow_add,
    Nat.reduceAdd, sinSum, cosSum, S4, List.zipWith_cons_cons, List.zipWith_nil_left,
    List.zipWith_nil_right, List.sum_cons, List.sum_nil, mul_add, mul_smul_comm, t_ev]
  module

open Real in
theorem u5 (T : FOp ℝ) (θ : ℝ) : 1 + serOp T S5 θ k5 = uSpec T s5 (Q5 T) θ := by
  rw [uSpec_inv T s5 (Q5 T) θ ![√2 / 2, √2, √3, 2 * √3 / 3, 2 * √3] ![1 / 2, 2, 3, 4 / 3, 12]
    (by intro k; have a2 := cross_sqrt2; have a3 := cross_sqrt3
        fin_cases k <;> simp [s5] <;> linarith)
    (by intro k; rw [congrFun s5_sq k]; fin_cases k <;> simp <;> norm_num)]
  rw [Fin.sum_univ_five]
  show 1 + serOp T S5 θ k5 = 1 + (((sin (√2 * θ) * (√2 / 2)) • ((1/575 : ℝ) • T ^ 1 + (11/345 : ℝ) • T ^ 3 + (266/1725 : ℝ) • T ^ 5 + (32/115 : ℝ) • T ^ 7 + (96/575 : ℝ) • T ^ 9) + ((1 - cos (√2 * θ)) * (1 / 2)) • (T * ((1/575 : ℝ) • T ^ 1 + (11/345 : ℝ) • T ^ 3 + (266/1725 : ℝ) • T ^ 5 + (32/115 : ℝ) • T ^ 7 + (96/575 : ℝ) • T ^ 9))) + ((sin (√2 / 2 * θ) * (√2)) • ((8/5 : ℝ) • T ^ 1 + (404/15 : ℝ) • T ^ 3 + (308/3 : ℝ) • T ^ 5 + (608/5 : ℝ) • T ^ 7 + (192/5 : ℝ) • T ^ 9) + ((1 - cos (√2 / 2 * θ)) * (2)) • (T * ((8/5 : ℝ) • T ^ 1 + (404/15 : ℝ) • T ^ 3 + (308/3 : ℝ) • T ^ 5 + (608/5 : ℝ) • T ^ 7 + (192/5 : ℝ) • T ^ 9))) + ((sin (√3 / 3 * θ) * (√3)) • ((-54/25 : ℝ) • T ^ 1 + (-171/5 : ℝ) • T ^ 3 + (-2718/25 : ℝ) • T ^ 5 + (-576/5 : ℝ) • T ^ 7 + (-864/25 : ℝ) • T ^ 9) + ((1 - cos (√3 / 3 * θ)) * (3)) • (T * ((-54/25 : ℝ) • T ^ 1 + (-171/5 : ℝ) • T ^ 3 + (-2718/25 : ℝ) • T ^ 5 + (-576/5 : ℝ) • T ^ 7 + (-864/25 : ℝ) • T ^ 9))) + ((sin (√3 / 2 * θ) * (2 * √3 / 3)) • ((-8/25 : ℝ) • T ^ 1 + (-28/5 : ℝ) • T ^ 3 + (-596/25 : ℝ) • T ^ 5 + (-168/5 : ℝ) • T ^ 7 + (-288/25 : ℝ) • T ^ 9) + ((1 - cos (√3 / 2 * θ)) * (4 / 3)) • (T * ((-8/25 : ℝ) • T ^ 1 + (-28/5 : ℝ) • T ^ 3 + (-596/25 : ℝ) • T ^ 5 + (-168/5 : ℝ) • T ^ 7 + (-288/25 : ℝ) • T ^ 9))) + ((sin (√3 / 6 * θ) * (2 * √3)) • ((216/115 : ℝ) • T ^ 1 + (1476/115 : ℝ) • T ^ 3 + (684/23 : ℝ) • T ^ 5 + (3096/115 : ℝ) • T ^ 7 + (864/115 : ℝ) • T ^ 9) + ((1 - cos (√3 / 6 * θ)) * (12)) • (T * ((216/115 : ℝ) • T ^ 1 + (1476/115 : ℝ) • T ^ 3 + (684/23 : ℝ) • T ^ 5 + (3096/115 : ℝ) • T ^ 7 + (864/115 : ℝ) • T ^ 9))))
  simp only [k5, serOp_cons, serOp_nil, zero_mul, add_zero, add_mul, smul_mul_assoc, ← pow_add,
    Nat.reduceAdd, sinSum, cosSum, S5, List.zipWith_cons_cons, List.zipWith_nil_left,
    List.zipWith_nil_right, List.sum_cons, List.sum_nil, mul_add, mul_smul_comm, t_ev]
  module

end SQ
