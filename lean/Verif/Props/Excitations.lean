import Verif.Lemmas.Conserve
import Mathlib.Tactic.NoncommRing
import Mathlib.Tactic.FieldSimp
import Mathlib.Algebra.Field.Rat
import Mathlib.Tactic.Module

/-!
# C08-C12: commutators, excitation operators, Hamiltonians

`Den r T` (Spec/Operators.lean): the call succeeds and the returned operator acts as `T`.
`E`, `e`, `oneOp`, `twoOp`, `ConservesSpin`, `ActiveState`: Spec/Excitations.lean.
-/

namespace SQ

variable {R : Type*} [CommRing R] {K : Type*} [Field K]

/-! ## C08 -/

/-- C08: `commutator` and `double_commutator` act as `[A,B]` and `[A,[B,C]]`. -/
theorem C08_commutators {tiny : R → Bool} (ht : ExactTiny tiny) {A B C : Dict R} (hA : NumCons A)
    (hB : NumCons B) (hC : NumCons C) :
    Den (commutatorOp tiny A B) (sumOp A * sumOp B - sumOp B * sumOp A) ∧
    Den (doubleCommutator tiny A B C)
      (sumOp A * (sumOp B * sumOp C - sumOp C * sumOp B)
        - (sumOp B * sumOp C - sumOp C * sumOp B) * sumOp A) :=
  ⟨den_commutator ht hA hB, den_doubleCommutator ht hA hB hC⟩

/-- C08, symmetrized double commutator: twice its action is `[A,[B,C]] + [[A,B],C]`. -/
theorem C08_symmetrized {tiny : K → Bool} (ht : ExactTiny tiny) (h2 : (2 : K) ≠ 0) {A B C : Dict K}
    (hA : NumCons A) (hB : NumCons B) (hC : NumCons C) :
    Den (doubleCommutatorSym tiny A B C)
      ((1 / 2 : K) • ((sumOp A * (sumOp B * sumOp C - sumOp C * sumOp B)
          - (sumOp B * sumOp C - sumOp C * sumOp B) * sumOp A)
        + ((sumOp A * sumOp B - sumOp B * sumOp A) * sumOp C
          - sumOp C * (sumOp A * sumOp B - sumOp B * sumOp A)))) := by
  obtain ⟨d1, a1, a2, a3⟩ := den_mul3 ht hA hB hC
  obtain ⟨d2, b1, b2, b3⟩ := den_mul3 ht hC hB hA
  obtain ⟨d3, c1, c2, c3⟩ := den_mul3 ht hA hC hB
  obtain ⟨d4, f1, f2, f3⟩ := den_mul3 ht hB hC hA
  obtain ⟨d5, g1, g2, g3⟩ := den_mul3 ht hC hA hB
  obtain ⟨d6, k1, k2, k3⟩ := den_mul3 ht hB hA hC
  simp only [doubleCommutatorSym, a1, b1, c1, f1, g1, k1, ok_bind, res_pure]
  refine Den.ok ((a2.add b2).sub ((((c2.add f2).add g2).add k2).rmul _)) ?_
  rw [sumOp_fsub ht, sumOp_fadd ht, sumOp_frmul, sumOp_fadd ht, sumOp_fadd ht, sumOp_fadd ht,
    a3, b3, c3, f3, g3, k3]
  generalize sumOp A = a
  generalize sumOp B = b
  generalize sumOp C = c
  simp only [mul_sub, sub_mul, mul_assoc]
  have e2 : ∀ T : FOp K, T = (1 / 2 : K) • (T + T) := by
    intro T
    rw [← two_smul K, smul_smul, one_div_mul_cancel h2, one_smul]
  rw [e2 (a * (b * c) + c * (b * a)), ← smul_sub]
  congr 1
  abel

/-- The hypotheses are met by excitation operators, and the commutator is not trivially zero. -/
example : NumCons ([([(0, true), (1, false)], 1)] : Dict ℤ) ∧
    NumCons ([([(1, true), (2, false)], 1)] : Dict ℤ) ∧
    (match commutatorOp (fun x : ℤ => x == 0) [([(0, true), (1, false)], 1)]
      [([(1, true), (2, false)], 1)] with | .ok d => d | .error _ => []) =
      [([(0, true), (2, false)], 1)] :=
  ⟨⟨by decide, by decide, by decide⟩, ⟨by decide, by decide, by decide⟩, by decide⟩

/-! ## C09 -/

/-- C09, spin-free operators: `Epq`, `epqrs`, `Eminuspq` are the textbook operators; `e_pqrs` is
`E_pq E_rs - δ_qr E_ps` and symmetric; adjoints; the spin argument of `a_op` is checked. -/
theorem C09_spinfree {tiny : R → Bool} (ht : ExactTiny tiny) (p q r s : ℕ) :
    Den (Epq tiny p q) (E p q) ∧
    Den (epqrs tiny p q r s) (e p q r s) ∧
    Den (epqrs tiny p q r s) (E p q * E r s - (delta q r : R) • E p s) ∧
    Den (epqrs tiny p q r s) (e r s p q) ∧
    Den (Eminuspq tiny p q) (E p q - E q p) ∧
    IsAdjoint (E p q : FOp R) (E q p) ∧
    IsAdjoint (e p q r s : FOp R) (e q p s r) ∧
    IsAdjoint (E p q - E q p : FOp R) (-(E p q - E q p)) := by
  have h := den_epqrs ht p q r s
  refine ⟨den_Epq ht p q, h, ?_, ?_, den_Eminuspq ht p q, adjoint_E p q, adjoint_e p q r s, ?_⟩
  · rw [E_mul_E, add_sub_cancel_right]; exact h
  · rw [← e_symm]; exact h
  · rw [neg_sub]; exact (adjoint_E p q).sub (adjoint_E q p)

/-- C09, `a_op`: spins other than "alpha" and "beta" raise `ValueError`; otherwise spin orbital `2p`
or `2p+1`. -/
theorem C09_aOp (p : ℕ) (spin : String) (b : Bool) :
    (spin ≠ "alpha" → spin ≠ "beta" → aOp (R := R) p spin b = .error .valueError) ∧
    (∃ d, aOp (R := R) p "alpha" b = .ok d ∧ (sumOp d : FOp R) = if b then cr (2 * p) else an (2 * p)) ∧
    (∃ d, aOp (R := R) p "beta" b = .ok d ∧
      (sumOp d : FOp R) = if b then cr (2 * p + 1) else an (2 * p + 1)) := by
  refine ⟨?_, ⟨_, rfl, ?_⟩, ⟨_, rfl, ?_⟩⟩
  · intro h1 h2
    simp [aOp, h1, h2]
  · simp [ladder]
  · simp [ladder]

theorem excite_eq (C A : List ℕ) : (excite C A : FOp R)
    = strOp ((C.map fun p => (p, true)) ++ A.map fun p => (p, false)) := by
  rw [strOp_append]
  simp [excite, strOp, Function.comp_def, ladder]

theorem adjoint_prod_cr (C : List ℕ) :
    IsAdjoint ((C.map cr).prod : FOp R) ((C.reverse.map an).prod) := by
  induction C with
  | nil => simpa using isAdjoint_one
  | cons p C ih =>
    simp only [List.map_cons, List.prod_cons, List.reverse_cons, List.map_append, List.prod_append,
      List.map_nil, List.prod_nil, mul_one]
    exact (adjoint_cr p).mul ih

theorem adjoint_prod_an (C : List ℕ) :
    IsAdjoint ((C.map an).prod : FOp R) ((C.reverse.map cr).prod) := by
  induction C with
  | nil => simpa using isAdjoint_one
  | cons p C ih =>
    simp only [List.map_cons, List.prod_cons, List.reverse_cons, List.map_append, List.prod_append,
      List.map_nil, List.prod_nil, mul_one]
    exact (adjoint_an p).mul ih

theorem adjoint_excite (C A : List ℕ) :
    IsAdjoint (excite C A : FOp R) (excite A.reverse C.reverse) :=
  (adjoint_prod_cr C).mul (adjoint_prod_an A)

theorem excite_repeat (C A : List ℕ) (h : ¬ C.Nodup ∨ ¬ A.Nodup) : (excite C A : FOp R) = 0 := by
  rw [excite_eq, strOp_append]
  rcases h with h | h
  · rw [strOp_cr_dup C h, zero_mul]
  · rw [strOp_an_dup A h, mul_zero]

theorem den_G {tiny : R → Bool} (ht : ExactTiny tiny) (C A : List ℕ) (hl : C.length = A.length)
    (h0 : C ≠ []) (ah : Bool) :
    Den (do antiH tiny ah (← gChain tiny
        ((C.map fun p => (p, true)) ++ A.map fun p => (p, false))))
      (if ah then excite C A - excite A.reverse C.reverse else excite C A) := by
  obtain ⟨d, h1, h2, h3⟩ := den_gChain ht C A hl h0
  rw [← excite_eq] at h3
  simp only [h1, ok_bind]
  have := den_antiH ht h2 (h3 ▸ adjoint_excite C A) ah
  rw [h3] at this
  exact this

/-- C09, `G1`..`G6`: each acts as `a†_a a†_b ... a_j a_i`, minus its adjoint for the anti-Hermitian
variant. -/
theorem C09_G {tiny : R → Bool} (ht : ExactTiny tiny) (i j k l m n a b c d e f : ℕ) (ah : Bool) :
    Den (G1 tiny i a ah) (if ah then excite [a] [i] - excite [i] [a] else excite [a] [i]) ∧
    Den (G2 tiny i j a b ah)
      (if ah then excite [a, b] [j, i] - excite [i, j] [b, a] else excite [a, b] [j, i]) ∧
    Den (G3 tiny i j k a b c ah)
      (if ah then excite [a, b, c] [k, j, i] - excite [i, j, k] [c, b, a]
       else excite [a, b, c] [k, j, i]) ∧
    Den (G4 tiny i j k l a b c d ah)
      (if ah then excite [a, b, c, d] [l, k, j, i] - excite [i, j, k, l] [d, c, b, a]
       else excite [a, b, c, d] [l, k, j, i]) ∧
    Den (G5 tiny i j k l m a b c d e ah)
      (if ah then excite [a, b, c, d, e] [m, l, k, j, i] - excite [i, j, k, l, m] [e, d, c, b, a]
       else excite [a, b, c, d, e] [m, l, k, j, i]) ∧
    Den (G6 tiny i j k l m n a b c d e f ah)
      (if ah then excite [a, b, c, d, e, f] [n, m, l, k, j, i]
          - excite [i, j, k, l, m, n] [f, e, d, c, b, a]
       else excite [a, b, c, d, e, f] [n, m, l, k, j, i]) :=
  ⟨den_G ht [a] [i] rfl (by simp) ah, den_G ht [a, b] [j, i] rfl (by simp) ah,
    den_G ht [a, b, c] [k, j, i] rfl (by simp) ah, den_G ht [a, b, c, d] [l, k, j, i] rfl (by simp) ah,
    den_G ht [a, b, c, d, e] [m, l, k, j, i] rfl (by simp) ah,
    den_G ht [a, b, c, d, e, f] [n, m, l, k, j, i] rfl (by simp) ah⟩

/-- C09: such strings vanish when an index is repeated among the creators or the annihilators, and
their adjoint swaps the two blocks; `T - T†` is anti-Hermitian. -/
theorem C09_excite (C A : List ℕ) :
    (¬ C.Nodup ∨ ¬ A.Nodup → (excite C A : FOp R) = 0) ∧
    IsAdjoint (excite C A : FOp R) (excite A.reverse C.reverse) ∧
    IsAdjoint (excite C A - excite A.reverse C.reverse : FOp R)
      (-(excite C A - excite A.reverse C.reverse)) := by
  refine ⟨excite_repeat C A, adjoint_excite C A, ?_⟩
  rw [neg_sub]
  have := adjoint_excite (R := R) A.reverse C.reverse
  rw [List.reverse_reverse, List.reverse_reverse] at this
  exact (adjoint_excite C A).sub this

/-- A repeated index really gives an empty operator; distinct ones do not. -/
example : (match G2 (fun x : ℤ => x == 0) 0 1 3 3 true with | .ok d => d | .error _ => [([], 1)]) = []
    ∧ (match G2 (fun x : ℤ => x == 0) 0 1 2 3 true with | .ok d => d | .error _ => []) =
      [([(3, true), (2, true), (1, false), (0, false)], -1 * -1 * -1),
       ([(1, true), (0, true), (3, false), (2, false)], 1)] := by decide

/-! ## C10 -/

/-- Spin-conserving operators, abstractly. -/
def SpinOK (T : FOp R) : Prop := ∀ w, SpinW w → Shift w T 0

theorem SpinOK.smul {T : FOp R} (h : SpinOK T) (c : R) : SpinOK (c • T) := fun w hw => (h w hw).smul c
theorem SpinOK.add {S T : FOp R} (hS : SpinOK S) (hT : SpinOK T) : SpinOK (S + T) :=
  fun w hw => (hS w hw).add (hT w hw)
theorem SpinOK.sub {S T : FOp R} (hS : SpinOK S) (hT : SpinOK T) : SpinOK (S - T) :=
  fun w hw => (hS w hw).sub (hT w hw)
theorem SpinOK.mul {S T : FOp R} (hS : SpinOK S) (hT : SpinOK T) : SpinOK (S * T) :=
  fun w hw => by simpa using (hS w hw).mul (hT w hw)
theorem SpinOK.sum {ι : Type*} (l : List ι) (f : ι → FOp R) (h : ∀ i ∈ l, SpinOK (f i)) :
    SpinOK (l.map f).sum := fun w hw => Shift.list_sum l f 0 fun i hi => h i hi w hw
theorem SpinOK.zero : SpinOK (0 : FOp R) := fun w _ => shift_zero w 0
theorem SpinOK.E (p q : ℕ) : SpinOK (SQ.E p q : FOp R) := fun _ hw => hw.E p q
theorem SpinOK.e (p q r s : ℕ) : SpinOK (SQ.e p q r s : FOp R) := fun _ hw => hw.e p q r s

theorem Den.spin {r : Res (Dict R)} {T : FOp R} (h : Den r T) (hT : SpinOK T) :
    ∃ d, r = .ok d ∧ ConservesSpin (sumOp d : FOp R) := by
  obtain ⟨d, h1, _, h3⟩ := h
  exact ⟨d, h1, by rw [h3]; exact conservesSpin_of hT⟩

theorem one0_spin (h : ℕ → ℕ → K) (nI nA : ℕ) : SpinOK (one0 h nI nA) :=
  (SpinOK.sum _ _ fun _ _ => (SpinOK.E _ _).smul _).add
    (SpinOK.sum _ _ fun _ _ => SpinOK.sum _ _ fun _ _ => (SpinOK.E _ _).smul _)

theorem two0_spin (g : ℕ → ℕ → ℕ → ℕ → K) (nI nA : ℕ) : SpinOK (two0 g nI nA) := by
  unfold two0
  refine SpinOK.add ?_ (SpinOK.add ?_ ?_)
  · refine SpinOK.sum _ _ fun i _ => SpinOK.sum _ _ fun j _ => ((SpinOK.e _ _ _ _).smul _).add ?_
    split
    · exact (SpinOK.e _ _ _ _).smul _
    · exact SpinOK.zero
  · exact SpinOK.sum _ _ fun i _ => SpinOK.sum _ _ fun p _ => SpinOK.sum _ _ fun q _ =>
      ((SpinOK.e _ _ _ _).smul _).add (((SpinOK.e _ _ _ _).smul _).add
        (((SpinOK.e _ _ _ _).smul _).add ((SpinOK.e _ _ _ _).smul _)))
  · exact SpinOK.sum _ _ fun i _ => SpinOK.sum _ _ fun p _ => SpinOK.sum _ _ fun q _ =>
      SpinOK.sum _ _ fun s _ => (SpinOK.e _ _ _ _).smul _

theorem Den.antiH {tiny : R → Bool} (ht : ExactTiny tiny) {r : Res (Dict R)} {T Td : FOp R}
    (h : Den r T) (hT : IsAdjoint T Td) (ah : Bool) :
    Den (do SQ.antiH tiny ah (← r)) (if ah then T - Td else T) := by
  obtain ⟨d, h1, h2, h3⟩ := h
  subst h3
  simp only [h1, ok_bind]
  exact den_antiH ht h2 hT ah

/-- The spin-adapted operators: `G1_sa = c·E_ai` and `G2_sa` in its five cases (any other case number
is a `ValueError`). -/
theorem den_G1sa {tiny : R → Bool} (ht : ExactTiny tiny) (c : R) (i a : ℕ) (ah : Bool) :
    Den (G1sa tiny c i a ah) (if ah then c • E a i - c • E i a else c • E a i) := by
  have h1 : Den (do let e ← Epq tiny a i; pure (frmul c e)) (c • E a i : FOp R) := by
    obtain ⟨d, h1, h2, h3⟩ := den_Epq ht a i
    simp only [h1, ok_bind, res_pure]
    exact Den.ok (h2.rmul c) (by rw [sumOp_frmul, h3])
  have := h1.antiH ht ((adjoint_E a i).smul c) ah
  simpa only [G1sa, bind_assoc, res_pure, ok_bind] using this

theorem den_EE {tiny : R → Bool} (ht : ExactTiny tiny) (p q r s : ℕ) :
    Den (do let x ← Epq tiny p q; let y ← Epq tiny r s; fmul tiny x y) (E p q * E r s : FOp R) := by
  obtain ⟨d1, h1, h2, h3⟩ := den_Epq ht p q
  obtain ⟨d2, g1, g2, g3⟩ := den_Epq ht r s
  obtain ⟨d3, k1, k2, k3⟩ := den_mul ht h2 g2
  simp only [h1, g1, ok_bind]
  exact ⟨d3, k1, k2, by rw [k3, h3, g3]⟩

/-- Action of `G2_sa` before the anti-Hermitian step. -/
noncomputable def g2saOp (half c5 : R) (isqrt : ℕ → R) (i j a b case : ℕ) : FOp R :=
  if case = 5 then c5 • (E a i * E b j - E a j * E b i)
  else (half * isqrt ((if a = b then 2 else 1) * (if i = j then 2 else 1)))
    • (E a i * E b j + E a j * E b i)

theorem den_G2sa {tiny : R → Bool} (ht : ExactTiny tiny) (half c5 : R) (isqrt : ℕ → R)
    (i j a b case : ℕ) (hc : 1 ≤ case ∧ case ≤ 5) (ah : Bool) :
    ∃ Td, IsAdjoint (g2saOp half c5 isqrt i j a b case) Td ∧ SpinOK Td ∧
    Den (G2sa tiny half c5 isqrt i j a b case ah)
      (if ah then g2saOp half c5 isqrt i j a b case - Td
       else g2saOp half c5 isqrt i j a b case) := by
  obtain ⟨d1, h1, h2, h3⟩ := den_Epq ht a i
  obtain ⟨d2, g1, g2, g3⟩ := den_Epq ht b j
  obtain ⟨d3, k1, k2, k3⟩ := den_mul ht h2 g2
  obtain ⟨d4, l1, l2, l3⟩ := den_Epq ht a j
  obtain ⟨d5, m1, m2, m3⟩ := den_Epq ht b i
  obtain ⟨d6, n1, n2, n3⟩ := den_mul ht l2 m2
  have hadj1 := (adjoint_E (R := R) a i).mul (adjoint_E b j)
  have hadj2 := (adjoint_E (R := R) a j).mul (adjoint_E b i)
  have s1 : SpinOK (E j b * E i a : FOp R) := (SpinOK.E _ _).mul (SpinOK.E _ _)
  have s2 : SpinOK (E i b * E j a : FOp R) := (SpinOK.E _ _).mul (SpinOK.E _ _)
  by_cases h5 : case = 5
  · subst h5
    refine ⟨c5 • (E j b * E i a - E i b * E j a), ?_, (s1.sub s2).smul _, ?_⟩
    · simp only [g2saOp, if_true]; exact (hadj1.sub hadj2).smul c5
    · have hd : Den (.ok (frmul c5 (fsub tiny d3 d6))) (g2saOp half c5 isqrt i j a b 5) := by
        refine Den.ok ((k2.sub n2).rmul _) ?_
        rw [sumOp_frmul, sumOp_fsub ht, k3, n3, h3, g3, l3, m3]; simp [g2saOp]
      have := hd.antiH ht (Td := c5 • (E j b * E i a - E i b * E j a))
        (by simp only [g2saOp, if_true]; exact (hadj1.sub hadj2).smul c5) ah
      have hno : ¬ (5 = 1 ∨ 5 = 2 ∨ 5 = 3 ∨ 5 = 4) := by omega
      simpa only [G2sa, hno, if_false, if_true, h1, g1, k1, l1, m1, n1, ok_bind, res_pure] using this
  · have hcase : case = 1 ∨ case = 2 ∨ case = 3 ∨ case = 4 := by omega
    have hop : (g2saOp half c5 isqrt i j a b case : FOp R)
        = (half * isqrt ((if a = b then 2 else 1) * (if i = j then 2 else 1)))
          • (E a i * E b j + E a j * E b i) := by simp only [g2saOp, h5, if_false]
    refine ⟨(half * isqrt ((if a = b then 2 else 1) * (if i = j then 2 else 1)))
      • (E j b * E i a + E i b * E j a), ?_, (s1.add s2).smul _, ?_⟩
    · rw [hop]; exact (hadj1.add hadj2).smul _
    · have hd : Den (.ok (frmul (half * isqrt ((if a = b then 2 else 1) * (if i = j then 2 else 1)))
          (fadd tiny d3 d6))) (g2saOp half c5 isqrt i j a b case) := by
        refine Den.ok ((k2.add n2).rmul _) ?_
        rw [sumOp_frmul, sumOp_fadd ht, k3, n3, h3, g3, l3, m3, hop]
      have := hd.antiH ht (Td := (half * isqrt ((if a = b then 2 else 1) * (if i = j then 2 else 1)))
        • (E j b * E i a + E i b * E j a)) (by rw [hop]; exact (hadj1.add hadj2).smul _) ah
      simpa only [G2sa, hcase, if_true, h1, g1, k1, l1, m1, n1, ok_bind, res_pure] using this

theorem g2saOp_spin (half c5 : R) (isqrt : ℕ → R) (i j a b case : ℕ) :
    SpinOK (g2saOp half c5 isqrt i j a b case) := by
  have s1 : SpinOK (E a i * E b j : FOp R) := (SpinOK.E _ _).mul (SpinOK.E _ _)
  have s2 : SpinOK (E a j * E b i : FOp R) := (SpinOK.E _ _).mul (SpinOK.E _ _)
  unfold g2saOp
  split
  · exact (s1.sub s2).smul _
  · exact (s1.add s2).smul _

/-- C10: `E_pq`, `e_pqrs`, `G1_sa`, `G2_sa` conserve the numbers of alpha and of beta electrons. -/
theorem C10_spin {tiny : R → Bool} (ht : ExactTiny tiny) (p q r s : ℕ) (c half c5 : R)
    (isqrt : ℕ → R) (case : ℕ) (hc : 1 ≤ case ∧ case ≤ 5) (ah : Bool) :
    (∃ d, Epq tiny p q = .ok d ∧ ConservesSpin (sumOp d : FOp R)) ∧
    (∃ d, epqrs tiny p q r s = .ok d ∧ ConservesSpin (sumOp d : FOp R)) ∧
    (∃ d, G1sa tiny c p q ah = .ok d ∧ ConservesSpin (sumOp d : FOp R)) ∧
    (∃ d, G2sa tiny half c5 isqrt p q r s case ah = .ok d ∧ ConservesSpin (sumOp d : FOp R)) := by
  refine ⟨(den_Epq ht p q).spin (SpinOK.E _ _), (den_epqrs ht p q r s).spin (SpinOK.e _ _ _ _),
    (den_G1sa ht c p q ah).spin ?_, ?_⟩
  · split
    · exact ((SpinOK.E _ _).smul _).sub ((SpinOK.E _ _).smul _)
    · exact (SpinOK.E _ _).smul _
  · obtain ⟨Td, _, h2, h3⟩ := den_G2sa ht half c5 isqrt p q r s case hc ah
    refine h3.spin ?_
    split
    · exact (g2saOp_spin _ _ _ _ _ _ _ _).sub h2
    · exact g2saOp_spin _ _ _ _ _ _ _ _

/-- `G2_sa` rejects every other case number. -/
theorem C10_case_rejected (tiny : R → Bool) (half c5 : R) (isqrt : ℕ → R) (i j a b case : ℕ)
    (hc : ¬ (1 ≤ case ∧ case ≤ 5)) (ah : Bool) :
    G2sa tiny half c5 isqrt i j a b case ah = .error .valueError := by
  have h1 : ¬ (case = 1 ∨ case = 2 ∨ case = 3 ∨ case = 4) := by omega
  have h2 : ¬ case = 5 := by omega
  simp only [G2sa, h1, h2, if_false]; rfl

/-- C10: the Hamiltonians conserve the numbers of alpha and of beta electrons. -/
theorem C10_hamiltonians {tiny big : K → Bool} (ht : ExactTiny tiny) (hb : ExactBig big)
    (h : ℕ → ℕ → K) (g : ℕ → ℕ → ℕ → ℕ → K) (n nI nA : ℕ) :
    (∃ d, hamiltonianFull tiny h g n = .ok d ∧ ConservesSpin (sumOp d : FOp K)) ∧
    (∃ d, oneElecFull tiny big h n = .ok d ∧ ConservesSpin (sumOp d : FOp K)) ∧
    (∃ d, hamiltonian0i0a tiny big h g nI nA = .ok d ∧ ConservesSpin (sumOp d : FOp K)) ∧
    (∃ d, oneElec0i0a tiny big h nI nA = .ok d ∧ ConservesSpin (sumOp d : FOp K)) := by
  have s1 : SpinOK (((List.range n).map fun p => ((List.range n).map fun q =>
      h p q • (E p q : FOp K)).sum).sum) :=
    SpinOK.sum _ _ fun _ _ => SpinOK.sum _ _ fun _ _ => (SpinOK.E _ _).smul _
  refine ⟨(den_hamiltonianFull ht h g n).spin (s1.add ?_), (den_oneElecFull ht hb h n).spin s1,
    (den_hamiltonian0i0a ht hb h g nI nA).spin ((one0_spin _ _ _).add (two0_spin _ _ _)),
    (den_oneElec0i0a ht hb h nI nA).spin (one0_spin _ _ _)⟩
  exact SpinOK.sum _ _ fun i _ => SpinOK.sum _ _ fun p _ => SpinOK.sum _ _ fun q _ =>
      SpinOK.sum _ _ fun s _ => (SpinOK.e _ _ _ _).smul _

/-- C10: strings with as many creators as annihilators (so `G1`..`G6`, by `C09_G`) conserve the
number of electrons. -/
theorem C10_number (C A : List ℕ) (h : C.length = A.length) :
    ConservesNumber (excite C A : FOp R) ∧
    ConservesNumber (excite C A - excite A.reverse C.reverse : FOp R) := by
  have key : ∀ C A : List ℕ, C.length = A.length → Shift (fun _ => 1) (excite C A : FOp R) 0 := by
    intro C A h
    rw [excite_eq]
    have := shift_strOp (R := R) (fun _ => 1) ((C.map fun p => (p, true)) ++ A.map fun p => (p, false))
    have e : strWeight (fun _ => 1) ((C.map fun p => (p, true)) ++ A.map fun p => (p, false)) = 0 := by
      simp [strWeight, Function.comp_def, h]
    rw [e] at this; exact this
  exact ⟨conservesNumber_of (key C A h),
    conservesNumber_of ((key C A h).sub (key _ _ (by simpa using h.symm)))⟩

/-- `E_10` does act: it moves an electron. -/
example : coeff ((E 1 0 : FOp ℤ) (ket {0})) {2} = 1 := by
  have h1 : (1 : ℕ) ∉ ({0} : Finset ℕ) := by decide
  have h2 : (2 : ℕ) ∉ (({0} : Finset ℕ).erase 0) := by decide
  simp [E, an_single, cr_single, coeff_sgl, phase]

/-! ## C11 -/

/-- C11: `hamiltonian_full_space` acts as `Σ h_pq E_pq + 1/2 Σ g_pqrs e_pqrs` and
`one_elec_op_full_space` as `Σ h_pq E_pq`. -/
theorem C11_form {tiny big : K → Bool} (ht : ExactTiny tiny) (hb : ExactBig big)
    (h : ℕ → ℕ → K) (g : ℕ → ℕ → ℕ → ℕ → K) (n : ℕ) :
    Den (hamiltonianFull tiny h g n) (oneOp h n + (1 / 2 : K) • twoOp g n) ∧
    Den (oneElecFull tiny big h n) (oneOp h n) := by
  have e1 : ((List.range n).map fun p => ((List.range n).map fun q => h p q • (E p q : FOp K)).sum).sum
      = oneOp h n := by
    simp only [list_sum_range]; rfl
  refine ⟨?_, ?_⟩
  · have := den_hamiltonianFull ht h g n
    rw [e1] at this
    have e2 : ((List.range n).map fun p => ((List.range n).map fun q => ((List.range n).map fun r =>
          ((List.range n).map fun s => (1 / 2 * g p q r s) • (e p q r s : FOp K)).sum).sum).sum).sum
        = (1 / 2 : K) • twoOp g n := by
      simp only [list_sum_range, twoOp, Finset.smul_sum, smul_smul]
    rw [e2] at this; exact this
  · have := den_oneElecFull ht hb h n
    rw [e1] at this; exact this

theorem IsAdjoint.sum {ι : Type*} (s : Finset ι) (f g : ι → FOp R)
    (h : ∀ i ∈ s, IsAdjoint (f i) (g i)) : IsAdjoint (∑ i ∈ s, f i) (∑ i ∈ s, g i) := by
  classical
  induction s using Finset.induction_on with
  | empty => simpa using isAdjoint_zero
  | insert a s ha ih =>
    rw [Finset.sum_insert ha, Finset.sum_insert ha]
    exact (h a (by simp)).add (ih fun i hi => h i (by simp [hi]))

/-- C11: self-adjointness for `h_pq = h_qp`, `g_pqrs = g_qpsr`. -/
theorem C11_hermitian (h : ℕ → ℕ → K) (g : ℕ → ℕ → ℕ → ℕ → K) (n : ℕ)
    (hh : ∀ p q, p < n → q < n → h p q = h q p)
    (hg : ∀ p q r s, p < n → q < n → r < n → s < n → g p q r s = g q p s r) :
    IsAdjoint (oneOp h n + (1 / 2 : K) • twoOp g n) (oneOp h n + (1 / 2 : K) • twoOp g n) := by
  refine IsAdjoint.add ?_ (IsAdjoint.smul _ ?_)
  · have h1 : IsAdjoint (oneOp h n)
        (∑ p ∈ Finset.range n, ∑ q ∈ Finset.range n, h p q • (E q p : FOp K)) :=
      IsAdjoint.sum _ _ _ fun p _ => IsAdjoint.sum _ _ _ fun q _ => (adjoint_E p q).smul _
    have h2 : (∑ p ∈ Finset.range n, ∑ q ∈ Finset.range n, h p q • (E q p : FOp K)) = oneOp h n := by
      rw [Finset.sum_comm]
      refine Finset.sum_congr rfl fun q hq => Finset.sum_congr rfl fun p hp => ?_
      rw [hh p q (by simpa using hp) (by simpa using hq)]
    rw [h2] at h1; exact h1
  · have h1 : IsAdjoint (twoOp g n) (∑ p ∈ Finset.range n, ∑ q ∈ Finset.range n,
        ∑ r ∈ Finset.range n, ∑ s ∈ Finset.range n, g p q r s • (e q p s r : FOp K)) :=
      IsAdjoint.sum _ _ _ fun p _ => IsAdjoint.sum _ _ _ fun q _ => IsAdjoint.sum _ _ _ fun r _ =>
        IsAdjoint.sum _ _ _ fun s _ => (adjoint_e p q r s).smul _
    have h2 : (∑ p ∈ Finset.range n, ∑ q ∈ Finset.range n,
        ∑ r ∈ Finset.range n, ∑ s ∈ Finset.range n, g p q r s • (e q p s r : FOp K)) = twoOp g n := by
      rw [Finset.sum_comm]
      refine Finset.sum_congr rfl fun q hq => Finset.sum_congr rfl fun p hp => ?_
      rw [Finset.sum_comm]
      refine Finset.sum_congr rfl fun s hs => Finset.sum_congr rfl fun r hr => ?_
      rw [hg p q r s (by simpa using hp) (by simpa using hq) (by simpa using hr) (by simpa using hs)]
    rw [h2] at h1; exact h1

/-- Symmetric integrals exist, with nonconstant values. -/
example : (∀ p q : ℕ, p < 3 → q < 3 → ((p + q : ℕ) : ℚ) = ((q + p : ℕ) : ℚ)) ∧
    (∀ p q r s : ℕ, p < 3 → q < 3 → r < 3 → s < 3 →
      ((p * q + r * s : ℕ) : ℚ) = ((q * p + s * r : ℕ) : ℚ)) :=
  ⟨fun p q _ _ => by rw [Nat.add_comm], fun p q r s _ _ _ _ => by rw [Nat.mul_comm p, Nat.mul_comm r]⟩

/-! ## C12 -/

theorem one0_mel {nI nA nV : ℕ} (h : ℕ → ℕ → K) {x y : Fock K} (hx : ActiveState nI nA x)
    (hy : ActiveState nI nA y) :
    mel x y (one0 h nI nA) = mel x y (oneOp h (nI + nA + nV)) := by
  obtain ⟨n, hn⟩ : ∃ n, n = nI + nA + nV := ⟨_, rfl⟩
  rw [← hn]
  unfold one0 oneOp
  simp only [list_sum_range, list_sum_rangeFrom, map_add, map_sum, map_smul, smul_eq_mul]
  have hI : nI ≤ n := by omega
  have hA : nI + nA ≤ n := by omega
  have v : ∀ p q, inner x (E p q y) ≠ 0 → p < nI + nA ∧ q < nI + nA ∧ ∀ k < nI, (p = k ↔ q = k) :=
    fun p q hne => active_E hx hy hne
  have e1 : ∑ i ∈ Finset.range nI, h i i * mel x y (E i i)
      = ∑ p ∈ Finset.range n, ∑ q ∈ Finset.range n,
        ind (p < nI) * (ind (q = p) * (h p q * mel x y (E p q))) := by
    rw [sum_inact hI (fun i => h i i * mel x y (E i i))]
    refine Finset.sum_congr rfl fun p hp => ?_
    rw [← Finset.mul_sum, ← sum_point (by simpa using hp) (fun q => h p q * mel x y (E p q))]
  have e2 : ∑ p ∈ Finset.range nA, ∑ q ∈ Finset.range nA,
        h (nI + p) (nI + q) * mel x y (E (nI + p) (nI + q))
      = ∑ p ∈ Finset.range n, ∑ q ∈ Finset.range n,
        ind (nI ≤ p ∧ p < nI + nA) * (ind (nI ≤ q ∧ q < nI + nA) * (h p q * mel x y (E p q))) := by
    rw [sum_act hA (fun p => ∑ q ∈ Finset.range nA, h p (nI + q) * mel x y (E p (nI + q)))]
    refine Finset.sum_congr rfl fun p hp => ?_
    rw [sum_act hA (fun q => h p q * mel x y (E p q)), Finset.mul_sum]
  rw [e1, e2, ← Finset.sum_add_distrib]
  refine Finset.sum_congr rfl fun p _ => ?_
  rw [← Finset.sum_add_distrib]
  refine Finset.sum_congr rfl fun q _ => ?_
  by_cases hz : inner x (E p q y) = 0
  · simp [hz]
  · obtain ⟨v1, v2, v3⟩ := v p q hz
    by_cases hp : p < nI
    · have hq : q = p := (v3 p hp).1 rfl
      subst hq
      have : ¬ nI ≤ q := by omega
      simp [ind, hp, this]
    · have hq : ¬ q < nI := fun hq => by have := (v3 q hq).2 rfl; omega
      have a : nI ≤ p := by omega
      have b : nI ≤ q := by omega
      simp [ind, hp, a, b, v1, v2]

theorem pointwise (nI p q r s : ℕ) (F : K)
    (bp : p < nI → ((if p = p then 1 else 0) + (if r = p then 1 else 0) : ℤ)
        = (if q = p then 1 else 0) + (if s = p then 1 else 0))
    (bq : q < nI → ((if p = q then 1 else 0) + (if r = q then 1 else 0) : ℤ)
        = (if q = q then 1 else 0) + (if s = q then 1 else 0))
    (br : r < nI → ((if p = r then 1 else 0) + (if r = r then 1 else 0) : ℤ)
        = (if q = r then 1 else 0) + (if s = r then 1 else 0))
    (bs : s < nI → ((if p = s then 1 else 0) + (if r = s then 1 else 0) : ℤ)
        = (if q = s then 1 else 0) + (if s = s then 1 else 0)) :
    ind (p < nI) * (ind (q = p) * (ind (r < nI) * (ind (s = r) * F))) +
      ind (p < nI) * (ind (q < nI) * (ind (p ≠ q) * (ind (r = q) * (ind (s = p) * F)))) +
      (ind (p < nI) * (ind (q = p) * (ind (nI ≤ r) * (ind (nI ≤ s) * F))) +
        (ind (nI ≤ p) * (ind (nI ≤ q) * (ind (r < nI) * (ind (s = r) * F))) +
          (ind (nI ≤ p) * (ind (q < nI) * (ind (r = q) * (ind (nI ≤ s) * F))) +
            ind (p < nI) * (ind (nI ≤ q) * (ind (nI ≤ r) * (ind (s = p) * F))))) +
      ind (nI ≤ p) * (ind (nI ≤ q) * (ind (nI ≤ r) * (ind (nI ≤ s) * F)))) = F := by
  have hh : ∀ a : ℕ, (nI ≤ a) = ¬ (a < nI) := fun a => by rw [Nat.not_lt]
  simp only [ind, hh]
  by_cases hp : p < nI <;> by_cases hq : q < nI <;> by_cases hr : r < nI <;> by_cases hs : s < nI <;>
    simp only [hp, hq, hr, hs, if_true, if_false, forall_const, false_imp_iff, not_true_eq_false,
      not_false_eq_true, one_mul, zero_mul, mul_zero, add_zero, zero_add] at bp bq br bs ⊢ <;>
    first
    | rfl
    | (by_cases h1 : q = p <;> by_cases h2 : s = r <;> by_cases h3 : r = q <;> by_cases h4 : s = p <;>
        by_cases h5 : r = p <;> by_cases h6 : s = q <;>
        first
        | (exfalso; omega)
        | (simp [h1, h2, h3, h4, h5, h6, eq_comm] at bp bq br bs ⊢; done)
        | (exfalso; split_ifs at bp bq br bs <;> omega)
        | (subst_vars; simp at *; done)
        | (subst_vars; simp [h1, h2]; done))

theorem two0_mel {nI nA nV : ℕ} (g : ℕ → ℕ → ℕ → ℕ → K) {x y : Fock K} (hx : ActiveState nI nA x)
    (hy : ActiveState nI nA y) :
    mel x y (two0 g nI nA) = mel x y ((1 / 2 : K) • twoOp g (nI + nA + nV)) := by
  obtain ⟨n, hn⟩ : ∃ n, n = nI + nA + nV := ⟨_, rfl⟩
  rw [← hn]
  have hI : nI ≤ n := by omega
  have hA : nI + nA ≤ n := by omega
  obtain ⟨f, hf⟩ : ∃ f : ℕ → ℕ → ℕ → ℕ → K, f = fun p q r s => 1 / 2 * g p q r s * mel x y (e p q r s) :=
    ⟨_, rfl⟩
  have v : ∀ p q r s, f p q r s ≠ 0 → p < nI + nA ∧ q < nI + nA ∧ r < nI + nA ∧ s < nI + nA ∧
      ∀ k < nI, ((if p = k then 1 else 0) + (if r = k then 1 else 0) : ℤ)
        = (if q = k then 1 else 0) + (if s = k then 1 else 0) := by
    intro p q r s hne
    apply active_e hx hy
    intro h0
    apply hne
    rw [hf]; simp [h0]
  have rhs : mel x y ((1 / 2 : K) • twoOp g n) = ∑ p ∈ Finset.range n, ∑ q ∈ Finset.range n,
      ∑ r ∈ Finset.range n, ∑ s ∈ Finset.range n, f p q r s := by
    unfold twoOp
    simp only [map_smul, map_sum, smul_eq_mul, Finset.mul_sum, hf, mul_assoc]
  have lhs : mel x y (two0 g nI nA) =
      (∑ i ∈ Finset.range nI, ∑ j ∈ Finset.range nI, (f i i j j + ind (j ≠ i) * f j i i j))
      + ((∑ i ∈ Finset.range nI, ∑ p ∈ Finset.range nA, ∑ q ∈ Finset.range nA,
          (f i i (nI + p) (nI + q) + (f (nI + p) (nI + q) i i +
            (f (nI + p) i i (nI + q) + f i (nI + p) (nI + q) i))))
      + ∑ p ∈ Finset.range nA, ∑ q ∈ Finset.range nA, ∑ r ∈ Finset.range nA, ∑ s ∈ Finset.range nA,
          f (nI + p) (nI + q) (nI + r) (nI + s)) := by
    unfold two0
    simp only [list_sum_range, list_sum_rangeFrom, map_add, map_sum, map_smul, smul_eq_mul]
    congr 1
    · refine Finset.sum_congr rfl fun i _ => Finset.sum_congr rfl fun j _ => ?_
      congr 1
      · rw [hf]
      · by_cases hij : i = j
        · subst hij; simp [ind]
        · simp [ind, hij, Ne.symm hij, hf]
    · congr 1
      · refine Finset.sum_congr rfl fun i _ => Finset.sum_congr rfl fun p _ =>
          Finset.sum_congr rfl fun q _ => ?_
        rw [hf]
      · refine Finset.sum_congr rfl fun i _ => Finset.sum_congr rfl fun p _ =>
          Finset.sum_congr rfl fun q _ => Finset.sum_congr rfl fun s _ => ?_
        rw [hf]
  rw [lhs, rhs]
  -- every restricted sum as a sum over all four indices
  have e1 : ∑ i ∈ Finset.range nI, ∑ j ∈ Finset.range nI, f i i j j
      = ∑ p ∈ Finset.range n, ∑ q ∈ Finset.range n, ∑ r ∈ Finset.range n, ∑ s ∈ Finset.range n,
        ind (p < nI) * (ind (q = p) * (ind (r < nI) * (ind (s = r) * f p q r s))) := by
    rw [sum_inact hI (fun i => ∑ j ∈ Finset.range nI, f i i j j)]
    refine Finset.sum_congr rfl fun p hp => ?_
    rw [sum_point (by simpa using hp) (fun q => ∑ j ∈ Finset.range nI, f p q j j), Finset.mul_sum]
    refine Finset.sum_congr rfl fun q hq => ?_
    rw [sum_inact hI (fun j => f p q j j), Finset.mul_sum, Finset.mul_sum]
    refine Finset.sum_congr rfl fun r hr => ?_
    rw [sum_point (by simpa using hr) (fun s => f p q r s)]
    simp only [Finset.mul_sum]
  have e2 : ∑ i ∈ Finset.range nI, ∑ j ∈ Finset.range nI, ind (j ≠ i) * f j i i j
      = ∑ p ∈ Finset.range n, ∑ q ∈ Finset.range n, ∑ r ∈ Finset.range n, ∑ s ∈ Finset.range n,
        ind (p < nI) * (ind (q < nI) * (ind (p ≠ q) * (ind (r = q) * (ind (s = p) * f p q r s)))) := by
    rw [Finset.sum_comm, sum_inact hI (fun j => ∑ i ∈ Finset.range nI, ind (j ≠ i) * f j i i j)]
    refine Finset.sum_congr rfl fun p hp => ?_
    rw [sum_inact hI (fun q => ind (p ≠ q) * f p q q p), Finset.mul_sum]
    refine Finset.sum_congr rfl fun q hq => ?_
    rw [sum_point (by simpa using hq) (fun r => f p q r p), Finset.mul_sum, Finset.mul_sum,
      Finset.mul_sum]
    refine Finset.sum_congr rfl fun r hr => ?_
    rw [sum_point (by simpa using hp) (fun s => f p q r s)]
    simp only [Finset.mul_sum]
  have e3 : ∑ i ∈ Finset.range nI, ∑ p ∈ Finset.range nA, ∑ q ∈ Finset.range nA,
        f i i (nI + p) (nI + q)
      = ∑ p ∈ Finset.range n, ∑ q ∈ Finset.range n, ∑ r ∈ Finset.range n, ∑ s ∈ Finset.range n,
        ind (p < nI) * (ind (q = p) * (ind (nI ≤ r ∧ r < nI + nA) *
          (ind (nI ≤ s ∧ s < nI + nA) * f p q r s))) := by
    rw [sum_inact hI (fun i => ∑ p ∈ Finset.range nA, ∑ q ∈ Finset.range nA, f i i (nI + p) (nI + q))]
    refine Finset.sum_congr rfl fun p hp => ?_
    rw [sum_point (by simpa using hp) (fun q => ∑ r ∈ Finset.range nA, ∑ s ∈ Finset.range nA,
      f p q (nI + r) (nI + s)), Finset.mul_sum]
    refine Finset.sum_congr rfl fun q hq => ?_
    rw [sum_act hA (fun r => ∑ s ∈ Finset.range nA, f p q r (nI + s)), Finset.mul_sum, Finset.mul_sum]
    refine Finset.sum_congr rfl fun r hr => ?_
    rw [sum_act hA (fun s => f p q r s)]
    simp only [Finset.mul_sum]
  have e4 : ∑ i ∈ Finset.range nI, ∑ p ∈ Finset.range nA, ∑ q ∈ Finset.range nA,
        f (nI + p) (nI + q) i i
      = ∑ p ∈ Finset.range n, ∑ q ∈ Finset.range n, ∑ r ∈ Finset.range n, ∑ s ∈ Finset.range n,
        ind (nI ≤ p ∧ p < nI + nA) * (ind (nI ≤ q ∧ q < nI + nA) *
          (ind (r < nI) * (ind (s = r) * f p q r s))) := by
    rw [Finset.sum_comm]
    rw [sum_act hA (fun p => ∑ i ∈ Finset.range nI, ∑ q ∈ Finset.range nA, f p (nI + q) i i)]
    refine Finset.sum_congr rfl fun p hp => ?_
    rw [Finset.sum_comm]
    rw [sum_act hA (fun q => ∑ i ∈ Finset.range nI, f p q i i), Finset.mul_sum]
    refine Finset.sum_congr rfl fun q hq => ?_
    rw [sum_inact hI (fun r => f p q r r), Finset.mul_sum, Finset.mul_sum]
    refine Finset.sum_congr rfl fun r hr => ?_
    rw [sum_point (by simpa using hr) (fun s => f p q r s)]
    simp only [Finset.mul_sum]
  have e5 : ∑ i ∈ Finset.range nI, ∑ p ∈ Finset.range nA, ∑ q ∈ Finset.range nA,
        f (nI + p) i i (nI + q)
      = ∑ p ∈ Finset.range n, ∑ q ∈ Finset.range n, ∑ r ∈ Finset.range n, ∑ s ∈ Finset.range n,
        ind (nI ≤ p ∧ p < nI + nA) * (ind (q < nI) * (ind (r = q) *
          (ind (nI ≤ s ∧ s < nI + nA) * f p q r s))) := by
    rw [Finset.sum_comm]
    rw [sum_act hA (fun p => ∑ i ∈ Finset.range nI, ∑ q ∈ Finset.range nA, f p i i (nI + q))]
    refine Finset.sum_congr rfl fun p hp => ?_
    rw [sum_inact hI (fun q => ∑ s ∈ Finset.range nA, f p q q (nI + s)), Finset.mul_sum]
    refine Finset.sum_congr rfl fun q hq => ?_
    rw [sum_point (by simpa using hq) (fun r => ∑ s ∈ Finset.range nA, f p q r (nI + s)),
      Finset.mul_sum, Finset.mul_sum]
    refine Finset.sum_congr rfl fun r hr => ?_
    rw [sum_act hA (fun s => f p q r s)]
    simp only [Finset.mul_sum]
  have e6 : ∑ i ∈ Finset.range nI, ∑ p ∈ Finset.range nA, ∑ q ∈ Finset.range nA,
        f i (nI + p) (nI + q) i
      = ∑ p ∈ Finset.range n, ∑ q ∈ Finset.range n, ∑ r ∈ Finset.range n, ∑ s ∈ Finset.range n,
        ind (p < nI) * (ind (nI ≤ q ∧ q < nI + nA) * (ind (nI ≤ r ∧ r < nI + nA) *
          (ind (s = p) * f p q r s))) := by
    rw [sum_inact hI (fun i => ∑ p ∈ Finset.range nA, ∑ q ∈ Finset.range nA, f i (nI + p) (nI + q) i)]
    refine Finset.sum_congr rfl fun p hp => ?_
    rw [sum_act hA (fun q => ∑ r ∈ Finset.range nA, f p q (nI + r) p), Finset.mul_sum]
    refine Finset.sum_congr rfl fun q hq => ?_
    rw [sum_act hA (fun r => f p q r p), Finset.mul_sum, Finset.mul_sum]
    refine Finset.sum_congr rfl fun r hr => ?_
    rw [sum_point (by simpa using hp) (fun s => f p q r s)]
    simp only [Finset.mul_sum]
  have e7 : ∑ p ∈ Finset.range nA, ∑ q ∈ Finset.range nA, ∑ r ∈ Finset.range nA, ∑ s ∈ Finset.range nA,
        f (nI + p) (nI + q) (nI + r) (nI + s)
      = ∑ p ∈ Finset.range n, ∑ q ∈ Finset.range n, ∑ r ∈ Finset.range n, ∑ s ∈ Finset.range n,
        ind (nI ≤ p ∧ p < nI + nA) * (ind (nI ≤ q ∧ q < nI + nA) * (ind (nI ≤ r ∧ r < nI + nA) *
          (ind (nI ≤ s ∧ s < nI + nA) * f p q r s))) := by
    rw [sum_act hA (fun p => ∑ q ∈ Finset.range nA, ∑ r ∈ Finset.range nA, ∑ s ∈ Finset.range nA,
        f p (nI + q) (nI + r) (nI + s))]
    refine Finset.sum_congr rfl fun p hp => ?_
    rw [sum_act hA (fun q => ∑ r ∈ Finset.range nA, ∑ s ∈ Finset.range nA,
        f p q (nI + r) (nI + s)), Finset.mul_sum]
    refine Finset.sum_congr rfl fun q hq => ?_
    rw [sum_act hA (fun r => ∑ s ∈ Finset.range nA, f p q r (nI + s)), Finset.mul_sum, Finset.mul_sum]
    refine Finset.sum_congr rfl fun r hr => ?_
    rw [sum_act hA (fun s => f p q r s)]
    simp only [Finset.mul_sum]
  simp only [Finset.sum_add_distrib]
  rw [e1, e2, e3, e4, e5, e6, e7]
  simp only [← Finset.sum_add_distrib]
  refine Finset.sum_congr rfl fun p _ => Finset.sum_congr rfl fun q _ =>
    Finset.sum_congr rfl fun r _ => Finset.sum_congr rfl fun s _ => ?_
  by_cases hz : f p q r s = 0
  · simp [hz]
  · obtain ⟨v1, v2, v3, v4, v5⟩ := v p q r s hz
    have bp := v5 p
    have bq := v5 q
    have br := v5 r
    have bs := v5 s
    simp only [v1, v2, v3, v4, and_true]
    exact (pointwise nI p q r s (f p q r s) bp bq br bs).symm ▸ rfl

/-- C12: between states with filled inactive and empty virtual orbitals, `hamiltonian_0i_0a` and
`one_elec_op_0i_0a` have the matrix elements of the full-space operators. -/
theorem C12_active {tiny big : K → Bool} (ht : ExactTiny tiny) (hb : ExactBig big) (h : ℕ → ℕ → K)
    (g : ℕ → ℕ → ℕ → ℕ → K) (nI nA nV : ℕ) {x y : Fock K} (hx : ActiveState nI nA x)
    (hy : ActiveState nI nA y) :
    (∃ d f, hamiltonian0i0a tiny big h g nI nA = .ok d ∧
      hamiltonianFull tiny h g (nI + nA + nV) = .ok f ∧
      inner x (sumOp d y) = inner x (sumOp f y)) ∧
    (∃ d f, oneElec0i0a tiny big h nI nA = .ok d ∧
      oneElecFull tiny big h (nI + nA + nV) = .ok f ∧
      inner x (sumOp d y) = inner x (sumOp f y)) := by
  obtain ⟨c1, c2⟩ := C11_form ht hb h g (nI + nA + nV)
  obtain ⟨f1, a1, _, a3⟩ := c1
  obtain ⟨f2, b1, _, b3⟩ := c2
  obtain ⟨d1, k1, _, k3⟩ := den_hamiltonian0i0a ht hb h g nI nA
  obtain ⟨d2, l1, _, l3⟩ := den_oneElec0i0a ht hb h nI nA
  refine ⟨⟨d1, f1, k1, a1, ?_⟩, ⟨d2, f2, l1, b1, ?_⟩⟩
  · rw [k3, a3, ← mel_apply, ← mel_apply, map_add, map_add, one0_mel (nV := nV) h hx hy,
      two0_mel (nV := nV) g hx hy]
  · rw [l3, b3, ← mel_apply, ← mel_apply, one0_mel (nV := nV) h hx hy]

/-- An active state with one inactive and two active orbitals, in superposition. -/
example : ActiveState 1 2 (sgl {0, 1, 2, 3} 3 + sgl {0, 1, 2, 5} (-2) : Fock ℚ) := by
  intro S hS
  have : S = {0, 1, 2, 3} ∨ S = {0, 1, 2, 5} := by
    by_contra hne
    push Not at hne
    apply hS
    rw [coeff_add, coeff_sgl, coeff_sgl, if_neg (Ne.symm hne.1), if_neg (Ne.symm hne.2), add_zero]
  rcases this with rfl | rfl
  · exact ⟨by decide, by decide⟩
  · exact ⟨by decide, by decide⟩

end SQ
