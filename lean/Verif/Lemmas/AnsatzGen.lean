import Verif.Model.Ansatz
import Verif.Spec.Ansatz
import Verif.Lemmas.ClosedSpace
import Verif.Props.Excitations

/-! # The generators of the ansatz: what they denote and which orbitals they touch -/

namespace SQ

variable {R : Type*} [CommRing R]

/-- The result denotes `T`, conserves electrons of each spin string by string and only touches
orbitals in `P`. -/
def DK (P : ℕ → Prop) (r : Res (Dict R)) (T : FOp R) : Prop :=
  ∃ d, r = .ok d ∧ NumCons d ∧ sumOp d = T ∧ Keys P (fun _ => 0) d

section
variable {tiny : R → Bool} {P : ℕ → Prop}

theorem DK.of {r : Res (Dict R)} {T : FOp R} (h : Den r T) (k : RKeys P (fun _ => 0) r) : DK P r T := by
  obtain ⟨d, h1, h2, h3⟩ := h
  exact ⟨d, h1, h2, h3, k d h1⟩

theorem dk_antiH (ht : ExactTiny tiny) {A : Dict R} (hA : NumCons A) (hk : Keys P (fun _ => 0) A)
    {Td : FOp R} (hT : IsAdjoint (sumOp A) Td) : DK P (antiH tiny true A) (sumOp A - Td) :=
  DK.of (by simpa using den_antiH ht hA hT true) (keys_antiH hA.wf hk true)

theorem DK.antiH (ht : ExactTiny tiny) {r : Res (Dict R)} {T Td : FOp R} (h : DK P r T)
    (hT : IsAdjoint T Td) : DK P (r >>= SQ.antiH tiny true) (T - Td) := by
  obtain ⟨d, rfl, h2, h3, h4⟩ := h
  subst h3
  exact dk_antiH ht h2 h4 hT

/-- Weight of a creation/annihilation string. -/
theorem strWeight_exc (w : ℕ → ℤ) (C A : List ℕ) :
    strWeight w ((C.map fun p => (p, true)) ++ A.map fun p => (p, false))
      = (C.map w).sum - (A.map w).sum := by
  have e1 : ∀ C : List ℕ, strWeight w (C.map fun p => (p, true)) = (C.map w).sum := by
    intro C
    induction C with
    | nil => simp [strWeight]
    | cons p C ih => simp only [strWeight, List.map_cons, List.sum_cons] at *; rw [ih]; simp
  have e2 : ∀ C : List ℕ, strWeight w (C.map fun p => (p, false)) = -(C.map w).sum := by
    intro C
    induction C with
    | nil => simp [strWeight]
    | cons p C ih => simp only [strWeight, List.map_cons, List.sum_cons] at *; rw [ih]; simp; ring
  rw [strWeight_append, e1, e2]; ring

/-- Lists with equally many entries of each spin have equal weight. -/
theorem spinW_sum {w : ℕ → ℤ} (hw : SpinW w) (C A : List ℕ) (hl : C.length = A.length)
    (hs : C.countP (· % 2 = 1) = A.countP (· % 2 = 1)) : (C.map w).sum = (A.map w).sum := by
  have key : ∀ C : List ℕ, (C.map w).sum
      = w 0 * (C.length - C.countP (· % 2 = 1)) + w 1 * C.countP (· % 2 = 1) := by
    intro C
    induction C with
    | nil => simp
    | cons p C ih =>
      rw [List.map_cons, List.sum_cons, ih, List.length_cons, List.countP_cons]
      rcases Nat.mod_two_eq_zero_or_one p with h | h
      · have : w p = w 0 := by
          have := (hw (p / 2)).1
          rwa [show 2 * (p / 2) = p by omega] at this
        rw [this]; simp [h]; ring
      · have : w p = w 1 := by
          have := (hw (p / 2)).2
          rwa [show 2 * (p / 2) + 1 = p by omega] at this
        rw [this]; simp [h]; ring
  rw [key, key, hl, hs]

theorem dk_G (ht : ExactTiny tiny) (C A : List ℕ) (hl : C.length = A.length) (h0 : C ≠ [])
    (hP : ∀ p ∈ C ++ A, P p) (hs : C.countP (· % 2 = 1) = A.countP (· % 2 = 1)) :
    DK P (do antiH tiny true (← gChain tiny ((C.map fun p => (p, true)) ++ A.map fun p => (p, false))))
      (excite C A - excite A.reverse C.reverse) := by
  refine DK.antiH ht (DK.of ?_ (keys_gChain ?_ ?_)) (adjoint_excite C A)
  · have := den_gChain (R := R) ht C A hl h0
    rwa [← excite_eq] at this
  · intro o ho
    rcases List.mem_append.1 ho with h | h <;> obtain ⟨p, hp, rfl⟩ := List.mem_map.1 h <;>
      exact hP p (by simp [hp])
  · intro w hw
    rw [strWeight_exc, spinW_sum hw C A hl hs, sub_self]

theorem pair_comm {p q r s : ℕ} (h1 : q ≠ r) (h2 : p ≠ s) :
    (cr p * an q * (cr r * an s) : FOp R) = cr r * an s * (cr p * an q) := by
  have a1 : (an q * cr r : FOp R) = -(cr r * an q) := an_cr_ne h1
  have a2 : (an s * cr p : FOp R) = -(cr p * an s) := an_cr_ne h2.symm
  calc (cr p * an q * (cr r * an s) : FOp R) = cr p * (an q * cr r) * an s := by noncomm_ring
    _ = -(cr p * cr r * (an q * an s)) := by rw [a1]; noncomm_ring
    _ = -((-(cr r * cr p)) * (-(an s * an q))) := by rw [cr_cr p r, an_an q s]
    _ = cr r * (-(cr p * an s)) * an q := by noncomm_ring
    _ = cr r * an s * (cr p * an q) := by rw [← a2]; noncomm_ring

theorem E_comm_ne {p q r s : ℕ} (h1 : q ≠ r) (h2 : p ≠ s) : (E p q * E r s : FOp R) = E r s * E p q := by
  unfold E
  rw [add_mul, mul_add, mul_add, add_mul, mul_add, mul_add,
    pair_comm (p := 2 * p) (q := 2 * q) (r := 2 * r) (s := 2 * s) (by omega) (by omega),
    pair_comm (p := 2 * p) (q := 2 * q) (r := 2 * r + 1) (s := 2 * s + 1) (by omega) (by omega),
    pair_comm (p := 2 * p + 1) (q := 2 * q + 1) (r := 2 * r) (s := 2 * s) (by omega) (by omega),
    pair_comm (p := 2 * p + 1) (q := 2 * q + 1) (r := 2 * r + 1) (s := 2 * s + 1) (by omega) (by omega)]
  abel

theorem keys_EE {p q r s : ℕ} (hp : Both P p) (hq : Both P q) (hr : Both P r) (hs : Both P s)
    {A B C : Dict R} (h1 : Epq tiny p q = .ok A) (h2 : Epq tiny r s = .ok B) (h3 : fmul tiny A B = .ok C) :
    Keys P (fun _ => 0) C :=
  (Keys.mul0 (keys_Epq hp hq A h1) (keys_Epq hr hs B h2)) C h3

theorem dk_G2sa (ht : ExactTiny tiny) (half c5 : R) (isqrt : ℕ → R) {i j a b : ℕ} (case : ℕ)
    (hc : 1 ≤ case ∧ case ≤ 5) (hi : Both P i) (hj : Both P j) (ha : Both P a) (hb : Both P b) :
    DK P (G2sa tiny half c5 isqrt i j a b case true)
      (if case = 5 then c5 • (E a i * E b j - E a j * E b i) - c5 • (E j b * E i a - E i b * E j a)
       else (half * isqrt ((if a = b then 2 else 1) * (if i = j then 2 else 1)))
          • (E a i * E b j + E a j * E b i)
        - (half * isqrt ((if a = b then 2 else 1) * (if i = j then 2 else 1)))
          • (E j b * E i a + E i b * E j a)) := by
  obtain ⟨d1, h1, h2, h3⟩ := den_Epq (R := R) ht a i
  obtain ⟨d2, g1, g2, g3⟩ := den_Epq (R := R) ht b j
  obtain ⟨d3, k1, k2, k3⟩ := den_mul ht h2 g2
  obtain ⟨d4, l1, l2, l3⟩ := den_Epq (R := R) ht a j
  obtain ⟨d5, m1, m2, m3⟩ := den_Epq (R := R) ht b i
  obtain ⟨d6, n1, n2, n3⟩ := den_mul ht l2 m2
  have K1 := keys_EE ha hi hb hj h1 g1 k1
  have K2 := keys_EE ha hj hb hi l1 m1 n1
  have hadj1 := (adjoint_E (R := R) a i).mul (adjoint_E b j)
  have hadj2 := (adjoint_E (R := R) a j).mul (adjoint_E b i)
  rw [h3, g3] at k3
  rw [l3, m3] at n3
  by_cases h5 : case = 5
  · subst h5
    have hno : ¬ (5 = 1 ∨ 5 = 2 ∨ 5 = 3 ∨ 5 = 4) := by omega
    have e : G2sa tiny half c5 isqrt i j a b 5 true
        = antiH tiny true (frmul c5 (fsub tiny d3 d6)) := by
      simp only [G2sa, hno, if_false, if_true, h1, g1, k1, l1, m1, n1, ok_bind, res_pure]
    have es : sumOp (frmul c5 (fsub tiny d3 d6)) = c5 • (E a i * E b j - E a j * E b i : FOp R) := by
      rw [sumOp_frmul, sumOp_fsub ht, k3, n3]
    rw [e, if_pos rfl, ← es]
    refine dk_antiH ht ((k2.sub n2).rmul _) ((K1.fsub K2).frmul _) ?_
    rw [es]; exact (hadj1.sub hadj2).smul c5
  · have hcase : case = 1 ∨ case = 2 ∨ case = 3 ∨ case = 4 := by omega
    rw [if_neg h5]
    set z := half * isqrt ((if a = b then 2 else 1) * (if i = j then 2 else 1)) with hz
    have e : G2sa tiny half c5 isqrt i j a b case true
        = antiH tiny true (frmul z (fadd tiny d3 d6)) := by
      simp only [G2sa, hcase, if_true, h1, g1, k1, l1, m1, n1, ok_bind, res_pure, hz]
    have es : sumOp (frmul z (fadd tiny d3 d6)) = z • (E a i * E b j + E a j * E b i : FOp R) := by
      rw [sumOp_frmul, sumOp_fadd ht, k3, n3]
    rw [e, ← es]
    refine dk_antiH ht ((k2.add n2).rmul _) ((K1.fadd K2).frmul _) ?_
    rw [es]; exact (hadj1.add hadj2).smul z

end

end SQ
