import Verif.Lemmas.AnsatzGen
import Verif.Lemmas.SaFreq

/-! # Action of the ansatz factors on CI vectors -/

namespace SQ

/-- Orbitals of the active block. -/
def InBlock (off n p : ℕ) : Prop := 2 * off ≤ p ∧ p < 2 * (off + n)

theorem both_block {off n p : ℕ} (h : p < n) : Both (InBlock off n) (p + off) := by
  constructor <;> constructor <;> omega

theorem block_spin {off n p : ℕ} (h : p < 2 * n) : InBlock off n (p + 2 * off) := by
  constructor <;> omega

section
variable {tiny : ℝ → Bool}

theorem DK.congr {P : ℕ → Prop} {r : Res (Dict ℝ)} {T T' : FOp ℝ} (h : DK P r T) (e : T = T') :
    DK P r T' := e ▸ h

theorem countP_shift (off : ℕ) (l : List ℕ) :
    (l.map (· + 2 * off)).countP (· % 2 = 1) = l.countP (· % 2 = 1) := by
  rw [List.countP_map]
  apply List.countP_congr
  intro x _
  simp only [Function.comp, decide_eq_true_eq]
  omega

theorem len1 {l : List ℕ} (h : l.length = 1) : ∃ a, l = [a] := List.length_eq_one_iff.1 h
theorem lenS {l : List ℕ} {n : ℕ} (h : l.length = n + 1) : ∃ a t, l = a :: t ∧ t.length = n := by
  cases l with
  | nil => simp at h
  | cons a t => exact ⟨a, t, rfl, by simpa using h⟩

/-- Spin-orbital excitations. -/
theorem dk_spin (ht : ExactTiny tiny) (off n k : ℕ) (hk : 1 ≤ k ∧ k ≤ 6) (I A : List ℕ)
    (hI : I.length = k) (hA : A.length = k) (hr : ∀ p ∈ I ++ A, p < 2 * n)
    (hs : I.countP (· % 2 = 1) = A.countP (· % 2 = 1)) :
    DK (InBlock off n) (excT tiny off (spinName k) (I ++ A))
      (excite (A.map (· + 2 * off)) (I.map (· + 2 * off)).reverse
          - excite (I.map (· + 2 * off)) (A.map (· + 2 * off)).reverse) := by
  have key := dk_G (P := InBlock off n) (R := ℝ) ht (A.map (· + 2 * off)) (I.map (· + 2 * off)).reverse
    (by simp [hI, hA]) (by intro h; have := congrArg List.length h; simp [hA] at this; omega)
    (by
      intro p hp
      simp only [List.mem_append, List.mem_reverse, List.mem_map] at hp
      rcases hp with ⟨q, hq, rfl⟩ | ⟨q, hq, rfl⟩ <;> exact block_spin (hr q (by simp [hq])))
    (by rw [List.countP_reverse, countP_shift, countP_shift, hs])
  rw [List.reverse_reverse] at key
  have hk6 : k = 1 ∨ k = 2 ∨ k = 3 ∨ k = 4 ∨ k = 5 ∨ k = 6 := by omega
  rcases hk6 with rfl | rfl | rfl | rfl | rfl | rfl
  · obtain ⟨i1, t1, rfl, h1⟩ := lenS hI
    obtain ⟨a1, u1, rfl, g1⟩ := lenS hA
    obtain rfl := List.length_eq_zero_iff.1 h1
    obtain rfl := List.length_eq_zero_iff.1 g1
    exact key
  · obtain ⟨i1, t1, rfl, h1⟩ := lenS hI
    obtain ⟨a1, u1, rfl, g1⟩ := lenS hA
    obtain ⟨i2, t2, rfl, h2⟩ := lenS h1
    obtain ⟨a2, u2, rfl, g2⟩ := lenS g1
    obtain rfl := List.length_eq_zero_iff.1 h2
    obtain rfl := List.length_eq_zero_iff.1 g2
    exact key
  · obtain ⟨i1, t1, rfl, h1⟩ := lenS hI
    obtain ⟨a1, u1, rfl, g1⟩ := lenS hA
    obtain ⟨i2, t2, rfl, h2⟩ := lenS h1
    obtain ⟨a2, u2, rfl, g2⟩ := lenS g1
    obtain ⟨i3, t3, rfl, h3⟩ := lenS h2
    obtain ⟨a3, u3, rfl, g3⟩ := lenS g2
    obtain rfl := List.length_eq_zero_iff.1 h3
    obtain rfl := List.length_eq_zero_iff.1 g3
    exact key
  · obtain ⟨i1, t1, rfl, h1⟩ := lenS hI
    obtain ⟨a1, u1, rfl, g1⟩ := lenS hA
    obtain ⟨i2, t2, rfl, h2⟩ := lenS h1
    obtain ⟨a2, u2, rfl, g2⟩ := lenS g1
    obtain ⟨i3, t3, rfl, h3⟩ := lenS h2
    obtain ⟨a3, u3, rfl, g3⟩ := lenS g2
    obtain ⟨i4, t4, rfl, h4⟩ := lenS h3
    obtain ⟨a4, u4, rfl, g4⟩ := lenS g3
    obtain rfl := List.length_eq_zero_iff.1 h4
    obtain rfl := List.length_eq_zero_iff.1 g4
    exact key
  · obtain ⟨i1, t1, rfl, h1⟩ := lenS hI
    obtain ⟨a1, u1, rfl, g1⟩ := lenS hA
    obtain ⟨i2, t2, rfl, h2⟩ := lenS h1
    obtain ⟨a2, u2, rfl, g2⟩ := lenS g1
    obtain ⟨i3, t3, rfl, h3⟩ := lenS h2
    obtain ⟨a3, u3, rfl, g3⟩ := lenS g2
    obtain ⟨i4, t4, rfl, h4⟩ := lenS h3
    obtain ⟨a4, u4, rfl, g4⟩ := lenS g3
    obtain ⟨i5, t5, rfl, h5⟩ := lenS h4
    obtain ⟨a5, u5, rfl, g5⟩ := lenS g4
    obtain rfl := List.length_eq_zero_iff.1 h5
    obtain rfl := List.length_eq_zero_iff.1 g5
    exact key
  · obtain ⟨i1, t1, rfl, h1⟩ := lenS hI
    obtain ⟨a1, u1, rfl, g1⟩ := lenS hA
    obtain ⟨i2, t2, rfl, h2⟩ := lenS h1
    obtain ⟨a2, u2, rfl, g2⟩ := lenS g1
    obtain ⟨i3, t3, rfl, h3⟩ := lenS h2
    obtain ⟨a3, u3, rfl, g3⟩ := lenS g2
    obtain ⟨i4, t4, rfl, h4⟩ := lenS h3
    obtain ⟨a4, u4, rfl, g4⟩ := lenS g3
    obtain ⟨i5, t5, rfl, h5⟩ := lenS h4
    obtain ⟨a5, u5, rfl, g5⟩ := lenS g4
    obtain ⟨i6, t6, rfl, h6⟩ := lenS h5
    obtain ⟨a6, u6, rfl, g6⟩ := lenS g5
    obtain rfl := List.length_eq_zero_iff.1 h6
    obtain rfl := List.length_eq_zero_iff.1 g6
    exact key

theorem dk_saDouble (ht : ExactTiny tiny) (off n : ℕ) {i j a b : ℕ} (case : ℕ)
    (hc : 1 ≤ case ∧ case ≤ 5) (hr : ∀ p ∈ [i, j, a, b], p < n) :
    DK (InBlock off n) (saDouble tiny off case [i, j, a, b])
      (if case = 5 then (1 / (2 * Real.sqrt 3))
          • (E (a + off) (i + off) * E (b + off) (j + off) - E (a + off) (j + off) * E (b + off) (i + off))
        - (1 / (2 * Real.sqrt 3))
          • (E (j + off) (b + off) * E (i + off) (a + off) - E (i + off) (b + off) * E (j + off) (a + off))
       else (1 / 2 * (Real.sqrt (((if a + off = b + off then 2 else 1) *
            (if i + off = j + off then 2 else 1) : ℕ) : ℝ))⁻¹)
          • (E (a + off) (i + off) * E (b + off) (j + off) + E (a + off) (j + off) * E (b + off) (i + off))
        - (1 / 2 * (Real.sqrt (((if a + off = b + off then 2 else 1) *
            (if i + off = j + off then 2 else 1) : ℕ) : ℝ))⁻¹)
          • (E (j + off) (b + off) * E (i + off) (a + off)
            + E (i + off) (b + off) * E (j + off) (a + off))) :=
  dk_G2sa (P := InBlock off n) ht (1 / 2 : ℝ) (1 / (2 * Real.sqrt 3)) (fun k => (Real.sqrt k)⁻¹)
    (i := i + off) (j := j + off) (a := a + off) (b := b + off) case hc
    (both_block (hr i (by simp))) (both_block (hr j (by simp))) (both_block (hr a (by simp)))
    (both_block (hr b (by simp)))

/-- All excitations but the spin-adapted single have a generator made by one call. -/
theorem dk_exc (ht : ExactTiny tiny) {off n : ℕ} {ty : String} {idx : List ℕ} {T : FOp ℝ}
    (h : Excitation off n ty idx T) (hty : ty ≠ "sa_single") :
    DK (InBlock off n) (excT tiny off ty idx) T := by
  cases h with
  | spin k hk I A hI hA hr hs => exact dk_spin ht off n k hk I A hI hA hr hs
  | saSingle i a hr => exact absurd rfl hty
  | saDouble1 i a hd hr =>
    have := dk_saDouble ht off n (i := i) (j := i) (a := a) (b := a) 1 (by omega)
      (by intro p hp; exact hr p (by simpa using hp))
    rw [if_neg (by omega), if_pos rfl, if_pos rfl] at this
    have e4 : Real.sqrt ((2 * 2 : ℕ) : ℝ) = 2 := by
      rw [show ((2 * 2 : ℕ) : ℝ) = 2 ^ 2 by norm_num]; exact Real.sqrt_sq (by norm_num)
    rw [e4] at this
    exact this.congr (by module)
  | saDouble2 i a b hd hr =>
    have := dk_saDouble ht off n (i := i) (j := i) (a := a) (b := b) 2 (by omega)
      (by intro p hp; exact hr p (by simpa using hp))
    have hab : a + off ≠ b + off := by simp at hd ⊢; tauto
    rw [if_neg (by omega), if_neg hab, if_pos rfl] at this
    have e2 : Real.sqrt ((1 * 2 : ℕ) : ℝ) = Real.sqrt 2 := by norm_num
    rw [e2] at this
    exact this.congr (by module)
  | saDouble3 i j a hd hr =>
    have := dk_saDouble ht off n (i := i) (j := j) (a := a) (b := a) 3 (by omega)
      (by intro p hp; exact hr p (by simpa using hp))
    have hij : i + off ≠ j + off := by simp at hd ⊢; tauto
    have hia : i + off ≠ a + off := by simp at hd ⊢; tauto
    have hja : j + off ≠ a + off := by simp at hd ⊢; tauto
    rw [if_neg (by omega), if_pos rfl, if_neg hij] at this
    have e2 : Real.sqrt ((2 * 1 : ℕ) : ℝ) = Real.sqrt 2 := by norm_num
    rw [e2, E_comm_ne (p := a + off) (q := j + off) (r := a + off) (s := i + off) hja hia.symm,
      E_comm_ne (p := i + off) (q := a + off) (r := j + off) (s := a + off) hja.symm hia] at this
    exact this.congr (by module)
  | saDouble4 i j a b hd hr =>
    have := dk_saDouble ht off n (i := i) (j := j) (a := a) (b := b) 4 (by omega) hr
    have hij : i + off ≠ j + off := by simp at hd ⊢; tauto
    have hab : a + off ≠ b + off := by simp at hd ⊢; tauto
    rw [if_neg (by omega), if_neg hab, if_neg hij] at this
    have e1 : (Real.sqrt ((1 * 1 : ℕ) : ℝ))⁻¹ = 1 := by norm_num
    rw [e1] at this
    exact this.congr (by module)
  | saDouble5 i j a b hd hr =>
    have := dk_saDouble ht off n (i := i) (j := j) (a := a) (b := b) 5 (by omega) hr
    rw [if_pos rfl] at this
    exact this.congr (by module)

end

end SQ
