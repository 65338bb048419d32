import Verif.Lemmas.Modes
import Verif.Spec.Excitations

/-! # Polynomial identities of excitation operators, by computation on occupation masks -/

namespace SQ

variable {R : Type*} [CommRing R]

/-- Integer combination of masks. -/
abbrev MLC := List (ℕ × ℤ)
/-- Integer combination of strings of ladder operators of the chosen orbitals. -/
abbrev MOp := List (ℤ × List (ℕ × Bool))

/-- Add `c` times mask `m`; zero entries are removed. -/
def mAdd (m : ℕ) (c : ℤ) : MLC → MLC
  | [] => if c = 0 then [] else [(m, c)]
  | (m', c') :: t =>
    if m' = m then (if c' + c = 0 then t else (m', c' + c) :: t) else (m', c') :: mAdd m c t

/-- Action of a string on a mask. -/
def mStr : List (ℕ × Bool) → ℤ × ℕ → ℤ × ℕ
  | [], x => x
  | (k, b) :: t, x =>
    if (mStr t x).1 = 0 then (0, 0)
    else ((mStr t x).1 * (modeAct k b (mStr t x).2).1, (modeAct k b (mStr t x).2).2)

/-- Action of an operator on `c` times mask `m`, added to `acc`. -/
def mOp1 (m : ℕ) (c : ℤ) : MOp → MLC → MLC
  | [], acc => acc
  | (d, s) :: t, acc => mOp1 m c t (mAdd (mStr s (c * d, m)).2 (mStr s (c * d, m)).1 acc)

/-- Action of an operator on a combination. -/
def mOp (X : MOp) : MLC → MLC → MLC
  | [], acc => acc
  | (m, c) :: t, acc => mOp X t (mOp1 m c X acc)

/-- `acc + c • v`. -/
def mAxpy (c : ℤ) : MLC → MLC → MLC
  | [], acc => acc
  | (m, d) :: t, acc => mAxpy c t (mAdd m (c * d) acc)

/-- `∏ (X² + c)` over the list, applied to `v`. -/
def mHorner (X : MOp) : List ℤ → MLC → MLC
  | [], v => v
  | c :: cs, v => mAxpy c (mHorner X cs v) (mOp X (mOp X (mHorner X cs v) []) [])

/-- `X ∏ (X² + c)` vanishes on all masks below `N`. -/
def mCheck (X : MOp) (cs : List ℤ) (N : ℕ) : Bool :=
  (List.range N).all fun m => (mOp X (mHorner X cs [(m, 1)]) []).isEmpty

section sound
variable (ps : List ℕ) (H : Finset ℕ)

/-- The vector a combination stands for. -/
noncomputable def mVec (v : MLC) : Fock R := (v.map fun x => x.2 • modeVec ps x.1 H).sum

/-- The Fock string a string over the chosen orbitals stands for. -/
def mLads (s : List (ℕ × Bool)) : Str := s.map fun x => (ps.getD x.1 0, x.2)

/-- The operator an operator over the chosen orbitals stands for. -/
noncomputable def mDen (X : MOp) : FOp R := (X.map fun x => x.1 • strOp (mLads ps x.2)).sum

theorem mVec_add (m : ℕ) (c : ℤ) (v : MLC) :
    (mVec ps H (mAdd m c v) : Fock R) = mVec ps H v + c • modeVec ps m H := by
  induction v with
  | nil => unfold mAdd; split <;> simp_all [mVec]
  | cons x t ih =>
    obtain ⟨m', c'⟩ := x
    unfold mAdd
    split
    · rename_i h; subst h
      split
      · rename_i h
        have : (mVec ps H t : Fock R) = (c' + c) • modeVec ps m' H + mVec ps H t := by rw [h]; simp
        rw [this]; simp only [mVec, List.map_cons, List.sum_cons, add_smul]; abel
      · simp only [mVec, List.map_cons, List.sum_cons, add_smul]; abel
    · have : (mVec ps H ((m', c') :: mAdd m c t) : Fock R)
          = c' • modeVec ps m' H + mVec ps H (mAdd m c t) := by simp [mVec]
      rw [this, ih]; simp only [mVec, List.map_cons, List.sum_cons]; abel

theorem mVec_axpy (c : ℤ) (v acc : MLC) :
    (mVec ps H (mAxpy c v acc) : Fock R) = mVec ps H acc + c • mVec ps H v := by
  induction v generalizing acc with
  | nil => simp [mAxpy, mVec]
  | cons x t ih =>
    obtain ⟨m, d⟩ := x
    unfold mAxpy
    rw [ih, mVec_add]
    simp only [mVec, List.map_cons, List.sum_cons, smul_add, mul_smul]; abel

variable {ps H}

/-- All orbital positions of the operator are in range. -/
def MOp.InRange (X : MOp) (n : ℕ) : Prop := ∀ x ∈ X, ∀ o ∈ x.2, o.1 < n

instance (X : MOp) (n : ℕ) : Decidable (X.InRange n) := by unfold MOp.InRange; infer_instance

theorem mStr_sound (hn : ps.Nodup) (hH : ∀ p ∈ ps, p ∉ H) (s : List (ℕ × Bool))
    (hs : ∀ o ∈ s, o.1 < ps.length) (x : ℤ × ℕ) :
    (strOp (mLads ps s) (x.1 • modeVec ps x.2 H) : Fock R)
      = (mStr s x).1 • modeVec ps (mStr s x).2 H := by
  induction s with
  | nil => simp [mLads, mStr, strOp]
  | cons o t ih =>
    obtain ⟨k, b⟩ := o
    have hk : k < ps.length := hs (k, b) (by simp)
    have e : (strOp (mLads ps ((k, b) :: t)) : FOp R)
        = ladder (ps[k], b) * strOp (mLads ps t) := by
      have : mLads ps ((k, b) :: t) = (ps[k], b) :: mLads ps t := by
        simp [mLads, List.getElem?_eq_getElem hk]
      rw [this, strOp_cons]
    rw [e, Module.End.mul_apply, ih fun o ho => hs o (by simp [ho]), map_zsmul,
      modeAct_sound ps hn H hH k hk]
    have em : mStr ((k, b) :: t) x = if (mStr t x).1 = 0 then (0, 0)
        else ((mStr t x).1 * (modeAct k b (mStr t x).2).1, (modeAct k b (mStr t x).2).2) := rfl
    rw [em]
    by_cases h : (mStr t x).1 = 0
    · rw [if_pos h, h]; simp
    · rw [if_neg h, smul_smul]

theorem mOp1_sound (hn : ps.Nodup) (hH : ∀ p ∈ ps, p ∉ H) (X : MOp) (hX : X.InRange ps.length)
    (m : ℕ) (c : ℤ) (acc : MLC) :
    (mVec ps H (mOp1 m c X acc) : Fock R)
      = mVec ps H acc + mDen ps X (c • modeVec ps m H) := by
  induction X generalizing acc with
  | nil => simp [mOp1, mDen]
  | cons x t ih =>
    obtain ⟨d, s⟩ := x
    unfold mOp1
    rw [ih fun y hy => hX y (by simp [hy]), mVec_add,
      ← mStr_sound hn hH s (hX (d, s) (by simp)) (c * d, m)]
    have : (mDen ps ((d, s) :: t) : FOp R) = d • strOp (mLads ps s) + mDen ps t := by simp [mDen]
    rw [this, LinearMap.add_apply, LinearMap.smul_apply]
    dsimp only
    rw [mul_comm c d, mul_smul, map_zsmul (strOp (mLads ps s)) d, add_assoc]

theorem mOp_sound (hn : ps.Nodup) (hH : ∀ p ∈ ps, p ∉ H) (X : MOp) (hX : X.InRange ps.length)
    (v acc : MLC) :
    (mVec ps H (mOp X v acc) : Fock R) = mVec ps H acc + mDen ps X (mVec ps H v) := by
  induction v generalizing acc with
  | nil => simp [mOp, mVec]
  | cons x t ih =>
    obtain ⟨m, c⟩ := x
    unfold mOp
    rw [ih, mOp1_sound hn hH X hX]
    have : (mVec ps H ((m, c) :: t) : Fock R) = c • modeVec ps m H + mVec ps H t := by simp [mVec]
    rw [this, map_add, add_assoc]

/-- `∏ (X² + c)`. -/
noncomputable def prodSq (T : FOp R) (cs : List ℤ) : FOp R :=
  (cs.map fun c => T * T + c • (1 : FOp R)).prod

theorem mHorner_sound (hn : ps.Nodup) (hH : ∀ p ∈ ps, p ∉ H) (X : MOp) (hX : X.InRange ps.length)
    (cs : List ℤ) (v : MLC) :
    (mVec ps H (mHorner X cs v) : Fock R) = prodSq (mDen ps X) cs (mVec ps H v) := by
  induction cs with
  | nil => simp [mHorner, prodSq]
  | cons c cs ih =>
    unfold mHorner
    have e0 : (mVec ps H [] : Fock R) = 0 := by simp [mVec]
    have e : (prodSq (mDen ps X) (c :: cs) : FOp R)
        = (mDen ps X * mDen ps X + c • (1 : FOp R)) * prodSq (mDen ps X) cs := by simp [prodSq]
    rw [mVec_axpy, mOp_sound hn hH X hX, mOp_sound hn hH X hX, e0, zero_add, zero_add, ih, e,
      Module.End.mul_apply, LinearMap.add_apply, Module.End.mul_apply, LinearMap.smul_apply,
      Module.End.one_apply]

end sound

theorem op_ext_ket {A B : FOp R} (h : ∀ S, A (ket S) = B (ket S)) : A = B :=
  fop_ext h

/-- An identity checked on the masks holds on Fock space. -/
theorem mCheck_sound (ps : List ℕ) (hn : ps.Nodup) (X : MOp) (hX : X.InRange ps.length)
    (cs : List ℤ) (h : mCheck X cs (2 ^ ps.length) = true) :
    (mDen ps X * prodSq (mDen ps X) cs : FOp R) = 0 := by
  apply op_ext_ket
  intro S
  obtain ⟨m, u, hm, e⟩ := modeVec_surj (R := R) ps S
  have hH : ∀ p ∈ ps, p ∉ S \ ps.toFinset := by
    intro p hp; simp [hp]
  have hc := (List.all_eq_true.1 h) m (List.mem_range.2 hm)
  have hv := mOp_sound (R := R) hn hH X hX (mHorner X cs [(m, 1)]) []
  rw [List.isEmpty_iff.1 hc, mHorner_sound hn hH X hX] at hv
  have e1 : (mVec ps (S \ ps.toFinset) [(m, 1)] : Fock R) = modeVec ps m (S \ ps.toFinset) := by
    simp [mVec]
  have e0 : (mVec ps (S \ ps.toFinset) [] : Fock R) = 0 := by simp [mVec]
  rw [e1, e0, zero_add] at hv
  rw [e, map_zsmul, Module.End.mul_apply, ← hv, smul_zero]; rfl

/-- `E_pq E_rs` over positions: spatial orbital `o` has positions `2o`, `2o+1`. -/
def mEE (c : ℤ) (p q r s : ℕ) : MOp :=
  [(c, [(2*p, true), (2*q, false), (2*r, true), (2*s, false)]),
   (c, [(2*p, true), (2*q, false), (2*r+1, true), (2*s+1, false)]),
   (c, [(2*p+1, true), (2*q+1, false), (2*r, true), (2*s, false)]),
   (c, [(2*p+1, true), (2*q+1, false), (2*r+1, true), (2*s+1, false)])]

/-- Spin orbitals of a list of spatial orbitals. -/
def spinOrbs (os : List ℕ) : List ℕ := os.flatMap fun o => [2 * o, 2 * o + 1]

-- i j a b at 0 1 2 3
def X45 (s : ℤ) : MOp := mEE 1 2 0 3 1 ++ mEE s 2 1 3 0 ++ mEE (-1) 1 3 0 2 ++ mEE (-s) 0 3 1 2
/-- `E_ai E_aj - h.c.` with `i j a` at `0 1 2`. -/
def X2 : MOp := mEE 1 2 0 2 1 ++ mEE (-1) 1 2 0 2
/-- `E_ai E_bi - h.c.` with `i a b` at `0 1 2`. -/
def X3 : MOp := mEE 1 1 0 2 0 ++ mEE (-1) 0 2 0 1
/-- `E_ai E_ai - h.c.` with `i a` at `0 1`. -/
def X1 : MOp := mEE 1 1 0 1 0 ++ mEE (-1) 0 1 0 1

end SQ
