import Verif.Lemmas.TrotterOde
import Mathlib.Tactic.Module
import Mathlib.Tactic.NoncommRing

/-! # The strings of a mapped excitation commute -/

namespace SQ

variable {n : ℕ}

/-! ### Signs -/

/-- `A V = s V A`. -/
def Swap (s : ℝ) (A V : QOp n) : Prop := A * V = s • (V * A)

theorem Swap.mul {s t : ℝ} {A B V : QOp n} (h1 : Swap s A V) (h2 : Swap t B V) : Swap (s * t) (A * B) V := by
  unfold Swap at *
  rw [mul_assoc, h2, mul_smul_comm, ← mul_assoc, h1, smul_mul_assoc, smul_smul, mul_assoc, mul_comm]

theorem Swap.mul_right {s t : ℝ} {A V W : QOp n} (h1 : Swap s A V) (h2 : Swap t A W) : Swap (s * t) A (V * W) := by
  unfold Swap at *
  rw [← mul_assoc, h1, smul_mul_assoc, mul_assoc, h2, mul_smul_comm, smul_smul, mul_assoc]

theorem Swap.symm {s : ℝ} (hs : s * s = 1) {A V : QOp n} (h : Swap s A V) : Swap s V A := by
  unfold Swap at *
  rw [h, smul_smul, hs, one_smul]

theorem swap_neg {A V : QOp n} : Swap (-1) A V ↔ A * V = -(V * A) := by
  have e : ((-1 : ℝ) • (V * A) : QOp n) = -(V * A) := by
    refine LinearMap.ext fun ψ => ?_
    rw [LinearMap.smul_apply, LinearMap.neg_apply, neg_one_smul]
  unfold Swap
  rw [e]

theorem swap_one {A V : QOp n} : Swap 1 A V ↔ A * V = V * A := by
  unfold Swap
  rw [one_smul]

/-- Four operators that anticommute, in the reverse order. -/
theorem rev4 {A B C D : QOp n} (hAB : Swap (-1) A B) (hAC : Swap (-1) A C) (hAD : Swap (-1) A D) (hBC : Swap (-1) B C)
    (hBD : Swap (-1) B D) (hCD : Swap (-1) C D) : A * B * C * D = D * C * B * A := by
  have h1 : Swap 1 (A * B) (C * D) := by
    have := (hAC.mul hBC).mul_right (hAD.mul hBD)
    norm_num at this
    exact this
  unfold Swap at *
  rw [one_smul] at h1
  calc A * B * C * D = A * B * (C * D) := by rw [mul_assoc]
    _ = C * D * (A * B) := h1
    _ = D * C * (B * A) := by rw [hCD, hAB]; simp
    _ = D * C * B * A := by rw [← mul_assoc]

/-! ### Modes -/

/-- Operators of the modes in use: `u k false` and `u k true` are the two strings of mode `k`. -/
structure ModeOps (n : ℕ) (enc : Fock ℝ →ₗ[ℝ] QState n) (u : ℕ → Bool → QOp n) : Prop where
  onto : ∀ ψ, ∃ X Y : Fock ℝ, Below n X ∧ Below n Y ∧ ψ = enc X + Complex.I • enc Y
  mono : ∀ k b, ∃ p, u k b = pauliLin n p
  cre : ∀ k < n, ∀ X : Fock ℝ, Below n X → enc (cr k X) = ((1 / 2 : ℂ) • (u k false - Complex.I • u k true)) (enc X)
  ann : ∀ k < n, ∀ X : Fock ℝ, Below n X → enc (an k X) = ((1 / 2 : ℂ) • (u k false + Complex.I • u k true)) (enc X)

theorem PauliMapper.modeOps {map : SDict ℝ → Res (List (List Char × ℂ))} {enc : Fock ℝ →ₗ[ℝ] QState n}
    (h : PauliMapper n map enc) : ∃ u, ModeOps n enc u := by
  classical
  refine ⟨fun k b => if hk : k < n then (if b then pauliLin n (h.modes k hk).choose_spec.choose else pauliLin n (h.modes k hk).choose)
    else pauliLin n [], h.onto, fun k b => ?_, fun k hk X hX => ?_, fun k hk X hX => ?_⟩
  · by_cases hk : k < n
    · cases b
      · exact ⟨_, by simp only [dif_pos hk]; rfl⟩
      · exact ⟨_, by simp only [dif_pos hk]; rfl⟩
    · exact ⟨[], by simp only [dif_neg hk]⟩
  · simp only [dif_pos hk]
    exact ((h.modes k hk).choose_spec.choose_spec.2.2 X hX).1
  · simp only [dif_pos hk]
    exact ((h.modes k hk).choose_spec.choose_spec.2.2 X hX).2

section
variable {enc : Fock ℝ →ₗ[ℝ] QState n} {u : ℕ → Bool → QOp n}

theorem ModeOps.ext (h : ModeOps n enc u) {A B : QOp n} (e : ∀ X, Below n X → A (enc X) = B (enc X)) : A = B := by
  refine LinearMap.ext fun ψ => ?_
  obtain ⟨X, Y, hX, hY, rfl⟩ := h.onto ψ
  rw [map_add, map_add, map_smul, map_smul, e X hX, e Y hY]

/-- Creation (`true`) and annihilation on the register. -/
noncomputable def lad (u : ℕ → Bool → QOp n) (k : ℕ) (c : Bool) : QOp n :=
  (1 / 2 : ℂ) • (u k false + (if c then -Complex.I else Complex.I) • u k true)

theorem ModeOps.onLad (h : ModeOps n enc u) {k : ℕ} (hk : k < n) (c : Bool) {X : Fock ℝ} (hX : Below n X) :
    enc (ladder (k, c) X) = lad u k c (enc X) := by
  cases c
  · exact h.ann k hk X hX
  · have := h.cre k hk X hX
    refine this.trans ?_
    refine congrFun (congrArg DFunLike.coe (?_ : (_ : QOp n) = _)) _
    refine LinearMap.ext fun ψ => ?_
    simp [lad, sub_eq_add_neg]

theorem below_ladder {k : ℕ} (hk : k < n) (c : Bool) {X : Fock ℝ} (hX : Below n X) : Below n (ladder (k, c) X) := by
  cases c
  · exact below_an hX
  · exact below_cr hk hX

theorem ladder_anti {k l : ℕ} (h : k ≠ l) (c d : Bool) : (ladder (k, c) * ladder (l, d) : FOp ℝ) = -(ladder (l, d) * ladder (k, c)) := by
  cases c <;> cases d
  · exact an_an k l
  · exact an_cr_ne h
  · have := an_cr_ne (R := ℝ) h.symm
    change cr k * an l = -(an l * cr k)
    rw [this, neg_neg]
  · exact cr_cr k l

theorem ModeOps.anti (h : ModeOps n enc u) {k l : ℕ} (hk : k < n) (hl : l < n) (hkl : k ≠ l) (c d : Bool) :
    Swap (-1) (lad u k c) (lad u l d) := by
  rw [swap_neg]
  refine h.ext fun X hX => ?_
  have e := congrArg enc (LinearMap.congr_fun (ladder_anti hkl c d) X)
  rw [LinearMap.neg_apply, map_neg] at e
  change enc (ladder (k, c) (ladder (l, d) X)) = -enc (ladder (l, d) (ladder (k, c) X)) at e
  rw [h.onLad hk c (below_ladder hl d hX), h.onLad hl d hX, h.onLad hl d (below_ladder hk c hX), h.onLad hk c hX] at e
  exact e

theorem u_lad (u : ℕ → Bool → QOp n) (k : ℕ) : u k false = lad u k true + lad u k false ∧
    u k true = Complex.I • lad u k true - Complex.I • lad u k false := by
  have hI : Complex.I * Complex.I = -1 := Complex.I_mul_I
  unfold lad
  simp only [if_true, Bool.false_eq_true, if_false]
  constructor
  · module
  · simp only [smul_add, smul_smul]
    have e1 : Complex.I * (1 / 2 * -Complex.I) = 1 / 2 := by linear_combination (-1 / 2) * hI
    have e2 : Complex.I * (1 / 2 * Complex.I) = -1 / 2 := by linear_combination (1 / 2) * hI
    rw [e1, e2]
    module

theorem ModeOps.swap (h : ModeOps n enc u) {k l : ℕ} (hk : k < n) (hl : l < n) (hkl : k ≠ l) (b d : Bool) :
    Swap (-1) (u k b) (u l d) := by
  have key : ∀ c c', lad u k c * lad u l c' = -(lad u l c' * lad u k c) := by
    intro c c'
    exact swap_neg.1 (h.anti hk hl hkl c c')
  rw [swap_neg]
  obtain ⟨k1, k2⟩ := u_lad u k
  obtain ⟨l1, l2⟩ := u_lad u l
  cases b <;> cases d <;>
    (first | rw [k1] | rw [k2]) <;> (first | rw [l1] | rw [l2]) <;>
    simp only [mul_add, add_mul, mul_sub, sub_mul, smul_mul_assoc, mul_smul_comm, key, smul_neg, neg_neg] <;> module

/-- The two strings of a mode anticommute. -/
theorem ModeOps.swap_self (h : ModeOps n enc u) {k : ℕ} (hk : k < n) (b d : Bool) :
    Swap (if b = d then 1 else -1) (u k b) (u k d) := by
  by_cases e : b = d
  · subst e
    unfold Swap
    rw [if_pos rfl, one_smul]
  rw [if_neg e]
  have hc : lad u k true * lad u k true = 0 := by
    refine h.ext fun X hX => ?_
    have e := congrArg enc (LinearMap.congr_fun (cr_cr (R := ℝ) k k) X)
    have e' : enc (ladder (k, true) (ladder (k, true) X)) = -enc (ladder (k, true) (ladder (k, true) X)) := by
      rw [← map_neg]; exact e
    rw [h.onLad hk _ (below_ladder hk _ hX), h.onLad hk _ hX] at e'
    exact self_eq_neg.1 e'
  have ha : lad u k false * lad u k false = 0 := by
    refine h.ext fun X hX => ?_
    have e := congrArg enc (LinearMap.congr_fun (an_an (R := ℝ) k k) X)
    have e' : enc (ladder (k, false) (ladder (k, false) X)) = -enc (ladder (k, false) (ladder (k, false) X)) := by
      rw [← map_neg]; exact e
    rw [h.onLad hk _ (below_ladder hk _ hX), h.onLad hk _ hX] at e'
    exact self_eq_neg.1 e'
  obtain ⟨k1, k2⟩ := u_lad u k
  rw [swap_neg]
  cases b <;> cases d
  · exact absurd rfl e
  · rw [k1, k2]
    simp only [mul_add, add_mul, mul_sub, sub_mul, smul_mul_assoc, mul_smul_comm, hc, ha, smul_zero]
    module
  · rw [k1, k2]
    simp only [mul_add, add_mul, mul_sub, sub_mul, smul_mul_assoc, mul_smul_comm, hc, ha, smul_zero]
    module
  · exact absurd rfl e

theorem ModeOps.adj (h : ModeOps n enc u) (k : ℕ) (b : Bool) : QAdj (u k b) (u k b) := by
  obtain ⟨p, e⟩ := h.mono k b
  rw [e]
  exact qadj_pauli p

theorem ModeOps.mono' (h : ModeOps n enc u) (k : ℕ) (b : Bool) : Mono n (u k b) := by
  obtain ⟨p, e⟩ := h.mono k b
  exact ⟨1, p, by rw [e, one_smul]⟩

/-! ### Single excitations -/

/-- A set of strings that commute and are anti-Hermitian, and whose real span contains `A`. -/
def Nice (A : QOp n) : Prop := ∃ G : Set (QOp n), (∀ g ∈ G, Mono n g) ∧ (∀ g ∈ G, QAdj g (-g)) ∧
  (∀ g ∈ G, ∀ h ∈ G, Commute g h) ∧ A ∈ Submodule.span ℝ G

theorem nice_zero : Nice (0 : QOp n) := ⟨∅, by simp, by simp, by simp, Submodule.zero_mem _⟩

theorem ModeOps.single (h : ModeOps n enc u) {i a : ℕ} (hi : i < n) (ha : a < n) :
    Nice (lad u a true * lad u i false - lad u i true * lad u a false) := by
  by_cases hia : a = i
  · subst hia
    rw [sub_self]
    exact nice_zero
  refine ⟨Set.range fun b => u a b * u i b, ?_, ?_, ?_, ?_⟩
  · rintro _ ⟨b, rfl⟩
    exact (h.mono' a b).mul (h.mono' i b)
  · rintro _ ⟨b, rfl⟩
    have e : u i b * u a b = -(u a b * u i b) := by
      exact swap_neg.1 (h.swap hi ha (Ne.symm hia) b b)
    have := (h.adj a b).mul (h.adj i b)
    rwa [e] at this
  · rintro _ ⟨b, rfl⟩ _ ⟨d, rfl⟩
    have s1 : Swap _ (u a b * u i b) (u a d) := (h.swap_self ha b d).mul (h.swap hi ha (Ne.symm hia) b d)
    have s2 : Swap _ (u a b * u i b) (u i d) := (h.swap ha hi hia b d).mul (h.swap_self hi b d)
    have s := s1.mul_right s2
    unfold Swap at s
    unfold Commute SemiconjBy
    rw [s]
    by_cases e : b = d
    · rw [if_pos e]; norm_num
    · rw [if_neg e]; norm_num
  · have e1 : lad u i true * lad u a false = -(lad u a false * lad u i true) := by
      exact swap_neg.1 (h.anti hi ha (Ne.symm hia) true false)
    have e : lad u a true * lad u i false - lad u i true * lad u a false
        = (1 / 2 : ℝ) • (u a false * u i false) + (1 / 2 : ℝ) • (u a true * u i true) := by
      rw [e1]
      unfold lad
      simp only [if_true, Bool.false_eq_true, if_false, mul_add, add_mul, smul_mul_assoc, mul_smul_comm, smul_add, smul_smul, sub_neg_eq_add,
        ← Complex.coe_smul]
      match_scalars <;> push_cast <;> first | ring1 | linear_combination (-1 / 2) * Complex.I_mul_I
    rw [e]
    exact Submodule.add_mem _ (Submodule.smul_mem _ _ (Submodule.subset_span ⟨false, rfl⟩))
      (Submodule.smul_mem _ _ (Submodule.subset_span ⟨true, rfl⟩))

/-! ### Double excitations -/

/-- A string with one factor for each of four modes. -/
def str4 (u : ℕ → Bool → QOp n) (a b j i : ℕ) (w : Bool × Bool × Bool × Bool) : QOp n :=
  u a w.1 * u b w.2.1 * u j w.2.2.1 * u i w.2.2.2

/-- An odd number of second factors. -/
def OddW (w : Bool × Bool × Bool × Bool) : Prop := (w.1 ^^ (w.2.1 ^^ (w.2.2.1 ^^ w.2.2.2))) = true

theorem ModeOps.str4_comm (h : ModeOps n enc u) {a b j i : ℕ} (ha : a < n) (hb : b < n) (hj : j < n) (hi : i < n)
    (hn : [a, b, j, i].Nodup) {w v : Bool × Bool × Bool × Bool} (hw : OddW w) (hv : OddW v) :
    Commute (str4 u a b j i w) (str4 u a b j i v) := by
  obtain ⟨w1, w2, w3, w4⟩ := w
  obtain ⟨v1, v2, v3, v4⟩ := v
  simp only [List.nodup_cons, List.mem_cons, List.not_mem_nil, or_false, not_or, List.nodup_nil, not_false_eq_true, and_true] at hn
  obtain ⟨⟨ab, aj, ai⟩, ⟨bj, bi⟩, ji⟩ := hn
  have s1 := (((h.swap_self ha w1 v1).mul (h.swap hb ha (Ne.symm ab) w2 v1)).mul (h.swap hj ha (Ne.symm aj) w3 v1)).mul
    (h.swap hi ha (Ne.symm ai) w4 v1)
  have s2 := (((h.swap ha hb ab w1 v2).mul (h.swap_self hb w2 v2)).mul (h.swap hj hb (Ne.symm bj) w3 v2)).mul
    (h.swap hi hb (Ne.symm bi) w4 v2)
  have s3 := (((h.swap ha hj aj w1 v3).mul (h.swap hb hj bj w2 v3)).mul (h.swap_self hj w3 v3)).mul
    (h.swap hi hj (Ne.symm ji) w4 v3)
  have s4 := (((h.swap ha hi ai w1 v4).mul (h.swap hb hi bi w2 v4)).mul (h.swap hj hi ji w3 v4)).mul (h.swap_self hi w4 v4)
  have s := ((s1.mul_right s2).mul_right s3).mul_right s4
  unfold Swap at s
  unfold Commute SemiconjBy str4
  simp only at s ⊢
  rw [s]
  unfold OddW at hw hv
  simp only at hw hv
  clear s s1 s2 s3 s4
  have key : ∀ c : ℝ, c = 1 → ∀ A : QOp n, c • A = A := fun c hc A => by rw [hc, one_smul]
  apply key
  revert hw hv
  cases w1 <;> cases w2 <;> cases w3 <;> cases w4 <;> cases v1 <;> cases v2 <;> cases v3 <;> cases v4 <;> simp

theorem ModeOps.str4_herm (h : ModeOps n enc u) {a b j i : ℕ} (ha : a < n) (hb : b < n) (hj : j < n) (hi : i < n)
    (hn : [a, b, j, i].Nodup) (w : Bool × Bool × Bool × Bool) : QAdj (str4 u a b j i w) (str4 u a b j i w) := by
  obtain ⟨w1, w2, w3, w4⟩ := w
  simp only [List.nodup_cons, List.mem_cons, List.not_mem_nil, or_false, not_or, List.nodup_nil, not_false_eq_true, and_true] at hn
  obtain ⟨⟨ab, aj, ai⟩, ⟨bj, bi⟩, ji⟩ := hn
  have e := (((h.adj a w1).mul (h.adj b w2)).mul (h.adj j w3)).mul (h.adj i w4)
  have r := rev4 (h.swap ha hb ab w1 w2) (h.swap ha hj aj w1 w3) (h.swap ha hi ai w1 w4) (h.swap hb hj bj w2 w3)
    (h.swap hb hi bi w2 w4) (h.swap hj hi ji w3 w4)
  unfold str4
  simp only
  have r' : u i w4 * (u j w3 * (u b w2 * u a w1)) = u a w1 * u b w2 * u j w3 * u i w4 := by
    rw [r]; simp only [mul_assoc]
  rwa [r'] at e

theorem ModeOps.double (h : ModeOps n enc u) {a b j i : ℕ} (ha : a < n) (hb : b < n) (hj : j < n) (hi : i < n)
    (hn : [a, b, j, i].Nodup) :
    Nice (lad u a true * lad u b true * lad u j false * lad u i false
      - lad u i true * lad u j true * lad u b false * lad u a false) := by
  have hn' := hn
  simp only [List.nodup_cons, List.mem_cons, List.not_mem_nil, or_false, not_or, List.nodup_nil, not_false_eq_true, and_true] at hn'
  obtain ⟨⟨ab, aj, ai⟩, ⟨bj, bi⟩, ji⟩ := hn'
  refine ⟨{A | ∃ w, OddW w ∧ A = Complex.I • str4 u a b j i w}, ?_, ?_, ?_, ?_⟩
  · rintro _ ⟨w, -, rfl⟩
    exact ((((h.mono' a _).mul (h.mono' b _)).mul (h.mono' j _)).mul (h.mono' i _)).smul _
  · rintro _ ⟨w, -, rfl⟩
    have := (h.str4_herm ha hb hj hi hn w).smul Complex.I
    have e : ((starRingEnd ℂ) Complex.I • str4 u a b j i w : QOp n) = -(Complex.I • str4 u a b j i w) := by
      refine LinearMap.ext fun ψ => ?_
      simp
    rwa [e] at this
  · rintro _ ⟨w, hw, rfl⟩ _ ⟨v, hv, rfl⟩
    exact ((h.str4_comm ha hb hj hi hn hw hv).smul_left _).smul_right _
  · have hmem : ∀ w, OddW w → ∀ c : ℝ, c • (Complex.I • str4 u a b j i w) ∈
        Submodule.span ℝ {A : QOp n | ∃ w, OddW w ∧ A = Complex.I • str4 u a b j i w} := fun w hw c =>
      Submodule.smul_mem _ _ (Submodule.subset_span ⟨w, hw, rfl⟩)
    have r := rev4 (h.anti hi hj (Ne.symm ji) true true) (h.anti hi hb (Ne.symm bi) true false) (h.anti hi ha (Ne.symm ai) true false)
      (h.anti hj hb (Ne.symm bj) true false) (h.anti hj ha (Ne.symm aj) true false) (h.anti hb ha (Ne.symm ab) false false)
    have e : lad u a true * lad u b true * lad u j false * lad u i false
        - lad u i true * lad u j true * lad u b false * lad u a false
        = (-1 / 8 : ℝ) • (Complex.I • str4 u a b j i (true, false, false, false))
          + (-1 / 8 : ℝ) • (Complex.I • str4 u a b j i (false, true, false, false))
          + (1 / 8 : ℝ) • (Complex.I • str4 u a b j i (false, false, true, false))
          + (1 / 8 : ℝ) • (Complex.I • str4 u a b j i (false, false, false, true))
          + (-1 / 8 : ℝ) • (Complex.I • str4 u a b j i (true, true, true, false))
          + (-1 / 8 : ℝ) • (Complex.I • str4 u a b j i (true, true, false, true))
          + (1 / 8 : ℝ) • (Complex.I • str4 u a b j i (true, false, true, true))
          + (1 / 8 : ℝ) • (Complex.I • str4 u a b j i (false, true, true, true)) := by
      rw [r]
      unfold lad str4
      simp only [if_true, Bool.false_eq_true, if_false, mul_add, add_mul, smul_mul_assoc, mul_smul_comm, smul_add, smul_smul,
        ← Complex.coe_smul]
      have hI : Complex.I ^ 2 = -1 := Complex.I_sq
      have hI3 : Complex.I ^ 3 = -Complex.I := Complex.I_pow_three
      have hI4 : Complex.I ^ 4 = 1 := Complex.I_pow_four
      match_scalars <;> push_cast <;> ring_nf <;> (try rw [hI3]) <;> ring
    rw [e]
    have o : ∀ w : Bool × Bool × Bool × Bool, (w.1 ^^ (w.2.1 ^^ (w.2.2.1 ^^ w.2.2.2))) = true → OddW w := fun w h => h
    refine Submodule.add_mem _ (Submodule.add_mem _ (Submodule.add_mem _ (Submodule.add_mem _ (Submodule.add_mem _
      (Submodule.add_mem _ (Submodule.add_mem _ ?_ ?_) ?_) ?_) ?_) ?_) ?_) ?_ <;> exact hmem _ (o _ rfl) _

end

end SQ
