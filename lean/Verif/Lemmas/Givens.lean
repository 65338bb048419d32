import Verif.Model.Circuits
import Mathlib.Tactic.Ring
import Mathlib.Tactic.LinearCombination
import Mathlib.Algebra.BigOperators.Ring.Finset
import Mathlib.Order.Interval.Finset.Nat

/-! # Circuits as rotations between pairs of basis labels

Labels are functions on all natural numbers here, so that indices need no bounds. -/

namespace SQ

open Finset

abbrev Lbl := ℕ → Bool
abbrev Amp := Lbl → ℂ

noncomputable def onBit (q : ℕ) (M : Matrix Bool Bool ℂ) (Ψ : Amp) : Amp :=
  fun b => ∑ c, M (b q) c * Ψ (Function.update b q c)

noncomputable def GateCall.op : GateCall → Amp → Amp
  | .rx θ q, ψ => onBit q (rxMat θ) ψ
  | .ry θ q, ψ => onBit q (ryMat θ) ψ
  | .rz θ q, ψ => onBit q (rzMat θ) ψ
  | .x q, ψ => onBit q sigmaX ψ
  | .h q, ψ => onBit q hadamard ψ
  | .cx c t, ψ => fun b => if b c = true then ψ (Function.update b t (!b t)) else ψ b
  | .cz c t, ψ => fun b => if b c = true ∧ b t = true then -ψ b else ψ b

noncomputable def runCalls (gs : List GateCall) (Ψ : Amp) : Amp := gs.foldl (fun ψ g => g.op ψ) Ψ

theorem runCalls_append (a b : List GateCall) (Ψ : Amp) : runCalls (a ++ b) Ψ = runCalls b (runCalls a Ψ) := by
  unfold runCalls; rw [List.foldl_append]
theorem runCalls_cons (g : GateCall) (b : List GateCall) (Ψ : Amp) : runCalls (g :: b) Ψ = runCalls b (g.op Ψ) := rfl
theorem runCalls_nil (Ψ : Amp) : runCalls [] Ψ = Ψ := rfl

/-- Sign of a bit. -/
def sgb (x : Bool) : ℂ := if x then -1 else 1

theorem sgb_xor (x y : Bool) : sgb (x ^^ y) = sgb x * sgb y := by cases x <;> cases y <;> simp [sgb]
theorem sgb_not (x : Bool) : sgb (!x) = -sgb x := by cases x <;> simp [sgb]
theorem sgb_sq (x : Bool) : sgb x * sgb x = 1 := by cases x <;> simp [sgb]

/-- Sign of the parity of a set of bits. -/
def sgs (Q : Finset ℕ) (b : Lbl) : ℂ := ∏ q ∈ Q, sgb (b q)

/-- The bits in `F` inverted. -/
def flipAll (F : Finset ℕ) (b : Lbl) : Lbl := fun q => if q ∈ F then !b q else b q

/-- Labels under a CNOT. -/
def cxl (c t : ℕ) (b : Lbl) : Lbl := Function.update b t (b t ^^ b c)

/-- Rotation by `θ` between each label fulfilling `c` and its partner. -/
noncomputable def giv (θ : ℝ) (c : Lbl → Bool) (s : Lbl → ℂ) (F : Finset ℕ) (Ψ : Amp) : Amp := fun b =>
  if c b = true then (Real.cos θ : ℂ) * Ψ b + s b * (Real.sin θ : ℂ) * Ψ (flipAll F b) else Ψ b

theorem cx_op (c t : ℕ) (Ψ : Amp) : (GateCall.cx c t).op Ψ = fun b => Ψ (cxl c t b) := by
  funext b
  change (if b c = true then Ψ (Function.update b t (!b t)) else Ψ b) = Ψ (Function.update b t (b t ^^ b c))
  cases h : b c
  · simp
  · simp

theorem cxl_cxl {c t : ℕ} (h : c ≠ t) (b : Lbl) : cxl c t (cxl c t b) = b := by
  funext q
  unfold cxl
  by_cases hq : q = t
  · subst hq; simp [Function.update_of_ne h]
  · simp [Function.update_of_ne hq]

theorem cxl_flip {c t : ℕ} {F : Finset ℕ} (h : c ≠ t) (ht : t ∉ F) (b : Lbl) :
    cxl c t (flipAll F (cxl c t b)) = flipAll (if c ∈ F then insert t F else F) b := by
  funext q
  unfold cxl flipAll
  by_cases hq : q = t
  · subst hq
    by_cases hc : c ∈ F
    · simp [hc, ht, Function.update_of_ne h]
    · simp [hc, ht, Function.update_of_ne h]
  · by_cases hc : c ∈ F
    · simp [hc, hq, Function.update_of_ne hq]
    · simp [hc, Function.update_of_ne hq]

theorem conj_cx {c t : ℕ} {F : Finset ℕ} (h : c ≠ t) (ht : t ∉ F) (θ : ℝ) (cd : Lbl → Bool) (s : Lbl → ℂ) (Ψ : Amp) :
    (GateCall.cx c t).op (giv θ cd s F ((GateCall.cx c t).op Ψ)) =
      giv θ (fun b => cd (cxl c t b)) (fun b => s (cxl c t b)) (if c ∈ F then insert t F else F) Ψ := by
  rw [cx_op, cx_op]
  funext b
  unfold giv
  beta_reduce
  rw [cxl_cxl h, cxl_flip h ht]

theorem x_op (q : ℕ) (Ψ : Amp) : (GateCall.x q).op Ψ = fun b => Ψ (Function.update b q (!b q)) := by
  funext b
  change (∑ c, sigmaX (b q) c * Ψ (Function.update b q c)) = _
  rw [Fintype.sum_bool]
  cases h : b q <;> simp [sigmaX]

theorem conj_x {q : ℕ} {F : Finset ℕ} (hq : q ∉ F) (θ : ℝ) (cd : Lbl → Bool) (s : Lbl → ℂ) (Ψ : Amp) :
    (GateCall.x q).op (giv θ cd s F ((GateCall.x q).op Ψ)) =
      giv θ (fun b => cd (Function.update b q (!b q))) (fun b => s (Function.update b q (!b q))) F Ψ := by
  rw [x_op, x_op]
  funext b
  unfold giv
  beta_reduce
  have e1 : Function.update (Function.update b q (!b q)) q (!Function.update b q (!b q) q) = b := by simp
  have e2 : Function.update (flipAll F (Function.update b q (!b q))) q (!flipAll F (Function.update b q (!b q)) q) = flipAll F b := by
    funext p
    by_cases hp : p = q
    · subst hp; simp [flipAll, hq]
    · simp [flipAll, Function.update_of_ne hp]
  rw [e1, e2]

theorem cz_op (c t : ℕ) (Ψ : Amp) : (GateCall.cz c t).op Ψ = fun b => sgb (b c && b t) * Ψ b := by
  funext b
  change (if b c = true ∧ b t = true then -Ψ b else Ψ b) = _
  cases b c <;> cases b t <;> simp [sgb]

theorem cz_comm (c t : ℕ) : (GateCall.cz c t).op = (GateCall.cz t c).op := by
  funext Ψ
  rw [cz_op, cz_op]
  funext b
  rw [Bool.and_comm]

theorem conj_cz {a t : ℕ} {F : Finset ℕ} (ha : a ∈ F) (ht : t ∉ F) (θ : ℝ) (cd : Lbl → Bool) (s : Lbl → ℂ) (Ψ : Amp) :
    (GateCall.cz a t).op (giv θ cd s F ((GateCall.cz a t).op Ψ)) = giv θ cd (fun b => s b * sgb (b t)) F Ψ := by
  rw [cz_op, cz_op]
  funext b
  unfold giv
  beta_reduce
  have e1 : flipAll F b a = !b a := by simp [flipAll, ha]
  have e2 : flipAll F b t = b t := by simp [flipAll, ht]
  rw [e1, e2]
  split
  · cases b a <;> cases b t <;> simp [sgb] <;> ring
  · cases b a <;> cases b t <;> simp [sgb]

/-! ### Ladders -/

theorem sgs_cxl {c t : ℕ} {Q : Finset ℕ} (ht : t ∈ Q) (hc : c ∉ Q) (b : Lbl) : sgs Q (cxl c t b) = sgs (insert c Q) b := by
  unfold sgs
  rw [Finset.prod_insert hc, ← Finset.mul_prod_erase Q _ ht, ← Finset.mul_prod_erase Q _ ht]
  have e : ∀ q ∈ Q.erase t, sgb (cxl c t b q) = sgb (b q) := fun q hq => by
    rw [cxl, Function.update_of_ne (Finset.ne_of_mem_erase hq)]
  rw [Finset.prod_congr rfl e, cxl, Function.update_self, sgb_xor]
  ring

theorem sgs_cxl' {c t : ℕ} {Q : Finset ℕ} (ht : t ∉ Q) (b : Lbl) : sgs Q (cxl c t b) = sgs Q b := by
  unfold sgs
  refine Finset.prod_congr rfl fun q hq => ?_
  rw [cxl, Function.update_of_ne]
  rintro rfl; exact ht hq

/-- `c` and `s` do not look at bit `t`. -/
def Blind (t : ℕ) {α : Type*} (g : Lbl → α) : Prop := ∀ b v, g (Function.update b t v) = g b

theorem Blind.cxl {t : ℕ} {α : Type*} {g : Lbl → α} (h : Blind t g) (c : ℕ) (b : Lbl) : g (cxl c t b) = g b := h _ _

theorem conj_ladder {c t : ℕ} {F Q : Finset ℕ} (h : c ≠ t) (ht : t ∉ F) (hc : c ∉ F) (htQ : t ∈ Q) (hcQ : c ∉ Q) (θ : ℝ)
    {cd : Lbl → Bool} {s : Lbl → ℂ} (h1 : Blind t cd) (h2 : Blind t s) (Ψ : Amp) :
    (GateCall.cx c t).op (giv θ cd (fun b => s b * sgs Q b) F ((GateCall.cx c t).op Ψ)) =
      giv θ cd (fun b => s b * sgs (insert c Q) b) F Ψ := by
  rw [conj_cx h ht, if_neg hc]
  simp only [h1.cxl, h2.cxl, sgs_cxl htQ hcQ]

theorem rangeDown_succ (i m : ℕ) : rangeDown (i + (m + 1)) i = (i + (m + 1)) :: rangeDown (i + m) i := by
  unfold rangeDown
  rw [show i + (m + 1) - i = m + 1 by omega, show i + m - i = m by omega, List.range_succ_eq_map, List.map_cons, List.map_map]
  congr 1
  refine List.map_congr_left fun t _ => ?_
  simp only [Function.comp_apply]; omega

theorem rangeDown_self (i : ℕ) : rangeDown i i = [] := by simp [rangeDown]
theorem rangeUp_self (i : ℕ) : rangeUp i i = [] := by simp [rangeUp]

theorem rangeUp_last (a m : ℕ) : rangeUp a (a + (m + 1)) = rangeUp a (a + m) ++ [a + m] := by
  unfold rangeUp
  rw [show a + (m + 1) - a = m + 1 by omega, show a + m - a = m by omega, List.range_succ, List.map_append]
  rfl

theorem rangeUp_first (a m : ℕ) : rangeUp a (a + (m + 1)) = a :: rangeUp (a + 1) (a + 1 + m) := by
  unfold rangeUp
  rw [show a + (m + 1) - a = m + 1 by omega, show a + 1 + m - (a + 1) = m by omega, List.range_succ_eq_map, List.map_cons, List.map_map]
  congr 1
  refine List.map_congr_left fun t _ => ?_
  simp only [Function.comp_apply, Nat.succ_eq_add_one]; omega

theorem rangeDown_last (a m : ℕ) : rangeDown (a + (m + 1)) a = rangeDown (a + 1 + m) (a + 1) ++ [a + 1] := by
  unfold rangeDown
  rw [show a + (m + 1) - a = m + 1 by omega, show a + 1 + m - (a + 1) = m by omega, List.range_succ, List.map_append]
  congr 1
  · refine List.map_congr_left fun t _ => ?_
    omega
  · simp; omega

/-- The ladder of the single excitation. -/
theorem ladder_right (i : ℕ) {F : Finset ℕ} {θ : ℝ} {cd : Lbl → Bool} {s : Lbl → ℂ} {mid : List GateCall} :
    ∀ m : ℕ, (∀ t, i < t → t ≤ i + m + 1 → t ∉ F) → (∀ t, i < t → t ≤ i + m → Blind t cd ∧ Blind t s) →
    (∀ Ψ, runCalls mid Ψ = giv θ cd (fun b => s b * sgs {i + 1} b) F Ψ) → ∀ Ψ,
    runCalls ((rangeDown (i + m) i).map (fun t => GateCall.cx (t + 1) t) ++ mid ++
      (rangeUp (i + 1) (i + 1 + m)).map (fun t => GateCall.cx (t + 1) t)) Ψ =
      giv θ cd (fun b => s b * sgs (Finset.Ioo i (i + m + 2)) b) F Ψ := by
  intro m
  induction m with
  | zero =>
    intro _ _ hm Ψ
    rw [Nat.add_zero, Nat.add_zero, rangeDown_self, rangeUp_self]
    have : Finset.Ioo i (i + 0 + 2) = {i + 1} := by ext x; simp; omega
    rw [this]
    simpa using hm Ψ
  | succ m ih =>
    intro hF hb hm Ψ
    rw [rangeDown_succ, rangeUp_last, List.map_cons, List.map_append, List.cons_append, List.cons_append, ← List.append_assoc,
      runCalls_cons, runCalls_append, ih (fun t h1 h2 => hF t h1 (by omega)) (fun t h1 h2 => hb t h1 (by omega)) hm]
    have e : insert (i + 1 + m + 1) (Finset.Ioo i (i + m + 2)) = Finset.Ioo i (i + (m + 1) + 2) := by
      ext x; simp; omega
    rw [← e]
    have k := hb (i + 1 + m) (by omega) (by omega)
    have := conj_ladder (c := i + 1 + m + 1) (t := i + 1 + m) (F := F) (Q := Finset.Ioo i (i + m + 2)) (by omega) (hF _ (by omega) (by omega))
      (hF _ (by omega) (by omega)) (by rw [Finset.mem_Ioo]; omega) (by rw [Finset.mem_Ioo]; omega) θ k.1 k.2 Ψ
    rw [show i + (m + 1) = i + 1 + m by omega]
    exact this

/-- The ladders of the double excitation. -/
theorem ladder_left {F : Finset ℕ} {θ : ℝ} {cd : Lbl → Bool} {s : Lbl → ℂ} {mid : List GateCall} :
    ∀ m a : ℕ, (∀ t, a ≤ t → t ≤ a + m → t ∉ F) → (∀ t, a < t → t ≤ a + m → Blind t cd ∧ Blind t s) →
    (∀ Ψ, runCalls mid Ψ = giv θ cd (fun b => s b * sgs {a + m} b) F Ψ) → ∀ Ψ,
    runCalls ((rangeUp a (a + m)).map (fun t => GateCall.cx t (t + 1)) ++ mid ++
      (rangeDown (a + m) a).map (fun t => GateCall.cx (t - 1) t)) Ψ =
      giv θ cd (fun b => s b * sgs (Finset.Icc a (a + m)) b) F Ψ := by
  intro m
  induction m with
  | zero =>
    intro a _ _ hm Ψ
    rw [Nat.add_zero, rangeDown_self, rangeUp_self, Finset.Icc_self]
    simpa using hm Ψ
  | succ m ih =>
    intro a hF hb hm Ψ
    rw [rangeDown_last, rangeUp_first, List.map_cons, List.map_append, List.cons_append, List.cons_append, ← List.append_assoc,
      runCalls_cons, runCalls_append, ih (a + 1) (fun t h1 h2 => hF t (by omega) (by omega)) (fun t h1 h2 => hb t (by omega) (by omega))
        (by rw [show a + 1 + m = a + (m + 1) by omega]; exact hm)]
    have e : insert a (Finset.Icc (a + 1) (a + 1 + m)) = Finset.Icc a (a + (m + 1)) := by
      ext x; simp; omega
    rw [← e]
    have k := hb (a + 1) (by omega) (by omega)
    exact conj_ladder (c := a) (t := a + 1) (F := F) (Q := Finset.Icc (a + 1) (a + 1 + m)) (by omega) (hF _ (by omega) (by omega))
      (hF _ le_rfl (by omega)) (by simp) (by simp) θ k.1 k.2 Ψ

end SQ
