import Verif.Lemmas.Mul
import Verif.Model.FermionicInplace
import Mathlib.Algebra.Order.Ring.Abs
import Mathlib.Algebra.Order.Field.Basic
import Mathlib.Algebra.Order.Ring.Rat
import Mathlib.Tactic.NormNum
import Mathlib.Data.Rat.Cast.Order

/-!
# C01-C07: the algebra of `FermionicOperator`

`sumOp d` (Spec/Fock.lean) is the linear operator on Fock space a dictionary stands for.
-/

namespace SQ

variable {R : Type*} [CommRing R]

/-! ## C01 -/

/-- C01: `A+B`, `A-B`, `-A`, `A*c`, `c*A` stand for sum, difference, negative and multiples. -/
theorem C01_linear {tiny : R → Bool} (ht : ExactTiny tiny) (A B : Dict R) (c : R) (x : Fock R) :
    sumOp (fadd tiny A B) x = sumOp A x + sumOp B x ∧
    sumOp (fsub tiny A B) x = sumOp A x - sumOp B x ∧
    sumOp (fneg A) x = - sumOp A x ∧
    sumOp (fscale A c) x = c • sumOp A x ∧
    sumOp (frmul c A) x = c • sumOp A x := by
  refine ⟨?_, ?_, ?_, ?_, ?_⟩
  · rw [sumOp_fadd ht]; rfl
  · rw [sumOp_fsub ht]; rfl
  · rw [sumOp_fneg]; rfl
  · rw [sumOp_fscale]; rfl
  · exact congrArg (fun f => f x) (sumOp_fscale A c)

/-- The hypothesis of C01 is met by the exact zero test on ℤ, and cancellation really deletes. -/
example : ExactTiny (fun x : ℤ => x == 0) ∧
    fsub (fun x : ℤ => x == 0) [([(0, true), (1, false)], 2), ([(3, true), (1, false)], 5)]
      [([(0, true), (1, false)], 2)] = [([(3, true), (1, false)], 5)] :=
  ⟨fun x h => by simpa using h, by decide⟩

/-! ## C02 -/

section threshold
variable {K : Type*} [Field K] [LinearOrder K] [IsStrictOrderedRing K]

/-- The literal test `abs(x) < 10**-14`. -/
def tiny14 (x : K) : Bool := decide (|x| < 1 / 10 ^ 14)

omit [LinearOrder K] [IsStrictOrderedRing K] in
theorem get?_foldl_addTo {tiny : K → Bool} (B : Dict K) : ∀ (A : Dict K), WF A → WF B → ∀ x,
    Dict.get? (B.foldl (fun d kv => addTo tiny d kv.1 kv.2) A) x =
      match B.get? x with
      | none => A.get? x
      | some v => (addTo tiny A x v).get? x := by
  induction B with
  | nil => intro A _ _ x; rfl
  | cons kv t ih =>
    intro A hA hB x
    obtain ⟨k, v⟩ := kv
    simp only [WF, List.map_cons, List.nodup_cons] at hB
    rw [List.foldl_cons, ih _ (wf_addTo hA _ _) hB.2, get?_cons]
    by_cases hk : k = x
    · subst hk
      rw [get?_none_of_not_mem hB.1]; simp
    · rw [if_neg hk]
      cases h : Dict.get? t x with
      | none => simp only; rw [get?_addTo hA, if_neg (Ne.symm hk)]
      | some w =>
        simp only
        rw [get?_addTo (wf_addTo hA _ _), get?_addTo hA, get?_addTo hA]
        simp [Ne.symm hk]

theorem coef_close (A B : Dict K) (hA : WF A) (hB : WF B) (k : Str) :
    |coefOf (fadd tiny14 A B) k - (coefOf A k + coefOf B k)| < 1 / 10 ^ 14 ∧
    (coefOf (fadd tiny14 A B) k ≠ coefOf A k + coefOf B k →
      k ∈ A.map (·.1) ∧ k ∈ B.map (·.1)) := by
  have hpos : (0 : K) < 1 / 10 ^ 14 := by positivity
  unfold coefOf fadd
  rw [get?_foldl_addTo B A hA hB k]
  cases hb : Dict.get? B k with
  | none => simp
  | some v =>
    simp only
    rw [get?_addTo hA]
    cases ha : Dict.get? A k with
    | none => simp
    | some w =>
      have m1 : k ∈ A.map (·.1) := by
        by_contra h; rw [get?_none_of_not_mem h] at ha; simp at ha
      have m2 : k ∈ B.map (·.1) := by
        by_contra h; rw [get?_none_of_not_mem h] at hb; simp at hb
      simp only [if_true, Option.getD_some]
      split
      · next h =>
        refine ⟨?_, fun _ => ⟨m1, m2⟩⟩
        simp only [tiny14, decide_eq_true_eq] at h
        rw [Option.getD_none, zero_sub, abs_neg]; exact h
      · simp

omit [LinearOrder K] [IsStrictOrderedRing K] in
theorem coefOf_fneg (A : Dict K) (k : Str) : coefOf (fneg A) k = - coefOf A k := by
  unfold coefOf fneg
  induction A with
  | nil => simp [Dict.get?]
  | cons kv t ih =>
    obtain ⟨k', v⟩ := kv
    simp only [List.map_cons, get?_cons]
    split <;> simp_all

/-- C02: after `A+B` and `A-B` every coefficient is within `10^-14` of the exact one, and differs
from it only for strings present in both operands. -/
theorem C02_threshold (A B : Dict K) (hA : WF A) (hB : WF B) (k : Str) :
    (|coefOf (fadd tiny14 A B) k - (coefOf A k + coefOf B k)| < 1 / 10 ^ 14 ∧
      (coefOf (fadd tiny14 A B) k ≠ coefOf A k + coefOf B k →
        k ∈ A.map (·.1) ∧ k ∈ B.map (·.1))) ∧
    (|coefOf (fsub tiny14 A B) k - (coefOf A k - coefOf B k)| < 1 / 10 ^ 14 ∧
      (coefOf (fsub tiny14 A B) k ≠ coefOf A k - coefOf B k →
        k ∈ A.map (·.1) ∧ k ∈ B.map (·.1))) := by
  refine ⟨coef_close A B hA hB k, ?_⟩
  have hn : WF (fneg B) := by unfold WF at *; simpa [fneg, Function.comp_def] using hB
  have h := coef_close A (fneg B) hA hn k
  rw [coefOf_fneg, ← sub_eq_add_neg] at h
  have e : fadd tiny14 A (fneg B) = fsub tiny14 A B := (fsub_eq tiny14 A B).symm
  rw [e] at h
  have e2 : (fneg B).map (·.1) = B.map (·.1) := by simp [fneg, Function.comp_def]
  rw [e2] at h
  exact h

end threshold

/-- The cut-off really acts: a nonzero coefficient below the threshold is dropped. -/
example : WF ([([(0, true)], 1)] : Dict ℚ) ∧
    coefOf (fadd tiny14 [([(0, true)], 1)] [([(0, true)], -1 + 1 / 10 ^ 15)] : Dict ℚ) [(0, true)] = 0
    ∧ (1 : ℚ) + (-1 + 1 / 10 ^ 15) ≠ 0 := by
  refine ⟨by decide, ?_, by norm_num⟩
  have : tiny14 ((1 : ℚ) + (-1 + 1 / 10 ^ 15)) = true := by
    simp only [tiny14, decide_eq_true_eq]
    rw [abs_of_nonneg (by norm_num)]; norm_num
  simp only [fadd, List.foldl, addTo, if_true, this, coefOf, Dict.get?, List.find?_nil, Option.map_none,
    Option.getD_none]

/-! ## C03 -/

theorem iaddLoop_distinct (tiny : R → Bool) {x y : ℕ} (hxy : x ≠ y) (B : Dict R) :
    ∀ (rest : Dict R) (h : Heap R), h y = B → WF B → (∀ kv ∈ rest, kv ∈ B) →
    iaddLoop tiny x y B.length (rest.map (·.1)) h =
      .ok (h.put x (rest.foldl (fun d kv => addTo tiny d kv.1 kv.2) (h x))) := by
  intro rest
  induction rest with
  | nil =>
    intro h hy _ _
    simp only [List.map_nil, iaddLoop, hy, if_true, List.foldl_nil]
    congr 1; funext z; simp only [Heap.put]; split <;> simp_all
  | cons kv t ih =>
    intro h hy hB hs
    simp only [List.map_cons, iaddLoop, hy, if_true, get?_of_mem hB (hs kv (by simp))]
    rw [ih]
    · congr 1; funext z; simp only [Heap.put]; split <;> simp
    · simp [Heap.put, Ne.symm hxy, hy]
    · exact hB
    · intro z hz; exact hs z (by simp [hz])

theorem isubLoop_distinct (tiny : R → Bool) {x y : ℕ} (hxy : x ≠ y) (B : Dict R) :
    ∀ (rest : Dict R) (h : Heap R), h y = B → WF B → (∀ kv ∈ rest, kv ∈ B) →
    isubLoop tiny x y B.length (rest.map (·.1)) h =
      .ok (h.put x (rest.foldl (fun d kv => subTo tiny d kv.1 kv.2) (h x))) := by
  intro rest
  induction rest with
  | nil =>
    intro h hy _ _
    simp only [List.map_nil, isubLoop, hy, if_true, List.foldl_nil]
    congr 1; funext z; simp only [Heap.put]; split <;> simp_all
  | cons kv t ih =>
    intro h hy hB hs
    simp only [List.map_cons, isubLoop, hy, if_true, get?_of_mem hB (hs kv (by simp))]
    rw [ih]
    · congr 1; funext z; simp only [Heap.put]; split <;> simp
    · simp [Heap.put, Ne.symm hxy, hy]
    · exact hB
    · intro z hz; exact hs z (by simp [hz])

theorem addTo_append_of_not_mem (tiny : R → Bool) {pre : Dict R} {k : Str}
    (h : k ∉ pre.map (·.1)) (d : Dict R) (v : R) :
    addTo tiny (pre ++ d) k v = pre ++ addTo tiny d k v := by
  induction pre with
  | nil => rfl
  | cons kv t ih =>
    simp only [List.map_cons, List.mem_cons, not_or] at h
    simp only [List.cons_append, addTo, if_neg (Ne.symm h.1), ih h.2]

omit [CommRing R] in
theorem get?_append_of_not_mem {pre : Dict R} {k : Str} (h : k ∉ pre.map (·.1)) (d : Dict R) :
    Dict.get? (pre ++ d) k = Dict.get? d k := by
  induction pre with
  | nil => rfl
  | cons kv t ih =>
    obtain ⟨k', v'⟩ := kv
    simp only [List.map_cons, List.mem_cons, not_or] at h
    rw [List.cons_append, get?_cons, if_neg (Ne.symm h.1), ih h.2]

theorem foldl_double (tiny : R → Bool) (rest : Dict R) : ∀ (pre : Dict R), WF (pre ++ rest) →
    (∀ kv ∈ rest, tiny (kv.2 + kv.2) = false) →
    rest.foldl (fun d kv => addTo tiny d kv.1 kv.2) (pre ++ rest)
      = pre ++ rest.map fun kv => (kv.1, kv.2 + kv.2) := by
  induction rest with
  | nil => intro pre _ _; simp
  | cons kv t ih =>
    intro pre hw hs
    obtain ⟨k, v⟩ := kv
    have hk : k ∉ pre.map (·.1) := by
      simp only [WF, List.map_append, List.map_cons] at hw
      intro hm
      exact (List.nodup_append.1 hw).2.2 k hm k (by simp) rfl
    have hv := hs (k, v) (by simp)
    simp only at hv
    rw [List.foldl_cons, addTo_append_of_not_mem _ hk]
    simp only [addTo, if_true, hv, Bool.false_eq_true, if_false]
    have := ih (pre ++ [(k, v + v)]) (by simpa [WF] using hw) (fun z hz => hs z (by simp [hz]))
    simp only [List.append_assoc, List.singleton_append] at this
    rw [this]; simp

theorem iaddLoop_self (tiny : R → Bool) {x : ℕ} (rest : Dict R) : ∀ (pre : Dict R) (h : Heap R),
    h x = pre ++ rest → WF (pre ++ rest) →
    iaddLoop tiny x x (pre ++ rest).length (rest.map (·.1)) h =
      if ∃ kv ∈ rest, tiny (kv.2 + kv.2) = true then .error .runtimeError
      else .ok (h.put x (pre ++ rest.map fun kv => (kv.1, kv.2 + kv.2))) := by
  induction rest with
  | nil =>
    intro pre h hx _
    simp only [List.map_nil, iaddLoop, hx, if_true, List.append_nil]
    simp
    funext z; simp only [Heap.put]; split <;> simp_all
  | cons kv t ih =>
    intro pre h hx hw
    obtain ⟨k, v⟩ := kv
    have hk : k ∉ pre.map (·.1) := by
      simp only [WF, List.map_append, List.map_cons] at hw
      intro hm
      exact (List.nodup_append.1 hw).2.2 k hm k (by simp) rfl
    simp only [List.map_cons, iaddLoop, hx, if_true, get?_append_of_not_mem hk, get?_cons,
      addTo_append_of_not_mem _ hk, addTo]
    by_cases hv : tiny (v + v) = true
    · have hex : ∃ kv ∈ (k, v) :: t, tiny (kv.2 + kv.2) = true := ⟨(k, v), by simp, hv⟩
      simp only [hv, if_true, hex]
      cases t with
      | nil => simp [iaddLoop, Heap.put]
      | cons y t => simp [iaddLoop, Heap.put]
    · simp only [hv, if_false, Bool.false_eq_true]
      have := ih (pre ++ [(k, v + v)]) (h.put x (pre ++ (k, v + v) :: t)) (by simp [Heap.put])
        (by simpa [WF] using hw)
      simp only [List.append_assoc, List.singleton_append, List.length_append, List.length_cons]
        at this
      simp only [List.length_append, List.length_cons]
      rw [this]
      have e : (∃ kv ∈ t, tiny (kv.2 + kv.2) = true) ↔
          (∃ kv ∈ (k, v) :: t, tiny (kv.2 + kv.2) = true) := by
        simp [hv]
      simp only [e]
      split
      · rfl
      · congr 1; funext z; simp only [Heap.put]; split <;> simp

theorem scaleAt_append (c : R) {pre : Dict R} {k : Str} (h : k ∉ pre.map (·.1)) (d : Dict R) :
    scaleAt c (pre ++ d) k = pre ++ scaleAt c d k := by
  induction pre with
  | nil => rfl
  | cons kv t ih =>
    simp only [List.map_cons, List.mem_cons, not_or] at h
    simp only [List.cons_append, scaleAt, if_neg (Ne.symm h.1), ih h.2]

theorem foldl_scaleAt (c : R) (rest : Dict R) : ∀ (pre : Dict R), WF (pre ++ rest) →
    (rest.map (·.1)).foldl (scaleAt c) (pre ++ rest) = pre ++ fscale rest c := by
  induction rest with
  | nil => intro pre _; simp [fscale]
  | cons kv t ih =>
    intro pre hw
    obtain ⟨k, v⟩ := kv
    have hk : k ∉ pre.map (·.1) := by
      simp only [WF, List.map_append, List.map_cons] at hw
      intro hm
      exact (List.nodup_append.1 hw).2.2 k hm k (by simp) rfl
    rw [List.map_cons, List.foldl_cons, scaleAt_append c hk]
    simp only [scaleAt, if_true]
    have := ih (pre ++ [(k, v * c)]) (by simpa [WF] using hw)
    simp only [List.append_assoc, List.singleton_append] at this
    rw [this]; simp [fscale]

/-- C03: `x += y`, `x -= y`, `x *= y`, `x *= c` on a heap of operators.  For distinct objects each
leaves `x` with exactly the dictionary of the out-of-place operation (same order) and every other
object (in particular `y`) as it was.  With the same object on both sides, `x += x` is `x + x`
unless a doubled coefficient falls below the cut-off, in which case it raises; `x -= x` raises for
every nonempty operator although `x - x` is fine; `x *= x` agrees with `x * x`. -/
theorem C03_inplace (tiny : R → Bool) (h : Heap R) (hw : ∀ z, WF (h z)) (x y : ℕ) (c : R) :
    (x ≠ y → iadd tiny x y h = .ok (h.put x (fadd tiny (h x) (h y)))) ∧
    (x ≠ y → isub tiny x y h = .ok (h.put x (fsub tiny (h x) (h y)))) ∧
    imulScalar x c h = h.put x (fscale (h x) c) ∧
    (∀ d, fmul tiny (h x) (h y) = .ok d → imul tiny x y h = .ok (h.put x d)) ∧
    (∀ e, fmul tiny (h x) (h y) = .error e → imul tiny x y h = .error e) ∧
    ((∀ kv ∈ h x, tiny (kv.2 + kv.2) = false) →
      iadd tiny x x h = .ok (h.put x (fadd tiny (h x) (h x)))) ∧
    ((∃ kv ∈ h x, tiny (kv.2 + kv.2) = true) → iadd tiny x x h = .error .runtimeError) ∧
    (tiny 0 = true → h x ≠ [] → isub tiny x x h = .error .runtimeError) := by
  refine ⟨?_, ?_, ?_, ?_, ?_, ?_, ?_, ?_⟩
  · intro hxy
    exact iaddLoop_distinct tiny hxy (h y) (h y) h rfl (hw y) (fun _ hk => hk)
  · intro hxy
    exact isubLoop_distinct tiny hxy (h y) (h y) h rfl (hw y) (fun _ hk => hk)
  · unfold imulScalar
    have := foldl_scaleAt c (h x) [] (by simpa using hw x)
    simp only [List.nil_append] at this
    rw [this]
  · intro d hd; simp only [imul, hd]; rfl
  · intro e he; simp only [imul, he]; rfl
  · intro hs
    have h1 := iaddLoop_self tiny (x := x) (h x) [] h rfl (by simpa using hw x)
    have h2 := foldl_double tiny (h x) [] (by simpa using hw x) hs
    simp only [List.nil_append] at h1 h2
    unfold iadd fadd
    rw [h1, h2, if_neg]
    rintro ⟨kv, hk, ht⟩; rw [hs kv hk] at ht; simp at ht
  · intro hs
    have h1 := iaddLoop_self tiny (x := x) (h x) [] h rfl (by simpa using hw x)
    simp only [List.nil_append] at h1
    unfold iadd
    rw [h1, if_pos hs]
  · intro ht hne
    unfold isub
    cases hx : h x with
    | nil => exact absurd hx hne
    | cons kv t =>
      obtain ⟨k, v⟩ := kv
      simp only [List.map_cons, isubLoop, hx, if_true, get?_cons, subTo, sub_self, ht]
      cases t with
      | nil => simp [isubLoop, Heap.put]
      | cons y t => simp [isubLoop, Heap.put]

omit [CommRing R] in
/-- C03, `put` read out: other objects are untouched. -/
theorem C03_put (h : Heap R) (x : ℕ) (d : Dict R) :
    (h.put x d) x = d ∧ ∀ z, z ≠ x → (h.put x d) z = h z := by
  constructor
  · simp [Heap.put]
  · intro z hz; simp [Heap.put, hz]

/-- Both aliased cases occur. -/
example : (∀ z, WF ((fun _ => [([(0, true), (1, false)], 3)] : Heap ℤ) z)) ∧
    (match isub (fun x : ℤ => x == 0) 0 0 (fun _ => [([(0, true), (1, false)], 3)]) with
      | .error e => e == .runtimeError
      | .ok _ => false) = true ∧
    fsub (fun x : ℤ => x == 0) [([(0, true), (1, false)], 3)] [([(0, true), (1, false)], 3)] = [] :=
  ⟨fun _ => by simp [WF], by decide, by decide⟩

/-! ## C04 -/

theorem odd_closed : StrClosed (fun s => s.length % 2 = 0) where
  perm s t h hs := by rw [← h.length_eq]; exact hs
  contract s p t hs h _ := by rw [h.length_eq] at hs; simp at hs; omega

theorem true_closed : StrClosed (fun _ => True) := ⟨fun _ _ _ _ => trivial, fun _ _ _ _ _ _ => trivial⟩

theorem orderQueue_len_one (tiny : R → Bool) (n : ℕ) : ∀ (q : List (Str × R)) (acc : Dict R),
    qbudget q ≤ n → (∃ x ∈ q, x.1.length = 1) → orderQueue tiny n q acc = .error .indexError := by
  induction n with
  | zero =>
    intro q acc hq hx
    match q with
    | [] => simp at hx
    | x :: q => have := budget_pos x.1.length; simp [qbudget] at hq; omega
  | succ n ih =>
    intro q acc hq hx
    match q with
    | [] => simp at hx
    | (s, f) :: q =>
      simp only [orderQueue]
      by_cases hl : s.length = 1
      · match s, hl with
        | [o], _ => simp [orderOne_len_one]
      · obtain ⟨r, new, e1, e2, e3, _⟩ := orderOne_struct (s.length * s.length + 1) s f q
          (by have := invs_le s; omega) hl
        have hb := qbudget_new (s := s) (new := new) (by have := invs_le s; omega)
          (fun x hx => (e3 x hx).2)
        have hq' : qbudget (q ++ new) ≤ n := by
          rw [qbudget_append]
          simp only [qbudget, List.map_cons, List.sum_cons] at hq hb ⊢
          omega
        have hx' : ∃ x ∈ q ++ new, x.1.length = 1 := by
          obtain ⟨x, hx, hx1⟩ := hx
          rcases List.mem_cons.1 hx with rfl | hx
          · exact absurd hx1 hl
          · exact ⟨x, List.mem_append.2 (Or.inl hx), hx1⟩
        rw [e1]
        match r with
        | none => exact ih _ _ hq' hx'
        | some (k, v) => exact ih _ _ hq' hx'

/-- C04 for the ordering routine: it stops (the iteration budget is never exhausted), its only
failure is `IndexError`, and otherwise every string of the result is in extended normal order and
listed once. It certainly raises when an input string has length one and never when all input
strings have even length. -/
theorem C04_normalOrder (tiny : R → Bool) (d : Dict R) :
    (normalOrder tiny d = .error .indexError ∨
      ∃ e, normalOrder tiny d = .ok e ∧ WF e ∧ ∀ kv ∈ e, NormalOrdered kv.1) ∧
    ((∃ kv ∈ d, kv.1.length = 1) → normalOrder tiny d = .error .indexError) ∧
    ((∀ kv ∈ d, kv.1.length % 2 = 0) → ∃ e, normalOrder tiny d = .ok e) := by
  refine ⟨?_, ?_, ?_⟩
  · rcases normalOrder_struct tiny true_closed d (fun _ _ => trivial) with h | ⟨e, h1, h2, h3⟩
    · exact Or.inl h.1
    · exact Or.inr ⟨e, h1, h2, fun kv h => (h3 kv h).1⟩
  · intro h; exact orderQueue_len_one tiny _ d [] (le_refl _) h
  · intro h
    rcases normalOrder_struct tiny odd_closed d h with ⟨_, s, h2, h3⟩ | ⟨e, h1, _⟩
    · omega
    · exact ⟨e, h1⟩

/-- C04 for products. -/
theorem C04_mul (tiny : R → Bool) (A B : Dict R) :
    (fmul tiny A B = .error .indexError ∨
      ∃ e, fmul tiny A B = .ok e ∧ WF e ∧ ∀ kv ∈ e, NormalOrdered kv.1) ∧
    ((∀ a ∈ A, ∀ b ∈ B, (a.1.length + b.1.length) % 2 = 0) → ∃ e, fmul tiny A B = .ok e) := by
  constructor
  · rcases fmul_struct tiny true_closed A B (fun _ _ _ _ => trivial) with h | ⟨e, h1, h2, h3⟩
    · exact Or.inl h.1
    · exact Or.inr ⟨e, h1, h2, fun kv h => (h3 kv h).1⟩
  · intro h
    rcases fmul_struct tiny odd_closed A B
      (fun b hb a ha => by rw [List.length_append]; exact h a ha b hb) with ⟨_, s, h2, h3⟩ | ⟨e, h1, _⟩
    · omega
    · exact ⟨e, h1⟩

/-- C04 for daggers. -/
theorem C04_dagger (tiny : R → Bool) (A : Dict R) (hA : WF A) :
    (fdagger tiny A = .error .indexError ∨
      ∃ e, fdagger tiny A = .ok e ∧ WF e ∧ ∀ kv ∈ e, NormalOrdered kv.1) ∧
    ((∃ kv ∈ A, kv.1.length = 1) → fdagger tiny A = .error .indexError) ∧
    ((∀ kv ∈ A, kv.1.length % 2 = 0) → ∃ e, fdagger tiny A = .ok e) := by
  rw [fdagger, dagger_dict hA]
  obtain ⟨h1, h2, h3⟩ := C04_normalOrder tiny (A.map fun kv => (flipKey kv.1, kv.2))
  refine ⟨h1, fun h => h2 ?_, fun h => h3 ?_⟩
  · obtain ⟨kv, hk, hl⟩ := h
    exact ⟨_, List.mem_map_of_mem hk, by simpa [flipKey] using hl⟩
  · intro x hx
    obtain ⟨kv, hk, rfl⟩ := List.mem_map.1 hx
    simpa [flipKey] using h kv hk

/-- A length-three string can also raise: `a_0 a†_0 a_1` contracts to the single `a_1`. -/
example : (match normalOrder (fun x : ℤ => x == 0) [([(0, false), (0, true), (1, false)], 1)] with
    | .error e => e == .indexError | .ok _ => false) = true := by decide

/-- Both outcomes occur: a product that succeeds with a contraction. -/
example : (match fmul (fun x : ℤ => x == 0) [([(0, true), (1, false)], 1)] [([(1, true), (2, false)], 1)] with
    | .error _ => [] | .ok d => d) =
    [([(1, true), (0, true), (2, false), (1, false)], -1), ([(0, true), (2, false)], 1)] := by decide

/-! ## C05 -/

/-- C05 in full would be: for every operator the ordering succeeds and keeps the meaning. -/
def C05_full (R : Type*) [CommRing R] : Prop :=
  ∀ (tiny : R → Bool), ExactTiny tiny → ∀ d : Dict R,
    ∃ e, normalOrder tiny d = .ok e ∧ (sumOp e : FOp R) = sumOp d

/-- C05 is violated: `a_0 a†_0 = 1 - a†_0 a_0` comes back as `- a†_0 a_0`; the constant of a full
contraction is dropped (fermionic_operator.py:73). -/
theorem C05_violated : ¬ C05_full ℤ := by
  intro h
  obtain ⟨e, h1, h2⟩ := h (fun x => x == 0) (fun x h => by simpa using h)
    [([(0, false), (0, true)], 1)]
  have h3 : normalOrder (fun x : ℤ => x == 0) [([(0, false), (0, true)], 1)]
      = .ok [([(0, true), (0, false)], -1)] := by rfl
  rw [h3] at h1
  simp only [Except.ok.injEq] at h1
  subst h1
  have h4 := congrArg (fun f : FOp ℤ => coeff (f (ket ∅)) ∅) h2
  simp [ladder, an_single, cr_single, coeff_sgl, phase] at h4

/-- C05, proved part: the meaning is preserved, for every state, whenever each string keeps at
least two operators under all contractions (`Safe`, Spec/Operators.lean).  Missing: strings that
can contract down to a constant or a single operator. -/
theorem C05_partial {tiny : R → Bool} (ht : ExactTiny tiny) (d : Dict R)
    (hs : ∀ kv ∈ d, Safe kv.1) :
    ∃ e, normalOrder tiny d = .ok e ∧ ∀ x : Fock R, sumOp e x = sumOp d x := by
  obtain ⟨e, h1, h2⟩ := normalOrder_sem ht d hs
  exact ⟨e, h1, fun x => by rw [h2]⟩

/-- A safe string that does contract. -/
example : Safe [(0, true), (1, false), (1, true), (2, false)] ∧
    ¬ NormalOrdered [(0, true), (1, false), (1, true), (2, false)] := by decide

/-! ## C06 -/

/-- C06 in full: every product is composition. -/
def C06_full (R : Type*) [CommRing R] : Prop :=
  ∀ (tiny : R → Bool), ExactTiny tiny → ∀ A B : Dict R, WF A → WF B →
    ∃ e, fmul tiny A B = .ok e ∧ (sumOp e : FOp R) = sumOp A * sumOp B

/-- C06 is violated by `a_0 * a†_0`. -/
theorem C06_violated : ¬ C06_full ℤ := by
  intro h
  obtain ⟨e, h1, h2⟩ := h (fun x => x == 0) (fun x h => by simpa using h)
    [([(0, false)], 1)] [([(0, true)], 1)] (by decide) (by decide)
  have h3 : fmul (fun x : ℤ => x == 0) [([(0, false)], 1)] [([(0, true)], 1)]
      = .ok [([(0, true), (0, false)], -1)] := by rfl
  rw [h3] at h1
  simp only [Except.ok.injEq] at h1
  subst h1
  have h4 := congrArg (fun f : FOp ℤ => coeff (f (ket ∅)) ∅) h2
  simp [ladder, an_single, cr_single, coeff_sgl, phase] at h4

/-- C06, proved part: the product of number-conserving operators in normal order (what all
functions of operators.py produce) is their composition, and is again such an operator, so this
holds for products of any length.  Missing: operators with strings that do not conserve the number
of electrons. -/
theorem C06_partial {tiny : R → Bool} (ht : ExactTiny tiny) {A B : Dict R} (hA : NumCons A)
    (hB : NumCons B) :
    ∃ d, fmul tiny A B = .ok d ∧ NumCons d ∧ ∀ x : Fock R, sumOp d x = sumOp A (sumOp B x) := by
  obtain ⟨d, h1, h2, h3⟩ := NumCons.mul ht hA hB
  exact ⟨d, h1, h2, fun x => by rw [h3]; rfl⟩

/-- C06 for arbitrary operators whose concatenated strings are safe. -/
theorem C06_safe_partial {tiny : R → Bool} (ht : ExactTiny tiny) (A B : Dict R)
    (hs : ∀ b ∈ B, ∀ a ∈ A, Safe (a.1 ++ b.1)) :
    ∃ d, fmul tiny A B = .ok d ∧ ∀ x : Fock R, sumOp d x = sumOp A (sumOp B x) := by
  obtain ⟨d, h1, h2⟩ := fmul_sem ht A B hs
  exact ⟨d, h1, fun x => by rw [h2]; rfl⟩

example : NumCons ([([(2, true), (1, false)], 3), ([(3, true), (2, true), (1, false), (0, false)], -2)]
    : Dict ℤ) := ⟨by decide, by decide, by decide⟩

/-! ## C07 -/

/-- C07: for an operator in normal order without one-operator strings, `dagger` is the adjoint, and
`dagger` of the result has the action of the original operator. -/
theorem C07_dagger {tiny : R → Bool} (ht : ExactTiny tiny) {A : Dict R} (hA : WF A)
    (hn : ∀ kv ∈ A, NormalOrdered kv.1 ∧ kv.1.length ≠ 1) :
    ∃ d, fdagger tiny A = .ok d ∧
      (∀ x y : Fock R, inner (sumOp d x) y = inner x (sumOp A y)) ∧
      ∃ e, fdagger tiny d = .ok e ∧ ∀ x : Fock R, sumOp e x = sumOp A x := by
  obtain ⟨d, h1, h2⟩ := fdagger_sem ht hA hn
  have hlen : ∀ kv ∈ d, NormalOrdered kv.1 ∧ kv.1.length ≠ 1 := by
    rw [fdagger, dagger_dict hA] at h1
    have hsafe : ∀ x ∈ A.map (fun kv => (flipKey kv.1, kv.2)), Safe x.1 := by
      intro x hx
      obtain ⟨kv, hk, rfl⟩ := List.mem_map.1 hx
      exact safe_of_cr_first (hn kv hk).1.flip_cr_first (by simpa [flipKey] using (hn kv hk).2)
    have hl := orderQueue_safe_len _ _ _ _ hsafe (by simp) h1
    rcases (C04_normalOrder tiny (A.map fun kv => (flipKey kv.1, kv.2))).1 with h | ⟨e, g1, _, g3⟩
    · rw [h1] at h; simp at h
    · rw [h1] at g1; simp only [Except.ok.injEq] at g1; subst g1
      exact fun kv hk => ⟨g3 kv hk, hl kv hk⟩
  have hwd : WF d := by
    rw [fdagger, dagger_dict hA] at h1; exact normalOrder_wf h1
  obtain ⟨e, h3, h4⟩ := fdagger_sem ht hwd hlen
  refine ⟨d, h1, fun x y => (h2.symm x y), e, h3, fun x => ?_⟩
  rw [IsAdjoint.unique h4 h2.symm]

/-- `dagger` of a two-term operator that has to be reordered. -/
example : (match fdagger (fun x : ℤ => x == 0)
      [([(2, true), (1, true), (3, false), (0, false)], 3), ([(2, true), (1, false)], 5)] with
    | .error _ => [] | .ok d => d) =
    [([(3, true), (0, true), (2, false), (1, false)], 3), ([(1, true), (2, false)], 5)] := by decide

/-- One-operator strings raise: `dagger` of `a†_0` is an `IndexError`. -/
theorem C07_single_raises (tiny : R → Bool) (o : Lad) (v : R) :
    fdagger tiny [([o], v)] = .error .indexError :=
  (C04_dagger tiny [([o], v)] (by simp [WF])).2.1 ⟨([o], v), by simp, rfl⟩

end SQ
