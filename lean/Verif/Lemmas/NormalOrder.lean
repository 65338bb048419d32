import Verif.Lemmas.Fock
import Verif.Model.FermionicOperator
import Verif.Spec.Operators
import Mathlib.Data.List.Perm.Basic
import Mathlib.Data.List.Count
import Mathlib.Tactic.Linarith
import Mathlib.Algebra.BigOperators.Group.List.Basic

/-! # Lemmas about the normal-ordering loops -/

namespace SQ

variable {R : Type*} [CommRing R]

/-- `a` directly before `b` is out of order. -/
def wrong (a b : Lad) : Bool := (!a.2 && b.2) || (a.2 == b.2 && decide (a.1 < b.1))

/-- Number of out-of-order pairs. -/
def invs : Str → ℕ
  | [] => 0
  | a :: t => t.countP (wrong a) + invs t

/-- One step of the sweep in three cases. -/
theorem sweep_cons (pre : Str) (a b : Lad) (f : R) (ch : Bool) (q : List (Str × R)) (rest : Str) :
    sweep pre a f ch q (b :: rest) =
      if a = b then ⟨pre ++ a :: b :: rest, f, ch, true, q⟩
      else if wrong a b then
        sweep (pre ++ [b]) a (f * -1) true
          (if a.1 = b.1 ∧ 0 < (pre ++ rest).length then q ++ [(pre ++ rest, f)] else q) rest
      else sweep (pre ++ [a]) b f ch q rest := by
  obtain ⟨p, x⟩ := a
  obtain ⟨r, y⟩ := b
  rw [sweep]
  cases x <;> cases y <;> simp only [wrong, Prod.mk.injEq] <;>
    by_cases h : p = r <;> by_cases h2 : p < r <;> simp [h, h2]

theorem wrong_asymm {a b : Lad} (h : wrong a b = true) : wrong b a = false := by
  obtain ⟨p, x⟩ := a
  obtain ⟨r, y⟩ := b
  cases x <;> cases y <;> simp_all [wrong]; omega; omega

theorem invs_swap (pre rest : Str) {a b : Lad} (h : wrong a b = true) :
    invs (pre ++ b :: a :: rest) + 1 = invs (pre ++ a :: b :: rest) := by
  induction pre with
  | nil =>
    simp only [List.nil_append, invs, List.countP_cons, h, wrong_asymm h]
    simp; omega
  | cons c t ih =>
    simp only [List.cons_append, invs, List.countP_append, List.countP_cons]
    omega

theorem invs_le (s : Str) : invs s ≤ s.length * s.length := by
  induction s with
  | nil => simp [invs]
  | cons a t ih =>
    have := List.countP_le_length (p := wrong a) (l := t)
    simp only [invs, List.length_cons]
    nlinarith

/-- A pair of operators is *in order* when it is neither equal nor wrong. -/
theorem not_wrong_iff {a b : Lad} (h : a ≠ b) (h2 : wrong a b = false) :
    (a.2 = true ∧ b.2 = false) ∨ (a.2 = b.2 ∧ b.1 < a.1) := by
  obtain ⟨p, x⟩ := a
  obtain ⟨r, y⟩ := b
  cases x <;> cases y <;> simp_all [wrong] <;> omega

/-- Structural facts about one sweep that hold for every string. -/
theorem sweep_struct (rest : Str) : ∀ (pre : Str) (a : Lad) (f : R) (ch : Bool)
    (q : List (Str × R)),
    let o := sweep pre a f ch q rest
    o.str.Perm (pre ++ a :: rest) ∧
    invs o.str ≤ invs (pre ++ a :: rest) ∧
    (o.changed = true → ch = true ∨ invs o.str < invs (pre ++ a :: rest)) ∧
    (ch = true → o.changed = true) ∧
    (∃ new, o.queue = q ++ new ∧ new.length + invs o.str ≤ invs (pre ++ a :: rest) ∧
      ∀ x ∈ new, x.1 ≠ [] ∧ ∃ p, (pre ++ a :: rest).Perm ((p, false) :: (p, true) :: x.1)) := by
  induction rest with
  | nil =>
    intro pre a f ch q
    simp only [sweep]
    refine ⟨List.Perm.refl _, le_refl _, fun h => Or.inl h, fun h => h, [], by simp, by simp, by simp⟩
  | cons b rest ih =>
    intro pre a f ch q
    simp only [sweep_cons]
    by_cases hab : a = b
    · simp only [hab, if_true]
      refine ⟨List.Perm.refl _, le_refl _, fun h => Or.inl h, fun h => h, [], by simp, by simp, by simp⟩
    · simp only [hab, if_false]
      by_cases hw : wrong a b = true
      · simp only [hw, if_true]
        have e := invs_swap pre rest hw
        have hperm : (pre ++ [b] ++ a :: rest).Perm (pre ++ a :: b :: rest) := by
          simp only [List.append_assoc, List.singleton_append]
          exact List.Perm.append_left _ (List.Perm.swap a b rest)
        split
        · next hc =>
          obtain ⟨h1, h2, h3, h4, new, h5, h6, h7⟩ := ih (pre ++ [b]) a (f * -1) true
            (q ++ [(pre ++ rest, f)])
          simp only [List.append_assoc, List.singleton_append] at h1 h2 h3 h5 h6 h7 hperm
          refine ⟨h1.trans hperm, by omega, fun _ => Or.inr (by omega), fun _ => h4 rfl,
            (pre ++ rest, f) :: new, by simpa using h5, by simp only [List.length_cons]; omega, ?_⟩
          intro x hx
          rcases List.mem_cons.1 hx with rfl | hx
          · refine ⟨by intro h0; change pre ++ rest = [] at h0; rw [h0] at hc; simp at hc, b.1, ?_⟩
            have hb : a = (b.1, false) ∧ b = (b.1, true) := by
              obtain ⟨p, x⟩ := a
              obtain ⟨r, y⟩ := b
              cases x <;> cases y <;> simp_all [wrong]
            have : (pre ++ a :: b :: rest).Perm (a :: b :: (pre ++ rest)) := by
              refine (List.perm_middle).trans ?_
              exact List.Perm.cons _ List.perm_middle
            rw [← hb.1, ← hb.2]; exact this
          · obtain ⟨h8, p, h9⟩ := h7 x hx
            exact ⟨h8, p, hperm.symm.trans h9⟩
        · next hc =>
          obtain ⟨h1, h2, h3, h4, new, h5, h6, h7⟩ := ih (pre ++ [b]) a (f * -1) true q
          simp only [List.append_assoc, List.singleton_append] at h1 h2 h3 h5 h6 h7 hperm
          refine ⟨h1.trans hperm, by omega, fun _ => Or.inr (by omega), fun _ => h4 rfl,
            new, h5, by omega, ?_⟩
          intro x hx
          obtain ⟨h8, p, h9⟩ := h7 x hx
          exact ⟨h8, p, hperm.symm.trans h9⟩
      · simp only [hw, if_false, Bool.false_eq_true]
        have := ih (pre ++ [a]) b f ch q
        simpa only [List.append_assoc, List.singleton_append] using this

/-- A sweep that changes nothing and finds no zero leaves an ordered string. -/
theorem sweep_ordered (rest : Str) : ∀ (pre : Str) (a : Lad) (f : R) (q : List (Str × R)),
    let o := sweep pre a f false q rest
    o.changed = false → o.isZero = false →
    o.str = pre ++ a :: rest ∧ o.factor = f ∧ o.queue = q ∧
    List.IsChain (fun a b => (a.2 = true ∧ b.2 = false) ∨ (a.2 = b.2 ∧ b.1 < a.1)) (a :: rest) := by
  induction rest with
  | nil => intro pre a f q; simp [sweep]
  | cons b rest ih =>
    intro pre a f q
    simp only [sweep_cons]
    by_cases hab : a = b
    · simp [hab]
    · simp only [hab, if_false]
      by_cases hw : wrong a b = true
      · simp only [hw, if_true]
        intro h
        have := (sweep_struct rest (pre ++ [b]) a (f * -1) true
          (if a.1 = b.1 ∧ 0 < (pre ++ rest).length then q ++ [(pre ++ rest, f)] else q)).2.2.2.1 rfl
        rw [this] at h; simp at h
      · simp only [hw, if_false, Bool.false_eq_true]
        intro h1 h2
        obtain ⟨e1, e2, e3, e4⟩ := ih (pre ++ [a]) b f q h1 h2
        refine ⟨by simpa using e1, e2, e3, ?_⟩
        rw [List.isChain_cons_cons]
        exact ⟨not_wrong_iff hab (by simpa using hw), e4⟩

theorem normalOrdered_of_chain {s : Str}
    (h : List.IsChain (fun a b => (a.2 = true ∧ b.2 = false) ∨ (a.2 = b.2 ∧ b.1 < a.1)) s) :
    NormalOrdered s := by
  unfold NormalOrdered
  have : IsTrans Lad (fun a b => (a.2 = true ∧ b.2 = false) ∨ (a.2 = b.2 ∧ b.1 < a.1)) := by
    constructor
    rintro ⟨p, x⟩ ⟨q, y⟩ ⟨r, z⟩ h1 h2
    cases x <;> cases y <;> cases z <;> simp_all <;> omega
  exact List.isChain_iff_pairwise.1 h

/-- Facts about the middle loop valid for every string. -/
theorem orderOne_struct (n : ℕ) : ∀ (s : Str) (f : R) (q : List (Str × R)),
    invs s < n → s.length ≠ 1 →
    ∃ r new, orderOne n s f q = .ok (r, q ++ new) ∧ new.length ≤ invs s ∧
      (∀ x ∈ new, x.1 ≠ [] ∧ ∃ p, s.Perm ((p, false) :: (p, true) :: x.1)) ∧
      (∀ kv, r = some kv → kv.1.Perm s ∧ NormalOrdered kv.1) := by
  induction n with
  | zero => intro s f q h; omega
  | succ n ih =>
    intro s f q hn hl
    match s with
    | [] =>
      refine ⟨some ([], f), [], by simp [orderOne], by simp, by simp, ?_⟩
      rintro kv h; cases h; exact ⟨List.Perm.refl _, List.Pairwise.nil⟩
    | [_] => simp at hl
    | a :: b :: rest =>
      have hs := sweep_struct (R := R) (b :: rest) [] a f false q
      have ho := sweep_ordered (R := R) (b :: rest) [] a f q
      simp only [orderOne]
      generalize sweep [] a f false q (b :: rest) = o at hs ho ⊢
      simp only [List.nil_append] at hs ho
      obtain ⟨h1, h2, h3, _, new, h5, h6, h7⟩ := hs
      by_cases hz : o.isZero = true
      · refine ⟨none, new, by simp [hz, h5], by omega, h7, by simp⟩
      · by_cases hc : o.changed = true
        · simp only [hc, hz, Bool.not_true, Bool.false_or, if_false, Bool.false_eq_true]
          have h3' : invs o.str < invs (a :: b :: rest) := by
            rcases h3 hc with h | h
            · simp at h
            · exact h
          obtain ⟨r, new2, e1, e2, e3, e4⟩ := ih o.str o.factor o.queue (by omega)
            (by rw [h1.length_eq]; simp)
          refine ⟨r, new ++ new2, by rw [e1, h5]; simp, by simp; omega, ?_, ?_⟩
          · intro x hx
            rcases List.mem_append.1 hx with hx | hx
            · exact h7 x hx
            · obtain ⟨h8, p, h9⟩ := e3 x hx
              exact ⟨h8, p, h1.symm.trans h9⟩
          · intro kv hk
            exact ⟨(e4 kv hk).1.trans h1, (e4 kv hk).2⟩
        · simp only [Bool.not_eq_true] at hc hz
          obtain ⟨e1, e2, e3, e4⟩ := ho hc hz
          refine ⟨some (o.str, o.factor), [], by simp [hc, hz, e3], by simp, by simp, ?_⟩
          rintro kv h; cases h
          exact ⟨h1, by rw [e1]; exact normalOrdered_of_chain e4⟩

theorem budget_pos (n : ℕ) : 1 ≤ budget n := by
  match n with
  | 0 => simp [budget]
  | 1 => simp [budget]
  | n + 2 => simp [budget]

theorem orderOne_len_one (n : ℕ) (o : Lad) (f : R) (q : List (Str × R)) :
    orderOne (n + 1) [o] f q = .error .indexError := by simp [orderOne]

/-- Sum of budgets of a queue. -/
def qbudget (q : List (Str × R)) : ℕ := (q.map fun kv => budget kv.1.length).sum

omit [CommRing R] in
theorem qbudget_append (q r : List (Str × R)) : qbudget (q ++ r) = qbudget q + qbudget r := by
  simp [qbudget]

omit [CommRing R] in
theorem qbudget_new {s : Str} {new : List (Str × R)} (hl : new.length ≤ s.length * s.length)
    (h : ∀ x ∈ new, ∃ p, s.Perm ((p, false) :: (p, true) :: x.1)) :
    qbudget new + 1 ≤ budget s.length := by
  have hx : ∀ x ∈ new, x.1.length + 2 = s.length := by
    intro x hx; obtain ⟨p, hp⟩ := h x hx; have := hp.length_eq; simpa using this.symm
  by_cases hn : new = []
  · subst hn; simp [qbudget]; exact budget_pos _
  · obtain ⟨x, hx0⟩ := List.exists_mem_of_ne_nil _ hn
    have hs := hx x hx0
    obtain ⟨m, hm⟩ : ∃ m, s.length = m + 2 := ⟨x.1.length, hs.symm⟩
    have : qbudget new ≤ new.length * budget m := by
      clear hl hn hs hx0
      induction new with
      | nil => simp [qbudget]
      | cons y t ih =>
        have hy : y.1.length = m := by have := hx y (by simp); omega
        have := ih (fun z hz => h z (by simp [hz])) (fun z hz => hx z (by simp [hz]))
        simp only [qbudget, List.map_cons, List.sum_cons, List.length_cons, hy] at *
        rw [Nat.succ_mul]; omega
    rw [hm] at hl ⊢
    rw [budget]
    have := Nat.mul_le_mul_right (budget m) hl
    omega

/-- The outer loop in general: with enough budget it either raises `IndexError` or finishes; every
key it adds satisfies `P` as soon as `P` holds of finished permutations of queue strings, where `Q`
is an invariant of the queue strings. -/
theorem orderQueue_struct (tiny : R → Bool) (Q : Str → Prop)
    (hQ : ∀ s p t, Q s → s.Perm ((p, false) :: (p, true) :: t) → t ≠ [] → Q t) (n : ℕ) :
    ∀ (q : List (Str × R)) (acc : Dict R), qbudget q ≤ n → (∀ x ∈ q, Q x.1) →
      (∀ kv ∈ acc, NormalOrdered kv.1 ∧ ∃ s, kv.1.Perm s ∧ Q s) →
      (orderQueue tiny n q acc = .error .indexError ∧ ∃ s, Q s ∧ s.length = 1) ∨
      ∃ d, orderQueue tiny n q acc = .ok d ∧
        (∀ kv ∈ d, NormalOrdered kv.1 ∧ ∃ s, kv.1.Perm s ∧ Q s) := by
  induction n with
  | zero =>
    intro q acc hq hQq hacc
    match q with
    | [] => exact Or.inr ⟨acc, by simp [orderQueue], hacc⟩
    | x :: q =>
      have := budget_pos x.1.length
      simp [qbudget] at hq; omega
  | succ n ih =>
    intro q acc hq hQq hacc
    match q with
    | [] => exact Or.inr ⟨acc, by simp [orderQueue], hacc⟩
    | (s, f) :: q =>
      have hQs : Q s := hQq (s, f) (by simp)
      simp only [orderQueue]
      by_cases hl : s.length = 1
      · left
        match s, hl with
        | [o], _ => exact ⟨by simp [orderOne_len_one], [o], hQs, rfl⟩
      · obtain ⟨r, new, e1, e2, e3, e4⟩ := orderOne_struct (s.length * s.length + 1) s f q
          (by have := invs_le s; omega) hl
        have hb := qbudget_new (s := s) (new := new) (by have := invs_le s; omega)
          (fun x hx => (e3 x hx).2)
        have hq' : qbudget (q ++ new) ≤ n := by
          rw [qbudget_append]
          simp only [qbudget, List.map_cons, List.sum_cons] at hq hb ⊢
          omega
        have hQ' : ∀ x ∈ q ++ new, Q x.1 := by
          intro x hx
          rcases List.mem_append.1 hx with hx | hx
          · exact hQq x (by simp [hx])
          · obtain ⟨h1, p, h2⟩ := e3 x hx
            exact hQ s p x.1 hQs h2 h1
        rw [e1]
        match r with
        | none => exact ih _ acc hq' hQ' hacc
        | some (k, v) =>
          refine ih _ _ hq' hQ' ?_
          have hk := e4 (k, v) rfl
          clear ih e1 e2 e3 e4 hb hq hq'
          induction acc with
          | nil =>
            intro kv h; simp [addTo] at h; subst h; exact ⟨hk.2, s, hk.1, hQs⟩
          | cons y t iht =>
            have iht := iht (fun kv h => hacc kv (by simp [h]))
            intro kv h
            simp only [addTo] at h
            split at h
            · split at h
              · exact hacc kv (by simp [h])
              · rcases List.mem_cons.1 h with h | h
                · subst h; exact hacc y (by simp)
                · exact hacc kv (by simp [h])
            · rcases List.mem_cons.1 h with h | h
              · subst h; exact hacc y (by simp)
              · exact iht kv h

end SQ
