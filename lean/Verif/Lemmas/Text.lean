import Verif.Model.FermionicText
import Verif.Spec.Operators
import Verif.Lemmas.Mul
import Mathlib.Data.Nat.Digits.Lemmas

/-! # Lemmas about rendered keys -/

namespace SQ

theorem digitC_isDig {d : ℕ} (h : d < 10) : isDig (digitC d) = true := by
  revert d; decide

theorem digitC_val {d : ℕ} (h : d < 10) : (digitC d).toNat - 48 = d := by
  revert d; decide

theorem pyStr_dig (n : ℕ) : ∀ c ∈ pyStr n, isDig c = true := by
  intro c hc
  unfold pyStr at hc
  split at hc
  · simp at hc; subst hc; decide
  · obtain ⟨d, hd, rfl⟩ := List.mem_map.1 hc
    exact digitC_isDig (Nat.digits_lt_base (by norm_num) (List.mem_reverse.1 hd))

theorem pyStr_ne (n : ℕ) : pyStr n ≠ [] := by
  unfold pyStr
  split
  · simp
  · next h =>
    simp [Nat.digits_eq_nil_iff_eq_zero, h]

theorem pyInt_digits (l : List ℕ) (h : ∀ d ∈ l, d < 10) :
    pyInt (l.reverse.map digitC) = Nat.ofDigits 10 l := by
  induction l with
  | nil => rfl
  | cons d l ih =>
    have ih := ih fun x hx => h x (by simp [hx])
    unfold pyInt at *
    rw [List.reverse_cons, List.map_append, List.foldl_append, ih, Nat.ofDigits_cons]
    simp only [List.map_cons, List.map_nil, List.foldl_cons, List.foldl_nil,
      digitC_val (h d (by simp))]
    ring

theorem pyInt_pyStr (n : ℕ) : pyInt (pyStr n) = n := by
  unfold pyStr
  split
  · next h => subst h; decide
  · rw [pyInt_digits _ fun d hd => Nat.digits_lt_base (by norm_num) hd, Nat.ofDigits_digits]

theorem pyStr_inj {m n : ℕ} (h : pyStr m = pyStr n) : m = n := by
  rw [← pyInt_pyStr m, h, pyInt_pyStr]

/-- Two texts starting with a numeral followed by something that does not start with a digit. -/
theorem numeral_split {a b r s : List Char} (ha : ∀ c ∈ a, isDig c = true)
    (hb : ∀ c ∈ b, isDig c = true) (hr : ∀ c ∈ r.head?, isDig c = false)
    (hs : ∀ c ∈ s.head?, isDig c = false) (h : a ++ r = b ++ s) : a = b ∧ r = s := by
  have key : ∀ (a r : List Char), (∀ c ∈ a, isDig c = true) → (∀ c ∈ r.head?, isDig c = false) →
      (a ++ r).takeWhile isDig = a := by
    intro a r ha hr
    rw [List.takeWhile_append_of_pos ha]
    cases r with
    | nil => simp
    | cons c r =>
      have := hr c (by simp)
      simp [this]
  have h1 := key a r ha hr
  have h2 := key b s hb hs
  rw [h, h2] at h1
  subst h1
  exact ⟨rfl, List.append_cancel_left h⟩

/-- Rendering with a separator character per operator and a fixed middle part. -/
def render (pre : Bool → List Char) (s : Str) : List Char :=
  s.flatMap fun o => pre o.2 ++ pyStr o.1

theorem render_inj {pre : Bool → List Char} (hl : (pre true).length = (pre false).length)
    (hne : pre true ≠ pre false) (hd : ∀ b, ∃ c t, pre b = c :: t ∧ isDig c = false) :
    ∀ s t : Str, render pre s = render pre t → s = t := by
  have hhead : ∀ s : Str, ∀ c ∈ (render pre s).head?, isDig c = false := by
    intro s c hc
    cases s with
    | nil => simp [render] at hc
    | cons o t =>
      obtain ⟨c', t', e, hc'⟩ := hd o.2
      simp [render, e] at hc
      rw [← hc]; exact hc'
  have hpos : ∀ (o : Lad) (t : Str), render pre (o :: t) ≠ [] := by
    intro o t h
    obtain ⟨c', t', e, _⟩ := hd o.2
    simp [render, e] at h
  intro s
  induction s with
  | nil =>
    intro t h
    cases t with
    | nil => rfl
    | cons o t => exact absurd h.symm (hpos o t)
  | cons o s ih =>
    intro t h
    cases t with
    | nil => exact absurd h (hpos o s)
    | cons o' t =>
      have e : ∀ (o : Lad) (t : Str), render pre (o :: t) = pre o.2 ++ (pyStr o.1 ++ render pre t) := by
        intro o t; simp [render]
      rw [e, e] at h
      have hlen : (pre o.2).length = (pre o'.2).length := by
        cases o.2 <;> cases o'.2 <;> simp [hl]
      obtain ⟨h1, h2⟩ := List.append_inj h hlen
      obtain ⟨h3, h4⟩ := numeral_split (pyStr_dig _) (pyStr_dig _) (hhead s) (hhead t) h2
      have hb : o.2 = o'.2 := by
        cases hb1 : o.2 <;> cases hb2 : o'.2 <;> simp_all
      rw [ih t h4, Prod.ext (pyStr_inj h3) hb]

/-! ### Qiskit keys -/

/-- Position of spin orbital `k` in alpha-block, beta-block order. -/
def blocked (n k : ℕ) : ℕ := if k % 2 = 0 then k / 2 else n + k / 2

theorem remapGet_eq (n k : ℕ) :
    remapGet n k = if k < 2 * n then .ok (blocked n k) else .error .keyError := by
  unfold remapGet
  cases h : (remapping n).find? fun kv => kv.1 == k with
  | some kv =>
    have hm := List.mem_of_find?_eq_some h
    have hk := List.find?_some h
    simp only [beq_iff_eq] at hk
    unfold remapping at hm
    obtain ⟨i, hi, rfl⟩ := List.mem_map.1 hm
    rw [List.mem_range] at hi
    simp only
    by_cases hin : i < n
    · rw [if_pos hin] at hk ⊢
      simp only at hk ⊢
      rw [if_pos (by omega)]
      unfold blocked; rw [if_pos (by omega)]
      congr 1; omega
    · rw [if_neg hin] at hk ⊢
      simp only at hk ⊢
      rw [if_pos (by omega)]
      unfold blocked; rw [if_neg (by omega)]
      congr 1; omega
  | none =>
    rw [List.find?_eq_none] at h
    simp only
    rw [if_neg]
    intro hlt
    by_cases he : k % 2 = 0
    · apply h (k, k / 2)
      · unfold remapping
        refine List.mem_map.2 ⟨k / 2, List.mem_range.2 (by omega), ?_⟩
        rw [if_pos (by omega)]; ext <;> simp; omega
      · simp
    · apply h (k, n + k / 2)
      · unfold remapping
        refine List.mem_map.2 ⟨n + k / 2, List.mem_range.2 (by omega), ?_⟩
        rw [if_neg (by omega)]; ext <;> simp; omega
      · simp

def qpre (b : Bool) : List Char := if b then [' ', '+', '_'] else [' ', '-', '_']

theorem qiskitLoop_ok (n : ℕ) (s : Str) (h : ∀ o ∈ s, o.1 < 2 * n) : ∀ key,
    qiskitLoop n s key = .ok (key ++ render qpre (s.map fun o => (blocked n o.1, o.2))) := by
  induction s with
  | nil => intro key; simp [qiskitLoop, render]
  | cons o t ih =>
    intro key
    have h1 : remapGet n o.1 = .ok (blocked n o.1) := by
      rw [remapGet_eq, if_pos (h o (by simp))]
    have ih := ih fun x hx => h x (by simp [hx])
    simp only [qiskitLoop, h1]
    show (if o.2 = true then _ else _) = _
    cases hb : o.2 <;> simp [ih, render, qpre, hb]

theorem qiskitLoop_error (n : ℕ) (s : Str) (h : ∃ o ∈ s, ¬ o.1 < 2 * n) : ∀ key,
    qiskitLoop n s key = .error .keyError := by
  induction s with
  | nil => simp at h
  | cons o t ih =>
    intro key
    simp only [qiskitLoop]
    by_cases h1 : o.1 < 2 * n
    · have h1' : remapGet n o.1 = .ok (blocked n o.1) := by rw [remapGet_eq, if_pos h1]
      have ih := ih (by
        obtain ⟨x, hx, hx2⟩ := h
        rcases List.mem_cons.1 hx with rfl | hx
        · exact absurd h1 hx2
        · exact ⟨x, hx, hx2⟩)
      rw [h1']
      show (if o.2 = true then _ else _) = _
      split <;> exact ih _
    · have h1' : remapGet n o.1 = .error .keyError := by rw [remapGet_eq, if_neg h1]
      rw [h1']; rfl

theorem blocked_inj {n k l : ℕ} (hk : k < 2 * n) (hl : l < 2 * n) (h : blocked n k = blocked n l) :
    k = l := by
  unfold blocked at h
  split at h <;> split at h <;> omega

/-- The text of a key in Qiskit form. -/
def qtext (n : ℕ) (s : Str) : List Char := (render qpre (s.map fun o => (blocked n o.1, o.2))).tail

theorem qtext_inj {n : ℕ} {s t : Str} (hs : ∀ o ∈ s, o.1 < 2 * n) (ht : ∀ o ∈ t, o.1 < 2 * n)
    (h : qtext n s = qtext n t) : s = t := by
  have h1 : render qpre (s.map fun o => (blocked n o.1, o.2))
      = render qpre (t.map fun o => (blocked n o.1, o.2)) := by
    unfold qtext at h
    have hc : ∀ s : Str, s ≠ [] → ∃ r, render qpre s = ' ' :: r := by
      intro s hs
      cases s with
      | nil => exact absurd rfl hs
      | cons o t =>
        cases hb : o.2 <;> exact ⟨_, by simp [render, qpre, hb]; rfl⟩
    have hlen : ∀ (o : Lad) (s : Str), (render qpre (o :: s)).tail ≠ [] := by
      intro o s h; cases hb : o.2 <;> simp [render, qpre, hb] at h
    match s, t with
    | [], [] => rfl
    | [], o :: t => exact absurd h.symm (hlen _ _)
    | o :: s, [] => exact absurd h (hlen _ _)
    | o :: s, o' :: t =>
      obtain ⟨r, hr⟩ := hc ((o :: s).map fun o => (blocked n o.1, o.2)) (by simp)
      obtain ⟨r', hr'⟩ := hc ((o' :: t).map fun o => (blocked n o.1, o.2)) (by simp)
      rw [hr, hr'] at h ⊢
      simpa using h
  have h2 := render_inj (pre := qpre) rfl (by decide) (by
    intro b; cases b
    · exact ⟨' ', _, rfl, by decide⟩
    · exact ⟨' ', _, rfl, by decide⟩) _ _ h1
  have key : ∀ s t : Str, (∀ o ∈ s, o.1 < 2 * n) → (∀ o ∈ t, o.1 < 2 * n) →
      s.map (fun o => (blocked n o.1, o.2)) = t.map (fun o => (blocked n o.1, o.2)) → s = t := by
    intro s
    induction s with
    | nil => intro t _ _ h; cases t with
      | nil => rfl
      | cons o t => simp at h
    | cons o s ih =>
      intro t hs ht h
      cases t with
      | nil => simp at h
      | cons o' t =>
        simp only [List.map_cons, List.cons.injEq, Prod.mk.injEq] at h
        rw [ih t (fun x hx => hs x (by simp [hx])) (fun x hx => ht x (by simp [hx])) h.2,
          Prod.ext (blocked_inj (hs o (by simp)) (ht o' (by simp)) h.1.1) h.1.2]
  exact key s t hs ht h2

theorem sset_new {R : Type*} {d : SDict R} {k : List Char} (h : k ∉ d.map (·.1)) (v : R) :
    d.set k v = d ++ [(k, v)] := by
  induction d with
  | nil => rfl
  | cons kv t ih =>
    obtain ⟨k', v'⟩ := kv
    simp only [List.map_cons, List.mem_cons, not_or] at h
    simp only [SDict.set, if_neg (Ne.symm h.1), ih h.2, List.cons_append]

/-- Filling a dictionary under an injective renaming of the keys. -/
theorem fill_inj {R : Type*} (f : Str → List Char) (A : Dict R) (hA : WF A)
    (hf : ∀ a ∈ A, ∀ b ∈ A, f a.1 = f b.1 → a.1 = b.1) :
    A.foldl (fun d kv => SDict.set d (f kv.1) kv.2) [] = A.map fun kv => (f kv.1, kv.2) := by
  have key : ∀ (rest done : Dict R), (∀ kv ∈ done ++ rest, kv ∈ A) → WF (done ++ rest) →
      rest.foldl (fun d kv => SDict.set d (f kv.1) kv.2) (done.map fun kv => (f kv.1, kv.2))
        = (done ++ rest).map fun kv => (f kv.1, kv.2) := by
    intro rest
    induction rest with
    | nil => intro done _ _; simp
    | cons kv t ih =>
      intro done hm hw
      rw [List.foldl_cons, sset_new]
      · have := ih (done ++ [kv]) (by simpa using hm) (by simpa [WF] using hw)
        simpa using this
      · intro hin
        simp only [List.map_map, List.mem_map, Function.comp] at hin
        obtain ⟨kv', h1, h2⟩ := hin
        have he := hf kv' (hm _ (by simp [h1])) kv (hm _ (by simp)) h2
        simp only [WF, List.map_append, List.map_cons] at hw
        exact (List.nodup_append.1 hw).2.2 kv'.1 (List.mem_map_of_mem h1) kv.1 (by simp) he
  simpa using key A [] (by simp) (by simpa using hA)

/-! ### Readable keys -/

def rpre (b : Bool) : List Char := if b then ['c'] else ['a']

theorem readableKey_eq (s : Str) : readableKey s = render rpre s := by
  have key : ∀ (s : Str) (acc : List Char),
      s.foldl (fun key a => if a.2 then key ++ ('c' :: pyStr a.1) else key ++ ('a' :: pyStr a.1)) acc
        = acc ++ render rpre s := by
    intro s
    induction s with
    | nil => intro acc; simp [render]
    | cons o t ih =>
      intro acc
      rw [List.foldl_cons, ih]
      cases hb : o.2 <;> simp [render, rpre, hb]
  exact key s []

theorem readableKey_inj {s t : Str} (h : readableKey s = readableKey t) : s = t := by
  rw [readableKey_eq, readableKey_eq] at h
  exact render_inj (pre := rpre) rfl (by decide) (by
    intro b; cases b
    · exact ⟨'a', _, rfl, by decide⟩
    · exact ⟨'c', _, rfl, by decide⟩) _ _ h

theorem digitRuns_numeral (a r : List Char) (ha : ∀ c ∈ a, isDig c = true)
    : ∀ cur, digitRuns cur (a ++ r) = digitRuns (cur ++ a) r := by
  induction a with
  | nil => intro cur; simp
  | cons c a ih =>
    intro cur
    have h1 := ha c (by simp)
    simp only [List.cons_append, digitRuns, h1, if_true]
    rw [ih fun x hx => ha x (by simp [hx])]; simp

theorem digitRuns_render (s : Str) :
    (digitRuns [] (render rpre s)).map pyInt = s.map (·.1) := by
  have key : ∀ (s : Str) (cur : List Char), cur ≠ [] →
      (digitRuns cur (render rpre s)).map pyInt = pyInt cur :: s.map (·.1) := by
    intro s
    induction s with
    | nil => intro cur hc; simp [render, digitRuns, hc]
    | cons o t ih =>
      intro cur hc
      have e : render rpre (o :: t) = (if o.2 then 'c' else 'a') :: (pyStr o.1 ++ render rpre t) := by
        cases hb : o.2 <;> simp [render, rpre, hb]
      have hnd : isDig (if o.2 then 'c' else 'a') = false := by cases o.2 <;> decide
      rw [e]
      simp only [digitRuns, hnd, Bool.false_eq_true, if_false, hc, List.map_append, List.map_cons,
        List.map_nil, List.singleton_append]
      rw [digitRuns_numeral _ _ (pyStr_dig _), List.nil_append, ih _ (pyStr_ne _), pyInt_pyStr]
  cases s with
  | nil => simp [render, digitRuns]
  | cons o t =>
    have e : render rpre (o :: t) = (if o.2 then 'c' else 'a') :: (pyStr o.1 ++ render rpre t) := by
      cases hb : o.2 <;> simp [render, rpre, hb]
    have hnd : isDig (if o.2 then 'c' else 'a') = false := by cases o.2 <;> decide
    rw [e]
    simp only [digitRuns, hnd, Bool.false_eq_true, if_false, if_true, List.nil_append]
    rw [digitRuns_numeral _ _ (pyStr_dig _), List.nil_append, key _ _ (pyStr_ne _), pyInt_pyStr]; rfl

end SQ
