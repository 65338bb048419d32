import Verif.Lemmas.NormalOrder

/-! # Meaning of the normal-ordering loops

`Safe s` is the condition under which ordering `s` loses nothing: every chain of contractions
leaves at least two operators.  Without it a full contraction (a constant) is dropped by
fermionic_operator.py:73 and a single left-over operator raises `IndexError` at line 58. -/

namespace SQ

variable {R : Type*} [CommRing R]

theorem lateCr_le_count (s : Str) : lateCr s ≤ s.countP (·.2) := by
  induction s with
  | nil => simp [lateCr]
  | cons o t ih =>
    obtain ⟨p, x⟩ := o
    cases x <;> simp [lateCr]; omega

theorem lateCr_swap (pre rest : Str) (a b : Lad) (h : a.2 = false ∨ b.2 = true) :
    lateCr (pre ++ b :: a :: rest) ≤ lateCr (pre ++ a :: b :: rest) := by
  induction pre with
  | nil =>
    obtain ⟨p, x⟩ := a
    obtain ⟨q, y⟩ := b
    cases x <;> cases y <;> simp_all [lateCr]
  | cons o t ih =>
    obtain ⟨p, z⟩ := o
    obtain ⟨p, x⟩ := a
    obtain ⟨q, y⟩ := b
    cases x <;> cases y <;> cases z <;> simp_all [lateCr]

theorem earlyAn_swap (pre rest : Str) (a b : Lad) (h : a.2 = false ∨ b.2 = true) :
    earlyAn (pre ++ b :: a :: rest) ≤ earlyAn (pre ++ a :: b :: rest) := by
  induction pre with
  | nil =>
    obtain ⟨p, x⟩ := a
    obtain ⟨q, y⟩ := b
    cases x <;> cases y <;> simp_all [earlyAn] <;>
      first | exact le_refl _ | (split_ifs <;> omega)
  | cons o t ih =>
    simp only [List.cons_append, earlyAn]
    have : (t ++ b :: a :: rest).any (·.2) = (t ++ a :: b :: rest).any (·.2) := by
      simp [Bool.or_left_comm]
    rw [this]; omega

theorem lateCr_contract (pre rest : Str) (p q : ℕ) :
    lateCr (pre ++ rest) + 1 ≤ lateCr (pre ++ (p, false) :: (q, true) :: rest) := by
  induction pre with
  | nil => simpa [lateCr] using lateCr_le_count rest
  | cons o t ih =>
    obtain ⟨r, z⟩ := o
    cases z <;> simp_all [lateCr]; omega

theorem earlyAn_contract (pre rest : Str) (p q : ℕ) :
    earlyAn (pre ++ rest) + 1 ≤ earlyAn (pre ++ (p, false) :: (q, true) :: rest) := by
  induction pre with
  | nil => simp [earlyAn]; omega
  | cons o t ih =>
    simp only [List.cons_append, earlyAn]
    have : (t ++ (p, false) :: (q, true) :: rest).any (·.2) = true := by simp
    rw [this]
    split <;> split <;> simp_all; omega; omega

theorem safe_swap {pre rest : Str} {a b : Lad} (h : a.2 = false ∨ b.2 = true)
    (hs : Safe (pre ++ a :: b :: rest)) : Safe (pre ++ b :: a :: rest) := by
  have h1 := lateCr_swap pre rest a b h
  have h2 := earlyAn_swap pre rest a b h
  rcases hs with hs | hs
  · simp at hs
  · right; simp only [List.length_append, List.length_cons] at hs ⊢; omega

theorem safe_contract {pre rest : Str} {p q : ℕ}
    (hs : Safe (pre ++ (p, false) :: (q, true) :: rest)) :
    Safe (pre ++ rest) ∧ 0 < (pre ++ rest).length := by
  have h1 := lateCr_contract pre rest p q
  have h2 := earlyAn_contract pre rest p q
  rcases hs with hs | hs
  · simp at hs
  · simp only [List.length_append, List.length_cons] at hs ⊢
    refine ⟨Or.inr ?_, by omega⟩
    simp only [List.length_append]; omega

theorem wrong_dag {a b : Lad} (h : wrong a b = true) : a.2 = false ∨ b.2 = true := by
  obtain ⟨p, x⟩ := a
  obtain ⟨q, y⟩ := b
  cases x <;> cases y <;> simp_all [wrong]

theorem ladder_sq (a : Lad) : (ladder a * ladder a : FOp R) = 0 := by
  obtain ⟨p, x⟩ := a
  cases x
  · simpa [ladder] using an_self p
  · simpa [ladder] using cr_self p

theorem ladder_contract (p : ℕ) :
    (ladder (p, false) * ladder (p, true) : FOp R) = 1 - ladder (p, true) * ladder (p, false) := by
  simpa [ladder] using an_cr_self p

theorem ladder_swap {a b : Lad} (h : wrong a b = true) (h2 : a.1 ≠ b.1) :
    (ladder a * ladder b : FOp R) = - (ladder b * ladder a) := by
  obtain ⟨p, x⟩ := a
  obtain ⟨q, y⟩ := b
  cases x <;> cases y
  · simpa [ladder] using an_an p q
  · simpa [ladder] using an_cr_ne h2
  · simp [wrong] at h
  · simpa [ladder] using cr_cr p q

theorem wrong_eq_idx {a b : Lad} (h : wrong a b = true) (h2 : a.1 = b.1) :
    a = (a.1, false) ∧ b = (a.1, true) := by
  obtain ⟨p, x⟩ := a
  obtain ⟨q, y⟩ := b
  cases x <;> cases y <;> simp_all [wrong]

theorem sweep_sem (rest : Str) : ∀ (pre : Str) (a : Lad) (f : R) (ch : Bool)
    (q : List (Str × R)), Safe (pre ++ a :: rest) →
    let o := sweep pre a f ch q rest
    Safe o.str ∧ ((∀ x ∈ q, Safe x.1) → ∀ x ∈ o.queue, Safe x.1) ∧
    f • strOp (pre ++ a :: rest) + sumOp q =
      (if o.isZero then 0 else o.factor • strOp o.str) + sumOp o.queue := by
  induction rest with
  | nil =>
    intro pre a f ch q hs
    simp only [sweep]
    exact ⟨hs, fun h => h, by simp⟩
  | cons b rest ih =>
    intro pre a f ch q hs
    simp only [sweep_cons]
    by_cases hab : a = b
    · simp only [hab, if_true]
      subst hab
      refine ⟨hs, fun h => h, ?_⟩
      have : (strOp (pre ++ a :: a :: rest) : FOp R) = 0 := by
        simp only [strOp_append, strOp_cons]
        rw [← mul_assoc (ladder a), ladder_sq]; simp
      rw [this]; simp
    · simp only [hab, if_false]
      by_cases hw : wrong a b = true
      · simp only [hw, if_true]
        have hs2 := safe_swap (wrong_dag hw) hs
        by_cases hi : a.1 = b.1
        · obtain ⟨ha, hb⟩ := wrong_eq_idx hw hi
          have hs' := hs
          rw [ha, hb] at hs'
          obtain ⟨hc1, hc2⟩ := safe_contract hs'
          simp only [hi, hc2, and_self, if_true]
          obtain ⟨h1, h2, h3⟩ := ih (pre ++ [b]) a (f * -1) true (q ++ [(pre ++ rest, f)])
            (by simpa using hs2)
          refine ⟨h1, fun hq => h2 ?_, ?_⟩
          · intro x hx
            rcases List.mem_append.1 hx with hx | hx
            · exact hq x hx
            · simp at hx; subst hx; exact hc1
          · rw [← h3]
            have e : (strOp (pre ++ a :: b :: rest) : FOp R)
                = strOp (pre ++ rest) - strOp (pre ++ b :: a :: rest) := by
              simp only [strOp_append, strOp_cons]
              rw [← mul_assoc (ladder a), ← mul_assoc (ladder b), ha, hb]
              rw [ladder_contract, sub_mul, mul_sub, one_mul]
            rw [e]
            simp only [List.append_assoc, List.singleton_append, sumOp_append, sumOp_cons,
              sumOp_nil, mul_neg, mul_one, neg_smul, smul_sub]
            abel
        · simp only [hi, false_and, if_false]
          obtain ⟨h1, h2, h3⟩ := ih (pre ++ [b]) a (f * -1) true q (by simpa using hs2)
          refine ⟨h1, h2, ?_⟩
          rw [← h3]
          have e : (strOp (pre ++ a :: b :: rest) : FOp R) = - strOp (pre ++ b :: a :: rest) := by
            simp only [strOp_append, strOp_cons]
            rw [← mul_assoc (ladder a), ← mul_assoc (ladder b), ladder_swap hw hi]
            simp
          rw [e]
          simp only [List.append_assoc, List.singleton_append, mul_neg, mul_one, neg_smul, smul_neg]
      · simp only [hw, if_false, Bool.false_eq_true]
        have := ih (pre ++ [a]) b f ch q (by simpa using hs)
        simpa only [List.append_assoc, List.singleton_append] using this

/-- Meaning of the outcome of the middle loop. -/
noncomputable def outcome (r : Option (Str × R)) : FOp R :=
  match r with
  | none => 0
  | some kv => kv.2 • strOp kv.1

theorem orderOne_sem (n : ℕ) : ∀ (s : Str) (f : R) (q : List (Str × R)),
    invs s < n → Safe s → (∀ x ∈ q, Safe x.1) →
    ∃ r q', orderOne n s f q = .ok (r, q') ∧ (∀ x ∈ q', Safe x.1) ∧
      f • strOp s + sumOp q = outcome r + sumOp q' := by
  induction n with
  | zero => intro s f q h; omega
  | succ n ih =>
    intro s f q hn hs hq
    match s with
    | [] => exact ⟨some ([], f), q, by simp [orderOne], hq, by simp [outcome]⟩
    | [_] => simp [Safe] at hs
    | a :: b :: rest =>
      have hst := sweep_struct (R := R) (b :: rest) [] a f false q
      have hse := sweep_sem (R := R) (b :: rest) [] a f false q hs
      simp only [orderOne]
      generalize sweep [] a f false q (b :: rest) = o at hst hse ⊢
      simp only [List.nil_append] at hst hse
      obtain ⟨h1, h2, h3, _, _⟩ := hst
      obtain ⟨k1, k2, k3⟩ := hse
      by_cases hz : o.isZero = true
      · refine ⟨none, o.queue, by simp [hz], k2 hq, by rw [k3]; simp [hz, outcome]⟩
      · by_cases hc : o.changed = true
        · have h3' : invs o.str < invs (a :: b :: rest) := by
            rcases h3 hc with h | h
            · simp at h
            · exact h
          obtain ⟨r, q', e1, e2, e3⟩ := ih o.str o.factor o.queue (by omega) k1 (k2 hq)
          refine ⟨r, q', by simpa [hc, hz] using e1, e2, ?_⟩
          rw [k3, ← e3]; simp [hz]
        · refine ⟨some (o.str, o.factor), o.queue, by simp [hc, hz], k2 hq, ?_⟩
          rw [k3]; simp [hz, outcome]

theorem sumOp_addTo {tiny : R → Bool} (ht : ExactTiny tiny) (d : Dict R) (k : Str) (v : R) :
    (sumOp (addTo tiny d k v) : FOp R) = sumOp d + v • strOp k := by
  induction d with
  | nil => simp [addTo]
  | cons kv t ih =>
    obtain ⟨k', v'⟩ := kv
    simp only [addTo]
    split
    · next h =>
      subst h
      split
      · next h2 =>
        have h3 := ht _ h2
        simp only [sumOp_cons]
        have : (v' • strOp k' : FOp R) + sumOp t + v • strOp k' = (v' + v) • strOp k' + sumOp t := by
          rw [add_smul]; abel
        rw [this, h3]; simp
      · simp only [sumOp_cons, add_smul]; abel
    · simp only [sumOp_cons, ih]; abel

theorem subTo_eq_addTo (tiny : R → Bool) (d : Dict R) (k : Str) (v : R) :
    subTo tiny d k v = addTo tiny d k (-v) := by
  induction d with
  | nil => simp [addTo, subTo]
  | cons kv t ih => simp only [addTo, subTo, ih, sub_eq_add_neg]

theorem sumOp_foldl_addTo {tiny : R → Bool} (ht : ExactTiny tiny) (B A : Dict R) :
    (sumOp (B.foldl (fun d kv => addTo tiny d kv.1 kv.2) A) : FOp R) = sumOp A + sumOp B := by
  induction B generalizing A with
  | nil => simp
  | cons kv t ih => rw [List.foldl_cons, ih, sumOp_addTo ht, sumOp_cons]; abel

theorem orderQueue_sem {tiny : R → Bool} (ht : ExactTiny tiny) (n : ℕ) :
    ∀ (q : List (Str × R)) (acc : Dict R), qbudget q ≤ n → (∀ x ∈ q, Safe x.1) →
      ∃ d, orderQueue tiny n q acc = .ok d ∧ (sumOp d : FOp R) = sumOp acc + sumOp q := by
  induction n with
  | zero =>
    intro q acc hq hs
    match q with
    | [] => exact ⟨acc, by simp [orderQueue], by simp⟩
    | x :: q =>
      have := budget_pos x.1.length
      simp [qbudget] at hq; omega
  | succ n ih =>
    intro q acc hq hs
    match q with
    | [] => exact ⟨acc, by simp [orderQueue], by simp⟩
    | (s, f) :: q =>
      have hss : Safe s := hs (s, f) (by simp)
      have hi : invs s < s.length * s.length + 1 := by have := invs_le s; omega
      have hl : s.length ≠ 1 := by rcases hss with h | h <;> [simp [h]; omega]
      simp only [orderQueue]
      obtain ⟨r, q', e1, e2, e3⟩ := orderOne_sem (s.length * s.length + 1) s f q hi hss
        (fun x hx => hs x (by simp [hx]))
      obtain ⟨r2, new, g1, g2, g3, _⟩ := orderOne_struct (s.length * s.length + 1) s f q hi hl
      have hq' : q' = q ++ new := by rw [e1] at g1; simp at g1; exact g1.2
      have hb := qbudget_new (s := s) (new := new) (by have := invs_le s; omega)
          (fun x hx => (g3 x hx).2)
      have hqn : qbudget q' ≤ n := by
        rw [hq', qbudget_append]
        simp only [qbudget, List.map_cons, List.sum_cons] at hq hb ⊢
        omega
      rw [e1]
      match r with
      | none =>
        obtain ⟨d, h1, h2⟩ := ih q' acc hqn e2
        refine ⟨d, h1, ?_⟩
        rw [h2, sumOp_cons, e3]; simp [outcome]
      | some (k, v) =>
        obtain ⟨d, h1, h2⟩ := ih q' (addTo tiny acc k v) hqn e2
        refine ⟨d, h1, ?_⟩
        rw [h2, sumOp_addTo ht, sumOp_cons, e3]; simp only [outcome]; abel

theorem normalOrder_sem {tiny : R → Bool} (ht : ExactTiny tiny) (d : Dict R)
    (hs : ∀ x ∈ d, Safe x.1) :
    ∃ e, normalOrder tiny d = .ok e ∧ (sumOp e : FOp R) = sumOp d := by
  obtain ⟨e, h1, h2⟩ := orderQueue_sem ht _ d [] (le_refl _) hs
  exact ⟨e, h1, by simpa using h2⟩

end SQ
