import Verif.Lemmas.TrotterRun

/-! # Encodings with mappers: Jordan-Wigner and parity -/

namespace SQ

open Finset

variable {n : ℕ}

/-! ### Merging terms with the same label -/

/-- Add a term to a list of terms. -/
noncomputable def addTerm (l : List Char) (c : ℂ) : List (List Char × ℂ) → List (List Char × ℂ)
  | [] => [(l, c)]
  | (m, d) :: r => if m = l then (m, c + d) :: r else (m, d) :: addTerm l c r

theorem addTerm_op (l : List Char) (c : ℂ) (obs : List (List Char × ℂ)) (ψ : QState n) :
    obsOp n (addTerm l c obs) ψ = c • pauliOp n l ψ + obsOp n obs ψ := by
  induction obs with
  | nil => simp [addTerm, obsOp]
  | cons x r ih =>
    obtain ⟨m, d⟩ := x
    unfold addTerm
    split_ifs with h
    · subst h
      rw [obsOp_cons, obsOp_cons, add_smul, add_assoc]
    · rw [obsOp_cons, ih, obsOp_cons]
      abel

theorem addTerm_keys (l : List Char) (c : ℂ) (obs : List (List Char × ℂ)) :
    (addTerm l c obs).map Prod.fst = if l ∈ obs.map Prod.fst then obs.map Prod.fst else obs.map Prod.fst ++ [l] := by
  induction obs with
  | nil => simp [addTerm]
  | cons x r ih =>
    obtain ⟨m, d⟩ := x
    unfold addTerm
    by_cases h : m = l
    · subst h
      simp
    · rw [if_neg h, List.map_cons, ih]
      by_cases h2 : l ∈ r.map Prod.fst
      · rw [if_pos h2, if_pos (by rw [List.map_cons]; exact List.mem_cons_of_mem _ h2), List.map_cons]
      · rw [if_neg h2, if_neg (by rw [List.map_cons, List.mem_cons]; rintro (e | e); exacts [h e.symm, h2 e]), List.map_cons,
          List.cons_append]

theorem PauliSum.merged {F : QState n →ₗ[ℂ] QState n} (h : PauliSum n F) : ∃ obs : List (List Char × ℂ),
    ((∀ pc ∈ obs, PauliLabel n pc.1) ∧ (obs.map Prod.fst).Nodup) ∧ ∀ ψ, obsOp n obs ψ = F ψ := by
  obtain ⟨obs, h1, h2⟩ := h
  suffices ∃ obs' : List (List Char × ℂ), ((∀ pc ∈ obs', PauliLabel n pc.1) ∧ (obs'.map Prod.fst).Nodup) ∧
      ∀ ψ, obsOp n obs' ψ = obsOp n obs ψ by
    obtain ⟨o, k1, k2⟩ := this
    exact ⟨o, k1, fun ψ => (k2 ψ).trans (h2 ψ)⟩
  clear h2
  induction obs with
  | nil => exact ⟨[], by simp, fun _ => rfl⟩
  | cons x r ih =>
    obtain ⟨o, ⟨k1, k2⟩, k3⟩ := ih fun pc hp => h1 pc (List.mem_cons_of_mem _ hp)
    have hl := h1 x (by simp)
    have k1' : ∀ m ∈ o.map Prod.fst, PauliLabel n m := by
      intro m hm
      obtain ⟨pc, hp, rfl⟩ := List.mem_map.1 hm
      exact k1 pc hp
    have ek := addTerm_keys x.1 x.2 o
    refine ⟨addTerm x.1 x.2 o, ⟨fun pc hp => ?_, ?_⟩, fun ψ => ?_⟩
    · have hm : pc.1 ∈ (addTerm x.1 x.2 o).map Prod.fst := List.mem_map_of_mem hp
      rw [ek] at hm
      split_ifs at hm with h
      · exact k1' _ hm
      · rcases List.mem_append.1 hm with hm | hm
        · exact k1' _ hm
        · rw [List.mem_singleton.1 hm]; exact hl
    · rw [ek]
      split_ifs with h
      · exact k2
      · exact List.Nodup.append k2 (List.nodup_singleton _) (by simpa using h)
    · rw [addTerm_op, k3, obsOp_cons]

/-! ### A mapper for every encoding of the modes -/

section

variable {enc : Fock ℝ →ₗ[ℝ] QState n} {u : ℕ → Bool → QOp n}
  (hp : ∀ k < n, ∃ P Q, PauliLabel n P ∧ PauliLabel n Q ∧ ∀ X : Fock ℝ, Below n X →
    enc (cr k X) = (1 / 2 : ℂ) • (pauliOp n P (enc X) - Complex.I • pauliOp n Q (enc X)) ∧
    enc (an k X) = (1 / 2 : ℂ) • (pauliOp n P (enc X) + Complex.I • pauliOp n Q (enc X)))

include hp

theorem enc_ladder (k : ℕ) (hk : k < n) (c : Bool) :
    ∃ F : QState n →ₗ[ℂ] QState n, PauliSum n F ∧ ∀ X : Fock ℝ, Below n X → F (enc X) = enc (ladder (k, c) X) := by
  obtain ⟨P, Q, h1, h2, h3⟩ := hp k hk
  cases c
  · refine ⟨(1 / 2 : ℂ) • (pauliLin n P + Complex.I • pauliLin n Q), ((PauliSum.label h1).add ((PauliSum.label h2).smul _)).smul _,
      fun X hX => ?_⟩
    exact (h3 X hX).2.symm
  · refine ⟨(1 / 2 : ℂ) • (pauliLin n P + (-Complex.I) • pauliLin n Q),
      ((PauliSum.label h1).add ((PauliSum.label h2).smul _)).smul _, fun X hX => ?_⟩
    refine Eq.trans ?_ (h3 X hX).1.symm
    rw [sub_eq_add_neg, ← neg_smul]
    rfl

theorem enc_str (s : Str) (hs : ∀ o ∈ s, o.1 < n) :
    ∃ F : QState n →ₗ[ℂ] QState n, PauliSum n F ∧ ∀ X : Fock ℝ, Below n X →
      Below n (strOp s X) ∧ F (enc X) = enc (strOp s X) := by
  induction s with
  | nil =>
    refine ⟨pauliLin n (labelOf fun _ : Fin n => 'I'), .label (label_labelOf fun _ => Or.inl rfl), fun X hX => ⟨?_, ?_⟩⟩
    · simpa [strOp] using hX
    change tensor (fun i : Fin n => sigma (letter (labelOf fun _ : Fin n => 'I') i)) (enc X) = _
    have e : (fun i : Fin n => sigma (letter (labelOf fun _ : Fin n => 'I') i)) = fun _ => 1 := by
      funext i
      rw [letter_labelOf]
      simp [sigma]
    rw [e, tensor_one]
    simp [strOp]
  | cons o s ih =>
    obtain ⟨F, h1, h2⟩ := ih fun x hx => hs x (by simp [hx])
    obtain ⟨G, g1, g2⟩ := enc_ladder hp o.1 (hs o (by simp)) o.2
    refine ⟨G ∘ₗ F, g1.comp h1, fun X hX => ?_⟩
    obtain ⟨b, e⟩ := h2 X hX
    have es : strOp (o :: s) X = ladder (o.1, o.2) (strOp s X) := by simp [strOp]
    rw [es]
    exact ⟨below_ladder (hs o (by simp)) _ b, by rw [LinearMap.comp_apply, e, g2 _ b]⟩

theorem enc_sum (T : Dict ℝ) (hT : ∀ kv ∈ T, ∀ o ∈ kv.1, o.1 < n) :
    ∃ F : QState n →ₗ[ℂ] QState n, PauliSum n F ∧ ∀ X : Fock ℝ, Below n X → F (enc X) = enc (sumOp T X) := by
  induction T with
  | nil => exact ⟨0, .zero, fun X _ => by simp [sumOp]⟩
  | cons kv T ih =>
    obtain ⟨F, h1, h2⟩ := ih fun x hx => hT x (by simp [hx])
    obtain ⟨G, g1, g2⟩ := enc_str hp kv.1 (hT kv (by simp))
    refine ⟨(kv.2 : ℂ) • G + F, (g1.smul _).add h1, fun X hX => ?_⟩
    rw [LinearMap.add_apply, LinearMap.smul_apply, (g2 X hX).2, h2 X hX, sumOp_cons, LinearMap.add_apply, LinearMap.smul_apply,
      map_add, map_smul]
    rfl

theorem pauliMapper_exists (ho : ∀ ψ, ∃ X Y : Fock ℝ, Below n X ∧ Below n Y ∧ ψ = enc X + Complex.I • enc Y) :
    ∃ map, PauliMapper n map enc := by
  classical
  have hT : ∀ T : Dict ℝ, (∀ kv ∈ T, ∀ o ∈ kv.1, o.1 < n) → ∃ obs : List (List Char × ℂ),
      ((∀ pc ∈ obs, PauliLabel n pc.1) ∧ (obs.map Prod.fst).Nodup) ∧
      ∀ X : Fock ℝ, Below n X → obsOp n obs (enc X) = enc (sumOp T X) := by
    intro T h
    obtain ⟨F, h1, h3⟩ := enc_sum hp T h
    obtain ⟨obs, k1, k2⟩ := h1.merged
    exact ⟨obs, k1, fun X hX => (k2 _).trans (h3 X hX)⟩
  have hinj : ∀ T T' : Dict ℝ, (T.map fun kv => (qiskitText kv.1, kv.2)) = (T'.map fun kv => (qiskitText kv.1, kv.2)) → T = T' := by
    intro T
    induction T with
    | nil => intro T' h; cases T' <;> simp_all
    | cons kv T ih =>
      intro T' h
      cases T' with
      | nil => simp at h
      | cons kv' T' =>
        rw [List.map_cons, List.map_cons, List.cons.injEq, Prod.mk.injEq] at h
        rw [ih T' h.2]
        congr 1
        exact Prod.ext (qiskitText_inj h.1.1) h.1.2
  refine ⟨fun terms => if h : ∃ T : Dict ℝ, (∀ kv ∈ T, ∀ o ∈ kv.1, o.1 < n) ∧ (T.map fun kv => (qiskitText kv.1, kv.2)) = terms
    then .ok (hT h.choose h.choose_spec.1).choose else .error .valueError, ⟨ho, hp, ?_, ?_⟩⟩
  · intro terms obs h
    split_ifs at h with hh
    cases h
    exact (hT hh.choose hh.choose_spec.1).choose_spec.1
  · intro T _ _ hr
    have hh : ∃ T' : Dict ℝ, (∀ kv ∈ T', ∀ o ∈ kv.1, o.1 < n) ∧
        (T'.map fun kv => (qiskitText kv.1, kv.2)) = T.map fun kv => (qiskitText kv.1, kv.2) := ⟨T, hr, rfl⟩
    refine ⟨(hT hh.choose hh.choose_spec.1).choose, dif_pos hh, fun X hX => ?_⟩
    rw [(hT hh.choose hh.choose_spec.1).choose_spec.2 X hX, hinj _ _ hh.choose_spec.2]

end

/-! ### Jordan-Wigner -/

theorem ladderLabel_label (q : Fin n) {l : Char} (hl : l = 'X' ∨ l = 'Y') : PauliLabel n (ladderLabel q l) := by
  refine label_labelOf fun i => ?_
  split_ifs
  · simp
  · rcases hl with rfl | rfl <;> simp
  · simp

theorem amps_real (f : (Fin n → Bool) → ℝ) : ∃ X : Fock ℝ, Below n X ∧ amps n X = fun b => ((f b : ℝ) : ℂ) := by
  have e : ∀ S, coeff (∑ b, sgl (occupied b) (f b)) S = ∑ b : Fin n → Bool, if occupied b = S then f b else 0 := by
    intro S
    exact (Finsupp.finset_sum_apply univ (fun b : Fin n → Bool => Finsupp.single (occupied b) (f b)) S).trans
      (sum_congr rfl fun b _ => coeff_sgl _ _ _)
  refine ⟨∑ b, sgl (occupied b) (f b), fun S hS p hp => ?_, funext fun b => ?_⟩
  · rw [e] at hS
    obtain ⟨b, -, hb⟩ := exists_ne_zero_of_sum_ne_zero hS
    have : occupied b = S := by by_contra h; exact hb (if_neg h)
    rw [← this] at hp
    exact occupied_lt b hp
  · unfold amps
    rw [e, sum_eq_single b]
    · rw [if_pos rfl]
    · intro c _ hc
      exact if_neg fun h => hc (occupied_inj h)
    · simp

theorem amps_onto (ψ : QState n) : ∃ X Y : Fock ℝ, Below n X ∧ Below n Y ∧ ψ = amps n X + Complex.I • amps n Y := by
  obtain ⟨X, h1, h2⟩ := amps_real fun b => (ψ b).re
  obtain ⟨Y, h3, h4⟩ := amps_real fun b => (ψ b).im
  refine ⟨X, Y, h1, h3, funext fun b => ?_⟩
  rw [h2, h4]
  simp only [Pi.add_apply, Pi.smul_apply, smul_eq_mul]
  rw [mul_comm]
  exact (Complex.re_add_im _).symm

theorem jw_mapper (n : ℕ) : ∃ map, PauliMapper n map (jwEnc n) := by
  refine pauliMapper_exists (fun k hk => ⟨ladderLabel ⟨k, hk⟩ 'X', ladderLabel ⟨k, hk⟩ 'Y', ladderLabel_label _ (Or.inl rfl),
    ladderLabel_label _ (Or.inr rfl), fun X _ => ⟨?_, ?_⟩⟩) amps_onto
  · refine (amps_ladder ⟨k, hk⟩ true X).trans (funext fun b => ?_)
    change (1 / 2 : ℂ) * pauliLin n _ (amps n X) b + -Complex.I / 2 * pauliLin n _ (amps n X) b
      = (1 / 2 : ℂ) * (pauliLin n _ (amps n X) b - Complex.I * pauliLin n _ (amps n X) b)
    ring
  · refine (amps_ladder ⟨k, hk⟩ false X).trans (funext fun b => ?_)
    change (1 / 2 : ℂ) * pauliLin n _ (amps n X) b + Complex.I / 2 * pauliLin n _ (amps n X) b
      = (1 / 2 : ℂ) * (pauliLin n _ (amps n X) b + Complex.I * pauliLin n _ (amps n X) b)
    ring

/-! ### Parity -/

/-- Sign of a bit. -/
def bitSign (b : Bool) : ℂ := if b = true then -1 else 1

theorem bitSign_xor (a b : Bool) : bitSign (a ^^ b) = bitSign a * bitSign b := by
  cases a <;> cases b <;> simp [bitSign]

/-- Occupations from parities. -/
def diffBits (b : Fin n → Bool) : Fin n → Bool := fun i => b i ^^ prevBit b i

theorem prevBit_succ (b : Fin n → Bool) {m : ℕ} (h : m < n) : prevBit b (m + 1) = b ⟨m, h⟩ := by
  unfold prevBit
  rw [dif_pos ⟨Nat.succ_pos m, by simpa using h⟩]
  rfl

theorem diff_sign (b : Fin n → Bool) (m : ℕ) (hm : m ≤ n) :
    (∏ i : Fin n, if (i : ℕ) < m then bitSign (diffBits b i) else 1) = bitSign (prevBit b m) := by
  induction m with
  | zero => simp [prevBit, bitSign]
  | succ m ih =>
    have e : ∀ i : Fin n, (if (i : ℕ) < m + 1 then bitSign (diffBits b i) else 1)
        = (if (i : ℕ) < m then bitSign (diffBits b i) else 1) * (if i = ⟨m, hm⟩ then bitSign (diffBits b i) else 1) := by
      intro i
      by_cases h : i = ⟨m, hm⟩
      · subst h; simp
      · have h' : (i : ℕ) ≠ m := fun e => h (Fin.ext e)
        rw [if_neg h, mul_one]
        by_cases h2 : (i : ℕ) < m
        · rw [if_pos h2, if_pos (by omega)]
        · rw [if_neg h2, if_neg (by omega)]
    rw [prod_congr rfl fun i _ => e i, prod_mul_distrib, ih (by omega), prod_ite_eq' univ, if_pos (mem_univ _), prevBit_succ b hm]
    unfold diffBits
    rw [bitSign_xor]
    cases b ⟨m, hm⟩ <;> cases prevBit b m <;> simp [bitSign]

/-- Flip the bits from `q` on. -/
def flipFrom (q : Fin n) (b : Fin n → Bool) : Fin n → Bool := fun i => b i ^^ decide (q ≤ i)

theorem prevBit_flip (q : Fin n) (b : Fin n → Bool) (m : ℕ) (hm : m < n) :
    prevBit (flipFrom q b) m = (prevBit b m ^^ decide ((q : ℕ) < m)) := by
  cases m with
  | zero => simp [prevBit]
  | succ m =>
    rw [prevBit_succ _ (by omega), prevBit_succ _ (by omega)]
    unfold flipFrom
    congr 1
    simp only [Fin.le_def, decide_eq_decide]
    omega

theorem diff_flip (q : Fin n) (b : Fin n → Bool) :
    diffBits (flipFrom q b) = Function.update (diffBits b) q (!diffBits b q) := by
  funext i
  by_cases h : i = q
  · subst h
    rw [Function.update_self]
    unfold diffBits
    rw [prevBit_flip i b i i.2]
    unfold flipFrom
    cases b i <;> cases prevBit b i <;> simp
  · rw [Function.update_of_ne h]
    unfold diffBits
    rw [prevBit_flip q b i i.2]
    unfold flipFrom
    have : decide (q ≤ i) = decide ((q : ℕ) < i) := by
      rw [decide_eq_decide, Fin.le_def]
      have : (i : ℕ) ≠ q := fun e => h (Fin.ext e)
      omega
    rw [this]
    cases b i <;> cases prevBit b i <;> cases decide ((q : ℕ) < i) <;> rfl

theorem diff_inj : Function.Injective (diffBits (n := n)) := by
  intro b c h
  have key : ∀ m, ∀ hm : m < n, b ⟨m, hm⟩ = c ⟨m, hm⟩ := by
    intro m
    induction m with
    | zero =>
      intro hm
      have := congrFun h ⟨0, hm⟩
      simpa [diffBits, prevBit] using this
    | succ m ih =>
      intro hm
      have := congrFun h ⟨m + 1, hm⟩
      unfold diffBits at this
      rw [show ((⟨m + 1, hm⟩ : Fin n) : ℕ) = m + 1 from rfl, prevBit_succ b (by omega), prevBit_succ c (by omega),
        ih (by omega)] at this
      have := congrArg (· ^^ c ⟨m, by omega⟩) this
      simpa using this
  exact funext fun i => key i i.2

theorem tensor_flips (f : Fin n → Bool) (M : Fin n → Matrix Bool Bool ℂ) (hM : ∀ i x, M i x (!(x ^^ f i)) = 0) (ψ : QState n)
    (b : Fin n → Bool) : tensor M ψ b = (∏ i, M i (b i) (b i ^^ f i)) * ψ fun i => b i ^^ f i := by
  unfold tensor
  rw [sum_eq_single fun i => b i ^^ f i]
  · intro c _ hc
    obtain ⟨i, hi⟩ := Function.ne_iff.1 hc
    have : c i = !(b i ^^ f i) := by
      cases h1 : c i <;> cases h2 : (b i ^^ f i) <;> simp [h1, h2] at hi ⊢
    rw [prod_eq_zero (mem_univ i) (by rw [this]; exact hM i _), zero_mul]
  · simp

theorem sigma_I : sigma 'I' = 1 := by simp [sigma]

/-- The labels of a mode: `Z` before `q`, `X` from `q` on, and `Y` on `q`, `X` above. -/
def parityX (q : Fin n) : List Char :=
  labelOf fun i : Fin n => if (i : ℕ) + 1 = q then 'Z' else if q ≤ i then 'X' else 'I'

def parityY (q : Fin n) : List Char := labelOf fun i : Fin n => if i = q then 'Y' else if q ≤ i then 'X' else 'I'

theorem parityX_op (q : Fin n) (ψ : QState n) (b : Fin n → Bool) :
    pauliOp n (parityX q) ψ b = bitSign (prevBit b q) * ψ (flipFrom q b) := by
  have e : ∀ i : Fin n, letter (parityX q) i = if (i : ℕ) + 1 = q then 'Z' else if q ≤ i then 'X' else 'I' := fun i =>
    letter_labelOf _ i
  unfold pauliOp
  rw [tensor_flips (fun i => decide (q ≤ i))]
  · congr 1
    have e2 : ∀ i : Fin n, sigma (letter (parityX q) i) (b i) (b i ^^ decide (q ≤ i))
        = if (i : ℕ) + 1 = q then bitSign (b i) else 1 := by
      intro i
      rw [e i]
      by_cases h : (i : ℕ) + 1 = q
      · have : ¬ q ≤ i := by rw [Fin.le_def]; omega
        rw [if_pos h, if_pos h]
        simp [this, sigma, sigmaZ, bitSign]
      · rw [if_neg h, if_neg h]
        by_cases h2 : q ≤ i
        · cases b i <;> simp [h2, sigma, sigmaX]
        · rw [if_neg h2, decide_eq_false h2, Bool.xor_false, sigma_I]
          exact Matrix.one_apply_eq _
    rw [prod_congr rfl fun i _ => e2 i]
    obtain ⟨q, hq⟩ := q
    cases q with
    | zero => simp [prevBit, bitSign]
    | succ m =>
      rw [prod_eq_single (⟨m, by omega⟩ : Fin n)]
      · rw [if_pos rfl, show ((⟨m + 1, hq⟩ : Fin n) : ℕ) = m + 1 from rfl, prevBit_succ b (by omega)]
      · intro i _ hi
        refine if_neg fun h => hi (Fin.ext ?_)
        have : (i : ℕ) + 1 = m + 1 := h
        change (i : ℕ) = m
        omega
      · simp
  · intro i x
    rw [e i]
    by_cases h : (i : ℕ) + 1 = q
    · have : ¬ q ≤ i := by rw [Fin.le_def]; omega
      rw [if_pos h]
      cases x <;> simp [this, sigma, sigmaZ]
    · rw [if_neg h]
      by_cases h2 : q ≤ i
      · cases x <;> simp [h2, sigma, sigmaX]
      · cases x <;> simp [h2, sigma]

theorem parityY_op (q : Fin n) (ψ : QState n) (b : Fin n → Bool) :
    pauliOp n (parityY q) ψ b = -Complex.I * bitSign (b q) * ψ (flipFrom q b) := by
  have e : ∀ i : Fin n, letter (parityY q) i = if i = q then 'Y' else if q ≤ i then 'X' else 'I' := fun i =>
    letter_labelOf _ i
  unfold pauliOp
  rw [tensor_flips (fun i => decide (q ≤ i))]
  · congr 1
    have e2 : ∀ i : Fin n, sigma (letter (parityY q) i) (b i) (b i ^^ decide (q ≤ i))
        = if i = q then -Complex.I * bitSign (b i) else 1 := by
      intro i
      rw [e i]
      by_cases h : i = q
      · subst h
        rw [if_pos rfl, if_pos rfl]
        cases b i <;> simp [sigma, sigmaY, bitSign]
      · rw [if_neg h, if_neg h]
        by_cases h2 : q ≤ i
        · cases b i <;> simp [h2, sigma, sigmaX]
        · rw [if_neg h2, decide_eq_false h2, Bool.xor_false, sigma_I]
          exact Matrix.one_apply_eq _
    rw [prod_congr rfl fun i _ => e2 i, prod_ite_eq' univ, if_pos (mem_univ _)]
  · intro i x
    rw [e i]
    by_cases h : i = q
    · subst h
      rw [if_pos rfl]
      cases x <;> simp [sigma, sigmaY]
    · rw [if_neg h]
      by_cases h2 : q ≤ i
      · cases x <;> simp [h2, sigma, sigmaX]
      · cases x <;> simp [h2, sigma]

theorem parity_ladder (q : Fin n) (c : Bool) (X : Fock ℝ) (b : Fin n → Bool) :
    parityEnc n (ladder ((q : ℕ), c) X) b
      = if diffBits b q = c then bitSign (prevBit b q) * parityEnc n X (flipFrom q b) else 0 := by
  change amps n (ladder ((q : ℕ), c) X) (diffBits b) = if _ then _ * amps n X (diffBits (flipFrom q b)) else 0
  rw [amps_ladder, ladderLin_apply, diff_flip, ← diff_sign b q q.2.le]
  rfl

theorem parity_mapper (n : ℕ) : ∃ map, PauliMapper n map (parityEnc n) := by
  have hI : Complex.I * Complex.I = -1 := Complex.I_mul_I
  refine pauliMapper_exists (fun k hk => ⟨parityX ⟨k, hk⟩, parityY ⟨k, hk⟩, label_labelOf fun i => ?_, label_labelOf fun i => ?_,
    fun X _ => ⟨?_, ?_⟩⟩) fun ψ => ?_
  · split_ifs <;> simp
  · split_ifs <;> simp
  · refine funext fun b => (parity_ladder ⟨k, hk⟩ true X b).trans ?_
    simp only [Pi.smul_apply, Pi.sub_apply, smul_eq_mul, parityX_op, parityY_op]
    unfold diffBits
    cases b ⟨k, hk⟩ <;> cases prevBit b ((⟨k, hk⟩ : Fin n) : ℕ) <;> simp [bitSign] <;> first
      | linear_combination (1 * parityEnc n X (flipFrom ⟨k, hk⟩ b)) * hI
      | linear_combination ((-1 / 2) * parityEnc n X (flipFrom ⟨k, hk⟩ b)) * hI
      | linear_combination ((1 / 2) * parityEnc n X (flipFrom ⟨k, hk⟩ b)) * hI
      | linear_combination ((-1) * parityEnc n X (flipFrom ⟨k, hk⟩ b)) * hI
  · refine funext fun b => (parity_ladder ⟨k, hk⟩ false X b).trans ?_
    simp only [Pi.smul_apply, Pi.add_apply, smul_eq_mul, parityX_op, parityY_op]
    unfold diffBits
    cases b ⟨k, hk⟩ <;> cases prevBit b ((⟨k, hk⟩ : Fin n) : ℕ) <;> simp [bitSign] <;> first
      | linear_combination (1 * parityEnc n X (flipFrom ⟨k, hk⟩ b)) * hI
      | linear_combination ((-1 / 2) * parityEnc n X (flipFrom ⟨k, hk⟩ b)) * hI
      | linear_combination ((1 / 2) * parityEnc n X (flipFrom ⟨k, hk⟩ b)) * hI
      | linear_combination ((-1) * parityEnc n X (flipFrom ⟨k, hk⟩ b)) * hI
  · have hb : Function.Bijective (diffBits (n := n)) := diff_inj.bijective_of_finite
    let σ := Equiv.ofBijective _ hb
    obtain ⟨X, Y, h1, h2, h3⟩ := amps_onto fun b => ψ (σ.symm b)
    refine ⟨X, Y, h1, h2, funext fun b => ?_⟩
    have := congrFun h3 (diffBits b)
    rw [show diffBits b = σ b from rfl, Equiv.symm_apply_apply] at this
    exact this

end SQ
