import Verif.Lemmas.SamplerOps

/-! # The Jordan-Wigner mapping exists -/

namespace SQ

open Finset

variable {n : ℕ}

/-- The label with these letters. -/
def labelOf (f : Fin n → Char) : List Char := (List.ofFn f).reverse

theorem letter_labelOf (f : Fin n → Char) (i : Fin n) : letter (labelOf f) i = f i := by
  unfold letter labelOf
  rw [List.reverse_reverse, List.getElem?_ofFn]
  simp

theorem label_labelOf {f : Fin n → Char} (h : ∀ i, f i = 'I' ∨ f i = 'X' ∨ f i = 'Y' ∨ f i = 'Z') :
    PauliLabel n (labelOf f) := by
  refine ⟨by simp [labelOf], fun l hl => ?_⟩
  unfold labelOf at hl
  rw [List.mem_reverse, List.mem_ofFn] at hl
  obtain ⟨i, rfl⟩ := hl
  exact h i

/-- The product of two letters: phase and letter. -/
noncomputable def mulLetter (l m : Char) : ℂ × Char :=
  if l = 'X' then if m = 'X' then (1, 'I') else if m = 'Y' then (Complex.I, 'Z') else if m = 'Z' then (-Complex.I, 'Y') else (1, 'X')
  else if l = 'Y' then if m = 'X' then (-Complex.I, 'Z') else if m = 'Y' then (1, 'I') else if m = 'Z' then (Complex.I, 'X') else (1, 'Y')
  else if l = 'Z' then if m = 'X' then (Complex.I, 'Y') else if m = 'Y' then (-Complex.I, 'X') else if m = 'Z' then (1, 'I') else (1, 'Z')
  else if m = 'X' then (1, 'X') else if m = 'Y' then (1, 'Y') else if m = 'Z' then (1, 'Z') else (1, 'I')

theorem mulLetter_label (l m : Char) :
    (mulLetter l m).2 = 'I' ∨ (mulLetter l m).2 = 'X' ∨ (mulLetter l m).2 = 'Y' ∨ (mulLetter l m).2 = 'Z' := by
  unfold mulLetter
  split_ifs <;> simp

theorem sigma_mul (l m : Char) : sigma l * sigma m = (mulLetter l m).1 • sigma (mulLetter l m).2 := by
  unfold mulLetter
  split_ifs with h1 h2 h3 h4 h5 h6 h7 h8 h9 h10 h11 h12 h13 h14 h15 <;>
    (try subst h1) <;> (try subst h2) <;> (try subst h3) <;> (try subst h4) <;> (try subst h5) <;> (try subst h6) <;>
    (try subst h7) <;> (try subst h8) <;> (try subst h9) <;> (try subst h10) <;> (try subst h11) <;> (try subst h12) <;>
    (try subst h13) <;> (try subst h14) <;> (try subst h15) <;>
    ext b c <;> cases b <;> cases c <;>
    simp [sigma, sigmaX, sigmaY, sigmaZ, Matrix.mul_apply, *]

theorem tensor_smul (a : Fin n → ℂ) (M : Fin n → Matrix Bool Bool ℂ) (ψ : QState n) :
    tensor (fun i => a i • M i) ψ = (∏ i, a i) • tensor M ψ := by
  funext b
  simp only [tensor, Matrix.smul_apply, smul_eq_mul, prod_mul_distrib, Pi.smul_apply, mul_sum, mul_assoc]

/-- Operators that are sums of labels. -/
def PauliSum (n : ℕ) (F : QState n →ₗ[ℂ] QState n) : Prop :=
  ∃ obs : List (List Char × ℂ), (∀ pc ∈ obs, PauliLabel n pc.1) ∧ ∀ ψ, obsOp n obs ψ = F ψ

theorem PauliSum.zero : PauliSum n 0 := ⟨[], by simp, fun ψ => by simp [obsOp]⟩

theorem obsOp_append (o1 o2 : List (List Char × ℂ)) (ψ : QState n) : obsOp n (o1 ++ o2) ψ = obsOp n o1 ψ + obsOp n o2 ψ := by
  simp [obsOp]

theorem PauliSum.add {F G : QState n →ₗ[ℂ] QState n} (h1 : PauliSum n F) (h2 : PauliSum n G) : PauliSum n (F + G) := by
  obtain ⟨o1, a1, b1⟩ := h1
  obtain ⟨o2, a2, b2⟩ := h2
  refine ⟨o1 ++ o2, fun pc h => ?_, fun ψ => by rw [obsOp_append, b1, b2]; rfl⟩
  rcases List.mem_append.1 h with h | h
  · exact a1 pc h
  · exact a2 pc h

theorem PauliSum.smul {F : QState n →ₗ[ℂ] QState n} (c : ℂ) (h : PauliSum n F) : PauliSum n (c • F) := by
  obtain ⟨o, a, b⟩ := h
  refine ⟨o.map fun pc => (pc.1, c * pc.2), fun pc hp => ?_, fun ψ => ?_⟩
  · obtain ⟨x, hx, rfl⟩ := List.mem_map.1 hp
    exact a x hx
  · rw [LinearMap.smul_apply, ← b]
    clear a b
    induction o with
    | nil => simp [obsOp]
    | cons x o ih => rw [List.map_cons, obsOp_cons, obsOp_cons, ih, smul_add, smul_smul]

theorem PauliSum.label {p : List Char} (h : PauliLabel n p) : PauliSum n (pauliLin n p) :=
  ⟨[(p, 1)], by simpa using h, fun ψ => by simp [obsOp]; rfl⟩

theorem PauliSum.list {obs : List (List Char × ℂ)} {F : List Char × ℂ → QState n →ₗ[ℂ] QState n}
    (h : ∀ pc ∈ obs, PauliSum n (F pc)) : PauliSum n (obs.map F).sum := by
  induction obs with
  | nil => exact .zero
  | cons x o ih => exact (h x (by simp)).add (ih fun y hy => h y (by simp [hy]))

theorem pauliLin_mul (p q : List Char) : pauliLin n p ∘ₗ pauliLin n q
    = (∏ i : Fin n, (mulLetter (letter p i) (letter q i)).1) • pauliLin n (labelOf fun i : Fin n => (mulLetter (letter p i) (letter q i)).2) := by
  refine LinearMap.ext fun ψ => ?_
  change tensor _ (tensor _ ψ) = (_ : ℂ) • tensor _ ψ
  rw [tensor_tensor, ← tensor_smul]
  congr 1
  funext i
  rw [sigma_mul, letter_labelOf]

theorem obs_lin {obs : List (List Char × ℂ)} {F : QState n →ₗ[ℂ] QState n} (h : ∀ ψ, obsOp n obs ψ = F ψ) :
    F = (obs.map fun pc => pc.2 • pauliLin n pc.1).sum := by
  refine LinearMap.ext fun ψ => ?_
  rw [← h]
  clear h
  induction obs with
  | nil => simp [obsOp]
  | cons x o ih => rw [obsOp_cons, ih, List.map_cons, List.sum_cons]; rfl

theorem PauliSum.comp {F G : QState n →ₗ[ℂ] QState n} (h1 : PauliSum n F) (h2 : PauliSum n G) : PauliSum n (F ∘ₗ G) := by
  obtain ⟨o1, a1, b1⟩ := h1
  obtain ⟨o2, a2, b2⟩ := h2
  rw [obs_lin b1]
  have step : ∀ (p : List Char) (c : ℂ), PauliSum n ((c • pauliLin n p) ∘ₗ G) := by
    intro p c
    rw [LinearMap.smul_comp, obs_lin b2]
    refine PauliSum.smul c ?_
    have : pauliLin n p ∘ₗ (o2.map fun pc => pc.2 • pauliLin n pc.1).sum
        = (o2.map fun pc => pc.2 • (pauliLin n p ∘ₗ pauliLin n pc.1)).sum := by
      clear a2 b2
      induction o2 with
      | nil => simp
      | cons x o ih => rw [List.map_cons, List.sum_cons, LinearMap.comp_add, ih, List.map_cons, List.sum_cons, LinearMap.comp_smul]
    rw [this]
    refine PauliSum.list fun pc _ => ?_
    rw [pauliLin_mul]
    exact ((PauliSum.label (label_labelOf fun i => mulLetter_label _ _)).smul _).smul _
  have : ∀ o1 : List (List Char × ℂ), (o1.map fun pc => pc.2 • pauliLin n pc.1).sum ∘ₗ G
      = (o1.map fun pc => (pc.2 • pauliLin n pc.1) ∘ₗ G).sum := by
    intro o1
    induction o1 with
    | nil => simp
    | cons x o ih => rw [List.map_cons, List.sum_cons, LinearMap.add_comp, ih, List.map_cons, List.sum_cons]
  rw [this]
  exact PauliSum.list fun pc _ => step _ _

/-! ### Ladder operators -/

theorem tensor_flip (q : Fin n) (M : Fin n → Matrix Bool Bool ℂ) (hd : ∀ i, i ≠ q → ∀ b, M i b (!b) = 0)
    (hq : ∀ b, M q b b = 0) (ψ : QState n) (b : Fin n → Bool) :
    tensor M ψ b = (∏ i ∈ univ.erase q, M i (b i) (b i)) * M q (b q) (!b q) * ψ (Function.update b q (!b q)) := by
  unfold tensor
  rw [sum_eq_single (Function.update b q (!b q))]
  · rw [← mul_prod_erase univ _ (mem_univ q), Function.update_self, mul_comm (M q _ _)]
    congr 2
    refine prod_congr rfl fun i hi => ?_
    rw [Function.update_of_ne (ne_of_mem_erase hi)]
  · intro c _ hc
    have : ∏ i, M i (b i) (c i) = 0 := by
      obtain ⟨i, hi⟩ := Function.ne_iff.1 hc
      refine prod_eq_zero (mem_univ i) ?_
      by_cases e : i = q
      · subst e
        rw [Function.update_self] at hi
        have : c i = b i := by cases h1 : c i <;> cases h2 : b i <;> simp [h1, h2] at hi ⊢
        rw [this]; exact hq _
      · rw [Function.update_of_ne e] at hi
        have : c i = !b i := by cases h1 : c i <;> cases h2 : b i <;> simp [h1, h2] at hi ⊢
        rw [this]; exact hd i e _
    rw [this, zero_mul]
  · simp

/-- `Z` below `q`, `l` on `q`. -/
def ladderLabel (q : Fin n) (l : Char) : List Char :=
  labelOf fun i : Fin n => if i < q then 'Z' else if i = q then l else 'I'

theorem ladderLabel_op (q : Fin n) {l : Char} (hl : l = 'X' ∨ l = 'Y') (ψ : QState n) (b : Fin n → Bool) :
    pauliLin n (ladderLabel q l) ψ b
      = (∏ i : Fin n, if i < q then (if b i = true then (-1 : ℂ) else 1) else 1) * sigma l (b q) (!b q)
        * ψ (Function.update b q (!b q)) := by
  change tensor (fun i : Fin n => sigma (letter (ladderLabel q l) i)) ψ b = _
  have e : ∀ i : Fin n, letter (ladderLabel q l) i = if i < q then 'Z' else if i = q then l else 'I' := fun i =>
    letter_labelOf _ i
  rw [tensor_flip q]
  · rw [e q, if_neg (lt_irrefl q), if_pos rfl]
    congr 2
    rw [← mul_prod_erase univ (fun i : Fin n => if i < q then (if b i = true then (-1 : ℂ) else 1) else 1) (mem_univ q),
      if_neg (lt_irrefl q), one_mul]
    refine prod_congr rfl fun i hi => ?_
    rw [e i]
    by_cases h : i < q
    · rw [if_pos h, if_pos h]; simp [sigma, sigmaZ]
    · rw [if_neg h, if_neg h, if_neg (ne_of_mem_erase hi)]; simp [sigma]
  · intro i hi b
    rw [e i, if_neg (c := i = q) hi]
    split_ifs <;> cases b <;> simp [sigma, sigmaZ]
  · intro b
    rw [e q, if_neg (lt_irrefl q), if_pos rfl]
    rcases hl with rfl | rfl <;> simp [sigma, sigmaX, sigmaY]

/-- Annihilation and creation on the register. -/
noncomputable def ladderLin (q : Fin n) (c : Bool) : QState n →ₗ[ℂ] QState n :=
  (1 / 2 : ℂ) • pauliLin n (ladderLabel q 'X') + (if c then -Complex.I / 2 else Complex.I / 2) • pauliLin n (ladderLabel q 'Y')

theorem ladderLin_sum (q : Fin n) (c : Bool) : PauliSum n (ladderLin q c) := by
  have hl : ∀ l, l = 'X' ∨ l = 'Y' → PauliLabel n (ladderLabel q l) := by
    intro l hl
    refine label_labelOf fun i => ?_
    split_ifs
    · simp
    · rcases hl with rfl | rfl <;> simp
    · simp
  exact ((PauliSum.label (hl _ (Or.inl rfl))).smul _).add ((PauliSum.label (hl _ (Or.inr rfl))).smul _)

theorem ladderLin_apply (q : Fin n) (c : Bool) (ψ : QState n) (b : Fin n → Bool) :
    ladderLin q c ψ b = if b q = c then (∏ i : Fin n, if i < q then (if b i = true then (-1 : ℂ) else 1) else 1)
      * ψ (Function.update b q (!b q)) else 0 := by
  unfold ladderLin
  simp only [LinearMap.add_apply, LinearMap.smul_apply, Pi.add_apply, Pi.smul_apply, smul_eq_mul]
  rw [ladderLabel_op q (Or.inl rfl), ladderLabel_op q (Or.inr rfl)]
  have hI : Complex.I * Complex.I = -1 := Complex.I_mul_I
  cases c <;> cases b q <;> simp [sigma, sigmaX, sigmaY] <;> ring_nf <;> simp <;> ring

theorem mem_occupied (b : Fin n → Bool) (q : Fin n) : (q : ℕ) ∈ occupied b ↔ b q = true := by
  simp only [occupied, mem_image, mem_filter, mem_univ, true_and]
  constructor
  · rintro ⟨p, hp, e⟩; rwa [Fin.ext e] at hp
  · intro h; exact ⟨q, h, rfl⟩

theorem occupied_lt (b : Fin n → Bool) {p : ℕ} (h : p ∈ occupied b) : p < n := by
  obtain ⟨q, -, rfl⟩ := mem_image.1 h
  exact q.2

theorem occupied_update (b : Fin n → Bool) (q : Fin n) (c : Bool) :
    occupied (Function.update b q c) = if c then insert (q : ℕ) (occupied b) else (occupied b).erase q := by
  have h : ∀ p : Fin n, (p : ℕ) ∈ occupied (Function.update b q c) ↔
      (p : ℕ) ∈ (if c then insert (q : ℕ) (occupied b) else (occupied b).erase q) := by
    intro p
    rw [mem_occupied]
    by_cases e : p = q
    · subst e; cases c <;> simp
    · have : (p : ℕ) ≠ q := fun h => e (Fin.ext h)
      rw [Function.update_of_ne e, ← mem_occupied]
      cases c <;> simp [this]
  ext p
  constructor
  · intro hp
    exact (h ⟨p, occupied_lt _ hp⟩).1 hp
  · intro hp
    have : p < n := by
      cases c
      · exact occupied_lt b (mem_of_mem_erase hp)
      · rcases mem_insert.1 hp with rfl | h
        · exact q.2
        · exact occupied_lt b h
    exact (h ⟨p, this⟩).2 hp

theorem phase_occupied (b : Fin n → Bool) (q : Fin n) (S : Finset ℕ) (hS : ∀ p : Fin n, p < q → ((p : ℕ) ∈ S ↔ b p = true)) :
    (((phase S q : ℝ)) : ℂ) = ∏ i : Fin n, if i < q then (if b i = true then (-1 : ℂ) else 1) else 1 := by
  rw [phase_par]
  unfold par
  rw [Complex.ofReal_prod, ← prod_filter]
  refine (prod_bij (fun (i : Fin n) _ => (i : ℕ)) ?_ ?_ ?_ ?_).symm
  · intro i hi; exact mem_range.2 (mem_filter.1 hi).2
  · intro i _ j _ h; exact Fin.ext h
  · intro p hp
    have hp' := mem_range.1 hp
    exact ⟨⟨p, hp'.trans q.2⟩, mem_filter.2 ⟨mem_univ _, hp'⟩, rfl⟩
  · intro i hi
    have := hS i (by simpa using hi)
    by_cases h : b i = true
    · rw [if_pos h, if_pos (this.2 h)]; simp
    · rw [if_neg h, if_neg (fun h' => h (this.1 h'))]; simp

theorem amps_add (X Y : Fock ℝ) : amps n (X + Y) = amps n X + amps n Y := by
  funext b
  unfold amps
  rw [coeff_add, Complex.ofReal_add]; rfl

theorem amps_smul (c : ℝ) (X : Fock ℝ) : amps n (c • X) = (c : ℂ) • amps n X := by
  funext b
  unfold amps
  rw [coeff_smul, Complex.ofReal_mul]; rfl

theorem amps_ladder (q : Fin n) (c : Bool) (X : Fock ℝ) : amps n (ladder ((q : ℕ), c) X) = ladderLin q c (amps n X) := by
  have hadd : ∀ x y : Fock ℝ, amps n (ladder ((q : ℕ), c) x) = ladderLin q c (amps n x) →
      amps n (ladder ((q : ℕ), c) y) = ladderLin q c (amps n y) →
      amps n (ladder ((q : ℕ), c) (x + y)) = ladderLin q c (amps n (x + y)) := by
    intro x y hx hy
    rw [map_add, amps_add, hx, hy, amps_add, map_add]
  refine Finsupp.induction_linear X ?_ hadd ?_
  · have : amps n (0 : Fock ℝ) = 0 := by funext b; simp [amps]
    change amps n (ladder _ 0) = ladderLin q c (amps n (0 : Fock ℝ))
    rw [map_zero, this, map_zero]
  · intro S a
    change amps n (ladder _ (sgl S a)) = ladderLin q c (amps n (sgl S a))
    funext b
    rw [ladderLin_apply]
    have ea : ∀ b' : Fin n → Bool, amps n (sgl S a) b' = if S = occupied b' then (a : ℂ) else 0 := by
      intro b'
      unfold amps
      rw [coeff_sgl]
      split_ifs <;> simp
    rw [ea, occupied_update]
    unfold amps
    cases c
    · simp only [ladder, Bool.false_eq_true, if_false, an_single]
      by_cases hb : b q = false
      · have hbn : (q : ℕ) ∉ occupied b := by rw [mem_occupied, hb]; simp
        rw [if_pos hb, hb]
        simp only [Bool.not_false, if_true]
        by_cases hS : S = insert (q : ℕ) (occupied b)
        · rw [if_pos hS, if_pos (hS ▸ mem_insert_self _ _), coeff_sgl, if_pos (by rw [hS, erase_insert hbn]),
            Complex.ofReal_mul, phase_occupied b q S, mul_comm]
          intro p hp
          rw [hS, mem_insert, mem_occupied]
          exact or_iff_right fun h => absurd (Fin.ext h) (ne_of_lt hp)
        · rw [if_neg hS, mul_zero]
          split_ifs with hm
          · rw [coeff_sgl, if_neg fun h => hS (by rw [← h, insert_erase hm]), Complex.ofReal_zero]
          · rw [coeff_zero, Complex.ofReal_zero]
      · rw [if_neg hb]
        split_ifs with hm
        · rw [coeff_sgl, if_neg, Complex.ofReal_zero]
          intro h
          have : (q : ℕ) ∈ occupied b := (mem_occupied b q).2 (by simpa using hb)
          rw [← h] at this
          exact (notMem_erase _ _) this
        · rw [coeff_zero, Complex.ofReal_zero]
    · simp only [ladder, if_true, cr_single]
      by_cases hb : b q = true
      · have hbn : (q : ℕ) ∈ occupied b := by rw [mem_occupied, hb]
        rw [if_pos hb, hb]
        simp only [Bool.not_true, Bool.false_eq_true, if_false]
        by_cases hS : S = (occupied b).erase q
        · rw [if_pos hS, if_neg (hS ▸ notMem_erase _ _), coeff_sgl, if_pos (by rw [hS, insert_erase hbn]),
            Complex.ofReal_mul, phase_occupied b q S, mul_comm]
          intro p hp
          rw [hS, mem_erase, mem_occupied]
          exact and_iff_right fun h => absurd (Fin.ext h) (ne_of_lt hp)
        · rw [if_neg hS, mul_zero]
          split_ifs with hm
          · rw [coeff_zero, Complex.ofReal_zero]
          · rw [coeff_sgl, if_neg fun h => hS (by rw [← h, erase_insert hm]), Complex.ofReal_zero]
      · rw [if_neg hb]
        split_ifs with hm
        · rw [coeff_zero, Complex.ofReal_zero]
        · rw [coeff_sgl, if_neg, Complex.ofReal_zero]
          intro h
          apply hb
          rw [← mem_occupied, ← h]
          exact mem_insert_self _ _

theorem amps_str (s : Str) (hs : ∀ o ∈ s, o.1 < n) :
    ∃ F : QState n →ₗ[ℂ] QState n, PauliSum n F ∧ ∀ X : Fock ℝ, F (amps n X) = amps n (strOp s X) := by
  induction s with
  | nil =>
    refine ⟨pauliLin n (labelOf fun _ : Fin n => 'I'), .label (label_labelOf fun _ => Or.inl rfl), fun X => ?_⟩
    change tensor (fun i : Fin n => sigma (letter (labelOf fun _ : Fin n => 'I') i)) (amps n X) = _
    have e : (fun i : Fin n => sigma (letter (labelOf fun _ : Fin n => 'I') i)) = fun _ => 1 := by
      funext i
      rw [letter_labelOf]
      simp [sigma]
    rw [e, tensor_one]
    simp [strOp]
  | cons o s ih =>
    obtain ⟨F, h1, h2⟩ := ih fun x hx => hs x (by simp [hx])
    refine ⟨ladderLin ⟨o.1, hs o (by simp)⟩ o.2 ∘ₗ F, (ladderLin_sum _ _).comp h1, fun X => ?_⟩
    rw [LinearMap.comp_apply, h2, ← amps_ladder]
    simp [strOp]

theorem amps_sum (T : Dict ℝ) (hT : ∀ kv ∈ T, ∀ o ∈ kv.1, o.1 < n) :
    ∃ F : QState n →ₗ[ℂ] QState n, PauliSum n F ∧ ∀ X : Fock ℝ, F (amps n X) = amps n (sumOp T X) := by
  induction T with
  | nil => exact ⟨0, .zero, fun X => by funext b; simp [sumOp, amps]⟩
  | cons kv T ih =>
    obtain ⟨F, h1, h2⟩ := ih fun x hx => hT x (by simp [hx])
    obtain ⟨G, g1, g2⟩ := amps_str kv.1 (hT kv (by simp))
    refine ⟨(kv.2 : ℂ) • G + F, (g1.smul _).add h1, fun X => ?_⟩
    rw [LinearMap.add_apply, LinearMap.smul_apply, g2, h2, sumOp_cons, LinearMap.add_apply, LinearMap.smul_apply, amps_add,
      amps_smul]

theorem qiskitText_inj {s t : Str} (h : qiskitText s = qiskitText t) : s = t := by
  have key : ∀ t : Str, t ≠ [] → render qpre t = ' ' :: qiskitText t := by
    intro t
    induction t with
    | nil => intro h; exact absurd rfl h
    | cons o t ih =>
      intro _
      have e1 : render qpre (o :: t) = qpre o.2 ++ (pyStr o.1 ++ render qpre t) := by simp [render]
      rw [e1]
      cases t with
      | nil => cases hb : o.2 <;> simp [qpre, render, qiskitText, List.intercalate, hb]
      | cons o' t =>
        rw [ih (by simp)]
        cases hb : o.2 <;> simp [qpre, qiskitText, List.intercalate, hb]
  have hne : ∀ (o : Lad) (t : Str), qiskitText (o :: t) ≠ [] := by
    intro o t h
    cases t <;> simp [qiskitText, List.intercalate] at h
  have h1 : render qpre s = render qpre t := by
    match s, t with
    | [], [] => rfl
    | [], o :: t => exact absurd h.symm (hne _ _)
    | o :: s, [] => exact absurd h (hne _ _)
    | o :: s, o' :: t => rw [key _ (by simp), key _ (by simp), h]
  exact render_inj (pre := qpre) rfl (by decide) (by
    intro b; cases b
    · exact ⟨' ', _, rfl, by decide⟩
    · exact ⟨' ', _, rfl, by decide⟩) _ _ h1

/-- A mapper as required exists. -/
theorem jwMapper_exists (n : ℕ) : ∃ map, JWMapper n map := by
  classical
  have hT : ∀ T : Dict ℝ, (∀ kv ∈ T, ∀ o ∈ kv.1, o.1 < n) → ∃ obs : List (List Char × ℂ),
      (obs ≠ [] ∧ ∀ pc ∈ obs, PauliLabel n pc.1) ∧ ∀ X : Fock ℝ, obsOp n obs (amps n X) = amps n (sumOp T X) := by
    intro T h
    obtain ⟨F, ⟨obs, h1, h2⟩, h3⟩ := amps_sum T h
    refine ⟨(labelOf fun _ : Fin n => 'I', 0) :: obs, ⟨by simp, fun pc hp => ?_⟩, fun X => ?_⟩
    · rcases List.mem_cons.1 hp with rfl | hp
      · exact label_labelOf fun _ => Or.inl rfl
      · exact h1 pc hp
    · rw [obsOp_cons, zero_smul, zero_add, h2, h3]
  have hinj : ∀ T T' : Dict ℝ, (T.map fun kv => (qiskitText kv.1, kv.2)) = (T'.map fun kv => (qiskitText kv.1, kv.2)) → T = T' := by
    intro T
    induction T with
    | nil => intro T' h; cases T' <;> simp_all
    | cons kv T ih =>
      intro T' h
      cases T' with
      | nil => simp at h
      | cons kv' T' =>
        rw [List.map_cons, List.map_cons, List.cons.injEq, Prod.mk.injEq] at h
        rw [ih T' h.2]
        congr 1
        exact Prod.ext (qiskitText_inj h.1.1) h.1.2
  refine ⟨fun terms => if h : ∃ T : Dict ℝ, (∀ kv ∈ T, ∀ o ∈ kv.1, o.1 < n) ∧ (T.map fun kv => (qiskitText kv.1, kv.2)) = terms
    then .ok (hT h.choose h.choose_spec.1).choose else .error .valueError, ⟨?_, ?_⟩⟩
  · intro terms obs h
    split_ifs at h with hh
    cases h
    exact (hT hh.choose hh.choose_spec.1).choose_spec.1
  · intro T _ hr
    have hh : ∃ T' : Dict ℝ, (∀ kv ∈ T', ∀ o ∈ kv.1, o.1 < n) ∧
        (T'.map fun kv => (qiskitText kv.1, kv.2)) = T.map fun kv => (qiskitText kv.1, kv.2) := ⟨T, hr, rfl⟩
    refine ⟨(hT hh.choose hh.choose_spec.1).choose, dif_pos hh, fun X _ => ?_⟩
    rw [(hT hh.choose hh.choose_spec.1).choose_spec.2, hinj _ _ hh.choose_spec.2]

/-- A device that reports the exact probabilities of all outcomes. -/
noncomputable def exactDevice {norb : ℕ} (ansatz : List ℝ → List (PGate (2 * norb))) : Device (List (Gate (2 * norb))) where
  measure _ s head := (List.range (2 ^ (2 * norb))).map fun b =>
    (b, prob (runCircuit (toCBS (2 * norb) head) (runPCircuit (ansatz s.params) (runCircuit s.circuit (zeroState _)))) b)
  mitigate _ _ _ _ d := .ok d

theorem exactDevice_ideal {norb : ℕ} (ansatz : List ℝ → List (PGate (2 * norb))) : Ideal (exactDevice ansatz) ansatz := by
  intro run s head
  have e : ((exactDevice ansatz).measure run s head).map Prod.fst = List.range (2 ^ (2 * norb)) := by
    simp [exactDevice, Function.comp_def]
  refine ⟨fun h => ?_, e ▸ List.nodup_range, fun kv hk => ?_, fun b hb hn => ?_⟩
  · rw [h] at e
    have := congrArg List.length e
    simp only [List.map_nil, List.length_nil, List.length_range] at this
    have : 0 < 2 ^ (2 * norb) := by positivity
    omega
  · obtain ⟨b, hb, rfl⟩ := List.mem_map.1 hk
    exact ⟨List.mem_range.1 hb, rfl⟩
  · rw [e] at hn
    exact absurd (List.mem_range.2 hb) hn

end SQ
