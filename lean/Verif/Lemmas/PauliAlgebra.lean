import Verif.Lemmas.JWMap
import Mathlib.Algebra.Module.Submodule.Basic
import Mathlib.LinearAlgebra.Span.Basic
import Mathlib.LinearAlgebra.Span.Defs

/-! # Pauli strings: signs, expansions, commuting families -/

namespace SQ

open Finset

variable {n : ℕ}

/-- Operators on the register. -/
abbrev QOp (n : ℕ) := Module.End ℂ (QState n)

theorem sigma_sq (l : Char) : sigma l * sigma l = 1 := by
  unfold sigma
  split_ifs <;> ext b c <;> cases b <;> cases c <;> simp [sigmaX, sigmaY, sigmaZ, Matrix.mul_apply]

theorem pauli_sq (p : List Char) : (pauliLin n p * pauliLin n p : QOp n) = 1 := by
  refine LinearMap.ext fun ψ => ?_
  change tensor _ (tensor _ ψ) = ψ
  rw [tensor_tensor]
  simp only [sigma_sq]
  exact tensor_one ψ

/-- The sign of `l` past `m`, for `l` one of `X`, `Z`. -/
def letterSign (z : Bool) (m : Char) : ℝ :=
  if z then (if m = 'X' ∨ m = 'Y' then -1 else 1) else (if m = 'Y' ∨ m = 'Z' then -1 else 1)

/-- `X` or `Z` on one qubit. -/
def site (q : Fin n) (z : Bool) : List Char := labelOf fun i : Fin n => if i = q then (if z then 'Z' else 'X') else 'I'

theorem letterSign_sq (z : Bool) (m : Char) : letterSign z m * letterSign z m = 1 := by
  unfold letterSign
  split_ifs <;> norm_num

theorem letterSign_cases (z : Bool) (m : Char) : letterSign z m = 1 ∨ letterSign z m = -1 := by
  unfold letterSign
  split_ifs <;> simp

theorem sigma_sign (z : Bool) (m : Char) :
    sigma (if z then 'Z' else 'X') * sigma m = ((letterSign z m : ℝ) : ℂ) • (sigma m * sigma (if z then 'Z' else 'X')) := by
  unfold letterSign
  by_cases h1 : m = 'X'
  · subst h1
    cases z <;> ext b c <;> cases b <;> cases c <;> simp [sigma, sigmaX, sigmaZ, Matrix.mul_apply]
  by_cases h2 : m = 'Y'
  · subst h2
    cases z <;> ext b c <;> cases b <;> cases c <;> simp [sigma, sigmaX, sigmaY, sigmaZ, Matrix.mul_apply]
  by_cases h3 : m = 'Z'
  · subst h3
    cases z <;> ext b c <;> cases b <;> cases c <;> simp [sigma, sigmaX, sigmaZ, Matrix.mul_apply]
  have : sigma m = 1 := by unfold sigma; rw [if_neg h1, if_neg h2, if_neg h3]
  rw [this]
  cases z <;> simp [h1, h2, h3]

theorem site_comm (q : Fin n) (z : Bool) (p : List Char) :
    (pauliLin n (site q z) * pauliLin n p : QOp n) = ((letterSign z (letter p q) : ℝ) : ℂ) • (pauliLin n p * pauliLin n (site q z)) := by
  refine LinearMap.ext fun ψ => ?_
  change tensor _ (tensor _ ψ) = (_ : ℂ) • tensor _ (tensor _ ψ)
  rw [tensor_tensor, tensor_tensor]
  have e : ∀ i : Fin n, letter (site q z) i = if i = q then (if z then 'Z' else 'X') else 'I' := fun i => letter_labelOf _ i
  have : (fun i : Fin n => sigma (letter (site q z) i) * sigma (letter p i))
      = fun i : Fin n => (if i = q then ((letterSign z (letter p q) : ℝ) : ℂ) else 1) •
        (sigma (letter p i) * sigma (letter (site q z) i)) := by
    funext i
    rw [e i]
    by_cases h : i = q
    · subst h
      simp only [if_true]
      exact sigma_sign z _
    · simp only [if_neg h]
      simp [sigma]
  rw [this, tensor_smul, prod_ite_eq' univ q, if_pos (mem_univ q)]

/-- Conjugation with `X` or `Z` on one qubit. -/
noncomputable def siteConj (k : Fin n × Bool) : QOp n →ₗ[ℝ] QOp n where
  toFun A := pauliLin n (site k.1 k.2) * A * pauliLin n (site k.1 k.2)
  map_add' A B := by rw [mul_add, add_mul]
  map_smul' c A := by simp

theorem siteConj_pauli (k : Fin n × Bool) (p : List Char) (c : ℂ) :
    siteConj k (c • pauliLin n p : QOp n) = letterSign k.2 (letter p k.1) • (c • pauliLin n p : QOp n) := by
  change (pauliLin n (site k.1 k.2) * (c • pauliLin n p) * pauliLin n (site k.1 k.2) : QOp n) = _
  rw [mul_smul_comm, smul_mul_assoc, site_comm, smul_mul_assoc, mul_assoc, pauli_sq, mul_one]
  refine LinearMap.ext fun ψ => funext fun b => ?_
  simp only [LinearMap.smul_apply, Pi.smul_apply, smul_eq_mul, Complex.real_smul]
  ring

theorem letter_of_lt {p : List Char} (i : Fin n) (hp : PauliLabel n p) : letter p i = 'I' ∨ letter p i = 'X' ∨ letter p i = 'Y' ∨ letter p i = 'Z' := by
  unfold letter
  have h : (i : ℕ) < p.reverse.length := by rw [List.length_reverse, hp.1]; exact i.2
  rw [List.getElem?_eq_getElem h, Option.getD_some]
  exact hp.2 _ (List.mem_reverse.1 (List.getElem_mem h))

theorem label_ext {p q : List Char} (hp : PauliLabel n p) (hq : PauliLabel n q) (h : ∀ i : Fin n, letter p i = letter q i) : p = q := by
  apply List.reverse_injective
  refine List.ext_getElem (by simp [hp.1, hq.1]) fun i h1 h2 => ?_
  have hi : i < n := by rw [List.length_reverse, hp.1] at h1; exact h1
  have := h ⟨i, hi⟩
  unfold letter at this
  rwa [List.getElem?_eq_getElem h1, List.getElem?_eq_getElem h2, Option.getD_some, Option.getD_some] at this

/-- Different labels are told apart by a sign. -/
theorem label_separate {p q : List Char} (hp : PauliLabel n p) (hq : PauliLabel n q) (h : p ≠ q) :
    ∃ k : Fin n × Bool, letterSign k.2 (letter p k.1) ≠ letterSign k.2 (letter q k.1) := by
  by_contra hc
  push Not at hc
  refine h (label_ext hp hq fun i => ?_)
  have h1 := hc (i, true)
  have h2 := hc (i, false)
  simp only [letterSign, if_true, Bool.false_eq_true, if_false] at h1 h2
  rcases letter_of_lt i hp with e | e | e | e <;> rcases letter_of_lt i hq with e' | e' | e' | e' <;> rw [e, e'] at h1 h2 <;>
    rw [e, e'] <;> first
    | (exfalso; norm_num (decide := true) at h1; done)
    | (exfalso; norm_num (decide := true) at h2; done)

/-- Components of a sum of eigenvectors of involutions that keep a subspace lie in the subspace. -/
theorem component_mem {V ι K : Type*} [AddCommGroup V] [Module ℝ V] [DecidableEq ι] (S : Submodule ℝ V) (C : K → V →ₗ[ℝ] V)
    (hC : ∀ k, ∀ v ∈ S, C k v ∈ S) (v : ι → V) (e : K → ι → ℝ) (he : ∀ k i, e k i = 1 ∨ e k i = -1)
    (hv : ∀ k i, C k (v i) = e k i • v i) : ∀ (m : ℕ) (s : Finset ι), s.card ≤ m →
    (∀ i ∈ s, ∀ j ∈ s, i ≠ j → ∃ k, e k i ≠ e k j) → ∑ i ∈ s, v i ∈ S → ∀ i ∈ s, v i ∈ S := by
  intro m
  induction m with
  | zero =>
    intro s hs _ _ i hi
    rw [card_eq_zero.1 (Nat.le_zero.1 hs)] at hi
    exact absurd hi (notMem_empty _)
  | succ m ih =>
    intro s hs hsep hsum i hi
    by_cases h1 : ∃ j ∈ s, i ≠ j
    · obtain ⟨j, hj, hij⟩ := h1
      obtain ⟨k, hk⟩ := hsep i hi j hj hij
      set s' := s.filter fun r => e k r = e k i with hs'
      have hi' : i ∈ s' := mem_filter.2 ⟨hi, rfl⟩
      have hj' : j ∉ s' := fun h => hk (mem_filter.1 h).2.symm
      have hlt : s'.card < s.card := card_lt_card ((filter_subset _ _).ssubset_of_ne fun h => hj' (by rw [hs', h]; exact hj))
      refine ih s' (by omega) (fun a ha b hb => hsep a (mem_filter.1 ha).1 b (mem_filter.1 hb).1) ?_ i hi'
      have hmem : (1 / 2 : ℝ) • (∑ r ∈ s, v r + e k i • C k (∑ r ∈ s, v r)) ∈ S :=
        S.smul_mem _ (S.add_mem hsum (S.smul_mem _ (hC k _ hsum)))
      have : (1 / 2 : ℝ) • (∑ r ∈ s, v r + e k i • C k (∑ r ∈ s, v r)) = ∑ r ∈ s', v r := by
        rw [map_sum, smul_sum, ← sum_add_distrib, smul_sum, hs', sum_filter]
        refine sum_congr rfl fun r _ => ?_
        rw [hv, smul_smul]
        rcases he k r with h1 | h1 <;> rcases he k i with h2 | h2 <;> rw [h1, h2] <;> norm_num
        · rw [← two_smul ℝ, smul_smul]; norm_num
        · rw [← two_smul ℝ, smul_smul]; norm_num
      rwa [this] at hmem
    · push Not at h1
      have : s = {i} := eq_singleton_iff_unique_mem.2 ⟨hi, fun j hj => (h1 j hj).symm⟩
      rw [this, sum_singleton] at hsum
      exact hsum

/-- The terms of an operator. -/
noncomputable def pTerm (n : ℕ) (pc : List Char × ℂ) : QOp n := pc.2 • pauliLin n pc.1

/-- The operator of labels with coefficients. -/
noncomputable def obsLin (n : ℕ) (obs : List (List Char × ℂ)) : QOp n := (obs.map (pTerm n)).sum

theorem obsLin_apply (obs : List (List Char × ℂ)) (ψ : QState n) : obsLin n obs ψ = obsOp n obs ψ := by
  induction obs with
  | nil => simp [obsLin, obsOp]
  | cons x o ih =>
    rw [obsOp_cons, ← ih]
    unfold obsLin
    rw [List.map_cons, List.sum_cons]
    rfl

/-- Operators that are multiples of Pauli strings. -/
def Mono (n : ℕ) (A : QOp n) : Prop := ∃ (c : ℂ) (p : List Char), A = c • pauliLin n p

theorem Mono.mul {A B : QOp n} (hA : Mono n A) (hB : Mono n B) : Mono n (A * B) := by
  obtain ⟨c, p, rfl⟩ := hA
  obtain ⟨d, q, rfl⟩ := hB
  refine ⟨c * d * ∏ i : Fin n, (mulLetter (letter p i) (letter q i)).1, labelOf fun i : Fin n => (mulLetter (letter p i) (letter q i)).2, ?_⟩
  have := pauliLin_mul (n := n) p q
  rw [smul_mul_assoc, mul_smul_comm, smul_smul]
  change (c * d) • (pauliLin n p ∘ₗ pauliLin n q) = _
  rw [this, smul_smul]

theorem Mono.smul {A : QOp n} (c : ℂ) (hA : Mono n A) : Mono n (c • A) := by
  obtain ⟨d, p, rfl⟩ := hA
  exact ⟨c * d, p, by rw [smul_smul]⟩

theorem span_stable {G : Set (QOp n)} (hG : ∀ g ∈ G, Mono n g) (k : Fin n × Bool) : ∀ A ∈ Submodule.span ℝ G,
    siteConj k A ∈ Submodule.span ℝ G := by
  intro A hA
  induction hA using Submodule.span_induction with
  | mem g hg =>
    obtain ⟨c, p, e⟩ := hG g hg
    have : siteConj k g = letterSign k.2 (letter p k.1) • g := by rw [e, siteConj_pauli]
    rw [this]
    exact Submodule.smul_mem _ _ (Submodule.subset_span hg)
  | zero => rw [map_zero]; exact Submodule.zero_mem _
  | add x y _ _ h1 h2 => rw [map_add]; exact Submodule.add_mem _ h1 h2
  | smul c x _ h => rw [map_smul]; exact Submodule.smul_mem _ _ h

/-- The terms of an operator in the span of Pauli strings are in the span. -/
theorem terms_mem {obs : List (List Char × ℂ)} (hl : ∀ pc ∈ obs, PauliLabel n pc.1) (hn : (obs.map Prod.fst).Nodup)
    {G : Set (QOp n)} (hG : ∀ g ∈ G, Mono n g) (h : obsLin n obs ∈ Submodule.span ℝ G) :
    ∀ pc ∈ obs, pTerm n pc ∈ Submodule.span ℝ G := by
  classical
  have hnd : obs.Nodup := hn.of_map _
  have hsum : ∑ pc ∈ obs.toFinset, pTerm n pc ∈ Submodule.span ℝ G := by
    rw [List.sum_toFinset _ hnd]; exact h
  intro pc hpc
  refine component_mem (Submodule.span ℝ G) siteConj (span_stable hG) (pTerm n)
    (fun k pc => letterSign k.2 (letter pc.1 k.1)) (fun k pc => letterSign_cases _ _) (fun k pc => siteConj_pauli k _ _)
    _ obs.toFinset le_rfl (fun a ha b hb hab => ?_) hsum pc (List.mem_toFinset.2 hpc)
  rw [List.mem_toFinset] at ha hb
  refine label_separate (hl a ha) (hl b hb) fun he => hab ?_
  exact List.inj_on_of_nodup_map hn ha hb he

/-- `A'` is the adjoint of `A`. -/
def QAdj (A A' : QOp n) : Prop := ∀ φ ψ, qinner φ (A ψ) = qinner (A' φ) ψ

theorem qadj_pauli (p : List Char) : QAdj (pauliLin n p) (pauliLin n p) := by
  intro φ ψ
  have := pauli_herm (n := n) p φ ψ
  rw [qinner_conj] at this
  exact this

theorem QAdj.mul {A A' B B' : QOp n} (hA : QAdj A A') (hB : QAdj B B') : QAdj (A * B) (B' * A') := by
  intro φ ψ
  rw [Module.End.mul_apply, hA, hB]; rfl

theorem QAdj.smul {A A' : QOp n} (c : ℂ) (hA : QAdj A A') : QAdj (c • A) ((starRingEnd ℂ) c • A') := by
  intro φ ψ
  rw [LinearMap.smul_apply, qinner_smul_right, hA, LinearMap.smul_apply, qinner_smul_left, Complex.conj_conj]

theorem QAdj.add {A A' B B' : QOp n} (hA : QAdj A A') (hB : QAdj B B') : QAdj (A + B) (A' + B') := by
  intro φ ψ
  rw [LinearMap.add_apply, LinearMap.add_apply, qinner_add_right, qinner_add_left, hA, hB]

theorem span_anti {G : Set (QOp n)} (hG : ∀ g ∈ G, QAdj g (-g)) : ∀ A ∈ Submodule.span ℝ G, QAdj A (-A) := by
  intro A hA
  induction hA using Submodule.span_induction with
  | mem g hg => exact hG g hg
  | zero => intro φ ψ; simp [qinner]
  | add x y _ _ h1 h2 => rw [neg_add]; exact h1.add h2
  | smul c x _ h =>
    have := h.smul (c : ℂ)
    rw [Complex.conj_ofReal, smul_neg, Complex.coe_smul] at this
    exact this

theorem span_comm {G : Set (QOp n)} (hG : ∀ g ∈ G, ∀ h ∈ G, Commute g h) :
    ∀ A ∈ Submodule.span ℝ G, ∀ B ∈ Submodule.span ℝ G, Commute A B := by
  intro A hA B hB
  induction hA using Submodule.span_induction with
  | mem g hg =>
    induction hB using Submodule.span_induction with
    | mem h hh => exact hG g hg h hh
    | zero => exact Commute.zero_right _
    | add x y _ _ h1 h2 => exact h1.add_right h2
    | smul c x _ h => exact h.smul_right c
  | zero => exact Commute.zero_left _
  | add x y _ _ h1 h2 => exact h1.add_left h2
  | smul c x _ h => exact h.smul_left c

theorem anti_imag {p : List Char} {c : ℂ} (h : QAdj (c • pauliLin n p : QOp n) (-(c • pauliLin n p))) : c.re = 0 := by
  have key := h (basis fun _ => false) (pauliLin n p (basis fun _ => false))
  have e2 : pauliLin n p (pauliLin n p (basis fun _ => false)) = basis (n := n) fun _ => false := by
    have := LinearMap.congr_fun (pauli_sq (n := n) p) (basis fun _ => false)
    exact this
  have e1 : qinner (basis (n := n) fun _ => false) (basis fun _ => false) = 1 := by
    simp [qinner, basis]
  rw [LinearMap.smul_apply, qinner_smul_right, e2, e1, mul_one, LinearMap.neg_apply, LinearMap.smul_apply, ← neg_smul,
    qinner_smul_left, ← qadj_pauli p _ _, e2, e1, mul_one, map_neg] at key
  have := congrArg Complex.re key
  simp at this
  linarith

end SQ
