import Verif.Lemmas.Fold
import Verif.Lemmas.Text
import Verif.Lemmas.Reorder

/-!
# C13-C15, C69: folding, text forms and spin-blocked order
-/

namespace SQ

variable {R : Type*} [CommRing R]

/-! ## C13 -/

/-- C13: for a number-conserving operator on the `nI+nA+nV` spatial orbitals, folding keeps all
matrix elements between active states embedded with filled inactive orbitals. -/
theorem C13_fold (nI nA nV : ℕ) {A : Dict R} (hA : NumCons A)
    (hr : ∀ kv ∈ A, ∀ o ∈ kv.1, o.1 < 2 * (nI + nA + nV)) {x y : Fock R}
    (hx : Below (2 * nA) x) (hy : Below (2 * nA) y) :
    inner x (sumOp (getFolded nI nA nV A) y)
      = inner (core (2 * nI) x) (sumOp A (core (2 * nI) y)) :=
  getFolded_sem nI nA nV A hA.ord hA.bal hr hx hy

/-- A case with an inactive, an active and a virtual part: one term is folded with a sign, one is
kept, one is dropped. -/
example :
    let A : Dict ℤ := [([(3, true), (0, true), (2, false), (0, false)], 5),
      ([(2, true), (2, false)], 7), ([(4, true), (2, false)], 1)]
    NumCons A ∧ (∀ kv ∈ A, ∀ o ∈ kv.1, o.1 < 2 * (1 + 1 + 1)) ∧
    getFolded 1 1 1 A = [([(1, true), (0, false)], -5), ([(0, true), (0, false)], 7)] :=
  ⟨⟨by decide, by decide, by decide⟩, by decide, by decide⟩

/-- Number conservation is needed in C13: `a†_0 a_2 a_0` with orbital `0` inactive folds to `+a_0`
although its matrix elements are those of `-a_0`. -/
theorem C13_nonconserving : getFolded 1 1 0 [([(0, true), (2, false), (0, false)], (1 : ℤ))]
      = [([(0, false)], 1)] ∧
    inner (ket ∅ : Fock ℤ) (sumOp [([(0, false)], 1)] (ket {0})) = 1 ∧
    inner (core 2 (ket ∅) : Fock ℤ)
      (sumOp [([(0, true), (2, false), (0, false)], 1)] (core 2 (ket {0}))) = -1 := by
  refine ⟨by decide, ?_, ?_⟩
  · simp [sumOp, strOp, ladder, an_single, inner_single_single, phase]
  · rw [core_sgl, core_sgl]
    simp only [sumOp, strOp, ladder, List.map_cons, List.map_nil, List.prod_cons, List.prod_nil,
      List.sum_cons, List.sum_nil, mul_one, add_zero, one_smul, if_true, if_false,
      Bool.false_eq_true, LinearMap.smul_apply, Module.End.mul_apply]
    have e1 : withCore 2 ∅ = {0, 1} := by decide
    have e2 : withCore 2 {0} = {0, 1, 2} := by decide
    rw [e1, e2, an_single, if_pos (by decide), an_single, if_pos (by decide), cr_single,
      if_neg (by decide), smul_sgl, inner_single_single, if_pos (by decide)]
    decide

/-- The range condition is needed in C13: an index outside all three ranges is silently dropped, so
`a†_100 a_100` folds to the identity. -/
theorem C13_range_needed : getFolded 1 1 0 [([(100, true), (100, false)], (1 : ℤ))] = [([], 1)] := by
  decide

/-! ## C14 -/

/-- C14: with all indices below `2n`, every term keeps its coefficient, under a key that determines
its string (no two terms share one), in which spin orbital `k` is renumbered `f2q k n`; this
renumbering is a bijection of `0..2n-1`. -/
theorem C14_qiskit_form (n : ℕ) {A : Dict R} (hA : WF A) (hr : ∀ kv ∈ A, ∀ o ∈ kv.1, o.1 < 2 * n) :
    (∃ d, getQiskitForm n A = .ok d ∧ d.map (·.2) = A.map (·.2) ∧ (d.map (·.1)).Nodup ∧
      List.Forall₂ (fun kv kv' => qiskitKey n kv.1 = .ok kv'.1) A d) ∧
    (∀ s t : Str, (∀ o ∈ s, o.1 < 2 * n) → (∀ o ∈ t, o.1 < 2 * n) →
      qiskitKey n s = qiskitKey n t → s = t) ∧
    (∀ k, k < 2 * n → remapGet n k = .ok (f2q k n)) ∧
    Set.BijOn (fun k => f2q k n) (Set.Iio (2 * n)) (Set.Iio (2 * n)) := by
  have hk : ∀ s : Str, (∀ o ∈ s, o.1 < 2 * n) → qiskitKey n s = .ok (qtext n s) := by
    intro s hs
    unfold qiskitKey qtext
    rw [qiskitLoop_ok n s hs]; rfl
  refine ⟨⟨A.map fun kv => (qtext n kv.1, kv.2), ?_, ?_, ?_, ?_⟩, ?_, ?_, ?_⟩
  · rw [← fill_inj (qtext n) A hA fun a ha b hb h => qtext_inj (hr a ha) (hr b hb) h]
    unfold getQiskitForm
    have key : ∀ (A : Dict R) (d : SDict R), (∀ kv ∈ A, ∀ o ∈ kv.1, o.1 < 2 * n) →
        A.foldlM (fun d kv => (qiskitKey n kv.1).map fun k => SDict.set d k kv.2) d
          = (Except.ok (A.foldl (fun d kv => SDict.set d (qtext n kv.1) kv.2) d) : Res (SDict R)) := by
      intro A
      induction A with
      | nil => intro d _; rfl
      | cons kv t ih =>
        intro d h
        rw [List.foldlM_cons, hk kv.1 (h kv (by simp))]
        exact ih _ fun kv' h' => h kv' (by simp [h'])
    exact key A [] hr
  · simp
  · rw [List.map_map]
    have : A.map ((fun kv => kv.1) ∘ fun kv => (qtext n kv.1, kv.2)) = (A.map (·.1)).map (qtext n) := by
      simp
    rw [this]
    refine List.Nodup.map_on ?_ hA
    intro s hs t ht h
    obtain ⟨a, ha, rfl⟩ := List.mem_map.1 hs
    obtain ⟨b, hb, rfl⟩ := List.mem_map.1 ht
    exact qtext_inj (hr a ha) (hr b hb) h
  · clear hA
    induction A with
    | nil => exact List.Forall₂.nil
    | cons kv t ih =>
      rw [List.map_cons]
      exact List.Forall₂.cons (hk _ (hr kv (by simp))) (ih fun x hx => hr x (by simp [hx]))
  · intro s t hs ht h
    rw [hk s hs, hk t ht] at h
    injection h with h
    exact qtext_inj hs ht h
  · intro k hk
    rw [remapGet_eq, if_pos hk]
    congr 1
    unfold blocked f2q; split
    · rfl
    · omega
  · refine ⟨?_, ?_, ?_⟩
    · intro k hk; simp only [Set.mem_Iio] at hk ⊢; unfold f2q; split <;> omega
    · intro k hk l hl h; exact f2q_inj hk hl h
    · intro k hk
      simp only [Set.mem_Iio] at hk
      by_cases h : k < n
      · exact ⟨2 * k, by simp only [Set.mem_Iio]; omega, by simp [f2q]⟩
      · refine ⟨2 * (k - n) + 1, by simp only [Set.mem_Iio]; omega, ?_⟩
        simp only [f2q]; rw [if_neg (by omega)]; omega

/-- C14: an index of `2n` or more raises `KeyError`. -/
theorem C14_out_of_range (n : ℕ) {A : Dict R} (h : ∃ kv ∈ A, ∃ o ∈ kv.1, ¬ o.1 < 2 * n) :
    getQiskitForm n A = .error .keyError := by
  unfold getQiskitForm
  have key : ∀ (A : Dict R) (d : SDict R), (∃ kv ∈ A, ∃ o ∈ kv.1, ¬ o.1 < 2 * n) →
      A.foldlM (fun d kv => (qiskitKey n kv.1).map fun k => SDict.set d k kv.2) d = (Except.error .keyError : Res (SDict R)) := by
    intro A
    induction A with
    | nil => intro d h; simp at h
    | cons kv t ih =>
      intro d h
      rw [List.foldlM_cons]
      by_cases hk : ∃ o ∈ kv.1, ¬ o.1 < 2 * n
      · have : qiskitKey n kv.1 = .error .keyError := by
          unfold qiskitKey; rw [qiskitLoop_error n _ hk]; rfl
        rw [this]; rfl
      · have h1 : qiskitKey n kv.1 = .ok (qtext n kv.1) := by
          push Not at hk
          unfold qiskitKey qtext
          rw [qiskitLoop_ok n kv.1 hk]; rfl
        rw [h1]
        refine ih _ ?_
        obtain ⟨kv', h2, h3⟩ := h
        rcases List.mem_cons.1 h2 with rfl | h2
        · exact absurd h3 hk
        · exact ⟨kv', h2, h3⟩
  exact key A [] h

/-- The key of `a†_3 a_12` for eight spatial orbitals is `"+_9 -_6"`. -/
example : qiskitKey 8 [(3, true), (12, false)] = .ok "+_9 -_6".toList := by rfl
example : WF [([(3, true), (12, false)], (5 : ℤ)), ([(1, true), (0, false)], 5)] := by decide

/-! ## C15 -/

/-- C15: the signed renumbering of determinants intertwines every operator string with the string
whose indices are renumbered by `f2q`. -/
theorem C15_intertwines (n : ℕ) (s : Str) (hs : ∀ o ∈ s, o.1 < 2 * n) {x : Fock R}
    (hx : Below (2 * n) x) :
    toBlocked n (strOp s x) = strOp (s.map fun o => (f2q o.1 n, o.2)) (toBlocked n x) := by
  have single : ∀ (s : Str), (∀ o ∈ s, o.1 < 2 * n) → ∀ S : Finset ℕ, (∀ q ∈ S, q < 2 * n) →
      ∀ c : R, (∃ S' : Finset ℕ, ∃ c' : R, strOp s (sgl S c) = sgl S' c' ∧ (∀ q ∈ S', q < 2 * n)) ∧
      toBlocked n (strOp s (sgl S c))
        = strOp (s.map fun o => (f2q o.1 n, o.2)) (toBlocked n (sgl S c)) := by
    intro s
    induction s with
    | nil => intro _ S hS c; exact ⟨⟨S, c, by simp [strOp], hS⟩, by simp [strOp]⟩
    | cons o t ih =>
      intro ho S hS c
      have hoo := ho o (by simp)
      obtain ⟨⟨S', c', h1, h2⟩, h3⟩ := ih (fun x hx => ho x (by simp [hx])) S hS c
      have e : ∀ (o : Lad) (t : Str) (x : Fock R), strOp (o :: t) x = ladder o (strOp t x) := by
        intro o t x; simp [strOp]
      rw [List.map_cons, e, e, ← h3, h1]
      obtain ⟨p, b⟩ := o
      cases b
      · refine ⟨⟨S'.erase p, if p ∈ S' then c' * phase S' p else 0, ?_, ?_⟩, ?_⟩
        · simp only [ladder, Bool.false_eq_true, if_false, an_single]
          split
          · rfl
          · exact (sgl_zero _).symm
        · intro q hq; exact h2 q (Finset.mem_of_mem_erase hq)
        · simpa [ladder] using an_blocked h2 hoo c'
      · refine ⟨⟨insert p S', if p ∈ S' then 0 else c' * phase S' p, ?_, ?_⟩, ?_⟩
        · simp only [ladder, if_true, cr_single]
          split
          · exact (sgl_zero _).symm
          · rfl
        · intro q hq
          rcases Finset.mem_insert.1 hq with rfl | hq
          · exact hoo
          · exact h2 q hq
        · simpa [ladder] using cr_blocked h2 hoo c'
  have hsum : x = (x : Finset ℕ →₀ R).sum fun S c => (sgl S c : Fock R) :=
    (Finsupp.sum_single (x : Finset ℕ →₀ R)).symm
  rw [hsum]
  simp only [Finsupp.sum]
  rw [map_sum, map_sum, map_sum, map_sum]
  refine Finset.sum_congr rfl fun S hS => ?_
  exact (single s hs S (hx S (by simpa [coeff] using Finsupp.mem_support_iff.1 hS)) _).2

/-- The sign is not trivial: `|αβ pair in orbitals 0β and 1α⟩`. -/
example : getReorderingSign "0110".toList = -1 ∧ getReorderingSign "1001".toList = 1 ∧
    getReorderingSign "1111".toList = -1 := by decide

/-- The change of basis is a signed permutation of determinants, so nothing is lost. -/
theorem C15_isometry (n : ℕ) {S T : Finset ℕ} (hS : ∀ q ∈ S, q < 2 * n) (hT : ∀ q ∈ T, q < 2 * n) :
    inner (toBlocked n (ket S) : Fock R) (toBlocked n (ket T)) = inner (ket S) (ket T) := by
  rw [toBlocked_sgl, toBlocked_sgl, inner_single_single, inner_single_single]
  have : (S.image fun p => f2q p n) = (T.image fun p => f2q p n) ↔ S = T := by
    constructor
    · intro h
      have key : ∀ {S T : Finset ℕ}, (∀ q ∈ S, q < 2 * n) → (∀ q ∈ T, q < 2 * n) →
          (S.image fun p => f2q p n) = (T.image fun p => f2q p n) → ∀ q ∈ S, q ∈ T := by
        intro S T hS hT h q hq
        rw [← mem_image_f2q hT (hS q hq), ← h]
        exact Finset.mem_image_of_mem _ hq
      exact Finset.Subset.antisymm (key hS hT h) (key hT hS h.symm)
    · rintro rfl; rfl
  simp only [this]
  split
  · next h =>
    subst h
    rw [sign_eq]
    push_cast
    rw [one_mul, one_mul, ← Finset.prod_mul_distrib]
    apply Finset.prod_eq_one
    intro b _
    rw [← pow_add, ← two_mul, pow_mul]; simp
  · rfl

/-! ## C69 -/

/-- C69: `operators_readable` gives different strings different keys and keeps every coefficient. -/
theorem C69_readable {A : Dict R} (hA : WF A) :
    readable A = A.map (fun kv => (readableKey kv.1, kv.2)) ∧
    ∀ s t : Str, readableKey s = readableKey t → s = t :=
  ⟨fill_inj readableKey A hA fun _ _ _ _ h => readableKey_inj h, fun _ _ h => readableKey_inj h⟩

/-- C69: for a number-conserving operator, `get_info` returns for every term its annihilation
indices, its creation indices and its coefficient, in the order of the terms. -/
theorem C69_get_info {A : Dict R} (hA : NumCons A) :
    getInfo A = (A.map fun kv => (kv.1.filter fun o => !o.2).map (·.1),
      A.map fun kv => (kv.1.filter (·.2)).map (·.1), A.map (·.2)) := by
  have h0 := (C69_readable hA.wf).1
  have hnum : (readable A).map (fun kv => (digitRuns [] kv.1).map pyInt)
      = A.map fun kv => kv.1.map (·.1) := by
    rw [h0, List.map_map]
    refine List.map_congr_left fun kv _ => ?_
    simp only [Function.comp, readableKey_eq, digitRuns_render]
  have hsp : ∀ kv ∈ A, kv.1 = kv.1.filter (·.2) ++ kv.1.filter (fun o => !o.2) ∧
      (kv.1.filter (·.2)).length = kv.1.length / 2 := by
    intro kv hkv
    have h1 := (hA.ord kv hkv).split
    refine ⟨h1, ?_⟩
    have hb := hA.bal kv hkv
    unfold Balanced at hb
    rw [List.countP_eq_length_filter, List.countP_eq_length_filter] at hb
    have hl := congrArg List.length h1
    rw [List.length_append] at hl
    omega
  unfold getInfo
  simp only [hnum]
  refine Prod.ext ?_ (Prod.ext ?_ ?_)
  · simp only [List.map_map]
    refine List.map_congr_left fun kv hkv => ?_
    obtain ⟨h1, h2⟩ := hsp kv hkv
    simp only [Function.comp, List.length_map]
    rw [← List.map_drop, ← h2]
    conv_lhs => rw [h1]
    rw [List.drop_append_of_le_length (by simp)]
    simp
  · simp only [List.map_map]
    refine List.map_congr_left fun kv hkv => ?_
    obtain ⟨h1, h2⟩ := hsp kv hkv
    simp only [Function.comp, List.length_map]
    rw [← List.map_take, ← h2]
    conv_lhs => rw [h1]
    rw [List.take_append_of_le_length (by simp)]
    simp
  · rw [h0]; simp

example : getInfo [([(12, true), (3, true), (7, false), (0, false)], (5 : ℤ))]
    = ([[7, 0]], [[12, 3]], [5]) := by rfl

end SQ
