import Verif.Spec.Variance
import Verif.Lemmas.Measure
import Verif.Lemmas.Cliques

/-! # Lemmas: pooling, variances -/

namespace SQ

theorem expect_cons (kv : ℕ × ℝ) (d : Distr) (f : ℕ → ℝ) : expect (kv :: d) f = kv.2 * f kv.1 + expect d f := by
  simp [expect]

theorem expect_append (d e : Distr) (f : ℕ → ℝ) : expect (d ++ e) f = expect d f + expect e f := by
  simp [expect]

theorem expect_add (d : Distr) (f g : ℕ → ℝ) : expect d (fun b => f b + g b) = expect d f + expect d g := by
  induction d with
  | nil => simp [expect]
  | cons kv d ih => rw [expect_cons, expect_cons, expect_cons, ih]; ring

theorem expect_smul (d : Distr) (c : ℝ) (f : ℕ → ℝ) : expect d (fun b => c * f b) = c * expect d f := by
  induction d with
  | nil => simp [expect]
  | cons kv d ih => rw [expect_cons, expect_cons, ih]; ring

theorem expect_div (d : Distr) (c : ℝ) (f : ℕ → ℝ) : expect (d.map fun kv => (kv.1, kv.2 / c)) f = expect d f / c := by
  induction d with
  | nil => simp [expect]
  | cons kv d ih => rw [List.map_cons, expect_cons, expect_cons, ih]; ring

theorem expect_nonneg {d : Distr} (h : ∀ kv ∈ d, 0 ≤ kv.2) {f : ℕ → ℝ} (hf : ∀ b, 0 ≤ f b) : 0 ≤ expect d f := by
  unfold expect
  refine List.sum_nonneg fun x hx => ?_
  obtain ⟨kv, hk, rfl⟩ := List.mem_map.1 hx
  exact mul_nonneg (h kv hk) (hf _)

theorem map_replace_sum {d : Distr} (hn : (d.map Prod.fst).Nodup) {k : ℕ} (hk : k ∈ d.map Prod.fst) (v : ℝ) (f : ℕ → ℝ) :
    expect (d.map fun kv => if kv.1 = k then (k, v + (d.lookup k).getD 0) else kv) f = expect d f + v * f k := by
  suffices ∀ c : ℝ, c = (d.lookup k).getD 0 →
      expect (d.map fun kv => if kv.1 = k then (k, v + c) else kv) f = expect d f + v * f k from this _ rfl
  intro c hc
  induction d with
  | nil => simp at hk
  | cons kv d ih =>
    rw [List.map_cons, List.nodup_cons] at hn
    rw [List.map_cons, expect_cons, expect_cons]
    by_cases h : kv.1 = k
    · rw [if_pos h]
      have hl : (List.lookup k (kv :: d)) = some kv.2 := by
        obtain ⟨a, b⟩ := kv
        simp only at h
        subst h
        simp [List.lookup]
      rw [hl] at hc
      have hm : d.map (fun kv => if kv.1 = k then (k, v + c) else kv) = d := by
        conv_rhs => rw [← List.map_id d]
        refine List.map_congr_left fun x hx => ?_
        rw [if_neg]
        · rfl
        · intro he
          apply hn.1
          rw [h, ← he]
          exact List.mem_map_of_mem hx
      rw [hm]
      simp only [Option.getD_some] at hc
      rw [hc, h]
      ring
    · rw [if_neg h]
      have hl : (List.lookup k (kv :: d)) = d.lookup k := by
        obtain ⟨a, b⟩ := kv
        simp only at h
        have : (k == a) = false := by simpa using fun e => h e.symm
        simp [List.lookup, this]
      rw [hl] at hc
      rw [ih hn.2 (by
        rw [List.map_cons, List.mem_cons] at hk
        rcases hk with hk | hk
        · exact absurd hk.symm h
        · exact hk) hc]
      ring

theorem mem_keys_any {d : Distr} {k : ℕ} : (d.any fun kv => kv.1 == k) = true ↔ k ∈ d.map Prod.fst := by
  rw [List.any_eq_true, List.mem_map]
  simp

theorem dictPut_expect {d : Distr} (hn : (d.map Prod.fst).Nodup) (k : ℕ) (v : ℝ) (f : ℕ → ℝ) :
    expect (dictPut d k (v + (d.lookup k).getD 0)) f = expect d f + v * f k ∧
    ((dictPut d k (v + (d.lookup k).getD 0)).map Prod.fst).Nodup := by
  unfold dictPut
  by_cases h : (d.any fun kv => kv.1 == k) = true
  · rw [if_pos h]
    refine ⟨map_replace_sum hn (mem_keys_any.1 h) v f, ?_⟩
    rw [List.map_map]
    have : d.map (Prod.fst ∘ fun kv => if kv.1 = k then (k, v + (d.lookup k).getD 0) else kv) = d.map Prod.fst := by
      refine List.map_congr_left fun x _ => ?_
      simp only [Function.comp_apply]
      split_ifs with he
      · exact he.symm
      · rfl
    rw [this]
    exact hn
  · rw [if_neg h]
    have hk : k ∉ d.map Prod.fst := fun hk => h (mem_keys_any.2 hk)
    have hl : d.lookup k = none := by
      rw [List.lookup_eq_none_iff]
      intro p hp
      simp only [beq_eq_false_iff_ne, bne_iff_ne, ne_eq]
      rintro rfl
      exact hk (List.mem_map_of_mem hp)
    rw [hl]
    constructor
    · rw [expect_append]; simp [expect]
    · rw [List.map_append, List.nodup_append]
      refine ⟨hn, by simp, ?_⟩
      intro a ha b hb
      simp at hb
      subst hb
      rintro rfl
      exact hk ha

theorem addDistr_spec (dist : Distr) : ∀ {comb : Distr}, (comb.map Prod.fst).Nodup →
    (∀ f, expect (addDistr comb dist) f = expect comb f + expect dist f) ∧ ((addDistr comb dist).map Prod.fst).Nodup := by
  induction dist with
  | nil => intro comb h; exact ⟨fun f => by simp [addDistr, expect], h⟩
  | cons kv dist ih =>
    intro comb h
    have h2 := (dictPut_expect h kv.1 kv.2 (fun _ => 0)).2
    obtain ⟨i1, i2⟩ := ih h2
    refine ⟨fun f => ?_, i2⟩
    rw [expect_cons, ← add_assoc, ← (dictPut_expect h kv.1 kv.2 f).1]
    exact i1 f

theorem modify_length (f : Distr → Distr) (r : Distr) (rest : List Distr) : ∀ pre : List Distr,
    (pre ++ r :: rest).modify pre.length f = pre ++ f r :: rest := by
  intro pre
  induction pre with
  | nil => rfl
  | cons a pre ih => rw [List.cons_append, List.length_cons, List.modify_succ_cons, ih]; rfl

/-- One run handled by the pooling loop. -/
theorem pool_chunk (length off : ℕ) (hoff : off % length = 0) : ∀ (run rest pre : List Distr), run.length = rest.length →
    pre.length + rest.length = length →
    (run.zipIdx (off + pre.length)).foldl (fun comb dn => comb.modify (dn.2 % length) fun c => addDistr c dn.1) (pre ++ rest)
      = pre ++ List.zipWith addDistr rest run := by
  intro run
  induction run with
  | nil =>
    intro rest pre h1 _
    have : rest = [] := by simpa using h1.symm
    subst this
    rfl
  | cons d run ih =>
    intro rest pre h1 h2
    cases rest with
    | nil => simp at h1
    | cons r rest =>
      rw [List.zipIdx_cons, List.foldl_cons]
      have hidx : (off + pre.length) % length = pre.length := by
        rw [Nat.add_mod, hoff, zero_add, Nat.mod_mod]
        exact Nat.mod_eq_of_lt (by simp at h2; omega)
      have hmod : (pre ++ r :: rest).modify ((off + pre.length) % length) (fun c => addDistr c d) =
          (pre ++ [addDistr r d]) ++ rest := by
        rw [hidx, modify_length]; simp
      simp only
      rw [hmod]
      have := ih rest (pre ++ [addDistr r d]) (by simpa using h1) (by simp at h2 ⊢; omega)
      rw [List.length_append, List.length_singleton, ← add_assoc] at this
      rw [this]
      simp

theorem pool_chunks (length : ℕ) : ∀ (runs : List (List Distr)) (comb : List Distr) (r : ℕ), comb.length = length →
    (∀ run ∈ runs, run.length = length) →
    (runs.flatten.zipIdx (r * length)).foldl (fun comb dn => comb.modify (dn.2 % length) fun c => addDistr c dn.1) comb
      = runs.foldl (fun comb run => List.zipWith addDistr comb run) comb := by
  intro runs
  induction runs with
  | nil => intro comb r _ _; rfl
  | cons run runs ih =>
    intro comb r hc hr
    have hrun := hr run (by simp)
    rw [List.flatten_cons, List.zipIdx_append, List.foldl_append, List.foldl_cons]
    have := pool_chunk length (r * length) (by simp) run comb [] (by rw [hrun, hc]) (by simpa using hc)
    simp only [List.length_nil, add_zero, List.nil_append] at this
    rw [this, hrun, show r * length + length = (r + 1) * length by ring]
    exact ih _ (r + 1) (by simp [hc, hrun]) fun x hx => hr x (by simp [hx])

theorem pool_fold (length : ℕ) : ∀ (runs : List (List Distr)) (comb : List Distr), comb.length = length →
    (∀ run ∈ runs, run.length = length) → (∀ d ∈ comb, (d.map Prod.fst).Nodup) →
    (runs.foldl (fun comb run => List.zipWith addDistr comb run) comb).length = length ∧
    ∀ j : ℕ, ∀ d, (runs.foldl (fun comb run => List.zipWith addDistr comb run) comb)[j]? = some d →
      (d.map Prod.fst).Nodup ∧ ∀ f, expect d f = expect ((comb[j]?).getD []) f +
        (runs.map fun run => expect ((run[j]?).getD []) f).sum := by
  intro runs
  induction runs with
  | nil =>
    intro comb hc _ hn
    refine ⟨hc, fun j d hd => ⟨hn d (List.mem_of_getElem? hd), fun f => ?_⟩⟩
    change comb[j]? = some d at hd
    rw [hd]; simp
  | cons run runs ih =>
    intro comb hc hr hn
    have hrun := hr run (by simp)
    rw [List.foldl_cons]
    have hzn : ∀ d ∈ List.zipWith addDistr comb run, (d.map Prod.fst).Nodup := by
      intro d hd
      obtain ⟨i, hi, rfl⟩ := List.mem_iff_getElem.1 hd
      rw [List.getElem_zipWith]
      exact (addDistr_spec _ (hn _ (List.getElem_mem _))).2
    obtain ⟨i1, i2⟩ := ih (List.zipWith addDistr comb run) (by simp [hc, hrun]) (fun x hx => hr x (by simp [hx])) hzn
    refine ⟨i1, fun j d hd => ?_⟩
    obtain ⟨k1, k2⟩ := i2 j d hd
    refine ⟨k1, fun f => ?_⟩
    have hj : j < length := by
      rw [← i1]
      exact (List.getElem?_eq_some_iff.1 hd).1
    have hjc : j < comb.length := by omega
    have hjr : j < run.length := by omega
    rw [k2 f, List.map_cons, List.sum_cons, ← add_assoc]
    congr 1
    have hz : (List.zipWith addDistr comb run)[j]? = some (addDistr comb[j] run[j]) := by
      rw [List.getElem?_eq_getElem (by simp; omega), List.getElem_zipWith]
    rw [hz, List.getElem?_eq_getElem hjc, List.getElem?_eq_getElem hjr]
    exact (addDistr_spec _ (hn _ (List.getElem_mem _))).1 f

/-! ### Variance -/

theorem variance_eq {d : Distr} (h : expect d (fun _ => 1) = 1) (f : ℕ → ℝ) :
    expect d (fun b => f b ^ 2) - expect d f ^ 2 = variance d f := by
  unfold variance
  have e : (fun b => (f b - expect d f) ^ 2) = fun b => f b ^ 2 + ((-2 * expect d f) * f b + expect d f ^ 2 * 1) := by
    funext b; ring
  rw [e, expect_add, expect_add, expect_smul, expect_smul, h]
  ring

theorem variance_nonneg {d : Distr} (h : ∀ kv ∈ d, 0 ≤ kv.2) (f : ℕ → ℝ) : 0 ≤ variance d f :=
  expect_nonneg h fun _ => sq_nonneg _

theorem pauliSign_sq (n : ℕ) (p : List Char) (b : ℕ) : pauliSign n p b ^ 2 = 1 := by
  unfold pauliSign
  rw [← Finset.prod_pow]
  refine Finset.prod_eq_one fun i _ => ?_
  split_ifs <;> norm_num

theorem sign_real {n : ℕ} {p : List Char} (hp : PauliLabel n p) (hn : 0 < n) (b : ℕ) :
    ∃ s : ℤ, getBitstringSign p b = .ok s ∧ (s : ℝ) = pauliSign n p b ∧ (s = 1 ∨ s = -1) := by
  refine ⟨_, sign_spec hp hn b, ?_, ?_⟩
  · unfold pauliSign
    push_cast
    refine Finset.prod_congr rfl fun i _ => ?_
    split_ifs <;> simp
  · have : ∀ s : Finset (Fin n), (∏ i ∈ s, if letter p i ≠ 'I' ∧ b.testBit i = true then (-1 : ℤ) else 1) = 1 ∨
        (∏ i ∈ s, if letter p i ≠ 'I' ∧ b.testBit i = true then (-1 : ℤ) else 1) = -1 := by
      classical
      intro s
      induction s using Finset.induction_on with
      | empty => simp
      | insert a s ha ih =>
        rw [Finset.prod_insert ha]
        rcases ih with h | h <;> rw [h] <;> split_ifs <;> simp
    exact this Finset.univ

theorem probOne_eq {n : ℕ} {p : List Char} (hp : PauliLabel n p) (hn : 0 < n) (d : Distr) :
    probOne p d = .ok (expect d fun b => (1 + pauliSign n p b) / 2) := by
  suffices ∀ r : ℝ, d.foldlM (fun p1 kv => do
      let s ← getBitstringSign p kv.1
      return if s = 1 then p1 + kv.2 else p1) r = Except.ok (r + expect d fun b => (1 + pauliSign n p b) / 2) by
    have := this 0
    rw [zero_add] at this
    exact this
  induction d with
  | nil => intro r; simp [expect, pure, Except.pure]
  | cons kv d ih =>
    intro r
    obtain ⟨s, h1, h2, h3⟩ := sign_real hp hn kv.1
    rw [List.foldlM_cons, h1]
    refine (ih _).trans ?_
    rw [expect_cons, ← h2]
    rcases h3 with rfl | rfl
    · rw [if_pos rfl]; congr 1; push_cast; ring
    · rw [if_neg (by decide)]; congr 1; push_cast; ring

theorem four_p1 {n : ℕ} {p : List Char} {d : Distr} (h : expect d (fun _ => 1) = 1) :
    4 * ((expect d fun b => (1 + pauliSign n p b) / 2) - (expect d fun b => (1 + pauliSign n p b) / 2) ^ 2) =
      variance d (pauliSign n p) := by
  rw [← variance_eq h]
  have e : (fun b => (1 + pauliSign n p b) / 2) = fun b => (1 / 2) * 1 + (1 / 2) * pauliSign n p b := by funext b; ring
  have e2 : (fun b => pauliSign n p b ^ 2) = fun _ => (1 : ℝ) := by funext b; exact pauliSign_sq n p b
  rw [e, expect_add, expect_smul, expect_smul, e2, h]
  ring

end SQ
