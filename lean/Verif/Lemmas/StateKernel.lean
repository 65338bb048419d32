import Verif.Lemmas.Bits
import Verif.Lemmas.Fold

/-! # The kernels act as operator strings -/

namespace SQ

variable {R : Type*} [CommRing R]

theorem flips_cons (m : ℕ) (par : List ℕ) (o : ℕ) (l : List ℕ) (det : ℕ) :
    flips m par (o :: l) det =
      ((flips m par l (det ^^^ (1 <<< (m - o)))).1,
        bitcount ((det ^^^ (1 <<< (m - o))) &&& par.getD o 0)
          + (flips m par l (det ^^^ (1 <<< (m - o)))).2) := by
  have key : ∀ (l : List ℕ) (d k : ℕ), l.foldl (fun (st : ℕ × ℕ) o =>
      let d := st.1 ^^^ (1 <<< (m - o))
      (d, st.2 + bitcount (d &&& par.getD o 0))) (d, k)
      = ((flips m par l d).1, k + (flips m par l d).2) := by
    intro l
    induction l with
    | nil => intro d k; rfl
    | cons a t ih =>
      intro d k
      unfold flips
      simp only [List.foldl_cons]
      rw [ih, ih (d ^^^ 1 <<< (m - a)) (0 + _)]
      simp [add_assoc]
  show l.foldl _ _ = _
  rw [key]
  simp

theorem flips_lt {n : ℕ} {par : List ℕ} (l : List ℕ) : ∀ {det : ℕ}, (∀ o ∈ l, o < 2 * n) →
    det < 2 ^ (2 * n) → (flips (2 * n - 1) par l det).1 < 2 ^ (2 * n) := by
  induction l with
  | nil => intro det _ h; exact h
  | cons o t ih =>
    intro det hl h
    rw [flips_cons]
    exact ih (fun x hx => hl x (by simp [hx])) (xor_lt h (hl o (by simp)))

theorem signOf_eq (ph : ℕ) : (signOf ph : R) = (-1) ^ ph := by
  unfold signOf
  rw [show (ph &&& 1) = ph % 2 from Nat.and_one_is_mod ph]
  rcases Nat.mod_two_eq_zero_or_one ph with h | h
  · rw [h, Even.neg_one_pow (Nat.even_iff.2 h)]; simp
  · rw [h, Odd.neg_one_pow (Nat.odd_iff.2 h)]; push_cast; ring

/-- No step of the string, read in order of application, kills the determinant. -/
def Alive : Str → Finset ℕ → Prop
  | [], _ => True
  | (o, true) :: t, S => o ∉ S ∧ Alive t (insert o S)
  | (o, false) :: t, S => o ∈ S ∧ Alive t (S.erase o)

theorem strOp_snoc (t : Str) (o : Lad) (x : Fock R) :
    strOp (o :: t).reverse x = strOp t.reverse (ladder o x) := by
  rw [List.reverse_cons, strOp_append, Module.End.mul_apply]
  simp [strOp]

theorem flips_strOp {n : ℕ} (L : Str) : ∀ (det : ℕ) (c : R), (∀ o ∈ L, o.1 < 2 * n) →
    Alive L (decode n det) →
    strOp L.reverse (sgl (decode n det) c)
      = sgl (decode n (flips (2 * n - 1) (parityCheck n) (L.map (·.1)) det).1)
        (c * signOf (flips (2 * n - 1) (parityCheck n) (L.map (·.1)) det).2) := by
  induction L with
  | nil => intro det c _ _; simp [strOp, flips, signOf]
  | cons o t ih =>
    intro det c hl ha
    obtain ⟨p, b⟩ := o
    have hp : p < 2 * n := hl (p, b) (by simp)
    have ht := fun x hx => hl x (List.mem_cons_of_mem _ hx)
    rw [strOp_snoc, List.map_cons, flips_cons]
    simp only
    have hb := bitcount_parity (n := n) (det := det ^^^ (1 <<< (2 * n - 1 - p))) (o := p) (by omega)
    cases b
    · obtain ⟨h1, h2⟩ := ha
      have hd := decode_xor_mem h1
      rw [← hd] at h2
      simp only [ladder, Bool.false_eq_true, if_false, an_single, if_pos h1]
      rw [← hd, ih _ _ ht h2]
      congr 1
      rw [signOf_eq, signOf_eq, pow_add, hb, hd, filter_lt_erase_self _ _ _ (lt_irrefl p)]
      unfold phase; ring
    · obtain ⟨h1, h2⟩ := ha
      have hd := decode_xor_notMem hp h1
      rw [← hd] at h2
      simp only [ladder, if_true, cr_single, if_neg h1]
      rw [← hd, ih _ _ ht h2]
      congr 1
      rw [signOf_eq, signOf_eq, pow_add, hb, hd]
      have : (insert p (decode n det)).filter (· < p) = (decode n det).filter (· < p) := by
        rw [Finset.filter_insert, if_neg (lt_irrefl p)]
      rw [this]
      unfold phase; ring

/-- A block of removals followed by a block of additions. -/
theorem alive_blocks (A C : List ℕ) : ∀ (S : Finset ℕ), A.Nodup → C.Nodup → (∀ a ∈ A, a ∈ S) →
    (∀ c ∈ C, c ∉ A → c ∉ S) →
    Alive (A.map (fun i => (i, false)) ++ C.map fun i => (i, true)) S := by
  induction A with
  | nil =>
    induction C with
    | nil => intro S _ _ _ _; trivial
    | cons c C ih =>
      intro S _ hC _ h
      rw [List.nodup_cons] at hC
      refine ⟨h c (by simp) (by simp), ?_⟩
      refine ih (insert c S) (by simp) hC.2 (by simp) ?_
      intro d hd _ hm
      rcases Finset.mem_insert.1 hm with rfl | hm
      · exact hC.1 hd
      · exact h d (by simp [hd]) (by simp) hm
  | cons a A ih =>
    intro S hA hC h1 h2
    rw [List.nodup_cons] at hA
    refine ⟨h1 a (by simp), ?_⟩
    refine ih (S.erase a) hA.2 hC ?_ ?_
    · intro b hb
      refine Finset.mem_erase.2 ⟨?_, h1 b (by simp [hb])⟩
      rintro rfl; exact hA.1 hb
    · intro c hc hcA hm
      obtain ⟨hne, hm⟩ := Finset.mem_erase.1 hm
      exact h2 c hc (by simp [hne, hcA]) hm

theorem strOp_an_reverse (A : List ℕ) : (strOp ((A.map fun i => (i, false)).reverse) : FOp R)
    = (-1 : R) ^ (A.length * (A.length - 1) / 2) • strOp (A.map fun i => (i, false)) := by
  induction A with
  | nil => simp
  | cons a A ih =>
    have hm := an_move (R := R) a A
    have e1 : (strOp [(a, false)] : FOp R) = an a := by simp [strOp, ladder]
    rw [List.map_cons, List.reverse_cons, strOp_append, ih, e1, strOp_cons, smul_mul_assoc]
    have e2 : (ladder (a, false) : FOp R) = an a := by simp [ladder]
    have hc : (strOp (A.map fun i => (i, false)) * an a : FOp R)
        = (-1 : R) ^ A.length • (an a * strOp (A.map fun i => (i, false))) := by
      rw [hm, smul_smul, ← pow_add, ← two_mul, pow_mul]; simp
    rw [e2, hc, smul_smul, ← pow_add]
    congr 2
    simp only [List.length_cons]
    have : (A.length + 1) * (A.length + 1 - 1) = A.length * (A.length - 1) + 2 * A.length := by
      cases A.length with
      | zero => rfl
      | succ k => simp; ring
    rw [this]; omega

theorem strOp_cr_reverse (A : List ℕ) : (strOp ((A.map fun i => (i, true)).reverse) : FOp R)
    = (-1 : R) ^ (A.length * (A.length - 1) / 2) • strOp (A.map fun i => (i, true)) := by
  induction A with
  | nil => simp
  | cons a A ih =>
    have hm := cr_move (R := R) a A
    have e1 : (strOp [(a, true)] : FOp R) = cr a := by simp [strOp, ladder]
    rw [List.map_cons, List.reverse_cons, strOp_append, ih, e1, strOp_cons, smul_mul_assoc]
    have e2 : (ladder (a, true) : FOp R) = cr a := by simp [ladder]
    have hc : (strOp (A.map fun i => (i, true)) * cr a : FOp R)
        = (-1 : R) ^ A.length • (cr a * strOp (A.map fun i => (i, true))) := by
      rw [hm, smul_smul, ← pow_add, ← two_mul, pow_mul]; simp
    rw [e2, hc, smul_smul, ← pow_add]
    congr 2
    simp only [List.length_cons]
    have : (A.length + 1) * (A.length + 1 - 1) = A.length * (A.length - 1) + 2 * A.length := by
      cases A.length with
      | zero => rfl
      | succ k => simp; ring
    rw [this]; omega

theorem createIdx_map (s : Str) : (createIdx s).map (fun i => (i, true)) = s.filter (·.2) :=
  map_fst_cr _ fun o ho => by simpa using (List.mem_filter.1 ho).2

theorem anniIdx_map (s : Str) : (anniIdx s).map (fun i => (i, false)) = s.filter fun o => !o.2 :=
  map_fst_an _ fun o ho => by simpa using (List.mem_filter.1 ho).2

theorem NormalOrdered.blocks {s : Str} (h : NormalOrdered s) :
    s = (createIdx s).map (fun i => (i, true)) ++ (anniIdx s).map fun i => (i, false) := by
  rw [createIdx_map, anniIdx_map]; exact h.split

theorem NormalOrdered.nodup_create {s : Str} (h : NormalOrdered s) : (createIdx s).Nodup :=
  ((h.filter (·.2)).nodup_fst true fun o ho => by simpa using (List.mem_filter.1 ho).2).imp
    fun h => by omega

theorem NormalOrdered.nodup_anni {s : Str} (h : NormalOrdered s) : (anniIdx s).Nodup :=
  ((h.filter fun o => !o.2).nodup_fst false
    fun o ho => by simpa using (List.mem_filter.1 ho).2).imp fun h => by omega

theorem Balanced.idx_length {s : Str} (h : Balanced s) :
    (createIdx s).length = (anniIdx s).length := by
  unfold createIdx anniIdx
  rw [List.length_map, List.length_map, ← List.countP_eq_length_filter, ← List.countP_eq_length_filter]
  exact h

theorem mem_createIdx {s : Str} {i : ℕ} : i ∈ createIdx s ↔ (i, true) ∈ s := by
  unfold createIdx
  simp

theorem mem_anniIdx {s : Str} {i : ℕ} : i ∈ anniIdx s ↔ (i, false) ∈ s := by
  unfold anniIdx
  simp

theorem strOp_contains_cr {v : ℕ} {A : List ℕ} (hv : v ∈ A) {z : Fock R} (hz : cr v z = 0) :
    (strOp (A.map fun i => (i, true)) : FOp R) z = 0 := by
  obtain ⟨l1, l2, rfl⟩ := List.append_of_mem hv
  simp only [List.map_append, List.map_cons, strOp_append, strOp_cons, ladder, if_true]
  rw [cr_move]
  simp only [Module.End.mul_apply, LinearMap.smul_apply, hz, map_zero, smul_zero]

/-- The screening conditions of the serial kernel. -/
def Passes (s : Str) (S : Finset ℕ) : Prop :=
  (∀ a ∈ anniIdx s, a ∈ S) ∧ ∀ c ∈ createIdx s, c ∉ anniIdx s → c ∉ S

instance (s : Str) (S : Finset ℕ) : Decidable (Passes s S) := by unfold Passes; infer_instance

/-- The application order of the serial kernel is, for balanced strings, the right one. -/
theorem serial_order {s : Str} (hn : NormalOrdered s) (hb : Balanced s) :
    (strOp (((anniIdx s).map fun i => (i, false)) ++ (createIdx s).map fun i => (i, true)).reverse
      : FOp R) = strOp s := by
  rw [List.reverse_append, strOp_append, strOp_an_reverse, strOp_cr_reverse, hb.idx_length,
    smul_mul_smul_comm, ← pow_add, ← two_mul, pow_mul]
  conv_rhs => rw [hn.blocks, strOp_append]
  simp

/-- A determinant that passes the screening. -/
theorem strOp_pass {n : ℕ} {s : Str} (hn : NormalOrdered s) (hb : Balanced s)
    (hr : ∀ o ∈ s, o.1 < 2 * n) {det : ℕ} (hp : Passes s (decode n det)) (c : R) :
    strOp s (sgl (decode n det) c)
      = sgl (decode n (flips (2 * n - 1) (parityCheck n) (anniIdx s ++ createIdx s) det).1)
        (c * signOf (flips (2 * n - 1) (parityCheck n) (anniIdx s ++ createIdx s) det).2) := by
  have hL : (((anniIdx s).map fun i => (i, false)) ++ (createIdx s).map fun i => (i, true)).map (·.1)
      = anniIdx s ++ createIdx s := by simp [Function.comp_def]
  rw [← serial_order hn hb, flips_strOp, hL]
  · intro o ho
    rcases List.mem_append.1 ho with h | h
    · rw [anniIdx_map] at h; exact hr o (List.mem_filter.1 h).1
    · rw [createIdx_map] at h; exact hr o (List.mem_filter.1 h).1
  · exact alive_blocks _ _ _ hn.nodup_anni hn.nodup_create hp.1 hp.2

/-- Annihilators that all find their electron. -/
theorem strOp_an_block (A : List ℕ) : ∀ (S : Finset ℕ) (c : R), A.Nodup → (∀ a ∈ A, a ∈ S) →
    ∃ c' : R, strOp (A.map fun i => (i, false)) (sgl S c) = sgl (S \ A.toFinset) c' := by
  induction A with
  | nil => intro S c _ _; exact ⟨c, by simp [strOp]⟩
  | cons a A ih =>
    intro S c hA h
    rw [List.nodup_cons] at hA
    obtain ⟨c', hc⟩ := ih S c hA.2 fun b hb => h b (by simp [hb])
    refine ⟨c' * phase (S \ A.toFinset) a, ?_⟩
    rw [List.map_cons, strOp_cons, Module.End.mul_apply, hc]
    simp only [ladder, Bool.false_eq_true, if_false, an_single]
    rw [if_pos (by simp [h a (by simp), hA.1])]
    congr 1
    ext x; simp; tauto

/-- A determinant that does not pass the screening is killed. -/
theorem strOp_fail {s : Str} (hn : NormalOrdered s) {S : Finset ℕ} (hp : ¬ Passes s S) (c : R) :
    strOp s (sgl S c) = 0 := by
  rw [hn.blocks, strOp_append, Module.End.mul_apply]
  by_cases h1 : ∀ a ∈ anniIdx s, a ∈ S
  · have h2 : ∃ x ∈ createIdx s, x ∉ anniIdx s ∧ x ∈ S := by
      by_contra hc; push Not at hc; exact hp ⟨h1, hc⟩
    obtain ⟨x, hx1, hx2, hx3⟩ := h2
    obtain ⟨c', hc⟩ := strOp_an_block (R := R) _ S c hn.nodup_anni h1
    rw [hc]
    refine strOp_contains_cr hx1 ?_
    rw [cr_single, if_pos (by simp [hx2, hx3])]
  · push Not at h1
    obtain ⟨a, ha, haS⟩ := h1
    rw [strOp_contains_an ha, map_zero]
    rw [an_single, if_neg haS]

/-- The mask tests of the serial kernel are the screening conditions. -/
theorem masks_serial {n : ℕ} {s : Str} (hr : ∀ o ∈ s, o.1 < 2 * n) (det : ℕ) :
    (det &&& maskOf (2 * n - 1) (anniIdx s) = maskOf (2 * n - 1) (anniIdx s) ∧
      det &&& maskOf (2 * n - 1) ((createIdx s).filter fun i => !(anniIdx s).contains i) = 0)
      ↔ Passes s (decode n det) := by
  rw [mask_all, mask_none]
  · unfold Passes
    refine and_congr_right fun _ => ?_
    constructor
    · intro h c hc hca
      exact h c (List.mem_filter.2 ⟨hc, by simp [hca]⟩)
    · intro h c hc
      obtain ⟨h1, h2⟩ := List.mem_filter.1 hc
      exact h c h1 (by simpa using h2)
  · intro o ho
    exact hr _ (mem_createIdx.1 (List.mem_filter.1 ho).1)
  · intro o ho; exact hr _ (mem_anniIdx.1 ho)

/-! ### The threaded kernel: the adjoint string on the target -/

/-- The screening conditions of the threaded kernel. -/
def PassesT (s : Str) (S : Finset ℕ) : Prop :=
  (∀ c ∈ createIdx s, c ∈ S) ∧ ∀ a ∈ anniIdx s, a ∉ createIdx s → a ∉ S

instance (s : Str) (S : Finset ℕ) : Decidable (PassesT s S) := by unfold PassesT; infer_instance

theorem masks_threaded {n : ℕ} {s : Str} (hr : ∀ o ∈ s, o.1 < 2 * n) (det : ℕ) :
    (det &&& maskOf (2 * n - 1) (createIdx s) = maskOf (2 * n - 1) (createIdx s) ∧
      det &&& maskOf (2 * n - 1) ((anniIdx s).filter fun i => !(createIdx s).contains i) = 0)
      ↔ PassesT s (decode n det) := by
  rw [mask_all, mask_none]
  · unfold PassesT
    refine and_congr_right fun _ => ?_
    constructor
    · intro h c hc hca
      exact h c (List.mem_filter.2 ⟨hc, by simp [hca]⟩)
    · intro h c hc
      obtain ⟨h1, h2⟩ := List.mem_filter.1 hc
      exact h c h1 (by simpa using h2)
  · intro o ho
    exact hr _ (mem_anniIdx.1 (List.mem_filter.1 ho).1)
  · intro o ho; exact hr _ (mem_createIdx.1 ho)

/-- The adjoint string. -/
def adjStr (s : Str) : Str := (s.map fun o => (o.1, !o.2)).reverse

theorem threaded_order {s : Str} (hn : NormalOrdered s) :
    (((createIdx s).map fun i => (i, false)) ++ (anniIdx s).map fun i => (i, true)).reverse
      = adjStr s := by
  unfold adjStr
  conv_rhs => rw [hn.blocks]
  simp [Function.comp_def]

theorem adj_pass {n : ℕ} {s : Str} (hn : NormalOrdered s)
    (hr : ∀ o ∈ s, o.1 < 2 * n) {det : ℕ} (hp : PassesT s (decode n det)) (c : R) :
    strOp (adjStr s) (sgl (decode n det) c)
      = sgl (decode n (flips (2 * n - 1) (parityCheck n) (createIdx s ++ anniIdx s) det).1)
        (c * signOf (flips (2 * n - 1) (parityCheck n) (createIdx s ++ anniIdx s) det).2) := by
  have hL : (((createIdx s).map fun i => (i, false)) ++ (anniIdx s).map fun i => (i, true)).map (·.1)
      = createIdx s ++ anniIdx s := by simp [Function.comp_def]
  rw [← threaded_order hn, flips_strOp, hL]
  · intro o ho
    rcases List.mem_append.1 ho with h | h
    · obtain ⟨i, hi, rfl⟩ := List.mem_map.1 h; exact hr (i, true) (mem_createIdx.1 hi)
    · obtain ⟨i, hi, rfl⟩ := List.mem_map.1 h; exact hr (i, false) (mem_anniIdx.1 hi)
  · exact alive_blocks _ _ _ hn.nodup_create hn.nodup_anni hp.1 hp.2

theorem adj_fail {s : Str} (hn : NormalOrdered s) {S : Finset ℕ} (hp : ¬ PassesT s S) (c : R) :
    strOp (adjStr s) (sgl S c) = 0 := by
  have e : (strOp (adjStr s) : FOp R) = strOp ((anniIdx s).map fun i => (i, true)).reverse *
      strOp ((createIdx s).map fun i => (i, false)).reverse := by
    rw [← threaded_order hn, List.reverse_append, strOp_append]
  rw [e, strOp_cr_reverse, strOp_an_reverse, smul_mul_smul_comm, LinearMap.smul_apply,
    Module.End.mul_apply]
  suffices h : strOp ((anniIdx s).map fun i => (i, true))
      (strOp ((createIdx s).map fun i => (i, false)) (sgl S c)) = 0 by rw [h, smul_zero]
  by_cases h1 : ∀ a ∈ createIdx s, a ∈ S
  · have h2 : ∃ x ∈ anniIdx s, x ∉ createIdx s ∧ x ∈ S := by
      by_contra hc; push Not at hc; exact hp ⟨h1, hc⟩
    obtain ⟨x, hx1, hx2, hx3⟩ := h2
    obtain ⟨c', hc⟩ := strOp_an_block (R := R) _ S c hn.nodup_create h1
    rw [hc]
    refine strOp_contains_cr hx1 ?_
    rw [cr_single, if_pos (by simp [hx2, hx3])]
  · push Not at h1
    obtain ⟨a, ha, haS⟩ := h1
    rw [strOp_contains_an ha, map_zero]
    rw [an_single, if_neg haS]

theorem adj_isAdjoint (s : Str) : IsAdjoint (strOp s : FOp R) (strOp (adjStr s)) := by
  unfold adjStr
  exact adjoint_strOp s

end SQ
