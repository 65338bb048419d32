import Verif.Model.CISpaces
import Verif.Spec.CIState
import Verif.Lemmas.StateSem
import Mathlib.Data.Nat.Choose.Basic
import Mathlib.Data.Finset.Card

/-! # Determinant spaces -/

namespace SQ

/-- A list of occupation numbers. -/
def Occ (l : List ℕ) : Prop := ∀ x ∈ l, x ≤ 1

theorem Occ.append {l m : List ℕ} : Occ (l ++ m) ↔ Occ l ∧ Occ m := by
  unfold Occ; simp only [List.mem_append]
  exact ⟨fun h => ⟨fun x hx => h x (Or.inl hx), fun x hx => h x (Or.inr hx)⟩,
    fun h x hx => hx.elim (h.1 x) (h.2 x)⟩

theorem Occ.sum {l : List ℕ} (h : Occ l) : l.sum = l.count 1 := by
  induction l with
  | nil => rfl
  | cons a t ih =>
    have ha := h a (by simp)
    rw [List.sum_cons, ih fun x hx => h x (by simp [hx]), List.count_cons]
    rcases Nat.le_one_iff_eq_zero_or_eq_one.1 ha with rfl | rfl
    · simp
    · simp; omega

theorem Occ.count_add {l : List ℕ} (h : Occ l) : l.count 0 + l.count 1 = l.length := by
  induction l with
  | nil => rfl
  | cons a t ih =>
    have ha := h a (by simp)
    have := ih fun x hx => h x (by simp [hx])
    rw [List.count_cons, List.count_cons, List.length_cons]
    rcases Nat.le_one_iff_eq_zero_or_eq_one.1 ha with rfl | rfl
    · simp; omega
    · simp; omega

/-! ### Spin strings -/

theorem combinations_map (f : ℕ → ℕ) (l : List ℕ) : ∀ k,
    combinations (l.map f) k = (combinations l k).map (List.map f) := by
  induction l with
  | nil => intro k; cases k <;> rfl
  | cons x t ih =>
    intro k
    cases k with
    | zero => rfl
    | succ k =>
      rw [List.map_cons, combinations, combinations, ih, ih, List.map_append, List.map_map, List.map_map]
      rfl

theorem foldl_set_succ (l : List ℕ) : ∀ (a : ℕ) (s : List ℕ),
    (l.map Nat.succ).foldl (fun s i => s.set i 1) (a :: s)
      = a :: l.foldl (fun s i => s.set i 1) s := by
  induction l with
  | nil => intro a s; rfl
  | cons x t ih => intro a s; rw [List.map_cons, List.foldl_cons, List.set_cons_succ, ih]; rfl

theorem gen_zero (n : ℕ) : genSpinStrings n 0 = [List.replicate n 0] := by
  unfold genSpinStrings
  cases n <;> simp [combinations, List.range_succ_eq_map]

theorem gen_neg (n : ℕ) {k : ℤ} (h : k < 0) : genSpinStrings n k = [] := by
  unfold genSpinStrings; rw [if_pos h]

theorem gen_nil (k : ℕ) : genSpinStrings 0 ((k : ℤ) + 1) = [] := by
  unfold genSpinStrings
  rw [if_neg (by omega), show ((k : ℤ) + 1).toNat = k + 1 by omega]
  rfl

theorem gen_succ (n k : ℕ) : genSpinStrings (n + 1) ((k : ℤ) + 1)
    = (genSpinStrings n k).map (1 :: ·) ++ (genSpinStrings n ((k : ℤ) + 1)).map (0 :: ·) := by
  unfold genSpinStrings
  rw [if_neg (by omega), if_neg (by omega), if_neg (by omega),
    show ((k : ℤ) + 1).toNat = k + 1 by omega, show (k : ℤ).toNat = k by omega,
    List.range_succ_eq_map, combinations, List.map_append, List.map_map, List.map_map, List.map_map,
    combinations_map, combinations_map, List.map_map, List.map_map]
  congr 1
  · apply List.map_congr_left
    intro l _
    simp only [Function.comp, List.foldl_cons, List.replicate_succ, List.set_cons_zero]
    exact foldl_set_succ l 1 _
  · apply List.map_congr_left
    intro l _
    simp only [Function.comp, List.replicate_succ]
    exact foldl_set_succ l 0 _

theorem gen_length (n k : ℕ) : (genSpinStrings n k).length = n.choose k := by
  induction n generalizing k with
  | zero =>
    cases k with
    | zero => rw [Nat.cast_zero, gen_zero]; rfl
    | succ k => push_cast; rw [gen_nil]; rfl
  | succ n ih =>
    cases k with
    | zero => rw [Nat.cast_zero, gen_zero]; simp
    | succ k =>
      push_cast
      rw [gen_succ, List.length_append, List.length_map, List.length_map, ih k]
      have := ih (k + 1)
      push_cast at this
      rw [this, Nat.choose_succ_succ]

theorem mem_gen_nat (n k : ℕ) (s : List ℕ) :
    s ∈ genSpinStrings n k ↔ s.length = n ∧ Occ s ∧ s.count 1 = k := by
  induction n generalizing k s with
  | zero =>
    cases k with
    | zero =>
      rw [Nat.cast_zero, gen_zero]
      simp only [List.replicate_zero, List.mem_singleton]
      constructor
      · rintro rfl; exact ⟨rfl, by intro x hx; simp at hx, rfl⟩
      · intro h; exact List.length_eq_zero_iff.1 h.1
    | succ k =>
      push_cast; rw [gen_nil]
      simp only [List.not_mem_nil, false_iff]
      rintro ⟨h1, _, h3⟩
      rw [List.length_eq_zero_iff.1 h1] at h3
      simp at h3
  | succ n ih =>
    cases k with
    | zero =>
      rw [Nat.cast_zero, gen_zero, List.mem_singleton]
      constructor
      · rintro rfl
        refine ⟨by simp, ?_, ?_⟩
        · intro x hx; rw [List.eq_of_mem_replicate hx]; omega
        · rw [List.count_replicate]; rfl
      · rintro ⟨h1, h2, h3⟩
        rw [List.eq_replicate_iff]
        refine ⟨h1, fun x hx => ?_⟩
        have := h2 x hx
        by_contra hne
        have : x = 1 := by omega
        subst this
        have := List.count_pos_iff.2 hx
        omega
    | succ k =>
      push_cast
      rw [gen_succ, List.mem_append, List.mem_map, List.mem_map]
      have ih2 := ih (k + 1)
      push_cast at ih2
      constructor
      · rintro (⟨t, ht, rfl⟩ | ⟨t, ht, rfl⟩)
        · obtain ⟨h1, h2, h3⟩ := (ih k t).1 ht
          refine ⟨by simp [h1], ?_, by simp [h3]⟩
          intro x hx
          rcases List.mem_cons.1 hx with rfl | hx
          · exact le_refl 1
          · exact h2 x hx
        · obtain ⟨h1, h2, h3⟩ := (ih2 t).1 ht
          refine ⟨by simp [h1], ?_, by simp [h3]⟩
          intro x hx
          rcases List.mem_cons.1 hx with rfl | hx
          · exact Nat.zero_le _
          · exact h2 x hx
      · rintro ⟨h1, h2, h3⟩
        cases s with
        | nil => simp at h1
        | cons a t =>
          have ha := h2 a (by simp)
          have ht : Occ t := fun x hx => h2 x (by simp [hx])
          have hl : t.length = n := by simpa using h1
          rcases Nat.le_one_iff_eq_zero_or_eq_one.1 ha with rfl | rfl
          · right
            refine ⟨t, (ih2 t).2 ⟨hl, ht, ?_⟩, rfl⟩
            simpa using h3
          · left
            refine ⟨t, (ih k t).2 ⟨hl, ht, ?_⟩, rfl⟩
            simpa using h3

theorem mem_gen (n : ℕ) (k : ℤ) (s : List ℕ) :
    s ∈ genSpinStrings n k ↔ s.length = n ∧ Occ s ∧ (s.count 1 : ℤ) = k := by
  by_cases hk : k < 0
  · rw [gen_neg n hk]
    simp only [List.not_mem_nil, false_iff]
    rintro ⟨_, _, h⟩; omega
  · obtain ⟨m, rfl⟩ := Int.eq_ofNat_of_zero_le (not_lt.1 hk)
    rw [mem_gen_nat]
    simp

theorem gen_nodup (n : ℕ) (k : ℤ) : (genSpinStrings n k).Nodup := by
  by_cases hk : k < 0
  · rw [gen_neg n hk]; exact List.nodup_nil
  · obtain ⟨m, rfl⟩ := Int.eq_ofNat_of_zero_le (not_lt.1 hk)
    show (genSpinStrings n (m : ℤ)).Nodup
    clear hk
    induction n generalizing m with
    | zero =>
      cases m with
      | zero => rw [Nat.cast_zero, gen_zero]; exact List.nodup_singleton _
      | succ m => push_cast; rw [gen_nil]; exact List.nodup_nil
    | succ n ih =>
      cases m with
      | zero => rw [Nat.cast_zero, gen_zero]; exact List.nodup_singleton _
      | succ m =>
        push_cast
        rw [gen_succ, List.nodup_append]
        have ih2 := ih (m + 1)
        push_cast at ih2
        refine ⟨(ih m).map (List.cons_injective), ih2.map (List.cons_injective), ?_⟩
        intro a ha b hb hab
        obtain ⟨t, _, rfl⟩ := List.mem_map.1 ha
        obtain ⟨u, _, rfl⟩ := List.mem_map.1 hb
        simp at hab

/-! ### Binary encoding -/

/-- Value of a list of binary digits. -/
def binVal (l : List ℕ) : ℕ := l.foldl (fun acc b => 2 * acc + b) 0

theorem binVal_snoc (l : List ℕ) (b : ℕ) : binVal (l ++ [b]) = 2 * binVal l + b := by
  unfold binVal; rw [List.foldl_append]; rfl

theorem binVal_lt (l : List ℕ) (h : Occ l) : binVal l < 2 ^ l.length := by
  induction l using List.reverseRecOn with
  | nil => simp [binVal]
  | append_singleton l b ih =>
    obtain ⟨h1, h2⟩ := Occ.append.1 h
    have hb := h2 b (by simp)
    rw [binVal_snoc, List.length_append, List.length_singleton, pow_succ]
    have := ih h1
    omega

theorem binVal_testBit (l : List ℕ) (h : Occ l) : ∀ p < l.length,
    (binVal l).testBit (l.length - 1 - p) = decide (l.getD p 0 = 1) := by
  induction l using List.reverseRecOn with
  | nil => intro p hp; simp at hp
  | append_singleton l b ih =>
    intro p hp
    obtain ⟨h1, h2⟩ := Occ.append.1 h
    have hb := h2 b (by simp)
    rw [List.length_append, List.length_singleton] at hp ⊢
    rw [binVal_snoc]
    by_cases hpl : p < l.length
    · rw [show l.length + 1 - 1 - p = (l.length - 1 - p) + 1 by omega, Nat.testBit_succ,
        show (2 * binVal l + b) / 2 = binVal l by omega, ih h1 p hpl]
      congr 2
      rw [List.getD_append _ _ _ _ hpl]
    · have hp' : p = l.length := by omega
      subst hp'
      rw [show l.length + 1 - 1 - l.length = 0 by omega, Nat.testBit_zero]
      rw [List.getD_append_right _ _ _ _ (le_refl _)]
      congr 1
      simp
      omega

theorem detStr_eq (a b : List ℕ) : detStr a b = (a.zip b).flatMap fun p => [p.1, p.2] := by
  have : ∀ (l : List (ℕ × ℕ)) (s : List ℕ), l.foldl (fun s p => s ++ [p.1, p.2]) s
      = s ++ l.flatMap fun p => [p.1, p.2] := by
    intro l
    induction l with
    | nil => intro s; simp
    | cons p t ih => intro s; rw [List.foldl_cons, ih, List.flatMap_cons, List.append_assoc]
  unfold detStr; rw [this]; rfl

theorem detStr_cons (x y : ℕ) (a b : List ℕ) : detStr (x :: a) (y :: b) = x :: y :: detStr a b := by
  rw [detStr_eq, detStr_eq]; rfl

theorem detStr_length (a : List ℕ) : ∀ b : List ℕ, a.length = b.length → (detStr a b).length = 2 * a.length := by
  induction a with
  | nil => intro b _; simp [detStr]
  | cons x a ih =>
    intro b h
    cases b with
    | nil => simp at h
    | cons y b =>
      rw [detStr_cons]
      have := ih b (by simpa using h)
      simp only [List.length_cons, this]; omega

theorem detStr_occ (a : List ℕ) : ∀ b : List ℕ, Occ a → Occ b → Occ (detStr a b) := by
  induction a with
  | nil => intro b _ _ x hx; simp [detStr] at hx
  | cons x a ih =>
    intro b ha hb
    cases b with
    | nil => intro z hz; simp [detStr] at hz
    | cons y b =>
      rw [detStr_cons]
      intro z hz
      rcases List.mem_cons.1 hz with rfl | hz
      · exact ha z (by simp)
      · rcases List.mem_cons.1 hz with rfl | hz
        · exact hb z (by simp)
        · exact ih b (fun x hx => ha x (by simp [hx])) (fun x hx => hb x (by simp [hx])) z hz

theorem detStr_getD (a : List ℕ) : ∀ b : List ℕ, a.length = b.length → ∀ p,
    (detStr a b).getD (2 * p) 0 = a.getD p 0 ∧ (detStr a b).getD (2 * p + 1) 0 = b.getD p 0 := by
  induction a with
  | nil =>
    intro b h p
    have : b = [] := List.length_eq_zero_iff.1 h.symm
    subst this; simp [detStr]
  | cons x a ih =>
    intro b h p
    cases b with
    | nil => simp at h
    | cons y b =>
      rw [detStr_cons]
      cases p with
      | zero => simp
      | succ p =>
        have := ih b (by simpa using h) p
        rw [show 2 * (p + 1) = 2 * p + 1 + 1 by ring]
        simp only [List.getD_cons_succ]
        exact this

/-- The determinant of two occupation lists. -/
def detOf (a b : List ℕ) : ℕ := binVal (detStr a b)

theorem detOf_lt {n : ℕ} {a b : List ℕ} (ha : a.length = n) (hb : b.length = n) (oa : Occ a) (ob : Occ b) :
    detOf a b < 2 ^ (2 * n) := by
  have := binVal_lt _ (detStr_occ a b oa ob)
  rwa [detStr_length a b (by rw [ha, hb]), ha] at this

theorem mem_decode_detOf {n : ℕ} {a b : List ℕ} (ha : a.length = n) (hb : b.length = n) (oa : Occ a)
    (ob : Occ b) {p : ℕ} :
    (2 * p ∈ decode n (detOf a b) ↔ a.getD p 0 = 1) ∧ (2 * p + 1 ∈ decode n (detOf a b) ↔ b.getD p 0 = 1) := by
  have hl : (detStr a b).length = 2 * n := by rw [detStr_length a b (by rw [ha, hb]), ha]
  have h := binVal_testBit _ (detStr_occ a b oa ob)
  rw [hl] at h
  have hg := detStr_getD a b (by rw [ha, hb]) p
  constructor
  · rw [mem_decode]
    by_cases hp : p < n
    · have := h (2 * p) (by omega)
      unfold detOf
      rw [this, hg.1]
      simp; omega
    · rw [List.getD_eq_default _ _ (by omega)]
      constructor
      · intro h; omega
      · intro h; omega
  · rw [mem_decode]
    by_cases hp : p < n
    · have := h (2 * p + 1) (by omega)
      unfold detOf
      rw [this, hg.2]
      simp; omega
    · rw [List.getD_eq_default _ _ (by omega)]
      constructor
      · intro h; omega
      · intro h; omega

theorem occ_ext {n : ℕ} {a a' : List ℕ} (ha : a.length = n) (ha' : a'.length = n) (oa : Occ a)
    (oa' : Occ a') (h : ∀ p < n, a.getD p 0 = 1 ↔ a'.getD p 0 = 1) : a = a' := by
  apply List.ext_getElem (by rw [ha, ha'])
  intro p hp hp'
  have := h p (by omega)
  rw [List.getD_eq_getElem _ _ hp, List.getD_eq_getElem _ _ hp'] at this
  have h1 := oa _ (List.getElem_mem hp)
  have h2 := oa' _ (List.getElem_mem hp')
  omega

theorem detOf_inj {n : ℕ} {a b a' b' : List ℕ} (ha : a.length = n) (hb : b.length = n) (oa : Occ a)
    (ob : Occ b) (ha' : a'.length = n) (hb' : b'.length = n) (oa' : Occ a') (ob' : Occ b')
    (h : detOf a b = detOf a' b') : a = a' ∧ b = b' := by
  constructor
  · refine occ_ext ha ha' oa oa' fun p _ => ?_
    rw [← (mem_decode_detOf ha hb oa ob (p := p)).1, h, (mem_decode_detOf ha' hb' oa' ob' (p := p)).1]
  · refine occ_ext hb hb' ob ob' fun p _ => ?_
    rw [← (mem_decode_detOf ha hb oa ob (p := p)).2, h, (mem_decode_detOf ha' hb' oa' ob' (p := p)).2]

/-! ### Filling the two maps -/

theorem natSet_fresh (d : List (ℕ × ℕ)) (k v : ℕ) (h : ∀ x ∈ d, x.1 ≠ k) : natSet d k v = d ++ [(k, v)] := by
  induction d with
  | nil => rfl
  | cons x t ih =>
    unfold natSet
    rw [if_neg (h x (by simp)), ih fun y hy => h y (by simp [hy])]
    rfl

/-- The state after adding the determinants `l`. -/
def Indexing.of (l : List ℕ) : Indexing := { idx := l.length, idx2det := l, det2idx := l.zipIdx }

theorem Indexing.of_push (l : List ℕ) (d : ℕ) (h : d ∉ l) :
    ({ idx := (Indexing.of l).idx + 1, idx2det := (Indexing.of l).idx2det ++ [d]
       det2idx := natSet (Indexing.of l).det2idx d (Indexing.of l).idx } : Indexing)
      = Indexing.of (l ++ [d]) := by
  unfold Indexing.of
  rw [natSet_fresh]
  · simp [List.zipIdx_append]
  · rintro ⟨x, i⟩ hx he
    simp only at he
    subst he
    exact h (List.fst_mem_of_mem_zipIdx hx)

/-- Append if new. -/
def pushNew (l : List ℕ) (d : ℕ) : List ℕ := if d ∈ l then l else l ++ [d]

theorem mem_pushAll (ds : List ℕ) : ∀ (l : List ℕ) (d : ℕ), d ∈ ds.foldl pushNew l ↔ d ∈ l ∨ d ∈ ds := by
  induction ds with
  | nil => intro l d; simp
  | cons x t ih =>
    intro l d
    rw [List.foldl_cons, ih]
    unfold pushNew
    split
    · next h =>
      simp only [List.mem_cons]
      constructor
      · rintro (h1 | h1)
        · exact Or.inl h1
        · exact Or.inr (Or.inr h1)
      · rintro (h1 | rfl | h1)
        · exact Or.inl h1
        · exact Or.inl h
        · exact Or.inr h1
    · simp only [List.mem_append, List.mem_singleton, List.mem_cons]
      tauto

theorem nodup_pushAll (ds : List ℕ) : ∀ (l : List ℕ), l.Nodup → (ds.foldl pushNew l).Nodup := by
  induction ds with
  | nil => intro l h; exact h
  | cons x t ih =>
    intro l h
    rw [List.foldl_cons]
    apply ih
    unfold pushNew
    split
    · exact h
    · next hx =>
      rw [List.nodup_append]
      refine ⟨h, List.nodup_singleton _, ?_⟩
      intro a ha b hb hab
      rw [List.mem_singleton] at hb
      subst hb; subst hab; exact hx ha

theorem pushAll_nodup (ds : List ℕ) : ∀ (l : List ℕ), (l ++ ds).Nodup → ds.foldl pushNew l = l ++ ds := by
  induction ds with
  | nil => intro l _; simp
  | cons x t ih =>
    intro l h
    have hx : x ∉ l := fun hx => by
      rw [List.nodup_append] at h
      exact h.2.2 x hx x (by simp) rfl
    rw [List.foldl_cons, show pushNew l x = l ++ [x] from by unfold pushNew; rw [if_neg hx], ih]
    · simp
    · simpa using h

theorem prefix_pushAll (ds : List ℕ) : ∀ (l : List ℕ), ∃ r, ds.foldl pushNew l = l ++ r := by
  induction ds with
  | nil => intro l; exact ⟨[], by simp⟩
  | cons x t ih =>
    intro l
    rw [List.foldl_cons]
    obtain ⟨r, hr⟩ := ih (pushNew l x)
    rw [hr]
    unfold pushNew
    split
    · exact ⟨r, rfl⟩
    · exact ⟨[x] ++ r, by simp⟩

theorem lookup_zipIdx (l : List ℕ) (h : l.Nodup) : ∀ (k d i : ℕ),
    (l.zipIdx k).lookup d = some i ↔ k ≤ i ∧ l[i - k]? = some d := by
  induction l with
  | nil => intro k d i; simp
  | cons x t ih =>
    intro k d i
    have ht : t.Nodup := (List.nodup_cons.1 h).2
    have hx : x ∉ t := (List.nodup_cons.1 h).1
    rw [List.zipIdx_cons, List.lookup_cons]
    by_cases hd : d = x
    · subst hd
      simp only [beq_self_eq_true]
      constructor
      · intro h; cases h; simp
      · rintro ⟨h1, h2⟩
        by_cases hi : i = k
        · rw [hi]
        · exfalso
          rw [show i - k = (i - k - 1) + 1 by omega, List.getElem?_cons_succ] at h2
          exact hx (List.mem_of_getElem? h2)
    · rw [beq_eq_false_iff_ne.2 hd]
      simp only
      rw [ih ht]
      by_cases hi : k + 1 ≤ i
      · rw [show i - k = (i - (k + 1)) + 1 by omega, List.getElem?_cons_succ]
        constructor
        · rintro ⟨_, h⟩; exact ⟨by omega, h⟩
        · rintro ⟨_, h⟩; exact ⟨by omega, h⟩
      · constructor
        · rintro ⟨h, _⟩; omega
        · rintro ⟨h1, h2⟩
          exfalso
          rw [show i - k = 0 by omega] at h2
          simp at h2
          exact hd h2.symm

theorem step_skip {a b : List ℕ} (hne : detStr a b ≠ []) (l : List ℕ) :
    indexStepSkip (Indexing.of l) a b = .ok (Indexing.of (pushNew l (detOf a b))) := by
  unfold indexStepSkip intBase2
  rw [if_neg hne]
  dsimp only
  unfold pushNew
  by_cases h : detOf a b ∈ l
  · rw [if_pos h]
    show (if detOf a b ∈ l then _ else _) = _
    rw [if_pos h]
  · rw [if_neg h, ← Indexing.of_push l _ h]
    show (if detOf a b ∈ l then _ else _) = _
    rw [if_neg h]; rfl

theorem step_noskip {a b : List ℕ} (hne : detStr a b ≠ []) (l : List ℕ) (h : detOf a b ∉ l) :
    indexStep (Indexing.of l) a b = .ok (Indexing.of (l ++ [detOf a b])) := by
  unfold indexStep intBase2
  rw [if_neg hne, ← Indexing.of_push l _ h]; rfl

/-- Nested loops as one loop. -/
theorem foldlM_pairs {σ α β : Type} (f : σ → α → β → Res σ) (as : List α) (bs : List β) : ∀ s,
    as.foldlM (fun s a => bs.foldlM (fun s b => f s a b) s) s
      = (as.flatMap fun a => bs.map fun b => (a, b)).foldlM (fun s p => f s p.1 p.2) s := by
  induction as with
  | nil => intro s; rfl
  | cons a t ih =>
    intro s
    rw [List.foldlM_cons, List.flatMap_cons, List.foldlM_append]
    have : bs.foldlM (fun s b => f s a b) s
        = (bs.map fun b => (a, b)).foldlM (fun s p => f s p.1 p.2) s := by
      rw [List.foldlM_map]
    rw [this]
    congr 1
    funext s'
    exact ih s'

theorem foldlM_skip (ps : List (List ℕ × List ℕ)) (h : ∀ p ∈ ps, detStr p.1 p.2 ≠ []) : ∀ l,
    ps.foldlM (fun s p => indexStepSkip s p.1 p.2) (Indexing.of l)
      = .ok (Indexing.of ((ps.map fun p => detOf p.1 p.2).foldl pushNew l)) := by
  induction ps with
  | nil => intro l; rfl
  | cons p t ih =>
    intro l
    rw [List.foldlM_cons, step_skip (h p (by simp))]
    exact ih (fun q hq => h q (by simp [hq])) _

theorem foldlM_noskip (ps : List (List ℕ × List ℕ)) (h : ∀ p ∈ ps, detStr p.1 p.2 ≠ []) : ∀ l,
    (l ++ ps.map fun p => detOf p.1 p.2).Nodup →
    ps.foldlM (fun s p => indexStep s p.1 p.2) (Indexing.of l)
      = .ok (Indexing.of (l ++ ps.map fun p => detOf p.1 p.2)) := by
  induction ps with
  | nil => intro l _; simp; rfl
  | cons p t ih =>
    intro l hn
    have hp : detOf p.1 p.2 ∉ l := fun hx => by
      rw [List.nodup_append] at hn
      exact hn.2.2 _ hx _ (by simp) rfl
    rw [List.foldlM_cons, step_noskip (h p (by simp)) l hp]
    have := ih (fun q hq => h q (by simp [hq])) (l ++ [detOf p.1 p.2]) (by simpa using hn)
    rw [List.map_cons]
    rw [List.append_assoc, List.singleton_append] at this
    exact this

/-- All pairs of strings. -/
def pairs (as bs : List (List ℕ)) : List (List ℕ × List ℕ) := as.flatMap fun a => bs.map fun b => (a, b)

theorem mem_pairs {as bs : List (List ℕ)} {p : List ℕ × List ℕ} : p ∈ pairs as bs ↔ p.1 ∈ as ∧ p.2 ∈ bs := by
  obtain ⟨a, b⟩ := p
  unfold pairs; simp

theorem nodup_pairs {as bs : List (List ℕ)} (ha : as.Nodup) (hb : bs.Nodup) : (pairs as bs).Nodup := by
  unfold pairs
  rw [List.nodup_flatMap]
  refine ⟨fun a _ => hb.map fun x y h => by simpa using h, ha.imp fun {a b} hab => ?_⟩
  intro p hp hp'
  obtain ⟨x, _, rfl⟩ := List.mem_map.1 hp
  obtain ⟨y, _, h⟩ := List.mem_map.1 hp'
  simp at h
  exact hab h.1.symm

theorem length_pairs (as bs : List (List ℕ)) : (pairs as bs).length = as.length * bs.length := by
  unfold pairs
  rw [List.length_flatMap]
  simp

theorem nodup_dets {n : ℕ} {ps : List (List ℕ × List ℕ)} (hn : ps.Nodup)
    (h : ∀ p ∈ ps, p.1.length = n ∧ p.2.length = n ∧ Occ p.1 ∧ Occ p.2) :
    (ps.map fun p => detOf p.1 p.2).Nodup := by
  refine List.Nodup.map_on ?_ hn
  intro p hp q hq he
  obtain ⟨a1, a2, a3, a4⟩ := h p hp
  obtain ⟨b1, b2, b3, b4⟩ := h q hq
  obtain ⟨e1, e2⟩ := detOf_inj a1 a2 a3 a4 b1 b2 b3 b4 he
  exact Prod.ext e1 e2

theorem detStr_ne_nil {n : ℕ} (hn : 0 < n) {a b : List ℕ} (ha : a.length = n) (hb : b.length = n) :
    detStr a b ≠ [] := by
  intro h
  have := detStr_length a b (by rw [ha, hb])
  rw [h, ha] at this
  simp at this; omega

/-- A space filled with different determinants of the right size has inverse index maps. -/
theorem valid_of_list {ci : CIInfo} {l : List ℕ} (h1 : ci.idx2det = l) (h2 : ci.det2idx = l.zipIdx)
    (hn : l.Nodup) (hb : ∀ d ∈ l, d < 2 ^ (2 * ci.nA)) : ci.Valid := by
  constructor
  · intro d i
    unfold CIInfo.find
    rw [h2, h1, lookup_zipIdx l hn]; simp
  · rw [h1]; exact hb

end SQ
