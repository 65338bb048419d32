import Verif.Lemmas.StateSem

/-! # CI vectors: folding, matrices, ensembles -/

namespace SQ

variable {R : Type*} [CommRing R]

/-! ### Folded operators fit the kernels -/

theorem count_split (nI nA nV : ℕ) (b : Bool) (s : Str) (hr : ∀ o ∈ s, o.1 < 2 * (nI + nA + nV)) :
    s.countP (fun o => o.2 == b) =
      (s.filter fun o => (o.2 == b) && decide (o.1 < 2 * nI)).length
      + (s.filter fun o => (o.2 == b) && decide (2 * nI ≤ o.1) && decide (o.1 < 2 * nI + 2 * nA)).length
      + (s.filter fun o => (o.2 == b) && decide (2 * nI + 2 * nA ≤ o.1)
          && decide (o.1 < 2 * nI + 2 * nA + 2 * nV)).length := by
  induction s with
  | nil => rfl
  | cons o t ih =>
    have ih := ih fun x hx => hr x (by simp [hx])
    have ho := hr o (by simp)
    rw [List.countP_cons, ih]
    by_cases hb : (o.2 == b) = true
    · by_cases h1 : o.1 < 2 * nI
      · have a1 : ¬ 2 * nI ≤ o.1 := by omega
        have a2 : ¬ 2 * nI + 2 * nA ≤ o.1 := by omega
        simp only [List.filter_cons, hb, h1, a1, a2]
        simp; omega
      · have a1 : 2 * nI ≤ o.1 := by omega
        by_cases h2 : o.1 < 2 * nI + 2 * nA
        · have a2 : ¬ 2 * nI + 2 * nA ≤ o.1 := by omega
          simp only [List.filter_cons, hb, h1, h2, a1, a2]
          simp; omega
        · have a2 : 2 * nI + 2 * nA ≤ o.1 := by omega
          have a3 : o.1 < 2 * nI + 2 * nA + 2 * nV := by omega
          simp only [List.filter_cons, hb, h1, h2, a1, a2, a3]
          simp; omega
    · simp only [List.filter_cons, hb]
      simp

theorem foldKey_good {nI nA nV : ℕ} {s : Str} (hn : NormalOrdered s) (hb : Balanced s)
    (hr : ∀ o ∈ s, o.1 < 2 * (nI + nA + nV)) {k : Str} {f : ℤ}
    (hk : foldKey nI nA nV s = some (k, f)) : GoodStr nA k := by
  unfold foldKey at hk
  rw [foldSort_eq] at hk
  simp only [List.nil_append] at hk
  split at hk
  · cases hk
  · next hv =>
    split at hk
    · cases hk
    · next hi =>
      push Not at hv hi
      simp only [List.length_map] at hv
      have hke := congrArg Prod.fst (Option.some.inj hk)
      simp only at hke
      subst hke
      refine ⟨?_, ?_, ?_⟩
      · have mono : ∀ (p : Lad → Bool), (∀ o, p o = true → 2 * nI ≤ o.1) →
            NormalOrdered ((s.filter p).map fun o => (o.1 - 2 * nI, o.2)) := by
          intro p hp
          unfold NormalOrdered
          rw [List.pairwise_map]
          have := hn.filter p
          unfold NormalOrdered at this
          rw [List.pairwise_iff_forall_sublist] at this ⊢
          intro a b hab
          have h1 := this hab
          have hma : a ∈ s.filter p := hab.subset (by simp)
          have hmb : b ∈ s.filter p := hab.subset (by simp)
          have ha := hp a (List.mem_filter.1 hma).2
          have hb' := hp b (List.mem_filter.1 hmb).2
          rcases h1 with h1 | h1
          · exact Or.inl h1
          · refine Or.inr ⟨h1.1, ?_⟩
            have := h1.2
            simp only
            omega
        refine List.pairwise_append.2 ⟨mono _ ?_, mono _ ?_, ?_⟩
        · intro o ho; simp at ho; exact ho.1.2
        · intro o ho; simp at ho; exact ho.1.2
        · intro a ha b hb'
          obtain ⟨a', ha', rfl⟩ := List.mem_map.1 ha
          obtain ⟨b', hb'', rfl⟩ := List.mem_map.1 hb'
          have h1 := (List.mem_filter.1 ha').2
          have h2 := (List.mem_filter.1 hb'').2
          simp at h1 h2
          exact Or.inl ⟨h1.1.1, h2.1.1⟩
      · have c1 := count_split nI nA nV true s hr
        have c2 := count_split nI nA nV false s hr
        have hl := congrArg List.length hi
        simp only [List.length_map] at hl
        unfold Balanced at hb ⊢
        have e1 : (fun o : Lad => o.2 == true) = fun o => o.2 := by funext o; simp
        have e2 : (fun o : Lad => o.2 == false) = fun o => !o.2 := by funext o; simp
        simp only [beq_true, beq_false] at c1 c2
        rw [List.countP_append, List.countP_append, List.countP_map, List.countP_map,
          List.countP_map, List.countP_map]
        have f1 : ∀ (p q : Lad → Bool), (∀ o, p o = true → q o = true) →
            (s.filter p).countP q = (s.filter p).length := by
          intro p q h
          rw [List.countP_eq_length]
          intro o ho; exact h o (List.mem_filter.1 ho).2
        have f0 : ∀ (p q : Lad → Bool), (∀ o, p o = true → q o = false) →
            (s.filter p).countP q = 0 := by
          intro p q h
          rw [List.countP_eq_zero]
          intro o ho; simp [h o (List.mem_filter.1 ho).2]
        rw [f1 _ _ (by intro o ho; simp at ho; simp [ho]), f0 _ _ (by intro o ho; simp at ho; simp [ho]),
          f0 _ _ (by intro o ho; simp at ho; simp [ho]), f1 _ _ (by intro o ho; simp at ho; simp [ho])]
        omega
      · intro o ho
        rcases List.mem_append.1 ho with h | h
        · obtain ⟨a, ha, rfl⟩ := List.mem_map.1 h
          have := (List.mem_filter.1 ha).2
          simp at this; simp only; omega
        · obtain ⟨a, ha, rfl⟩ := List.mem_map.1 h
          have := (List.mem_filter.1 ha).2
          simp at this; simp only; omega

theorem mem_accTo {d : Dict R} {k : Str} {v : R} {kv : Str × R} (h : kv ∈ accTo d k v) :
    kv.1 = k ∨ ∃ kv' ∈ d, kv'.1 = kv.1 := by
  induction d with
  | nil => left; simp [accTo] at h; rw [h]
  | cons a t ih =>
    unfold accTo at h
    split at h
    · next he =>
      rcases List.mem_cons.1 h with h | h
      · left; rw [h]; exact he
      · exact Or.inr ⟨kv, by simp [h], rfl⟩
    · rcases List.mem_cons.1 h with h | h
      · exact Or.inr ⟨a, by simp, by rw [h]⟩
      · rcases ih h with h | ⟨kv', h1, h2⟩
        · exact Or.inl h
        · exact Or.inr ⟨kv', by simp [h1], h2⟩

theorem getFolded_good {nI nA nV : ℕ} {A : Dict R} (hA : NumCons A)
    (hr : ∀ kv ∈ A, ∀ o ∈ kv.1, o.1 < 2 * (nI + nA + nV)) : GoodOp nA (getFolded nI nA nV A) := by
  have key : ∀ (l : Dict R) (d : Dict R), (∀ kv ∈ l, NormalOrdered kv.1 ∧ Balanced kv.1 ∧
      ∀ o ∈ kv.1, o.1 < 2 * (nI + nA + nV)) → (∀ kv ∈ d, GoodStr nA kv.1) →
      ∀ kv ∈ l.foldl (foldStep nI nA nV) d, GoodStr nA kv.1 := by
    intro l
    induction l with
    | nil => intro d _ hd; exact hd
    | cons a t ih =>
      intro d hl hd
      rw [List.foldl_cons]
      refine ih _ (fun kv hk => hl kv (by simp [hk])) ?_
      unfold foldStep
      split
      · exact hd
      · next k fac hk =>
        intro kv hkv
        rcases mem_accTo hkv with h | ⟨kv', h1, h2⟩
        · rw [h]
          obtain ⟨a1, a2, a3⟩ := hl a (by simp)
          exact foldKey_good a1 a2 a3 hk
        · rw [← h2]; exact hd kv' h1
  have := key A [] (fun kv hk => ⟨hA.ord kv hk, hA.bal kv hk, hr kv hk⟩) (by simp)
  exact ⟨fun kv hk => (this kv hk).ord, fun kv hk => (this kv hk).bal, fun kv hk => (this kv hk).rng⟩

/-! ### Scalar products -/

theorem inner_sum_left {ι : Type*} (s : Finset ι) (f : ι → Fock R) (y : Fock R) :
    inner (∑ i ∈ s, f i) y = ∑ i ∈ s, inner (f i) y := by
  have := map_sum ((innerB (R := R)).flip y) f s
  exact this

theorem inner_stateOf (ci : CIInfo) (v : Vec R) (y : Fock R) :
    inner (stateOf ci v) y = ∑ i ∈ Finset.range ci.idx2det.length, v i * coeff y (ci.D i) := by
  rw [stateOf_eq, inner_sum_left]
  refine Finset.sum_congr rfl fun i _ => ?_
  rw [← mul_one (v i), ← smul_sgl, inner_smul_left, inner_ket_left, mul_one]

theorem dot_eq_inner {ci : CIInfo} (hv : ci.Valid) (v w : Vec R) :
    dot ci.idx2det.length v w = inner (stateOf ci v) (stateOf ci w) := by
  rw [inner_stateOf]
  unfold dot
  rw [list_sum_range]
  refine Finset.sum_congr rfl fun i hi => ?_
  rw [coeff_stateOf hv w (Finset.mem_range.1 hi)]

theorem coeff_proj {ci : CIInfo} (hv : ci.Valid) (y : Fock R) {i : ℕ} (hi : i < ci.idx2det.length) :
    coeff (ci.proj y) (ci.D i) = coeff y (ci.D i) := by
  rw [proj_eq hv, ← stateOf_eq ci (fun i => coeff y (ci.D i)), coeff_stateOf hv _ hi]

theorem inner_proj {ci : CIInfo} (hv : ci.Valid) (v : Vec R) (y : Fock R) :
    inner (stateOf ci v) (ci.proj y) = inner (stateOf ci v) y := by
  rw [inner_stateOf, inner_stateOf]
  refine Finset.sum_congr rfl fun i hi => ?_
  rw [coeff_proj hv y (Finset.mem_range.1 hi)]

theorem below_stateOf (ci : CIInfo) (v : Vec R) : Below (2 * ci.nA) (stateOf ci v) := by
  intro S hS p hp
  by_contra hlt
  apply hS
  apply coeff_stateOf_ne
  rintro ⟨d, _, rfl⟩
  exact hlt (mem_decode.1 hp).1

/-! ### Matrices -/

theorem matrixStep_lockstep {tiny : R → Bool} (ht : ExactTiny tiny) {ci : CIInfo} (hv : ci.Valid)
    (doUnsafe : Bool) (par l : List ℕ) (cm am : ℕ) (factor : R) (v : Vec R)
    {p : ℕ × ℕ} (hp : p ∈ ci.idx2det.zipIdx) (M : Mat R) (tmp : Vec R) (M' : Mat R)
    (hrel : ∀ j < ci.idx2det.length, tmp j = ∑ i ∈ Finset.range ci.idx2det.length, M j i * v i)
    (hok : matrixStep ci par doUnsafe l cm am factor M p = .ok M') :
    ∃ tmp', serialStep tiny ci par doUnsafe v l cm am factor tmp p = .ok tmp' ∧
      ∀ j < ci.idx2det.length, tmp' j = ∑ i ∈ Finset.range ci.idx2det.length, M' j i * v i := by
  have hi := (mem_zipIdx_iff hp).1
  unfold matrixStep at hok
  unfold serialStep
  split at hok
  · next h1 =>
    cases hok
    rw [if_pos h1]; exact ⟨_, rfl, hrel⟩
  · next h1 =>
    rw [if_neg h1]
    split at hok
    · next h2 => cases hok; rw [if_pos h2]; exact ⟨_, rfl, hrel⟩
    · next h2 =>
      rw [if_neg h2]
      dsimp only at hok ⊢
      set r := flips (2 * ci.nA - 1) par l p.1 with hr
      cases hf : ci.find r.1 with
      | none =>
        unfold deliver at hok ⊢
        rw [hf] at hok ⊢
        cases doUnsafe
        · cases hok
        · cases hok
          split
          · exact ⟨_, rfl, hrel⟩
          · exact ⟨_, rfl, hrel⟩
      | some j =>
        unfold deliver at hok ⊢
        rw [hf] at hok ⊢
        cases hok
        have hrow : ∀ j', ∑ i ∈ Finset.range ci.idx2det.length,
            (Function.update M j (Function.update (M j) p.2 (M j p.2 + signOf r.2 * factor))) j' i * v i
            = (∑ i ∈ Finset.range ci.idx2det.length, M j' i * v i)
              + if j' = j then signOf r.2 * factor * v p.2 else 0 := by
          intro j'
          by_cases hj : j' = j
          · subst hj
            rw [Function.update_self, if_pos rfl]
            have : ∀ i ∈ Finset.range ci.idx2det.length,
                Function.update (M j') p.2 (M j' p.2 + signOf r.2 * factor) i * v i
                  = M j' i * v i + if i = p.2 then signOf r.2 * factor * v p.2 else 0 := by
              intro i _
              by_cases h : i = p.2
              · subst h; rw [Function.update_self, if_pos rfl]; ring
              · rw [Function.update_of_ne h, if_neg h, add_zero]
            rw [Finset.sum_congr rfl this, Finset.sum_add_distrib, Finset.sum_ite_eq',
              if_pos (Finset.mem_range.2 hi)]
          · rw [Function.update_of_ne hj, if_neg hj, add_zero]
        split
        · next hz =>
          refine ⟨_, rfl, ?_⟩
          intro j' hj'
          rw [hrow, ht _ hz, hrel j' hj']; simp
        · refine ⟨_, rfl, ?_⟩
          intro j' hj'
          rw [hrow]
          dsimp only
          by_cases hj : j' = j
          · subst hj; rw [Function.update_self, if_pos rfl, hrel _ hj']
          · rw [Function.update_of_ne hj, if_neg hj, add_zero, hrel _ hj']

theorem buildMatrix_apply {tiny : R → Bool} (ht : ExactTiny tiny) {ci : CIInfo} (hv : ci.Valid)
    (doUnsafe : Bool) (A : Dict R) (v : Vec R) {M : Mat R} (hok : buildMatrix ci doUnsafe A = .ok M) :
    ∃ w, applyOp tiny .one ci doUnsafe v A = .ok w ∧
      ∀ j < ci.idx2det.length, w j = ∑ i ∈ Finset.range ci.idx2det.length, M j i * v i := by
  unfold buildMatrix at hok
  refine foldlM_lockstep _ (fun tmp (kv : Str × R) => applySerial tiny ci doUnsafe v kv.1 kv.2 tmp)
    (fun (M : Mat R) (w : Vec R) => ∀ j < ci.idx2det.length,
      w j = ∑ i ∈ Finset.range ci.idx2det.length, M j i * v i) A ?_ _ 0 M ?_ hok
  · intro kv _ M w M' hrel hstep
    exact foldlM_lockstep _ _ (fun (M : Mat R) (w : Vec R) => ∀ j < ci.idx2det.length,
      w j = ∑ i ∈ Finset.range ci.idx2det.length, M j i * v i) _
      (fun p hp M w M' hrel hs => matrixStep_lockstep ht hv doUnsafe _ _ _ _ _ v hp M w M' hrel hs)
      M w M' hrel hstep
  · intro j _; simp

theorem matrixStep_unsafe (ci : CIInfo) (par l : List ℕ) (cm am : ℕ) (factor : R) (M : Mat R) (p : ℕ × ℕ) :
    ∃ M', matrixStep ci par true l cm am factor M p = .ok M' := by
  unfold matrixStep
  split
  · exact ⟨_, rfl⟩
  · split
    · exact ⟨_, rfl⟩
    · exact deliver_unsafe _ _ _ _

theorem buildMatrix_unsafe (ci : CIInfo) (A : Dict R) : ∃ M, buildMatrix ci true A = .ok M := by
  unfold buildMatrix
  refine (foldlM_ok_iff _ (fun _ => True) A (fun kv _ M => ⟨fun _ => trivial, fun _ => ?_⟩) _).2
    (fun _ _ => trivial)
  exact (foldlM_ok_iff _ (fun _ => True) _ (fun p _ M => ⟨fun _ => trivial, fun _ =>
    matrixStep_unsafe _ _ _ _ _ _ _ _⟩) _).2 (fun _ _ => trivial)

/-! ### Ensembles -/

/-- The ensemble computation agrees with the computations for the single states. -/
def RowsAgree (n : ℕ) (r : Res (Mat R)) (s : ℕ → Res (Vec R)) : Prop :=
  (∃ M, r = .ok M ∧ ∀ a < n, s a = .ok (M a)) ∨ ∃ e, r = .error e ∧ ∃ a < n, s a = .error e

theorem RowsAgree.congr {n : ℕ} {r : Res (Mat R)} {s t : ℕ → Res (Vec R)} (h : RowsAgree n r s)
    (hst : ∀ a < n, s a = t a) : RowsAgree n r t := by
  rcases h with ⟨M, h1, h2⟩ | ⟨e, h1, a, ha, h2⟩
  · exact Or.inl ⟨M, h1, fun a ha => by rw [← hst a ha, h2 a ha]⟩
  · exact Or.inr ⟨e, h1, a, ha, by rw [← hst a ha, h2]⟩

theorem RowsAgree.foldlM {α : Type*} {n : ℕ} (f : Mat R → α → Res (Mat R))
    (g : ℕ → Vec R → α → Res (Vec R)) (l : List α)
    (h : ∀ x ∈ l, ∀ M, RowsAgree n (f M x) fun a => g a (M a) x) :
    ∀ M, RowsAgree n (l.foldlM f M) fun a => l.foldlM (g a) (M a) := by
  induction l with
  | nil => intro M; exact Or.inl ⟨M, rfl, fun _ _ => rfl⟩
  | cons x t ih =>
    intro M
    have ih := ih fun y hy => h y (by simp [hy])
    simp only [List.foldlM_cons]
    rcases h x (by simp) M with ⟨M', h1, h2⟩ | ⟨e, h1, a, ha, h2⟩
    · rw [h1]
      refine (ih M').congr fun a ha => ?_
      have h2 := h2 a ha
      dsimp only at h2 ⊢
      rw [h2]; rfl
    · rw [h1]
      refine Or.inr ⟨e, rfl, a, ha, ?_⟩
      dsimp only at h2 ⊢
      rw [h2]; rfl

theorem serialStepSA_rows {tiny big : R → Bool} (ht : ∀ x, tiny x = true ↔ x = 0)
    (hb : ∀ x, big x = false ↔ x = 0) (ci : CIInfo) (doUnsafe : Bool) (par l : List ℕ) (cm am : ℕ)
    (factor : R) (n : ℕ) (state : Mat R) (p : ℕ × ℕ) (M : Mat R) :
    RowsAgree n (serialStepSA big ci par doUnsafe n state l cm am factor M p)
      fun a => serialStep tiny ci par doUnsafe (state a) l cm am factor (M a) p := by
  unfold serialStepSA serialStep
  by_cases h1 : p.1 &&& am ≠ am
  · rw [if_pos h1]; exact Or.inl ⟨M, rfl, fun a _ => by beta_reduce; rw [if_pos h1]⟩
  by_cases h2 : p.1 &&& cm ≠ 0
  · rw [if_neg h1, if_pos h2]; exact Or.inl ⟨M, rfl, fun a _ => by beta_reduce; rw [if_neg h1, if_pos h2]⟩
  rw [if_neg h1, if_neg h2]
  simp only [if_neg h1, if_neg h2]
  by_cases h3 : ((List.range n).any fun a => big (state a p.2)) = true
  · rw [h3, Bool.not_true, if_neg (by simp)]
    unfold deliver
    set r := flips (2 * ci.nA - 1) par l p.1
    cases hf : ci.find r.1 with
    | some j =>
      refine Or.inl ⟨_, rfl, fun a _ => ?_⟩
      beta_reduce
      by_cases hz : tiny (state a p.2) = true
      · rw [if_pos hz, (ht _).1 hz]; simp
      · rw [if_neg hz]
    | none =>
      cases doUnsafe
      · obtain ⟨a, ha, hba⟩ := List.any_eq_true.1 h3
        refine Or.inr ⟨.keyError, rfl, a, List.mem_range.1 ha, ?_⟩
        have : ¬ tiny (state a p.2) = true := by
          intro hz
          rw [(hb _).2 ((ht _).1 hz)] at hba; cases hba
        beta_reduce; rw [if_neg this]; rfl
      · refine Or.inl ⟨M, rfl, fun a _ => ?_⟩
        beta_reduce; split <;> rfl
  · have h3' : ((List.range n).any fun a => big (state a p.2)) = false := by simpa using h3
    rw [h3', Bool.not_false, if_pos rfl]
    refine Or.inl ⟨M, rfl, fun a ha => ?_⟩
    have := List.any_eq_false.1 h3' a (List.mem_range.2 ha)
    have hz : state a p.2 = 0 := (hb _).1 (by simpa using this)
    beta_reduce; rw [if_pos ((ht _).2 hz)]

theorem threadedStepSA_rows (ci : CIInfo) (doUnsafe : Bool) (par l : List ℕ) (cm am : ℕ)
    (factor : R) {n : ℕ} (hn : 0 < n) (state : Mat R) (i : ℕ) (M : Mat R) :
    RowsAgree n (threadedStepSA ci par doUnsafe state l cm am factor M i)
      fun a => threadedStep ci par doUnsafe (state a) l cm am factor (M a) i := by
  unfold threadedStepSA threadedStep
  cases hd : ci.idx2det[i]? with
  | none => exact Or.inr ⟨.indexError, rfl, 0, hn, rfl⟩
  | some det =>
    dsimp only
    by_cases h1 : det &&& cm ≠ cm
    · rw [if_pos h1]; exact Or.inl ⟨M, rfl, fun a _ => by beta_reduce; rw [if_pos h1]⟩
    by_cases h2 : det &&& am ≠ 0
    · rw [if_neg h1, if_pos h2]; exact Or.inl ⟨M, rfl, fun a _ => by beta_reduce; rw [if_neg h1, if_pos h2]⟩
    rw [if_neg h1, if_neg h2]
    simp only [if_neg h1, if_neg h2]
    unfold deliver
    cases hf : ci.find (flips (2 * ci.nA - 1) par l det).1 with
    | some j => exact Or.inl ⟨_, rfl, fun a _ => rfl⟩
    | none =>
      cases doUnsafe
      · exact Or.inr ⟨.keyError, rfl, 0, hn, rfl⟩
      · exact Or.inl ⟨M, rfl, fun a _ => rfl⟩

theorem applyOpSA_rows {tiny big : R → Bool} (ht : ∀ x, tiny x = true ↔ x = 0)
    (hb : ∀ x, big x = false ↔ x = 0) (th : Threads) (ci : CIInfo) (doUnsafe : Bool) {n : ℕ}
    (hn : 0 < n) (state : Mat R) (A : Dict R) :
    RowsAgree n (applyOpSA big th ci doUnsafe n state A)
      fun a => applyOp tiny th ci doUnsafe (state a) A := by
  cases th with
  | one =>
    exact RowsAgree.foldlM _ (fun a tmp (kv : Str × R) => applySerial tiny ci doUnsafe (state a) kv.1 kv.2 tmp) A
      (fun kv _ M => RowsAgree.foldlM _ _ _ (fun p _ M => serialStepSA_rows ht hb ci doUnsafe _ _ _ _ _ n
        state p M) M) (fun _ _ => 0)
  | many sched =>
    exact RowsAgree.foldlM _ (fun a tmp (kv : Str × R) => applyThreaded ci doUnsafe (sched kv.1) (state a) kv.1 kv.2 tmp) A
      (fun kv _ M => RowsAgree.foldlM _ _ _ (fun i _ M => threadedStepSA_rows ci doUnsafe _ _ _ _ _ hn
        state i M) M) (fun _ _ => 0)

theorem propagateStateSA_rows {tiny big : R → Bool} (ht : ∀ x, tiny x = true ↔ x = 0)
    (hb : ∀ x, big x = false ↔ x = 0) (th : Threads) (ci : CIInfo)
    (USA : Bool → Mat R → Res (Mat R)) (U : Bool → Vec R → Res (Vec R)) (doFolding doUnsafe : Bool)
    {n : ℕ} (hn : 0 < n) (hU : ∀ b M, RowsAgree n (USA b M) fun a => U b (M a))
    (ops : List (StateOp R)) (state : Mat R) :
    RowsAgree n (propagateStateSA big th ci USA doFolding doUnsafe n ops state)
      fun a => propagateState tiny th ci U doFolding doUnsafe ops (state a) := by
  unfold propagateStateSA propagateState
  by_cases h0 : ops.length = 0
  · simp only [if_pos h0]; exact Or.inl ⟨state, rfl, fun _ _ => rfl⟩
  simp only [if_neg h0]
  refine RowsAgree.foldlM _ _ _ (fun o _ M => ?_) state
  unfold propStepSA propStep
  cases o with
  | op A => exact applyOpSA_rows ht hb th ci doUnsafe hn M _
  | name s =>
    dsimp only
    by_cases hs : s ≠ "U" ∧ s ≠ "Ud"
    · simp only [if_pos hs]; exact Or.inr ⟨.valueError, rfl, 0, hn, rfl⟩
    · simp only [if_neg hs]; exact hU _ M

theorem NumCons.good {n : ℕ} {A : Dict R} (hA : NumCons A) (hr : ∀ kv ∈ A, ∀ o ∈ kv.1, o.1 < 2 * n) :
    GoodOp n A := ⟨hA.ord, hA.bal, hr⟩

end SQ
