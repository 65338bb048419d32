import Verif.Lemmas.Fold
import Verif.Lemmas.ClosedSpace

/-! # Structure of folded operators; folded application on complete spaces -/

namespace SQ

variable {R : Type*} [CommRing R]

theorem spinW_shift {w : ℕ → ℤ} (hw : SpinW w) {p : ℕ} (nI : ℕ) (h : 2 * nI ≤ p) : w (p - 2 * nI) = w p := by
  have key : ∀ p, w p = if p % 2 = 0 then w 0 else w 1 := by
    intro p
    rcases Nat.mod_two_eq_zero_or_one p with h | h
    · rw [if_pos h]; have := (hw (p / 2)).1; rwa [show 2 * (p / 2) = p by omega] at this
    · rw [if_neg (by omega)]; have := (hw (p / 2)).2; rwa [show 2 * (p / 2) + 1 = p by omega] at this
  rw [key (p - 2 * nI), key p]
  have : (p - 2 * nI) % 2 = p % 2 := by omega
  rw [this]

theorem strWeight_cons (w : ℕ → ℤ) (o : ℕ × Bool) (s : Str) :
    strWeight w (o :: s) = (if o.2 then w o.1 else - w o.1) + strWeight w s := by
  simp [strWeight]

/-- Weight by blocks. -/
theorem strWeight_blocks {w : ℕ → ℤ} (hw : SpinW w) (nI nA nV : ℕ) (s : Str)
    (hr : ∀ o ∈ s, o.1 < 2 * (nI + nA + nV)) :
    strWeight w s
      = strWeight w ((s.filter fun o => o.2 && decide (2 * nI ≤ o.1)
            && decide (o.1 < 2 * nI + 2 * nA)).map fun o => (o.1 - 2 * nI, o.2))
        + strWeight w ((s.filter fun o => !o.2 && decide (2 * nI ≤ o.1)
            && decide (o.1 < 2 * nI + 2 * nA)).map fun o => (o.1 - 2 * nI, o.2))
        + (((s.filter fun o => o.2 && decide (o.1 < 2 * nI)).map (·.1)).map w).sum
        - (((s.filter fun o => !o.2 && decide (o.1 < 2 * nI)).map (·.1)).map w).sum
        + (((s.filter fun o => o.2 && decide (2 * nI + 2 * nA ≤ o.1)
            && decide (o.1 < 2 * nI + 2 * nA + 2 * nV)).map (·.1)).map w).sum
        - (((s.filter fun o => !o.2 && decide (2 * nI + 2 * nA ≤ o.1)
            && decide (o.1 < 2 * nI + 2 * nA + 2 * nV)).map (·.1)).map w).sum := by
  induction s with
  | nil => simp [strWeight]
  | cons o t ih =>
    have ih := ih fun x hx => hr x (by simp [hx])
    have ho := hr o (by simp)
    obtain ⟨p, b⟩ := o
    rw [strWeight_cons, ih]
    dsimp only at ho
    cases b
    · by_cases h1 : p < 2 * nI
      · have a1 : ¬ 2 * nI + 2 * nA ≤ p := by omega
        have a2 : ¬ 2 * nI ≤ p := by omega
        simp [h1, a1, a2]; ring
      · by_cases h2 : p < 2 * nI + 2 * nA
        · have a1 : ¬ 2 * nI + 2 * nA ≤ p := by omega
          have a2 : 2 * nI ≤ p := by omega
          simp [h1, h2, a1, a2, strWeight_cons, spinW_shift hw nI a2]; ring
        · have a1 : 2 * nI + 2 * nA ≤ p := by omega
          have h3 : p < 2 * nI + 2 * nA + 2 * nV := by omega
          simp [h1, h2, h3, a1]; ring
    · by_cases h1 : p < 2 * nI
      · have a1 : ¬ 2 * nI + 2 * nA ≤ p := by omega
        have a2 : ¬ 2 * nI ≤ p := by omega
        simp [h1, a1, a2]; ring
      · by_cases h2 : p < 2 * nI + 2 * nA
        · have a1 : ¬ 2 * nI + 2 * nA ≤ p := by omega
          have a2 : 2 * nI ≤ p := by omega
          simp [h1, h2, a1, a2, strWeight_cons, spinW_shift hw nI a2]; ring
        · have a1 : 2 * nI + 2 * nA ≤ p := by omega
          have h3 : p < 2 * nI + 2 * nA + 2 * nV := by omega
          simp [h1, h2, h3, a1]; ring

theorem balanced_of_weight {s : Str} (h : strWeight (fun _ => 1) s = 0) : Balanced s := by
  have key : strWeight (fun _ => 1) s = (s.countP (·.2) : ℤ) - s.countP (fun o => !o.2) := by
    clear h
    induction s with
    | nil => simp [strWeight]
    | cons o t ih =>
      obtain ⟨p, b⟩ := o
      rw [strWeight_cons, ih, List.countP_cons, List.countP_cons]
      cases b <;> simp <;> ring
  unfold Balanced
  omega

/-- The folded key of a spin-conserving string. -/
theorem foldKey_inv {nI nA nV : ℕ} {s k : Str} {f : ℤ} (hn : NormalOrdered s)
    (hk : KInv (· < 2 * (nI + nA + nV)) (fun _ => 0) s) (h : foldKey nI nA nV s = some (k, f)) :
    NormalOrdered k ∧ Balanced k ∧ KInv (· < 2 * nA) (fun _ => 0) k := by
  unfold foldKey at h
  rw [foldSort_eq] at h
  simp only [List.nil_append, List.length_map] at h
  split at h
  · cases h
  rename_i hv
  split at h
  · cases h
  rename_i hI
  push Not at hv hI
  rw [List.length_eq_zero_iff, List.length_eq_zero_iff] at hv
  simp only [Option.some.injEq, Prod.mk.injEq] at h
  obtain ⟨h, -⟩ := h
  have hw : ∀ w, SpinW w → strWeight w k = 0 := by
    intro w hw
    have := strWeight_blocks hw nI nA nV s hk.1
    rw [hk.2 w hw, hv.1, hv.2, hI] at this
    rw [← h, strWeight_append]
    simp at this
    linarith
  refine ⟨?_, balanced_of_weight (hw _ fun p => ⟨rfl, rfl⟩), ?_, hw⟩
  · rw [← h]
    unfold NormalOrdered
    rw [List.pairwise_append]
    refine ⟨?_, ?_, ?_⟩
    · rw [List.pairwise_map]
      refine ((hn.filter _).imp_of_mem fun {a b} ha hb hab => ?_)
      have h1 := (List.mem_filter.1 ha).2
      have h2 := (List.mem_filter.1 hb).2
      simp only [Bool.and_eq_true, decide_eq_true_eq] at h1 h2
      rcases hab with hab | hab
      · exact Or.inl hab
      · exact Or.inr ⟨hab.1, by dsimp only; omega⟩
    · rw [List.pairwise_map]
      refine ((hn.filter _).imp_of_mem fun {a b} ha hb hab => ?_)
      have h1 := (List.mem_filter.1 ha).2
      have h2 := (List.mem_filter.1 hb).2
      simp only [Bool.and_eq_true, decide_eq_true_eq] at h1 h2
      rcases hab with hab | hab
      · exact Or.inl hab
      · exact Or.inr ⟨hab.1, by dsimp only; omega⟩
    · intro a ha b hb
      obtain ⟨a', ha', rfl⟩ := List.mem_map.1 ha
      obtain ⟨b', hb', rfl⟩ := List.mem_map.1 hb
      have h1 := (List.mem_filter.1 ha').2
      have h2 := (List.mem_filter.1 hb').2
      simp only [Bool.and_eq_true, decide_eq_true_eq, Bool.not_eq_true'] at h1 h2
      exact Or.inl ⟨h1.1.1, h2.1.1⟩
  · intro o ho
    rw [← h] at ho
    rcases List.mem_append.1 ho with ho | ho <;> obtain ⟨a, ha, rfl⟩ := List.mem_map.1 ho <;>
      have h1 := (List.mem_filter.1 ha).2 <;>
      simp only [Bool.and_eq_true, decide_eq_true_eq] at h1 <;> dsimp only <;> omega

theorem mem_accTo_key {d : Dict R} {k : Str} {v : R} {x : Str} :
    x ∈ (accTo d k v).map (·.1) ↔ x ∈ d.map (·.1) ∨ x = k := by
  induction d with
  | nil => simp [accTo]
  | cons kv t ih =>
    obtain ⟨k', v'⟩ := kv
    simp only [accTo]
    split
    · next h => subst h; simp; tauto
    · rw [List.map_cons, List.mem_cons, ih, List.map_cons, List.mem_cons]; tauto

theorem wf_accTo {d : Dict R} (h : WF d) (k : Str) (v : R) : WF (accTo d k v) := by
  induction d with
  | nil => simp [accTo, WF]
  | cons kv t ih =>
    obtain ⟨k', v'⟩ := kv
    unfold WF at h
    rw [List.map_cons, List.nodup_cons] at h
    simp only [accTo]
    split
    · unfold WF; rw [List.map_cons, List.nodup_cons]; exact h
    · next hne =>
      unfold WF
      rw [List.map_cons, List.nodup_cons]
      refine ⟨?_, ih h.2⟩
      rw [mem_accTo_key]
      rintro (h1 | h1)
      · exact h.1 h1
      · exact hne h1

/-- Folding a spin-conserving operator gives a spin-conserving operator on the active orbitals. -/
theorem getFolded_inv {nI nA nV : ℕ} {A : Dict R} (hA : NumCons A)
    (hk : Keys (· < 2 * (nI + nA + nV)) (fun _ => 0) A) :
    NumCons (getFolded nI nA nV A) ∧ Keys (· < 2 * nA) (fun _ => 0) (getFolded nI nA nV A) := by
  suffices h : ∀ (A d : Dict R), (∀ kv ∈ A, NormalOrdered kv.1) →
      Keys (· < 2 * (nI + nA + nV)) (fun _ => 0) A → WF d →
      (∀ x ∈ d.map (·.1), NormalOrdered x ∧ Balanced x ∧ KInv (· < 2 * nA) (fun _ => 0) x) →
      WF (A.foldl (foldStep nI nA nV) d) ∧ ∀ x ∈ (A.foldl (foldStep nI nA nV) d).map (·.1),
        NormalOrdered x ∧ Balanced x ∧ KInv (· < 2 * nA) (fun _ => 0) x by
    obtain ⟨h1, h2⟩ := h A [] hA.ord hk (by simp [WF]) (by simp)
    have h3 : ∀ kv ∈ getFolded nI nA nV A, NormalOrdered kv.1 ∧ Balanced kv.1 ∧
        KInv (· < 2 * nA) (fun _ => 0) kv.1 := fun kv hkv => h2 kv.1 (List.mem_map_of_mem hkv)
    exact ⟨⟨h1, fun kv hkv => (h3 kv hkv).1, fun kv hkv => (h3 kv hkv).2.1⟩,
      fun kv hkv => (h3 kv hkv).2.2⟩
  intro A
  induction A with
  | nil => intro d _ _ h1 h2; exact ⟨h1, h2⟩
  | cons kv t ih =>
    intro d hn hk h1 h2
    rw [List.foldl_cons]
    refine ih _ (fun z hz => hn z (by simp [hz])) (fun z hz => hk z (by simp [hz])) ?_ ?_
    · unfold foldStep
      split
      · exact h1
      · exact wf_accTo h1 _ _
    · unfold foldStep
      split
      · exact h2
      · rename_i k f hf
        intro x hx
        rcases mem_accTo_key.1 hx with hx | rfl
        · exact h2 x hx
        · exact foldKey_inv (hn kv (by simp)) (hk kv (by simp)) hf

end SQ
