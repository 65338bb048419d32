import Verif.Lemmas.CircuitDouble

/-! # The double excitation circuit: ladder and outer gates -/

namespace SQ

open Finset

theorem sgs_union {P Q : Finset ℕ} (h : Disjoint P Q) (b : Lbl) : sgs (P ∪ Q) b = sgs P b * sgs Q b := Finset.prod_union h

theorem blind_sgs {t : ℕ} {Q : Finset ℕ} (h : t ∉ Q) : Blind t (sgs Q) := fun b v => by
  unfold sgs
  refine Finset.prod_congr rfl fun q hq => ?_
  rw [Function.update_of_ne]
  rintro rfl; exact h hq

theorem Blind.mulC {q : ℕ} {M N : Lbl → ℂ} (hM : Blind q M) (hN : Blind q N) : Blind q (fun b => M b * N b) :=
  fun b v => by beta_reduce; rw [hM, hN]

theorem double_ladder {iz kz jz lz : ℕ} (h1 : iz < kz) (h2 : kz < jz) (h3 : jz < lz) {θ : ℝ} {cd : Lbl → Bool} {s : Lbl → ℂ}
    {mid : List GateCall} (hcd : ∀ t, (iz < t ∧ t < kz) ∨ (jz < t ∧ t < lz) → Blind t cd)
    (hs : ∀ t, (iz < t ∧ t < kz) ∨ (jz < t ∧ t < lz) → Blind t s)
    (hm : ∀ Ψ, runCalls mid Ψ = giv θ cd s {lz} Ψ) (Ψ : Amp) :
    runCalls (doubleLadder iz kz jz lz ++ mid ++ doubleUnladder iz kz jz lz) Ψ =
      giv θ cd (fun b => s b * sgs (Finset.Ioo jz lz) b * sgs (Finset.Ioo iz kz) b) {lz} Ψ := by
  have hcz : ∀ t, t < lz → ∀ Ψ, runCalls ([.cz lz t] ++ mid ++ [.cz lz t]) Ψ = giv θ cd (fun b => s b * sgs {t} b) {lz} Ψ := by
    intro t ht Ψ
    rw [runCalls_append, runCalls_append, hm]
    simp only [runCalls_cons, runCalls_nil]
    rw [conj_cz (by simp) (by simp; omega)]
    simp only [sgs, Finset.prod_singleton]
  have hA : ∀ (s' : Lbl → ℂ) (mid' : List GateCall), (∀ t, iz < t ∧ t < kz → Blind t s') → iz + 1 < kz →
      (∀ Ψ, runCalls mid' Ψ = giv θ cd (fun b => s' b * sgs {kz - 1} b) {lz} Ψ) → ∀ Ψ,
      runCalls ((rangeUp (iz + 1) (kz - 1)).map (fun t => GateCall.cx t (t + 1)) ++ mid' ++
        (rangeDown (kz - 1) (iz + 1)).map (fun t => GateCall.cx (t - 1) t)) Ψ =
        giv θ cd (fun b => s' b * sgs (Finset.Ioo iz kz) b) {lz} Ψ := by
    intro s' mid' hs' hlt hm' Ψ
    obtain ⟨m, rfl⟩ : ∃ m, kz = iz + 1 + m + 1 := ⟨kz - iz - 2, by omega⟩
    have e : Finset.Ioo iz (iz + 1 + m + 1) = Finset.Icc (iz + 1) (iz + 1 + m) := by ext x; simp only [Finset.mem_Ioo, Finset.mem_Icc]; omega
    rw [e]
    exact ladder_left m (iz + 1) (fun t _ _ => by simp; omega)
      (fun t _ _ => ⟨hcd t (by omega), hs' t (by omega)⟩) hm' Ψ
  have hB : jz + 1 < lz → ∀ Ψ, runCalls ((rangeUp (jz + 1) (lz - 1)).map (fun t => GateCall.cx t (t + 1)) ++
      ([.cz lz (lz - 1)] ++ mid ++ [.cz lz (lz - 1)]) ++ (rangeDown (lz - 1) (jz + 1)).map (fun t => GateCall.cx (t - 1) t)) Ψ =
        giv θ cd (fun b => s b * sgs (Finset.Ioo jz lz) b) {lz} Ψ := by
    intro hlt Ψ
    have hc := hcz (lz - 1) (by omega)
    obtain ⟨m, rfl⟩ : ∃ m, lz = jz + 1 + m + 1 := ⟨lz - jz - 2, by omega⟩
    have e : Finset.Ioo jz (jz + 1 + m + 1) = Finset.Icc (jz + 1) (jz + 1 + m) := by ext x; simp only [Finset.mem_Ioo, Finset.mem_Icc]; omega
    rw [e]
    exact ladder_left m (jz + 1) (fun t _ _ => by simp; omega)
      (fun t _ _ => ⟨hcd t (by omega), hs t (by omega)⟩) hc Ψ
  have e0 : ∀ x, Finset.Ioo x (x + 1) = ∅ := by intro x; ext y; simp
  have s0 : ∀ b, sgs ∅ b = 1 := fun b => rfl
  unfold doubleLadder doubleUnladder
  by_cases hl : lz = jz + 1
  · subst hl
    simp only [ne_eq, not_true, if_false, e0, s0, mul_one]
    by_cases hk : iz = kz - 1
    · obtain rfl : kz = iz + 1 := by omega
      simp only [Nat.add_sub_cancel, not_true, if_false, e0, s0, mul_one, List.nil_append, List.append_nil]
      exact hm Ψ
    · rw [if_pos hk, if_pos hk]
      have := hA s _ (fun t ht => hs t (.inl ht)) (by omega) (hcz (kz - 1) (by omega)) Ψ
      rw [← this]
      simp only [List.append_assoc]
  · rw [if_pos hl, if_pos hl]
    have hB' := hB (by omega)
    by_cases hk : iz + 1 = kz
    · subst hk
      have r1 : rangeUp (iz + 1) (iz + 1 - 1) = [] := by simp [rangeUp]
      have r2 : rangeDown (iz + 1 - 1) (iz + 1) = [] := by simp [rangeDown]
      rw [r1, r2]
      simp only [e0, s0, mul_one, ne_eq, not_true, if_false, List.map_nil, List.nil_append, List.append_nil]
      rw [← hB' Ψ]
      simp only [List.append_assoc]
    · rw [if_pos hk]
      have hX : ∀ Ψ, runCalls ([.cx (kz - 1) (jz + 1)] ++ ((rangeUp (jz + 1) (lz - 1)).map (fun t => GateCall.cx t (t + 1)) ++
          ([.cz lz (lz - 1)] ++ mid ++ [.cz lz (lz - 1)]) ++ (rangeDown (lz - 1) (jz + 1)).map (fun t => GateCall.cx (t - 1) t)) ++
          [.cx (kz - 1) (jz + 1)]) Ψ = giv θ cd (fun b => (s b * sgs (Finset.Ioo jz lz) b) * sgs {kz - 1} b) {lz} Ψ := by
        intro Ψ
        rw [runCalls_append, runCalls_append, hB']
        simp only [runCalls_cons, runCalls_nil]
        rw [conj_ladder (by omega) (by simp; omega) (by simp; omega) (by simp; omega) (by simp; omega) θ (hcd _ (by omega)) (hs _ (by omega))]
        congr 1
        funext b
        rw [Finset.insert_eq, sgs_union (by simp; omega)]
        ring
      have := hA (fun b => s b * sgs (Finset.Ioo jz lz) b) _ (fun t ht => (hs t (.inl ht)).mulC (blind_sgs (by simp; omega))) (by omega) hX Ψ
      rw [← this]
      simp only [List.append_assoc]

theorem sort4 {k l i j : ℕ} (h1 : i < k) (h2 : i < j) (h3 : k < l) (h4 : j < l) (h5 : j ≠ k) :
    [k, l, i, j].mergeSort = [i, min j k, max j k, l] := by
  have hp := List.mergeSort_perm [k, l, i, j] (fun a b => decide (a ≤ b))
  have hs := List.pairwise_mergeSort (le := fun a b : ℕ => decide (a ≤ b)) (by simp; omega) (by simp; omega) [k, l, i, j]
  refine List.Perm.eq_of_pairwise (le := fun a b => decide (a ≤ b) = true) (by simp; omega) hs (by simp; omega) (hp.trans ?_)
  have hp' : [k, l, i, j].Perm [i, j, k, l] := List.perm_append_comm (l₁ := [k, l]) (l₂ := [i, j])
  rcases Nat.lt_or_gt_of_ne h5 with h | h
  · rw [min_eq_left h.le, max_eq_right h.le]
    exact hp'
  · rw [min_eq_right h.le, max_eq_left h.le]
    exact hp'.trans (.cons _ (.swap _ _ _))

theorem double_all {k l i j : ℕ} (h1 : i < k) (h2 : i < j) (h3 : k < l) (h4 : j < l) (h5 : j ≠ k) (θ : ℝ) (Ψ : Amp) :
    runCalls (doubleGates k l i j (2 * θ)) Ψ =
      giv θ (fun b => (b k == b l) && (b i == b j) && (b j ^^ b l))
        (fun b => -sgb (b l) * sgs (Finset.Ioo (max j k) l) b * sgs (Finset.Ioo i (min j k)) b) {k, i, j, l} Ψ := by
  unfold doubleGates
  rw [sort4 h1 h2 h3 h4 h5]
  dsimp only
  have hmid : ∀ Ψ, runCalls ([.x k, .x i] ++ doubleMiddle k l i j (2 * θ) ++ [.x k, .x i]) Ψ =
      giv θ (fun b => !b k && !b i && b j) (fun b => -sgb (b l)) {l} Ψ := by
    intro Ψ
    have ex : ∀ Ψ, (GateCall.x i).op ((GateCall.x k).op Ψ) = (GateCall.x k).op ((GateCall.x i).op Ψ) := by
      intro Ψ
      rw [x_op, x_op, x_op, x_op]
      funext b
      beta_reduce
      rw [Function.update_of_ne h1.ne, Function.update_of_ne h1.ne', Function.update_comm h1.ne]
    rw [runCalls_append, runCalls_append]
    simp only [runCalls_cons, runCalls_nil]
    rw [ex, double_mid h3.ne' (by omega) h4.ne' h1.ne' h5.symm h2.ne, conj_x (by simp; omega), conj_x (by simp; omega)]
    simp only [Function.update_self, Function.update_of_ne h1.ne, Function.update_of_ne h1.ne', Function.update_of_ne h5,
      Function.update_of_ne h2.ne', Function.update_of_ne h3.ne', Function.update_of_ne (show l ≠ i by omega)]
  have hmn : i < min j k := lt_min h2 h1
  have hmx : max j k < l := max_lt h4 h3
  have hmm : min j k < max j k := by omega
  have hmem : ∀ t, (i < t ∧ t < min j k) ∨ (max j k < t ∧ t < l) → k ≠ t ∧ i ≠ t ∧ j ≠ t ∧ l ≠ t := by omega
  have hl := double_ladder hmn hmm hmx (θ := θ) (cd := fun b => !b k && !b i && b j) (s := fun b => -sgb (b l))
    (fun t ht => by
      obtain ⟨a1, a2, a3, a4⟩ := hmem t ht
      intro b v
      simp only [Function.update_of_ne a1, Function.update_of_ne a2, Function.update_of_ne a3])
    (fun t ht => blind_bit (hmem t ht).2.2.2 fun x => -sgb x) hmid
  have hcc : ∀ Ψ, (GateCall.cx j i).op ((GateCall.cx l k).op Ψ) = (GateCall.cx l k).op ((GateCall.cx j i).op Ψ) := by
    intro Ψ
    rw [cx_op, cx_op, cx_op, cx_op]
    funext b
    unfold cxl
    beta_reduce
    simp only [Function.update_of_ne h1.ne, Function.update_of_ne h1.ne', Function.update_of_ne h5, Function.update_of_ne (show l ≠ i by omega)]
    rw [Function.update_comm h1.ne]
  have e : [GateCall.cx l k, .cx j i, .cx l j] ++ doubleLadder i (min j k) (max j k) l ++ [.x k, .x i] ++ doubleMiddle k l i j (2 * θ) ++
      [.x k, .x i] ++ doubleUnladder i (min j k) (max j k) l ++ [.cx l j, .cx l k, .cx j i] =
      [.cx l k, .cx j i, .cx l j] ++ (doubleLadder i (min j k) (max j k) l ++ ([.x k, .x i] ++ doubleMiddle k l i j (2 * θ) ++
      [.x k, .x i]) ++ doubleUnladder i (min j k) (max j k) l) ++ [.cx l j, .cx l k, .cx j i] := by
    simp only [List.append_assoc]
  rw [e, runCalls_append, runCalls_append, hl]
  simp only [runCalls_cons, runCalls_nil]
  have n1 : l ≠ j := h4.ne'
  have n2 : l ≠ i := by omega
  have n3 : l ≠ k := h3.ne'
  rw [conj_cx n1 (by simp; omega), if_pos (by simp), hcc, conj_cx h2.ne' (by simp; omega), if_pos (by simp),
    conj_cx n3 (by simp; omega), if_pos (by simp)]
  have q1 : ∀ c t b, cxl c t b t = (b t ^^ b c) := fun c t b => by simp [cxl]
  have q2 : ∀ {c t p} b, p ≠ t → cxl c t b p = b p := fun b h => by rw [cxl, Function.update_of_ne h]
  have t1 : ∀ {t}, t = k ∨ t = i ∨ t = j ∨ t = l → t ∉ Finset.Ioo (max j k) l := by intro t ht; rw [Finset.mem_Ioo]; omega
  have t2 : ∀ {t}, t = k ∨ t = i ∨ t = j ∨ t = l → t ∉ Finset.Ioo i (min j k) := by intro t ht; rw [Finset.mem_Ioo]; omega
  simp only [sgs_cxl' (t1 (.inl rfl)), sgs_cxl' (t1 (.inr (.inl rfl))), sgs_cxl' (t1 (.inr (.inr (.inl rfl)))),
    sgs_cxl' (t2 (.inl rfl)), sgs_cxl' (t2 (.inr (.inl rfl))), sgs_cxl' (t2 (.inr (.inr (.inl rfl)))),
    q1, q2 _ n1, q2 _ n2, q2 _ n3, q2 _ h5, q2 _ h5.symm, q2 _ h1.ne, q2 _ h1.ne', q2 _ h2.ne, q2 _ h2.ne']
  congr 1
  funext b
  cases b k <;> cases b l <;> cases b i <;> cases b j <;> rfl

end SQ
