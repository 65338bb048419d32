import Verif.Model.RotoEvaluator
import Verif.Props.SaEnv
import Verif.Lemmas.SwapBits

/-! # Lemmas: the evaluator for RotoSolve -/

namespace SQ

theorem foldlM_congr_on {α β : Type} {f g : α → β → Res α} (l : List β) (h : ∀ x ∈ l, ∀ v, f v x = g v x) :
    ∀ v, l.foldlM f v = l.foldlM g v := by
  induction l with
  | nil => intro v; rfl
  | cons x l ih =>
    intro v
    rw [List.foldlM_cons, List.foldlM_cons, h x List.mem_cons_self]
    congr 1
    funext w
    exact ih (fun y hy => h y (List.mem_cons_of_mem _ hy)) w

theorem range_around {i n : ℕ} (hi : i < n) : List.range n = List.range i ++ i :: rangeTo (i + 1) n := by
  unfold rangeTo
  have e : n = i + (1 + (n - (i + 1))) := by omega
  conv_lhs => rw [e, List.range_add, List.range_add]
  simp only [List.map_append, List.map_map]
  congr 1
  simp only [List.range_one, List.map_cons, List.map_nil, List.singleton_append, Nat.add_zero]
  congr 1
  refine List.map_congr_left fun k _ => ?_
  simp only [Function.comp_apply]; omega

section
variable {V : Type} [AddCommGroup V] [Module ℝ V] (prop : List (Dict ℝ) → V → Res V)

theorem propagateUnitary_set {tiny : ℝ → Bool} {offset : ℕ} {st : AnsatzStruct} {thetas : List ℝ} {i k : ℕ} (d : ℝ)
    (h : i ≠ k) (v : V) : propagateUnitary prop tiny offset st (thetas.set i d) k v =
      propagateUnitary prop tiny offset st thetas k v := by
  unfold propagateUnitary
  rw [List.getElem?_set_ne h]

theorem ups_split (tiny : ℝ → Bool) (offset : ℕ) (st : AnsatzStruct) {thetas : List ℝ} {i : ℕ} (d : ℝ)
    (h1 : st.types.length = thetas.length) (h2 : st.indices.length = thetas.length) (hi : i < thetas.length) (v : V) :
    constructUps prop tiny offset st (thetas.set i d) false v =
      ((List.range i).foldlM (fun s k => propagateUnitary prop tiny offset st thetas k s) v >>= fun v1 =>
        propagateUnitary prop tiny offset st (thetas.set i d) i v1 >>= fun v2 =>
          (rangeTo (i + 1) thetas.length).foldlM (fun s k => propagateUnitary prop tiny offset st thetas k s) v2) := by
  rw [← C28_stepwise prop tiny offset st (thetas.set i d) (by simpa using h1) (by simpa using h2) v, List.length_set,
    range_around hi, List.foldlM_append]
  rw [foldlM_congr_on (g := fun s k => propagateUnitary prop tiny offset st thetas k s) (List.range i) fun k hk w =>
    propagateUnitary_set prop d (by have := List.mem_range.1 hk; omega) w]
  congr 1
  funext v1
  rw [List.foldlM_cons]
  congr 1
  funext v2
  refine foldlM_congr_on _ (fun k hk w => propagateUnitary_set prop d ?_ w) v2
  unfold rangeTo at hk
  obtain ⟨m, -, hm⟩ := List.mem_map.1 hk
  omega

end

section
variable {tiny big : ℝ → Bool} {th : Threads} {ci : CIInfo} {nS : ℕ}

theorem applyHamSA_rows (ht : ∀ x, tiny x = true ↔ x = 0) (hb : ∀ x, big x = false ↔ x = 0) (hn : 0 < nS)
    (h : ℕ → ℕ → ℝ) (g : ℕ → ℕ → ℕ → ℕ → ℝ) (M : Mat ℝ) :
    RowsAgree nS (applyHamSA tiny big th ci nS h g M) fun a => applyHam tiny big th ci h g (M a) := by
  unfold applyHamSA applyHam
  cases hamiltonian0i0a tiny big h g ci.nI ci.nA with
  | error e => exact RowsAgree.err hn _
  | ok H => exact propagateStateSA_rows ht hb th ci _ _ true false hn (fun _ _ => RowsAgree.err hn _) [.op H] M

theorem rotoTail_ok (ht : ∀ x, tiny x = true ↔ x = 0) (hb : ∀ x, big x = false ↔ x = 0) (hs : AnsatzSpace ci ci.nA)
    (hth : th.Fair ci.idx2det.length) {n : ℕ} (hn : 0 < n)
    (h : ℕ → ℕ → ℝ) (g : ℕ → ℕ → ℕ → ℕ → ℝ) (st : AnsatzStruct) (thetas : List ℝ) (len i : ℕ) (M : Mat ℝ) (w : ℕ → Vec ℝ)
    (hw : ∀ r < n, (rangeTo (i + 1) len).foldlM
      (fun s k => propagateUnitary (propVec tiny th ci) tiny ci.offset st thetas k s) (M r) = .ok (w r)) :
    ∃ B K, rotoTail tiny big th ci h g st thetas len i n M = .ok (B, K) ∧
      ∀ r < n, K r = w r ∧ applyHam tiny big th ci h g (w r) = .ok (B r) := by
  obtain ⟨K, k1, k2⟩ := rows_ok (RowsAgree.foldlM
    (fun M k => propagateUnitary (propMat big th ci n) tiny ci.offset st thetas k M)
    (fun _ s k => propagateUnitary (propVec tiny th ci) tiny ci.offset st thetas k s) (rangeTo (i + 1) len)
    (fun k _ M => propagateUnitary_rows hn (propMat_rows ht hb th ci hn) tiny ci.offset st thetas k M) M)
    fun r hr => ⟨_, hw r hr⟩
  have e : ∀ r < n, K r = w r := fun r hr => Except.ok.inj ((k2 r hr).symm.trans (hw r hr))
  obtain ⟨B, b1, b2⟩ := rows_ok (applyHamSA_rows (th := th) (ci := ci) ht hb hn h g K) fun r _ => by
    obtain ⟨x, hx, -⟩ := C70_hamiltonian (tiny := tiny) (big := big) (fun x h => (ht x).1 h) (fun x h => (hb x).1 h) hs hth h g (K r)
    exact ⟨x, hx⟩
  refine ⟨B, K, ?_, fun r hr => ⟨e r hr, ?_⟩⟩
  · unfold rotoTail
    rw [k1, ok_bind, b1, ok_bind]
    rfl
  · rw [← e r hr]; exact b2 r hr

end

/-! ### Sums over the states -/

theorem sumStates_block (nS : ℕ) (e : ℕ → ℝ) (n : ℕ) (L : List ℝ) : ∀ m ≤ nS,
    ((List.range m).map (n * nS + ·)).foldl (fun (s : ℕ × List ℝ) i =>
      ((if i % nS = 0 then s.1 + 1 else s.1), s.2.modify ((if i % nS = 0 then s.1 + 1 else s.1) - 1) (· + e i))) (n, L) =
    (if m = 0 then n else n + 1, L.modify n (· + ∑ k ∈ Finset.range m, e (n * nS + k))) := by
  intro m
  induction m with
  | zero =>
    intro _
    simp only [List.range_zero, List.map_nil, List.foldl_nil, if_true, Finset.range_zero, Finset.sum_empty, add_zero]
    congr 1
    refine List.ext_getElem? fun j => ?_
    rw [List.getElem?_modify]
    cases L[j]? <;> simp
  | succ m ih =>
    intro hm
    rw [List.range_succ, List.map_append, List.foldl_append, ih (by omega)]
    have e1 : (n * nS + m) % nS = m := by
      rw [Nat.mul_comm, Nat.mul_add_mod, Nat.mod_eq_of_lt (by omega)]
    simp only [List.map_cons, List.map_nil, List.foldl_cons, List.foldl_nil, e1, if_neg (Nat.succ_ne_zero m)]
    have e2 : (if m = 0 then (if m = 0 then n else n + 1) + 1 else if m = 0 then n else n + 1) = n + 1 := by
      by_cases h : m = 0
      · simp [h]
      · simp [h]
    rw [e2, Nat.add_sub_cancel]
    congr 1
    refine List.ext_getElem? fun j => ?_
    rw [List.getElem?_modify, List.getElem?_modify, List.getElem?_modify, Finset.sum_range_succ]
    cases L[j]? with
    | none => rfl
    | some x =>
      by_cases h : n = j
      · simp [h, add_assoc]
      · simp [h]

theorem sumStates_eq {nS : ℕ} (hn : 0 < nS) (e : ℕ → ℝ) (nD : ℕ) :
    (sumStates nS e (nD * nS) (List.replicate nD 0)).2 =
      (List.range nD).map fun j => ∑ k ∈ Finset.range nS, e (j * nS + k) := by
  have key : ∀ n ≤ nD, (sumStates nS e (n * nS) (List.replicate nD 0)).1 = n ∧
      ∀ j < nD, (sumStates nS e (n * nS) (List.replicate nD 0)).2[j]? =
        some (if j < n then ∑ k ∈ Finset.range nS, e (j * nS + k) else 0) := by
    intro n
    induction n with
    | zero =>
      intro _
      simp only [Nat.zero_mul]
      refine ⟨rfl, fun j hj => ?_⟩
      show (List.replicate nD (0 : ℝ))[j]? = _
      simp [hj]
    | succ n ih =>
      intro hle
      obtain ⟨i1, i2⟩ := ih (by omega)
      have e1 : sumStates nS e ((n + 1) * nS) (List.replicate nD 0) =
          (n + 1, (sumStates nS e (n * nS) (List.replicate nD 0)).2.modify n (· + ∑ k ∈ Finset.range nS, e (n * nS + k))) := by
        have hb := sumStates_block nS e n (sumStates nS e (n * nS) (List.replicate nD 0)).2 nS (le_refl _)
        rw [if_neg (by omega)] at hb
        rw [← hb]
        conv_lhs => unfold sumStates
        rw [Nat.add_mul, Nat.one_mul, List.range_add, List.foldl_append]
        congr 1
        exact Prod.ext i1 rfl
      rw [e1]
      refine ⟨rfl, fun j hj => ?_⟩
      rw [List.getElem?_modify, i2 j hj]
      by_cases h : n = j
      · subst h
        simp
      · by_cases h' : j < n
        · simp [h, h', Nat.lt_succ_of_lt h']
        · have : ¬ j < n + 1 := by omega
          simp [h, h', this]
  have hlen : ∀ (l : List ℕ) (s : ℕ × List ℝ), (l.foldl (fun (s : ℕ × List ℝ) i =>
      ((if i % nS = 0 then s.1 + 1 else s.1), s.2.modify ((if i % nS = 0 then s.1 + 1 else s.1) - 1) (· + e i))) s).2.length
        = s.2.length := by
    intro l
    induction l with
    | nil => intro s; rfl
    | cons x l ih => intro s; rw [List.foldl_cons, ih]; simp
  refine List.ext_getElem? fun j => ?_
  by_cases hj : j < nD
  · rw [(key nD (le_refl _)).2 j hj, if_pos hj]
    simp [hj]
  · have : (sumStates nS e (nD * nS) (List.replicate nD 0)).2.length = nD := by
      unfold sumStates
      exact (hlen _ _).trans (by simp)
    rw [List.getElem?_eq_none (by omega), List.getElem?_eq_none (by simp; omega)]

end SQ
