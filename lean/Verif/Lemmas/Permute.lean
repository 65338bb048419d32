import Verif.Lemmas.Routing
import Verif.Lemmas.Qubits

/-!
# Permutation by swaps along paths
-/

namespace SQ

theorem swapAt_spec {α : Type} {l : List α} {i j : ℕ} (hi : i < l.length) (hj : j < l.length) :
    ∃ l', swapAt l i j = .ok l' ∧ l'.length = l.length ∧ ∀ k : ℕ, l'[k]? = l[Equiv.swap i j k]? := by
  unfold swapAt
  rw [List.getElem?_eq_getElem hi, List.getElem?_eq_getElem hj]
  refine ⟨_, rfl, by simp, fun k => ?_⟩
  by_cases hkj : k = j
  · subst hkj
    rw [List.getElem?_set_self (by simpa using hj), Equiv.swap_apply_right, List.getElem?_eq_getElem hi]
  · rw [List.getElem?_set_ne (Ne.symm hkj)]
    by_cases hki : k = i
    · subst hki
      rw [List.getElem?_set_self hi, Equiv.swap_apply_left, List.getElem?_eq_getElem hj]
    · rw [List.getElem?_set_ne (Ne.symm hki), Equiv.swap_apply_of_ne_of_ne hki hkj]

theorem swapAt_ok {α : Type} {l l' : List α} {i j : ℕ} (h : swapAt l i j = .ok l') : i < l.length ∧ j < l.length := by
  unfold swapAt at h
  cases hi : l[i]? with
  | none => rw [hi] at h; simp at h
  | some a =>
    cases hj : l[j]? with
    | none => rw [hi, hj] at h; simp at h
    | some b => exact ⟨(List.getElem?_eq_some_iff.1 hi).1, (List.getElem?_eq_some_iff.1 hj).1⟩

/-- A list whose entries are those of another at exchanged positions is a rearrangement. -/
theorem swapAt_perm {α : Type} {l l' : List α} {i j : ℕ} (h : swapAt l i j = .ok l') : l'.Perm l := by
  obtain ⟨hi, hj⟩ := swapAt_ok h
  unfold swapAt at h
  rw [List.getElem?_eq_getElem hi, List.getElem?_eq_getElem hj] at h
  have : l' = (l.set i l[j]).set j l[i] := (Except.ok.inj h).symm
  rw [this]
  exact List.set_set_perm hi hj

/-- Positions, emitted gates and their meaning. -/
structure SwapInv {n : ℕ} (edges : List (ℕ × ℕ)) (s : List ℕ × List (Gate n)) : Prop where
  perm : s.1.Perm (List.range n)
  coupled : ∀ g ∈ s.2, ∃ a b : Fin n, g = .swap a b ∧ Coupled edges a b
  sem : ∀ (ψ : QState n) (l l' : Fin n → Bool), (∀ p q : Fin n, s.1[(p : ℕ)]? = some (q : ℕ) → l' q = l p) →
    runCircuit s.2 ψ l = ψ l'

theorem SwapInv.length {n : ℕ} {edges : List (ℕ × ℕ)} {s : List ℕ × List (Gate n)} (h : SwapInv edges s) : s.1.length = n := by
  rw [h.perm.length_eq, List.length_range]

theorem swapInv_init (n : ℕ) (edges : List (ℕ × ℕ)) : SwapInv (n := n) edges (List.range n, []) where
  perm := List.Perm.refl _
  coupled := by simp
  sem := by
    intro ψ l l' h
    have : l' = l := by
      funext p
      refine h p p ?_
      rw [List.getElem?_range p.2]
    rw [this]; rfl

theorem fin_swap {n : ℕ} {a b : ℕ} (ha : a < n) (hb : b < n) (p : Fin n) :
    ((Equiv.swap (⟨a, ha⟩ : Fin n) ⟨b, hb⟩ p : Fin n) : ℕ) = Equiv.swap a b (p : ℕ) := by
  by_cases h1 : p = ⟨a, ha⟩
  · subst h1; simp
  · by_cases h2 : p = ⟨b, hb⟩
    · subst h2; simp
    · have h1' : (p : ℕ) ≠ a := fun e => h1 (Fin.ext e)
      have h2' : (p : ℕ) ≠ b := fun e => h2 (Fin.ext e)
      rw [Equiv.swap_apply_of_ne_of_ne h1 h2, Equiv.swap_apply_of_ne_of_ne h1' h2']

theorem SwapInv.swap {n : ℕ} {edges : List (ℕ × ℕ)} {pos pos' : List ℕ} {gates : List (Gate n)} (h : SwapInv edges (pos, gates))
    {a b : ℕ} (ha : a < n) (hb : b < n) (hc : Coupled edges a b) (hs : swapAt pos a b = .ok pos') :
    SwapInv edges (pos', gates ++ [.swap ⟨a, ha⟩ ⟨b, hb⟩]) where
  perm := (swapAt_perm hs).trans h.perm
  coupled := by
    intro g hg
    rcases List.mem_append.1 hg with hg | hg
    · exact h.coupled g hg
    · rw [List.mem_singleton] at hg
      exact ⟨_, _, hg, hc⟩
  sem := by
    intro ψ l l' hl
    have hlen : pos.length = n := h.length
    obtain ⟨p2, e1, -, e3⟩ := swapAt_spec (l := pos) (i := a) (j := b) (by omega) (by omega)
    rw [hs] at e1
    cases e1
    unfold runCircuit
    rw [List.foldl_append, List.foldl_cons, List.foldl_nil]
    show runCircuit gates ψ (fun i => l (Equiv.swap ⟨a, ha⟩ ⟨b, hb⟩ i)) = ψ l'
    refine h.sem ψ _ l' fun p q hpq => hl _ q ?_
    simp only
    rw [e3, fin_swap, Equiv.swap_apply_self]
    exact hpq

theorem swapAlong_inv {n : ℕ} {edges : List (ℕ × ℕ)} : ∀ (path : List ℕ) (s s' : List ℕ × List (Gate n)),
    path.IsChain (Coupled edges) → SwapInv edges s → swapAlong path s = .ok s' → SwapInv edges s' := by
  intro path
  induction path with
  | nil => intro s s' _ h hs; simp only [swapAlong, Except.ok.injEq] at hs; exact hs ▸ h
  | cons a path ih =>
    intro s s' hc h hs
    cases path with
    | nil => simp only [swapAlong, Except.ok.injEq] at hs; exact hs ▸ h
    | cons b path =>
      obtain ⟨pos, gates⟩ := s
      unfold swapAlong at hs
      by_cases hab : a < n ∧ b < n ∧ a ≠ b
      · rw [dif_pos hab] at hs
        cases hsw : swapAt pos a b with
        | error e => rw [hsw] at hs; cases hs
        | ok pos' =>
          rw [hsw] at hs
          rw [List.isChain_cons_cons] at hc
          exact ih _ _ hc.2 (h.swap hab.1 hab.2.1 hc.1 hsw) hs
      · rw [dif_neg hab] at hs; cases hs

theorem placeTarget_inv {n : ℕ} {edges : List (ℕ × ℕ)} {perm : List ℕ} {s s' : List ℕ × List (Gate n)} {t : ℕ}
    (h : SwapInv edges s) (hs : placeTarget edges perm s t = .ok s') : SwapInv edges s' := by
  unfold placeTarget at hs
  cases hq : perm[t]? with
  | none => rw [hq] at hs; cases hs
  | some q =>
    rw [hq] at hs
    simp only at hs
    cases hp : s.1.findIdx? (· == q) with
    | none => rw [hp] at hs; cases hs
    | some p =>
      rw [hp] at hs
      simp only at hs
      split_ifs at hs with hpt
      · rcases findBestPath_spec edges p t with ⟨l, k, h1, h2, -⟩ | ⟨h1, -⟩
        · rw [h1] at hs
          exact swapAlong_inv l s s' h2.2.2 h hs
        · rw [h1] at hs; cases hs
      · cases hs; exact h

theorem foldlM_inv {α β : Type} {P : α → Prop} {f : α → β → Res α} (hf : ∀ a b a', P a → f a b = .ok a' → P a') :
    ∀ (l : List β) (a a' : α), P a → l.foldlM f a = .ok a' → P a' := by
  intro l
  induction l with
  | nil => intro a a' h e; cases e; exact h
  | cons b l ih =>
    intro a a' h e
    rw [List.foldlM_cons] at e
    cases hb : f a b with
    | error x => rw [hb] at e; cases e
    | ok a1 => rw [hb] at e; exact ih a1 a' (hf a b a1 h hb) e

theorem permutationLoop_inv {n : ℕ} {edges : List (ℕ × ℕ)} {perm : List ℕ} : ∀ (f : ℕ) (s : List ℕ × List (Gate n)) gates,
    SwapInv edges s → permutationLoop edges perm f s = .ok gates → SwapInv edges (perm, gates) := by
  intro f
  induction f with
  | zero =>
    intro s gates h e
    unfold permutationLoop at e
    split_ifs at e with hp
    cases e
    have : s.1 = perm := by simpa using hp
    rw [← this]; exact h
  | succ f ih =>
    intro s gates h e
    unfold permutationLoop at e
    split_ifs at e with hp
    · cases hsw : permutationSweep edges perm s with
      | error x => rw [hsw] at e; cases e
      | ok s1 =>
        rw [hsw] at e
        exact ih s1 gates (foldlM_inv (fun _ _ _ h e => placeTarget_inv h e) _ _ _ h hsw) e
    · cases e
      have : s.1 = perm := by simpa using hp
      rw [← this]; exact h

/-! ### Termination -/

theorem swapAlong_effect {n : ℕ} : ∀ (path : List ℕ) (a : ℕ) (pos : List ℕ) (gates : List (Gate n)), pos.length = n →
    (∀ x ∈ a :: path, x < n) → (a :: path).IsChain (· ≠ ·) →
    ∃ pos' gates', swapAlong (a :: path) (pos, gates) = .ok (pos', gates') ∧
      (∀ b, (a :: path).getLast? = some b → pos'[b]? = pos[a]?) ∧ ∀ k, k ∉ a :: path → pos'[k]? = pos[k]? := by
  intro path
  induction path with
  | nil =>
    intro a pos gates _ _ _
    refine ⟨pos, gates, rfl, fun b hb => ?_, fun _ _ => rfl⟩
    simp only [List.getLast?_singleton, Option.some.injEq] at hb
    rw [hb]
  | cons b path ih =>
    intro a pos gates hl hn hc
    rw [List.isChain_cons_cons] at hc
    have ha : a < n := hn a (by simp)
    have hb : b < n := hn b (by simp)
    obtain ⟨pos1, e1, e2, e3⟩ := swapAt_spec (l := pos) (i := a) (j := b) (by omega) (by omega)
    obtain ⟨pos', gates', h1, h2, h3⟩ := ih b pos1 (gates ++ [.swap ⟨a, ha⟩ ⟨b, hb⟩]) (by omega)
      (fun x hx => hn x (by simp [List.mem_cons.1 hx])) hc.2
    refine ⟨pos', gates', ?_, ?_, ?_⟩
    · unfold swapAlong
      rw [dif_pos ⟨ha, hb, hc.1⟩, e1]
      exact h1
    · intro c hcl
      rw [List.getLast?_cons_cons] at hcl
      rw [h2 c hcl, e3, Equiv.swap_apply_right]
    · intro k hk
      have hka : k ≠ a := fun e => hk (by simp [e])
      have hkb : k ≠ b := fun e => hk (by simp [e])
      rw [h3 k (fun hm => hk (List.mem_cons_of_mem _ hm)), e3, Equiv.swap_apply_of_ne_of_ne hka hkb]

theorem steps_get {edges : List (ℕ × ℕ)} {l : List ℕ} {a : ℕ} (h0 : l.head? = some a) (hc : l.IsChain (Coupled edges)) :
    ∀ (i v : ℕ), l[i]? = some v → Steps edges a i v := by
  intro i
  induction i with
  | zero =>
    intro v hv
    rw [List.head?_eq_getElem?] at h0
    rw [h0] at hv
    cases hv; rfl
  | succ i ih =>
    intro v hv
    obtain ⟨hi, he⟩ := List.getElem?_eq_some_iff.1 hv
    have hi' : i < l.length := by omega
    refine ⟨l[i], ih _ (List.getElem?_eq_getElem hi'), ?_⟩
    rw [← he]
    exact List.isChain_iff_getElem.1 hc i hi

theorem steps_extend {edges : List (ℕ × ℕ)} {l : List ℕ} {a : ℕ} (hc : l.IsChain (Coupled edges)) {i j u : ℕ}
    (hu : l[i]? = some u) (hj : Steps edges a j u) : ∀ (m v : ℕ), l[i + m]? = some v → Steps edges a (j + m) v := by
  intro m
  induction m with
  | zero => intro v hv; rw [Nat.add_zero, hu] at hv; cases hv; exact hj
  | succ m ih =>
    intro v hv
    obtain ⟨hi, he⟩ := List.getElem?_eq_some_iff.1 hv
    have hi' : i + m < l.length := by omega
    refine ⟨l[i + m], ih _ (List.getElem?_eq_getElem hi'), ?_⟩
    rw [← he]
    exact List.isChain_iff_getElem.1 hc (i + m) hi

/-- The vertices of a shortest route are different. -/
theorem route_nodup {edges : List (ℕ × ℕ)} {l : List ℕ} {a b k : ℕ} (h : IsRoute edges l a b) (hd : AtDist edges a k b)
    (hl : l.length = k + 1) : l.Nodup := by
  have key : ∀ i j : ℕ, ∀ v, l[i]? = some v → l[j]? = some v → j ≤ i := by
    intro i j v hi hj
    by_contra hlt
    have hjl := (List.getElem?_eq_some_iff.1 hj).1
    have h1 := steps_get h.1 h.2.2 i v hi
    have hb : l[j + (l.length - 1 - j)]? = some b := by
      have := h.2.1
      rw [List.getLast?_eq_getElem?] at this
      rw [← this]; congr 1; omega
    have := steps_extend h.2.2 hj h1 _ b hb
    exact hd.2 _ (by omega) this
  rw [List.nodup_iff_getElem?_ne_getElem?]
  intro i j hij hj e
  have hi : i < l.length := by omega
  have := key i j l[i] (List.getElem?_eq_getElem hi) (by rw [← e, List.getElem?_eq_getElem hi])
  omega

theorem route_within {edges : List (ℕ × ℕ)} {n : ℕ} (hw : Within edges n) {l : List ℕ} {a b : ℕ} (ha : a < n)
    (h : IsRoute edges l a b) : ∀ x ∈ l, x < n := by
  intro x hx
  obtain ⟨i, hi, he⟩ := List.getElem_of_mem hx
  have := steps_get h.1 h.2.2 i x (by rw [List.getElem?_eq_getElem hi, he])
  cases i with
  | zero => rw [show x = a from this]; exact ha
  | succ i =>
    obtain ⟨u, -, hc⟩ := this
    rcases hc with hc | hc
    · exact (hw _ hc).2
    · exact (hw _ hc).1

/-- Interior vertices of found paths have larger rank than one of the ends. -/
def Ranked (edges : List (ℕ × ℕ)) (n : ℕ) (r : ℕ → ℕ) : Prop :=
  ∀ a < n, ∀ t < n, ∀ l, findBestPath edges a t = .ok l → ∀ v ∈ l, v = a ∨ v = t ∨ min (r a) (r t) < r v

/-- Progress of a sweep: positions of rank below `k` are settled, those of rank `k` below `t` too. -/
def Settled (perm : List ℕ) (r : ℕ → ℕ) (k t : ℕ) (pos : List ℕ) : Prop :=
  ∀ p, (r p < k ∨ (r p = k ∧ p < t)) → pos[p]? = perm[p]?

theorem getElem?_inj_nodup {l : List ℕ} (h : l.Nodup) {i j v : ℕ} (hi : l[i]? = some v) (hj : l[j]? = some v) : i = j :=
  (List.getElem?_inj (List.getElem?_eq_some_iff.1 hi).1 h).1 (hi.trans hj.symm)

theorem placeTarget_settled {n : ℕ} {edges : List (ℕ × ℕ)} {perm : List ℕ} (hperm : perm.Perm (List.range n))
    (hw : Within edges n) (hcon : Connected edges n) {r : ℕ → ℕ} (hr : Ranked edges n r) {k t : ℕ} (ht : t < n)
    {s : List ℕ × List (Gate n)} (h : SwapInv edges s) (hset : Settled perm r k t s.1) :
    ∃ s', placeTarget edges perm s t = .ok s' ∧ SwapInv edges s' ∧ Settled perm r k (t + 1) s'.1 := by
  have hpl : perm.length = n := by rw [hperm.length_eq, List.length_range]
  have hpn : perm.Nodup := hperm.nodup_iff.2 List.nodup_range
  have hsn : s.1.Nodup := h.perm.nodup_iff.2 List.nodup_range
  have hq : perm[t]? = some perm[t] := List.getElem?_eq_getElem (by omega)
  have hmem : perm[t] ∈ s.1 := h.perm.mem_iff.2 (hperm.mem_iff.1 (List.getElem_mem _))
  obtain ⟨p, hp⟩ : ∃ p, s.1.findIdx? (· == perm[t]) = some p := by
    cases hf : s.1.findIdx? (· == perm[t]) with
    | some p => exact ⟨p, rfl⟩
    | none =>
      rw [List.findIdx?_eq_none_iff] at hf
      have := hf _ hmem
      simp at this
  have hpv : s.1[p]? = some perm[t] := by
    obtain ⟨h1, h2, -⟩ := List.findIdx?_eq_some_iff_getElem.1 hp
    rw [List.getElem?_eq_getElem h1]
    simpa using h2
  have hpn' : p < n := by
    have := (List.getElem?_eq_some_iff.1 hpv).1
    rw [h.length] at this; exact this
  by_cases hpt : p = t
  · refine ⟨s, ?_, h, ?_⟩
    · unfold placeTarget
      rw [hq]
      simp only
      rw [hp]
      simp only
      rw [if_neg (by simpa using hpt)]
    · intro x hx
      by_cases hxt : x = t
      · subst hxt; rw [← hpt, hpv, hpt, hq]
      · exact hset x (hx.imp id fun ⟨h1, h2⟩ => ⟨h1, by omega⟩)
  · rcases findBestPath_spec edges p t with ⟨l, d, h1, h2, h3, h4⟩ | ⟨-, h2⟩
    · have hnd := route_nodup h2 h3 h4
      obtain ⟨x, l', rfl⟩ : ∃ x l', l = x :: l' := by
        cases l with
        | nil => simp at h4
        | cons x l' => exact ⟨x, l', rfl⟩
      have hxp : x = p := by simpa using h2.1
      subst hxp
      have hne : (x :: l').IsChain (· ≠ ·) := (List.isChain_iff_getElem.2 fun i hi => by
        intro e
        have := (List.Nodup.getElem_inj_iff hnd).1 e
        omega)
      obtain ⟨pos', gates', e1, e2, e3⟩ := swapAlong_effect l' x s.1 s.2 h.length (route_within hw hpn' h2) hne
      have hplace : placeTarget edges perm s t = .ok (pos', gates') := by
        unfold placeTarget
        rw [hq]
        simp only
        rw [hp]
        simp only
        rw [if_pos hpt, h1]
        exact e1
      refine ⟨_, hplace, placeTarget_inv h hplace, ?_⟩
      have e2' := e2 t h2.2.1
      -- neither end is settled
      have hxset : ¬ (r x < k ∨ (r x = k ∧ x < t)) := by
        intro hx
        have := hset x hx
        rw [hpv] at this
        exact hpt (getElem?_inj_nodup hpn this.symm hq)
      have htset : ¬ r t < k := by
        intro hx
        have := hset t (Or.inl hx)
        rw [hq] at this
        exact hpt (getElem?_inj_nodup hsn hpv this)
      intro y hy
      by_cases hyt : y = t
      · subst hyt
        show pos'[y]? = _
        rw [e2', hpv, hq]
      · have hy' : r y < k ∨ (r y = k ∧ y < t) := hy.imp id fun ⟨h1, h2⟩ => ⟨h1, by omega⟩
        have hyx : y ≠ x := by rintro rfl; exact hxset hy'
        have hyl : y ∉ x :: l' := by
          intro hm
          rcases hr x hpn' t ht _ h1 y hm with e | e | e
          · exact hyx e
          · exact hyt e
          · have : k ≤ r x := by
              by_contra hlt; exact hxset (Or.inl (by omega))
            omega
        show pos'[y]? = _
        rw [e3 y hyl]
        exact hset y hy'
    · obtain ⟨l, hl⟩ := hcon p hpn' t ht
      exact absurd (steps_of_route hl) (h2 _)

theorem sweep_settled {n : ℕ} {edges : List (ℕ × ℕ)} {perm : List ℕ} (hperm : perm.Perm (List.range n))
    (hw : Within edges n) (hcon : Connected edges n) {r : ℕ → ℕ} (hr : Ranked edges n r) {k : ℕ}
    {s : List ℕ × List (Gate n)} (h : SwapInv edges s) (hset : Settled perm r k 0 s.1) :
    ∃ s', permutationSweep edges perm s = .ok s' ∧ SwapInv edges s' ∧ Settled perm r (k + 1) 0 s'.1 := by
  have hpl : perm.length = n := by rw [hperm.length_eq, List.length_range]
  have key : ∀ m ≤ n, ∃ s', (List.range m).foldlM (placeTarget edges perm) s = .ok s' ∧ SwapInv edges s' ∧
      Settled perm r k m s'.1 := by
    intro m
    induction m with
    | zero => intro _; exact ⟨s, rfl, h, hset⟩
    | succ m ih =>
      intro hm
      obtain ⟨s1, g1, g2, g3⟩ := ih (by omega)
      obtain ⟨s2, k1, k2, k3⟩ := placeTarget_settled hperm hw hcon hr (t := m) (by omega) g2 g3
      refine ⟨s2, ?_, k2, k3⟩
      rw [List.range_succ, List.foldlM_append, g1]
      show (List.foldlM (placeTarget edges perm) s1 [m]) = _
      rw [List.foldlM_cons, k1]
      rfl
  obtain ⟨s', g1, g2, g3⟩ := key n le_rfl
  refine ⟨s', by unfold permutationSweep; rw [hpl]; exact g1, g2, fun p hp => ?_⟩
  have hp' : r p ≤ k := by omega
  by_cases hpn : p < n
  · exact g3 p (by omega)
  · rw [List.getElem?_eq_none (by rw [g2.length]; omega), List.getElem?_eq_none (by omega)]

theorem loop_terminates {n : ℕ} {edges : List (ℕ × ℕ)} {perm : List ℕ} (hperm : perm.Perm (List.range n))
    (hw : Within edges n) (hcon : Connected edges n) {r : ℕ → ℕ} (hr : Ranked edges n r) {K : ℕ} (hK : ∀ p < n, r p < K) :
    ∀ (f k : ℕ), K ≤ f + k → ∀ s : List ℕ × List (Gate n), SwapInv edges s → Settled perm r k 0 s.1 →
      ∃ gates, permutationLoop edges perm f s = .ok gates := by
  have hpl : perm.length = n := by rw [hperm.length_eq, List.length_range]
  intro f
  induction f with
  | zero =>
    intro k hk s h hset
    have : s.1 = perm := by
      apply List.ext_getElem?
      intro p
      by_cases hpn : p < n
      · exact hset p (Or.inl (by have := hK p hpn; omega))
      · rw [List.getElem?_eq_none (by rw [h.length]; omega), List.getElem?_eq_none (by omega)]
    exact ⟨s.2, by unfold permutationLoop; rw [if_neg (by simpa using this)]⟩
  | succ f ih =>
    intro k hk s h hset
    unfold permutationLoop
    by_cases he : s.1 = perm
    · exact ⟨s.2, by rw [if_neg (by simpa using he)]⟩
    · rw [if_pos he]
      obtain ⟨s', g1, g2, g3⟩ := sweep_settled hperm hw hcon hr h hset
      rw [g1]
      exact ih (k + 1) (by omega) s' g2 g3

/-- The depths of a forest rank its paths. -/
theorem forest_ranked {edges : List (ℕ × ℕ)} {n : ℕ} (hw : Within edges n) (hf : IsForest edges) :
    ∃ (r : ℕ → ℕ) (K : ℕ), Ranked edges n r ∧ ∀ p < n, r p < K := by
  obtain ⟨d, hd, hu⟩ := hf
  have hD : ∀ p < n, d p ≤ ∑ i ∈ Finset.range n, d i := fun p hp =>
    Finset.single_le_sum (f := d) (fun _ _ => Nat.zero_le _) (Finset.mem_range.2 hp)
  set D := ∑ i ∈ Finset.range n, d i
  refine ⟨fun p => D - d p, D + 1, ?_, fun p _ => Nat.lt_succ_of_le (Nat.sub_le _ _)⟩
  intro a ha t ht l hl v hv
  rcases findBestPath_spec edges a t with ⟨l', k, h1, h2, h3, h4⟩ | ⟨h1, -⟩
  · rw [hl] at h1
    cases h1
    have hnd := route_nodup h2 h3 h4
    have hin := route_within hw ha h2
    -- the deepest vertex is an end
    obtain ⟨m, hm, hmax⟩ : ∃ m ∈ l, ∀ x ∈ l, d x ≤ d m := by
      obtain ⟨m, hm, hmax⟩ := Finset.exists_max_image l.toFinset d ⟨v, by simpa using hv⟩
      exact ⟨m, by simpa using hm, fun x hx => hmax x (by simpa using hx)⟩
    have hends : ∀ m ∈ l, (∀ x ∈ l, d x ≤ d m) → m = a ∨ m = t := by
      intro m hm hmax
      obtain ⟨i, hi, he⟩ := List.getElem_of_mem hm
      by_cases h0 : i = 0
      · left
        have := h2.1
        subst h0
        rw [List.head?_eq_getElem?, List.getElem?_eq_getElem hi, he] at this
        exact Option.some.inj this
      · by_cases hlast : i + 1 = l.length
        · right
          have := h2.2.1
          rw [List.getLast?_eq_getElem?, ← hlast, Nat.add_sub_cancel, List.getElem?_eq_getElem hi, he] at this
          exact Option.some.inj this
        · exfalso
          have hi1 : i - 1 + 1 < l.length := by omega
          have hi2 : i + 1 < l.length := by omega
          have c1 := List.isChain_iff_getElem.1 h2.2.2 (i - 1) hi1
          have c2 := List.isChain_iff_getElem.1 h2.2.2 i hi2
          have e1 : l[i - 1 + 1] = m := by
            have : i - 1 + 1 = i := by omega
            simp only [this, he]
          rw [e1] at c1
          rw [he] at c2
          have hlt1 : d l[i - 1] < d m := lt_of_le_of_ne (hmax _ (List.getElem_mem _)) (hd _ _ c1)
          have hlt2 : d l[i + 1] < d m := lt_of_le_of_ne (hmax _ (List.getElem_mem _)) (Ne.symm (hd _ _ c2))
          have := hu m _ _ c1.symm c2 hlt1 hlt2
          have := (List.Nodup.getElem_inj_iff hnd).1 this
          omega
    by_cases hva : v = a
    · exact Or.inl hva
    · by_cases hvt : v = t
      · exact Or.inr (Or.inl hvt)
      · right; right
        have hlt : d v < d m := by
          refine lt_of_le_of_ne (hmax v hv) fun e => ?_
          rcases hends v hv (fun x hx => e ▸ hmax x hx) with h | h
          · exact hva h
          · exact hvt h
        have := hD m (hin m hm)
        have := hD v (hin v hv)
        show min (D - d a) (D - d t) < D - d v
        rcases hends m hm hmax with rfl | rfl <;> omega
  · rw [hl] at h1; cases h1

end SQ
