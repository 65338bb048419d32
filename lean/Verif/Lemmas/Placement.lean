import Verif.Lemmas.OneElectron

/-!
# Lemmas: numbering of basis functions and block-wise filling
-/

namespace SQ

theorem placed_lt {shells : List GShell} (hp : Placed shells) {i i' : ℕ} {s s' : GShell} (hi : shells[i]? = some s)
    (hi' : shells[i']? = some s') (hlt : i < i') : s.start + s.nbf ≤ s'.start := by
  rw [hp i s hi, hp i' s' hi']
  have hil : i < shells.length := (List.getElem?_eq_some_iff.1 hi).1
  have h1 : shells.take (i + 1) = shells.take i ++ [s] := by
    rw [List.take_add_one, hi]; rfl
  have h2 : shells.take i' = shells.take (i + 1) ++ (shells.take i').drop (i + 1) := by
    rw [show shells.take (i + 1) = (shells.take i').take (i + 1) by rw [List.take_take]; congr 1; omega,
      List.take_append_drop]
  rw [h2, h1]
  simp only [List.map_append, List.sum_append, List.map_cons, List.map_nil, List.sum_cons, List.sum_nil]
  omega

/-- A basis function belongs to one shell only. -/
theorem placed_unique {shells : List GShell} (hp : Placed shells) {i i' : ℕ} {s s' : GShell}
    (hi : shells[i]? = some s) (hi' : shells[i']? = some s') {a : ℕ} (h1 : s.start ≤ a) (h2 : a < s.start + s.nbf)
    (h1' : s'.start ≤ a) (h2' : a < s'.start + s'.nbf) : i = i' := by
  rcases Nat.lt_trichotomy i i' with h | h | h
  · have := placed_lt hp hi hi' h; omega
  · exact h
  · have := placed_lt hp hi' hi h; omega

/-! ## Loops of writes -/

theorem foldl_keep {σ ι : Type} (read : σ → ℝ) (g : ℝ) (step : σ → ι → σ) :
    ∀ (l : List ι), (∀ x ∈ l, ∀ S, read (step S x) = g ∨ read (step S x) = read S) → ∀ S,
      read (l.foldl step S) = g ∨ read (l.foldl step S) = read S
  | [], _, S => Or.inr rfl
  | x :: l, h, S => by
    rw [List.foldl_cons]
    rcases foldl_keep read g step l (fun y hy => h y (by simp [hy])) (step S x) with h1 | h1
    · exact Or.inl h1
    · rw [h1]; exact h x (by simp) S

theorem foldl_set {σ ι : Type} (read : σ → ℝ) (g : ℝ) (step : σ → ι → σ) :
    ∀ (l : List ι), (∀ x ∈ l, ∀ S, read (step S x) = g ∨ read (step S x) = read S) →
      (∃ x ∈ l, ∀ S, read (step S x) = g) → ∀ S, read (l.foldl step S) = g
  | [], _, h, S => by simp at h
  | x :: l, hk, ⟨y, hy, hset⟩, S => by
    rw [List.foldl_cons]
    have hk' : ∀ z ∈ l, ∀ S, read (step S z) = g ∨ read (step S z) = read S := fun z hz => hk z (by simp [hz])
    rcases List.mem_cons.1 hy with rfl | hy
    · rcases foldl_keep read g step l hk' (step S y) with h1 | h1
      · exact h1
      · rw [h1]; exact hset S
    · exact foldl_set read g step l hk' ⟨y, hy, hset⟩ _

theorem mem_takeWhile_sorted {α : Type} (key : α → ℕ) (i : ℕ) :
    ∀ (l : List α), l.Pairwise (fun x y => key x < key y) → ∀ x ∈ l, key x ≤ i →
      x ∈ l.takeWhile fun y => decide (key y ≤ i)
  | [], _, x, hx, _ => by simp at hx
  | y :: l, hp, x, hx, hi => by
    rw [List.pairwise_cons] at hp
    rcases List.mem_cons.1 hx with rfl | hx
    · rw [List.takeWhile_cons_of_pos (by simpa using hi)]; simp
    · have := hp.1 x hx
      rw [List.takeWhile_cons_of_pos (by simp; omega)]
      exact List.mem_cons_of_mem _ (mem_takeWhile_sorted key i l hp.2 x hx hi)

theorem zipIdx_sorted (shells : List GShell) : shells.zipIdx.Pairwise fun x y => x.2 < y.2 := by
  have h : (shells.zipIdx.map Prod.snd).Pairwise (· < ·) := by
    rw [List.zipIdx_map_snd]
    exact List.pairwise_lt_range'
  rw [List.pairwise_map] at h
  exact h

theorem mem_zipIdx_shell {shells : List GShell} {p : GShell × ℕ} : p ∈ shells.zipIdx ↔ shells[p.2]? = some p.1 := by
  obtain ⟨s, i⟩ := p
  rw [List.mem_zipIdx_iff_getElem?]

theorem setBlock_at {n m : ℕ} (S : ℕ → ℕ → ℝ) (s₁ s₂ : ℕ) (B : Fin n → Fin m → ℝ) (k : Fin n) (l : Fin m) :
    setBlock S s₁ s₂ B (s₁ + k) (s₂ + l) = B k l := by
  unfold setBlock
  rw [dif_pos (by omega)]
  congr 1
  · ext; simp
  · ext; simp

theorem setBlock_off {n m : ℕ} (S : ℕ → ℕ → ℝ) (s₁ s₂ : ℕ) (B : Fin n → Fin m → ℝ) {a b : ℕ}
    (h : ¬ ((s₁ ≤ a ∧ a < s₁ + n) ∧ (s₂ ≤ b ∧ b < s₂ + m))) : setBlock S s₁ s₂ B a b = S a b := by
  unfold setBlock
  rw [dif_neg h]

/-- A block written for a pair of shells agrees with the integrals wherever it is written. -/
theorem setBlock_keep {shells : List GShell} (hp : Placed shells) {i j : ℕ} {s t : GShell} (hi : shells[i]? = some s)
    (hj : shells[j]? = some t) (k : Fin s.nbf) (l : Fin t.nbf) {i' j' : ℕ} {s' t' : GShell}
    (hi' : shells[i']? = some s') (hj' : shells[j']? = some t') (B : (s t : GShell) → Fin s.nbf → Fin t.nbf → ℝ)
    (S : ℕ → ℕ → ℝ) :
    setBlock S s'.start t'.start (B s' t') (s.start + k) (t.start + l) = B s t k l ∨
      setBlock S s'.start t'.start (B s' t') (s.start + k) (t.start + l) = S (s.start + k) (t.start + l) := by
  by_cases h : (s'.start ≤ s.start + k ∧ s.start + k < s'.start + s'.nbf) ∧
      (t'.start ≤ t.start + l ∧ t.start + l < t'.start + t'.nbf)
  · left
    have e1 : i = i' := placed_unique hp hi hi' (Nat.le_add_right _ _) (by omega) h.1.1 h.1.2
    have e2 : j = j' := placed_unique hp hj hj' (Nat.le_add_right _ _) (by omega) h.2.1 h.2.2
    subst e1; subst e2
    rw [hi] at hi'; rw [hj] at hj'
    cases hi'; cases hj'
    exact setBlock_at S _ _ _ k l
  · right
    exact setBlock_off S _ _ _ h

/-- The one-electron drivers fill in the integrals of all pairs of functions. -/
theorem oneElectronDriver_eq (kernel : (s₁ s₂ : GShell) → Fin s₁.nbf → Fin s₂.nbf → ℝ) (shells : List GShell)
    (hp : Placed shells)
    (hsym : ∀ s ∈ shells, ∀ t ∈ shells, ∀ k l, kernel s t k l = kernel t s l k) {i j : ℕ} {s t : GShell}
    (hi : shells[i]? = some s) (hj : shells[j]? = some t) (k : Fin s.nbf) (l : Fin t.nbf) :
    oneElectronDriver kernel shells (s.start + k) (t.start + l) = kernel s t k l := by
  unfold oneElectronDriver
  have hmem : ∀ {i : ℕ} {s : GShell}, shells[i]? = some s → s ∈ shells := fun h => List.mem_of_getElem? h
  have htr : ∀ (p₁ p₂ : GShell × ℕ), p₁ ∈ shells.zipIdx → p₂ ∈ shells.zipIdx → ∀ S,
      setBlock (setBlock S p₁.1.start p₂.1.start (kernel p₁.1 p₂.1)) p₂.1.start p₁.1.start
        (fun b a => kernel p₁.1 p₂.1 a b) =
      setBlock (setBlock S p₁.1.start p₂.1.start (kernel p₁.1 p₂.1)) p₂.1.start p₁.1.start (kernel p₂.1 p₁.1) := by
    intro p₁ p₂ h1 h2 S
    rw [mem_zipIdx_shell] at h1 h2
    congr 1
    funext b a
    exact hsym _ (hmem h1) _ (hmem h2) a b
  have keep : ∀ (p₁ p₂ : GShell × ℕ), p₁ ∈ shells.zipIdx → p₂ ∈ shells.zipIdx → ∀ S : ℕ → ℕ → ℝ,
      setBlock (setBlock S p₁.1.start p₂.1.start (kernel p₁.1 p₂.1)) p₂.1.start p₁.1.start
        (fun b a => kernel p₁.1 p₂.1 a b) (s.start + k) (t.start + l) = kernel s t k l ∨
      setBlock (setBlock S p₁.1.start p₂.1.start (kernel p₁.1 p₂.1)) p₂.1.start p₁.1.start
        (fun b a => kernel p₁.1 p₂.1 a b) (s.start + k) (t.start + l) = S (s.start + k) (t.start + l) := by
    intro p₁ p₂ h1 h2 S
    rw [htr p₁ p₂ h1 h2]
    rw [mem_zipIdx_shell] at h1 h2
    rcases setBlock_keep hp hi hj k l h2 h1 kernel (setBlock S p₁.1.start p₂.1.start (kernel p₁.1 p₂.1)) with h | h
    · exact Or.inl h
    · rw [h]
      exact setBlock_keep hp hi hj k l h1 h2 kernel S
  have mem1 : (s, i) ∈ shells.zipIdx := mem_zipIdx_shell.2 hi
  have mem2 : (t, j) ∈ shells.zipIdx := mem_zipIdx_shell.2 hj
  have hsub : ∀ (q : GShell × ℕ) (p : GShell × ℕ),
      p ∈ (shells.zipIdx.takeWhile fun p₂ => decide (p₂.2 ≤ q.2)) → p ∈ shells.zipIdx := fun q p h =>
    (List.takeWhile_sublist _).subset h
  refine foldl_set (fun S : ℕ → ℕ → ℝ => S (s.start + k) (t.start + l)) (kernel s t k l) _ shells.zipIdx ?_ ?_ _
  · intro p₁ hp₁ S
    exact foldl_keep (fun S : ℕ → ℕ → ℝ => S (s.start + k) (t.start + l)) _ _ _
      (fun p₂ hp₂ S => keep p₁ p₂ hp₁ (hsub p₁ p₂ hp₂) S) S
  · rcases Nat.le_total j i with hji | hij
    · refine ⟨(s, i), mem1, fun S => ?_⟩
      refine foldl_set (fun S : ℕ → ℕ → ℝ => S (s.start + k) (t.start + l)) _ _ _
        (fun p₂ hp₂ S => keep (s, i) p₂ mem1 (hsub (s, i) p₂ hp₂) S) ⟨(t, j), ?_, fun S => ?_⟩ S
      · exact mem_takeWhile_sorted Prod.snd i _ (zipIdx_sorted shells) _ mem2 hji
      · simp only
        rw [htr (s, i) (t, j) mem1 mem2]
        rcases setBlock_keep hp hi hj k l hj hi kernel (setBlock S s.start t.start (kernel s t)) with h | h
        · exact h
        · rw [h]; exact setBlock_at S _ _ _ k l
    · refine ⟨(t, j), mem2, fun S => ?_⟩
      refine foldl_set (fun S : ℕ → ℕ → ℝ => S (s.start + k) (t.start + l)) _ _ _
        (fun p₂ hp₂ S => keep (t, j) p₂ mem2 (hsub (t, j) p₂ hp₂) S) ⟨(s, i), ?_, fun S => ?_⟩ S
      · exact mem_takeWhile_sorted Prod.snd j _ (zipIdx_sorted shells) _ mem1 hij
      · simp only
        rw [htr (t, j) (s, i) mem2 mem1]
        exact setBlock_at _ _ _ _ k l

/-! ## Amplitudes -/

theorem foldl_add_sum {ι : Type} (f : ι → ℝ) : ∀ (l : List ι) (a : ℝ), l.foldl (fun acc x => acc + f x) a = a + (l.map f).sum
  | [], a => by simp
  | x :: l, a => by rw [List.foldl_cons, foldl_add_sum f l]; simp [add_assoc]

theorem primitiveGauss_eq (r R : Fin 3 → ℝ) (α : ℝ) (l : Fin 3 → ℕ) : primitiveGauss r R α l = prim R α l r := by
  rw [prim_eq, primitiveGauss, Fin.prod_univ_three, Fin.sum_univ_three]

theorem amplitude_shell (s : GShell) (r : Fin 3 → ℝ) (bf : ℕ) (acc : ℝ) :
    (List.finRange s.nbf).foldl (fun acc k =>
      if s.start + k.val = bf then
        (List.finRange s.nprim).foldl (fun acc i =>
          acc + s.norm k i * s.coefficients i * primitiveGauss r s.center (s.exponents i) (s.angular k)) acc
      else acc) acc =
    acc + ∑ k : Fin s.nbf, if s.start + k.val = bf then shellFunction s k r else 0 := by
  have e : ∀ (acc : ℝ) (k : Fin s.nbf), (if s.start + k.val = bf then
        (List.finRange s.nprim).foldl (fun acc i =>
          acc + s.norm k i * s.coefficients i * primitiveGauss r s.center (s.exponents i) (s.angular k)) acc
      else acc) = acc + if s.start + k.val = bf then shellFunction s k r else 0 := by
    intro acc k
    split_ifs with h
    · rw [foldl_add_sum, shellFunction_eq, ← Fin.sum_univ_def]
      simp only [primitiveGauss_eq]
    · simp
  rw [show (fun (acc : ℝ) (k : Fin s.nbf) => if s.start + k.val = bf then
        (List.finRange s.nprim).foldl (fun acc i =>
          acc + s.norm k i * s.coefficients i * primitiveGauss r s.center (s.exponents i) (s.angular k)) acc
      else acc) = fun acc k => acc + if s.start + k.val = bf then shellFunction s k r else 0 from by
        funext acc k; exact e acc k, foldl_add_sum, ← Fin.sum_univ_def]

theorem basisAmplitude_sum (shells : List GShell) (r : Fin 3 → ℝ) (bf : ℕ) :
    basisAmplitude shells r bf = (shells.map fun s : GShell =>
      ∑ k : Fin s.nbf, if s.start + k.val = bf then shellFunction s k r else 0).sum := by
  unfold basisAmplitude
  rw [show (fun (acc : ℝ) (s : GShell) => (List.finRange s.nbf).foldl (fun acc k =>
      if s.start + k.val = bf then
        (List.finRange s.nprim).foldl (fun acc i =>
          acc + s.norm k i * s.coefficients i * primitiveGauss r s.center (s.exponents i) (s.angular k)) acc
      else acc) acc) = fun acc s => acc + ∑ k : Fin s.nbf, if s.start + k.val = bf then shellFunction s k r else 0 from by
        funext acc s; exact amplitude_shell s r bf acc, foldl_add_sum, zero_add]

theorem basisAmplitude_eq (shells : List GShell) (hp : Placed shells) {i : ℕ} {s : GShell} (hi : shells[i]? = some s)
    (k : Fin s.nbf) (r : Fin 3 → ℝ) : basisAmplitude shells r (s.start + k) = shellFunction s k r := by
  rw [basisAmplitude_sum]
  obtain ⟨hil, hget⟩ := List.getElem?_eq_some_iff.1 hi
  have hz : ∀ (i' : ℕ) (s' : GShell), shells[i']? = some s' → i' ≠ i →
      (∑ k' : Fin s'.nbf, if s'.start + k'.val = s.start + k then shellFunction s' k' r else 0) = 0 := by
    intro i' s' hi' hne
    refine Finset.sum_eq_zero fun k' _ => if_neg fun he => hne ?_
    exact placed_unique hp hi' hi (a := s'.start + k') (by omega) (by omega) (by omega) (by omega)
  have hself : (∑ k' : Fin s.nbf, if s.start + k'.val = s.start + k then shellFunction s k' r else 0) =
      shellFunction s k r := by
    rw [Finset.sum_eq_single k]
    · simp
    · intro k' _ hne
      exact if_neg fun he => hne (Fin.ext (by omega))
    · simp
  have hsum : ∀ (l : List ℝ) (n : ℕ) (v : ℝ), l[n]? = some v → (∀ m w, l[m]? = some w → m ≠ n → w = 0) → l.sum = v := by
    intro l
    induction l with
    | nil => intro n v h; simp at h
    | cons x l ih =>
      intro n v h h0
      rcases n with _ | n
      · simp only [List.getElem?_cons_zero, Option.some.injEq] at h
        have : l.sum = 0 := List.sum_eq_zero fun w hw => by
          obtain ⟨m, hm⟩ := List.mem_iff_getElem?.1 hw
          exact h0 (m + 1) w (by simpa using hm) (by omega)
        rw [List.sum_cons, this, h, add_zero]
      · have hx : x = 0 := h0 0 x (by simp) (by omega)
        rw [List.sum_cons, hx, zero_add]
        exact ih n v (by simpa using h) fun m w hm hne => h0 (m + 1) w (by simpa using hm) (by omega)
  refine hsum _ i _ ?_ ?_
  · rw [List.getElem?_map, hi, Option.map_some, hself]
  · intro m w hm hne
    rw [List.getElem?_map, Option.map_eq_some_iff] at hm
    obtain ⟨s', hs', rfl⟩ := hm
    exact hz m s' hs' hne

end SQ
