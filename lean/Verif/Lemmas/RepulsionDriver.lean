import Verif.Lemmas.Placement

/-!
# Lemmas: the driver of the repulsion integrals
-/

namespace SQ

/-- Values of the integrals of four functions of given shells. -/
abbrev Kernel4 := (s₁ s₂ s₃ s₄ : GShell) → Fin s₁.nbf → Fin s₂.nbf → Fin s₃.nbf → Fin s₄.nbf → ℝ

/-- The eight-fold symmetry of the kernel on the shells of a list. -/
structure Sym8 (kernel : Kernel4) (shells : List GShell) : Prop where
  left : ∀ p ∈ shells, ∀ q ∈ shells, ∀ r ∈ shells, ∀ s ∈ shells, ∀ a b c d, kernel p q r s a b c d = kernel q p r s b a c d
  right : ∀ p ∈ shells, ∀ q ∈ shells, ∀ r ∈ shells, ∀ s ∈ shells, ∀ a b c d, kernel p q r s a b c d = kernel p q s r a b d c
  pair : ∀ p ∈ shells, ∀ q ∈ shells, ∀ r ∈ shells, ∀ s ∈ shells, ∀ a b c d, kernel p q r s a b c d = kernel r s p q c d a b

/-- One assignment of a block of the tensor. -/
noncomputable def put (kernel : Kernel4) (V : ℕ → ℕ → ℕ → ℕ → ℝ) (x : GShell × GShell × GShell × GShell) :
    ℕ → ℕ → ℕ → ℕ → ℝ :=
  setBlock4 V x.1.start x.2.1.start x.2.2.1.start x.2.2.2.start (kernel x.1 x.2.1 x.2.2.1 x.2.2.2)

def eight (p q r s : GShell) : List (GShell × GShell × GShell × GShell) :=
  [(p, q, r, s), (q, p, r, s), (p, q, s, r), (q, p, s, r), (r, s, p, q), (r, s, q, p), (s, r, p, q), (s, r, q, p)]

theorem setEight_eq {kernel : Kernel4} {shells : List GShell} (hs : Sym8 kernel shells) {p q r s : GShell}
    (hp : p ∈ shells) (hq : q ∈ shells) (hr : r ∈ shells) (hs' : s ∈ shells) (V : ℕ → ℕ → ℕ → ℕ → ℝ) :
    setEight V p q r s (kernel p q r s) = (eight p q r s).foldl (put kernel) V := by
  have e2 : (fun b a c d => kernel p q r s a b c d) = kernel q p r s := by
    funext b a c d; exact hs.left p hp q hq r hr s hs' a b c d
  have e3 : (fun a b d c => kernel p q r s a b c d) = kernel p q s r := by
    funext a b d c; exact hs.right p hp q hq r hr s hs' a b c d
  have e4 : (fun b a d c => kernel p q r s a b c d) = kernel q p s r := by
    funext b a d c
    rw [hs.right p hp q hq r hr s hs' a b c d]; exact hs.left p hp q hq s hs' r hr a b d c
  have e5 : (fun c d a b => kernel p q r s a b c d) = kernel r s p q := by
    funext c d a b; exact hs.pair p hp q hq r hr s hs' a b c d
  have e6 : (fun c d b a => kernel p q r s a b c d) = kernel r s q p := by
    funext c d b a
    rw [hs.left p hp q hq r hr s hs' a b c d]; exact hs.pair q hq p hp r hr s hs' b a c d
  have e7 : (fun d c a b => kernel p q r s a b c d) = kernel s r p q := by
    funext d c a b
    rw [hs.right p hp q hq r hr s hs' a b c d]; exact hs.pair p hp q hq s hs' r hr a b d c
  have e8 : (fun d c b a => kernel p q r s a b c d) = kernel s r q p := by
    funext d c b a
    rw [hs.right p hp q hq r hr s hs' a b c d, hs.left p hp q hq s hs' r hr a b d c]
    exact hs.pair q hq p hp s hs' r hr b a d c
  simp only [setEight, eight, List.foldl_cons, List.foldl_nil, put]
  rw [e2, e3, e4, e5, e6, e7, e8]

theorem setBlock4_at {n₁ n₂ n₃ n₄ : ℕ} (V : ℕ → ℕ → ℕ → ℕ → ℝ) (s₁ s₂ s₃ s₄ : ℕ)
    (B : Fin n₁ → Fin n₂ → Fin n₃ → Fin n₄ → ℝ) (a : Fin n₁) (b : Fin n₂) (c : Fin n₃) (d : Fin n₄) :
    setBlock4 V s₁ s₂ s₃ s₄ B (s₁ + a) (s₂ + b) (s₃ + c) (s₄ + d) = B a b c d := by
  unfold setBlock4
  rw [dif_pos (by omega)]
  congr 1 <;> (ext; simp)

section

variable {kernel : Kernel4} {shells : List GShell} (hp : Placed shells) {i j k l : ℕ} {s₁ s₂ s₃ s₄ : GShell}
  (h₁ : shells[i]? = some s₁) (h₂ : shells[j]? = some s₂) (h₃ : shells[k]? = some s₃) (h₄ : shells[l]? = some s₄)
  (a : Fin s₁.nbf) (b : Fin s₂.nbf) (c : Fin s₃.nbf) (d : Fin s₄.nbf)

include hp h₁ h₂ h₃ h₄

theorem put_keep {x : GShell × GShell × GShell × GShell} (hx : x.1 ∈ shells ∧ x.2.1 ∈ shells ∧ x.2.2.1 ∈ shells ∧
    x.2.2.2 ∈ shells) (V : ℕ → ℕ → ℕ → ℕ → ℝ) :
    put kernel V x (s₁.start + a) (s₂.start + b) (s₃.start + c) (s₄.start + d) = kernel s₁ s₂ s₃ s₄ a b c d ∨
      put kernel V x (s₁.start + a) (s₂.start + b) (s₃.start + c) (s₄.start + d) =
        V (s₁.start + a) (s₂.start + b) (s₃.start + c) (s₄.start + d) := by
  obtain ⟨p, q, r, s⟩ := x
  obtain ⟨hx1, hx2, hx3, hx4⟩ := hx
  obtain ⟨i', hi'⟩ := List.mem_iff_getElem?.1 hx1
  obtain ⟨j', hj'⟩ := List.mem_iff_getElem?.1 hx2
  obtain ⟨k', hk'⟩ := List.mem_iff_getElem?.1 hx3
  obtain ⟨l', hl'⟩ := List.mem_iff_getElem?.1 hx4
  simp only at hi' hj' hk' hl'
  simp only [put]
  by_cases h : ((p.start ≤ s₁.start + a ∧ s₁.start + a < p.start + p.nbf) ∧
      (q.start ≤ s₂.start + b ∧ s₂.start + b < q.start + q.nbf)) ∧
      (r.start ≤ s₃.start + c ∧ s₃.start + c < r.start + r.nbf) ∧
      (s.start ≤ s₄.start + d ∧ s₄.start + d < s.start + s.nbf)
  · left
    obtain ⟨⟨g1, g2⟩, g3, g4⟩ := h
    have e1 : i = i' := placed_unique hp h₁ hi' (Nat.le_add_right _ _) (by omega) g1.1 g1.2
    have e2 : j = j' := placed_unique hp h₂ hj' (Nat.le_add_right _ _) (by omega) g2.1 g2.2
    have e3 : k = k' := placed_unique hp h₃ hk' (Nat.le_add_right _ _) (by omega) g3.1 g3.2
    have e4 : l = l' := placed_unique hp h₄ hl' (Nat.le_add_right _ _) (by omega) g4.1 g4.2
    subst e1 e2 e3 e4
    rw [h₁] at hi'; rw [h₂] at hj'; rw [h₃] at hk'; rw [h₄] at hl'
    cases hi'; cases hj'; cases hk'; cases hl'
    exact setBlock4_at V _ _ _ _ _ a b c d
  · right
    unfold setBlock4
    rw [dif_neg h]

theorem setEight_keep (hs : Sym8 kernel shells) {p q r s : GShell} (hx1 : p ∈ shells) (hx2 : q ∈ shells)
    (hx3 : r ∈ shells) (hx4 : s ∈ shells) (V : ℕ → ℕ → ℕ → ℕ → ℝ) :
    setEight V p q r s (kernel p q r s) (s₁.start + a) (s₂.start + b) (s₃.start + c) (s₄.start + d) =
      kernel s₁ s₂ s₃ s₄ a b c d ∨
    setEight V p q r s (kernel p q r s) (s₁.start + a) (s₂.start + b) (s₃.start + c) (s₄.start + d) =
        V (s₁.start + a) (s₂.start + b) (s₃.start + c) (s₄.start + d) := by
  rw [setEight_eq hs hx1 hx2 hx3 hx4]
  refine foldl_keep (fun V : ℕ → ℕ → ℕ → ℕ → ℝ => V (s₁.start + a) (s₂.start + b) (s₃.start + c) (s₄.start + d)) _ _ _
    (fun x hx V => put_keep (kernel := kernel) (x := x) hp h₁ h₂ h₃ h₄ a b c d ?_ V) V
  simp only [eight, List.mem_cons, List.not_mem_nil, or_false] at hx
  rcases hx with rfl | rfl | rfl | rfl | rfl | rfl | rfl | rfl <;> exact ⟨by assumption, by assumption, by assumption, by assumption⟩

theorem setEight_set (hs : Sym8 kernel shells) {p q r s : GShell} (hx1 : p ∈ shells) (hx2 : q ∈ shells)
    (hx3 : r ∈ shells) (hx4 : s ∈ shells) (hmem : (s₁, s₂, s₃, s₄) ∈ eight p q r s) (V : ℕ → ℕ → ℕ → ℕ → ℝ) :
    setEight V p q r s (kernel p q r s) (s₁.start + a) (s₂.start + b) (s₃.start + c) (s₄.start + d) =
      kernel s₁ s₂ s₃ s₄ a b c d := by
  rw [setEight_eq hs hx1 hx2 hx3 hx4]
  refine foldl_set (fun V : ℕ → ℕ → ℕ → ℕ → ℝ => V (s₁.start + a) (s₂.start + b) (s₃.start + c) (s₄.start + d)) _ _ _
    (fun x hx V => put_keep (kernel := kernel) (x := x) hp h₁ h₂ h₃ h₄ a b c d ?_ V)
    ⟨(s₁, s₂, s₃, s₄), hmem, fun S => setBlock4_at S _ _ _ _ (kernel s₁ s₂ s₃ s₄) a b c d⟩ V
  simp only [eight, List.mem_cons, List.not_mem_nil, or_false] at hx
  rcases hx with rfl | rfl | rfl | rfl | rfl | rfl | rfl | rfl <;> exact ⟨by assumption, by assumption, by assumption, by assumption⟩

/-- The condition under which a quadruple of shells is computed. -/
def Kept (screen : Option ((ℕ → ℕ → ℝ) × ℝ)) (p q r s : ℕ) : Prop :=
  match screen with
  | none => True
  | some (cs, thr) => ¬ cs p q * cs r s < thr

omit hp h₁ h₂ h₃ h₄ in
theorem repulsionStep_visit (screen : Option ((ℕ → ℕ → ℝ) × ℝ)) {p q r s : GShell × ℕ} (V : ℕ → ℕ → ℕ → ℕ → ℝ)
    (h : (r.2 ≤ s.2 ∧ pairIndex r.2 s.2 ≤ pairIndex p.2 q.2) ∧ Kept screen p.2 q.2 r.2 s.2) :
    repulsionStep kernel screen p q r s V = setEight V p.1 q.1 r.1 s.1 (kernel p.1 q.1 r.1 s.1) := by
  unfold repulsionStep
  rw [if_neg (by omega), if_neg (by omega)]
  cases screen with
  | none => rfl
  | some x =>
    have := h.2
    simp only [Kept] at this
    simp only
    rw [if_neg this]

omit hp h₁ h₂ h₃ h₄ in
theorem repulsionStep_skip (screen : Option ((ℕ → ℕ → ℝ) × ℝ)) {p q r s : GShell × ℕ} (V : ℕ → ℕ → ℕ → ℕ → ℝ)
    (h : ¬ ((r.2 ≤ s.2 ∧ pairIndex r.2 s.2 ≤ pairIndex p.2 q.2) ∧ Kept screen p.2 q.2 r.2 s.2)) :
    repulsionStep kernel screen p q r s V = V := by
  unfold repulsionStep
  by_cases c1 : s.2 < r.2
  · rw [if_pos c1]
  by_cases c2 : pairIndex p.2 q.2 < pairIndex r.2 s.2
  · rw [if_neg c1, if_pos c2]
  rw [if_neg c1, if_neg c2]
  have h' : ¬ Kept screen p.2 q.2 r.2 s.2 := fun hk => h ⟨by omega, hk⟩
  cases screen with
  | none => exact absurd trivial h'
  | some x =>
    simp only [Kept, not_not] at h'
    simp only
    rw [if_pos h']

theorem step_keep (hs : Sym8 kernel shells) (screen : Option ((ℕ → ℕ → ℝ) × ℝ)) {p q r s : GShell × ℕ}
    (hp' : p ∈ shells.zipIdx) (hq' : q ∈ shells.zipIdx) (hr' : r ∈ shells.zipIdx) (hs' : s ∈ shells.zipIdx)
    (V : ℕ → ℕ → ℕ → ℕ → ℝ) :
    repulsionStep kernel screen p q r s V (s₁.start + a) (s₂.start + b) (s₃.start + c) (s₄.start + d) =
      kernel s₁ s₂ s₃ s₄ a b c d ∨
    repulsionStep kernel screen p q r s V (s₁.start + a) (s₂.start + b) (s₃.start + c) (s₄.start + d) =
      V (s₁.start + a) (s₂.start + b) (s₃.start + c) (s₄.start + d) := by
  have hm : ∀ {x : GShell × ℕ}, x ∈ shells.zipIdx → x.1 ∈ shells := fun h => List.mem_of_getElem? (mem_zipIdx_shell.1 h)
  by_cases h : (r.2 ≤ s.2 ∧ pairIndex r.2 s.2 ≤ pairIndex p.2 q.2) ∧ Kept screen p.2 q.2 r.2 s.2
  · rw [repulsionStep_visit screen V h]
    exact setEight_keep hp h₁ h₂ h₃ h₄ a b c d hs (hm hp') (hm hq') (hm hr') (hm hs') V
  · rw [repulsionStep_skip screen V h]
    exact Or.inr rfl

theorem loop2_keep (hs : Sym8 kernel shells) (screen : Option ((ℕ → ℕ → ℝ) × ℝ)) {p q : GShell × ℕ}
    (hp' : p ∈ shells.zipIdx) (hq' : q ∈ shells.zipIdx) (V : ℕ → ℕ → ℕ → ℕ → ℝ) :
    (shells.zipIdx.foldl (fun V r => shells.zipIdx.foldl (fun V s => repulsionStep kernel screen p q r s V) V) V)
      (s₁.start + a) (s₂.start + b) (s₃.start + c) (s₄.start + d) = kernel s₁ s₂ s₃ s₄ a b c d ∨
    (shells.zipIdx.foldl (fun V r => shells.zipIdx.foldl (fun V s => repulsionStep kernel screen p q r s V) V) V)
      (s₁.start + a) (s₂.start + b) (s₃.start + c) (s₄.start + d) =
      V (s₁.start + a) (s₂.start + b) (s₃.start + c) (s₄.start + d) := by
  let read := fun V : ℕ → ℕ → ℕ → ℕ → ℝ => V (s₁.start + a) (s₂.start + b) (s₃.start + c) (s₄.start + d)
  exact foldl_keep read _ _ _ (fun r hr' V => foldl_keep read _ _ _ (fun s hs' V =>
    step_keep hp h₁ h₂ h₃ h₄ a b c d hs screen hp' hq' hr' hs' V) V) V

theorem loop3_keep (hs : Sym8 kernel shells) (screen : Option ((ℕ → ℕ → ℝ) × ℝ)) {p q : GShell × ℕ}
    (hp' : p ∈ shells.zipIdx) (hq' : q ∈ shells.zipIdx) (V : ℕ → ℕ → ℕ → ℕ → ℝ) :
    (if q.2 < p.2 then V else
      shells.zipIdx.foldl (fun V r => shells.zipIdx.foldl (fun V s => repulsionStep kernel screen p q r s V) V) V)
      (s₁.start + a) (s₂.start + b) (s₃.start + c) (s₄.start + d) = kernel s₁ s₂ s₃ s₄ a b c d ∨
    (if q.2 < p.2 then V else
      shells.zipIdx.foldl (fun V r => shells.zipIdx.foldl (fun V s => repulsionStep kernel screen p q r s V) V) V)
      (s₁.start + a) (s₂.start + b) (s₃.start + c) (s₄.start + d) =
      V (s₁.start + a) (s₂.start + b) (s₃.start + c) (s₄.start + d) := by
  by_cases c1 : q.2 < p.2
  · rw [if_pos c1]; exact Or.inr rfl
  · rw [if_neg c1]; exact loop2_keep hp h₁ h₂ h₃ h₄ a b c d hs screen hp' hq' V

theorem driver_keep (hs : Sym8 kernel shells) (screen : Option ((ℕ → ℕ → ℝ) × ℝ)) :
    repulsionDriver kernel screen shells (s₁.start + a) (s₂.start + b) (s₃.start + c) (s₄.start + d) =
      kernel s₁ s₂ s₃ s₄ a b c d ∨
    repulsionDriver kernel screen shells (s₁.start + a) (s₂.start + b) (s₃.start + c) (s₄.start + d) = 0 := by
  unfold repulsionDriver
  let read := fun V : ℕ → ℕ → ℕ → ℕ → ℝ => V (s₁.start + a) (s₂.start + b) (s₃.start + c) (s₄.start + d)
  exact foldl_keep read _ _ _ (fun p hp' V => foldl_keep read _ _ _ (fun q hq' V =>
    loop3_keep hp h₁ h₂ h₃ h₄ a b c d hs screen hp' hq' V) V) _

/-- A quadruple that is visited and not screened out is assigned. -/
theorem driver_set (hs : Sym8 kernel shells) (screen : Option ((ℕ → ℕ → ℝ) × ℝ)) {p q r s : GShell × ℕ}
    (hp' : p ∈ shells.zipIdx) (hq' : q ∈ shells.zipIdx) (hr' : r ∈ shells.zipIdx) (hs' : s ∈ shells.zipIdx)
    (c1 : p.2 ≤ q.2) (c2 : r.2 ≤ s.2) (c3 : pairIndex r.2 s.2 ≤ pairIndex p.2 q.2)
    (hk : Kept screen p.2 q.2 r.2 s.2) (hmem : (s₁, s₂, s₃, s₄) ∈ eight p.1 q.1 r.1 s.1) :
    repulsionDriver kernel screen shells (s₁.start + a) (s₂.start + b) (s₃.start + c) (s₄.start + d) =
      kernel s₁ s₂ s₃ s₄ a b c d := by
  unfold repulsionDriver
  have hm : ∀ {x : GShell × ℕ}, x ∈ shells.zipIdx → x.1 ∈ shells := fun h => List.mem_of_getElem? (mem_zipIdx_shell.1 h)
  let read := fun V : ℕ → ℕ → ℕ → ℕ → ℝ => V (s₁.start + a) (s₂.start + b) (s₃.start + c) (s₄.start + d)
  refine foldl_set read _ _ _ (fun p hp' V => foldl_keep read _ _ _ (fun q hq' V =>
    loop3_keep hp h₁ h₂ h₃ h₄ a b c d hs screen hp' hq' V) V) ⟨p, hp', fun V => ?_⟩ _
  refine foldl_set read _ _ _ (fun q hq' V => loop3_keep hp h₁ h₂ h₃ h₄ a b c d hs screen hp' hq' V)
    ⟨q, hq', fun V => ?_⟩ V
  rw [if_neg (by omega)]
  refine foldl_set read _ _ _ (fun r hr' V => foldl_keep read _ _ _ (fun s hs' V =>
    step_keep hp h₁ h₂ h₃ h₄ a b c d hs screen hp' hq' hr' hs' V) V) ⟨r, hr', fun V => ?_⟩ V
  refine foldl_set read _ _ _ (fun s hs' V => step_keep hp h₁ h₂ h₃ h₄ a b c d hs screen hp' hq' hr' hs' V)
    ⟨s, hs', fun V => ?_⟩ V
  rw [repulsionStep_visit screen V ⟨⟨c2, c3⟩, hk⟩]
  exact setEight_set hp h₁ h₂ h₃ h₄ a b c d hs (hm hp') (hm hq') (hm hr') (hm hs') hmem V

/-- Every element is the integral of its functions, unless its quadruple is screened out and the element is 0. -/
theorem driver_cases (hs : Sym8 kernel shells) (screen : Option ((ℕ → ℕ → ℝ) × ℝ))
    (hsym : ∀ p q, (∃ cs thr, screen = some (cs, thr) ∧ cs p q ≠ cs q p) → False) :
    repulsionDriver kernel screen shells (s₁.start + a) (s₂.start + b) (s₃.start + c) (s₄.start + d) =
      kernel s₁ s₂ s₃ s₄ a b c d ∨
    (¬ Kept screen i j k l ∧
      repulsionDriver kernel screen shells (s₁.start + a) (s₂.start + b) (s₃.start + c) (s₄.start + d) = 0) := by
  by_cases hk : Kept screen i j k l
  · left
    have hsw : ∀ p q r s, Kept screen p q r s → Kept screen q p r s ∧ Kept screen p q s r ∧ Kept screen r s p q := by
      intro p q r s h
      rcases screen with _ | ⟨cs, thr⟩
      · exact ⟨trivial, trivial, trivial⟩
      · have hc : ∀ p q, cs p q = cs q p := fun p q => by
          by_contra hne
          exact hsym p q ⟨cs, thr, rfl, hne⟩
        simp only [Kept] at h ⊢
        refine ⟨by rwa [hc q p], by rwa [hc s r], by rwa [mul_comm]⟩
    have m1 := mem_zipIdx_shell (p := (s₁, i)).2 h₁
    have m2 := mem_zipIdx_shell (p := (s₂, j)).2 h₂
    have m3 := mem_zipIdx_shell (p := (s₃, k)).2 h₃
    have m4 := mem_zipIdx_shell (p := (s₄, l)).2 h₄
    have go := @driver_set kernel shells hp i j k l s₁ s₂ s₃ s₄ h₁ h₂ h₃ h₄ a b c d hs screen
    rcases Nat.le_total i j with hij | hij <;> rcases Nat.le_total k l with hkl | hkl
    · rcases Nat.le_total (pairIndex k l) (pairIndex i j) with h | h
      · exact go m1 m2 m3 m4 hij hkl h hk (by simp [eight])
      · exact go m3 m4 m1 m2 hkl hij h (hsw _ _ _ _ hk).2.2 (by simp [eight])
    · rcases Nat.le_total (pairIndex l k) (pairIndex i j) with h | h
      · exact go m1 m2 m4 m3 hij hkl h (hsw _ _ _ _ hk).2.1 (by simp [eight])
      · exact go m4 m3 m1 m2 hkl hij h (hsw _ _ _ _ (hsw _ _ _ _ hk).2.1).2.2 (by simp [eight])
    · rcases Nat.le_total (pairIndex k l) (pairIndex j i) with h | h
      · exact go m2 m1 m3 m4 hij hkl h (hsw _ _ _ _ hk).1 (by simp [eight])
      · exact go m3 m4 m2 m1 hkl hij h (hsw _ _ _ _ (hsw _ _ _ _ hk).1).2.2 (by simp [eight])
    · have hk' := (hsw _ _ _ _ (hsw _ _ _ _ hk).1).2.1
      rcases Nat.le_total (pairIndex l k) (pairIndex j i) with h | h
      · exact go m2 m1 m4 m3 hij hkl h hk' (by simp [eight])
      · exact go m4 m3 m2 m1 hkl hij h (hsw _ _ _ _ hk').2.2 (by simp [eight])
  · rcases driver_keep hp h₁ h₂ h₃ h₄ a b c d hs screen with h | h
    · exact Or.inl h
    · exact Or.inr ⟨hk, h⟩

end

/-! ## Symmetry of the tensor -/

/-- The permutational symmetry of a tensor. -/
def Sym4 (V : ℕ → ℕ → ℕ → ℕ → ℝ) : Prop :=
  ∀ a b c d, V a b c d = V b a c d ∧ V a b c d = V a b d c ∧ V a b c d = V c d a b

def InShells (x : GShell × GShell × GShell × GShell) (a b c d : ℕ) : Prop :=
  ((x.1.start ≤ a ∧ a < x.1.start + x.1.nbf) ∧ (x.2.1.start ≤ b ∧ b < x.2.1.start + x.2.1.nbf)) ∧
    (x.2.2.1.start ≤ c ∧ c < x.2.2.1.start + x.2.2.1.nbf) ∧ (x.2.2.2.start ≤ d ∧ d < x.2.2.2.start + x.2.2.2.nbf)

theorem setEight_out {kernel : Kernel4} {shells : List GShell} (hs : Sym8 kernel shells) {p q r s : GShell}
    (hx1 : p ∈ shells) (hx2 : q ∈ shells) (hx3 : r ∈ shells) (hx4 : s ∈ shells) (V : ℕ → ℕ → ℕ → ℕ → ℝ)
    {a b c d : ℕ} (h : ∀ x ∈ eight p q r s, ¬ InShells x a b c d) :
    setEight V p q r s (kernel p q r s) a b c d = V a b c d := by
  rw [setEight_eq hs hx1 hx2 hx3 hx4]
  have key : ∀ (l : List (GShell × GShell × GShell × GShell)), (∀ x ∈ l, ¬ InShells x a b c d) → ∀ V,
      l.foldl (put kernel) V a b c d = V a b c d := by
    intro l
    induction l with
    | nil => intro _ V; rfl
    | cons x l ih =>
      intro h V
      rw [List.foldl_cons, ih fun y hy => h y (List.mem_cons_of_mem _ hy)]
      exact dif_neg (h x (by simp))
  exact key _ h V

theorem setEight_in {kernel : Kernel4} {shells : List GShell} (hp : Placed shells) (hs : Sym8 kernel shells)
    {p q r s : GShell} (hx1 : p ∈ shells) (hx2 : q ∈ shells) (hx3 : r ∈ shells) (hx4 : s ∈ shells)
    (V : ℕ → ℕ → ℕ → ℕ → ℝ) {a b c d : ℕ} {x : GShell × GShell × GShell × GShell} (hx : x ∈ eight p q r s)
    (h : InShells x a b c d) :
    setEight V p q r s (kernel p q r s) a b c d =
      kernel x.1 x.2.1 x.2.2.1 x.2.2.2 ⟨a - x.1.start, by have := h.1.1; omega⟩
        ⟨b - x.2.1.start, by have := h.1.2; omega⟩ ⟨c - x.2.2.1.start, by have := h.2.1; omega⟩
        ⟨d - x.2.2.2.start, by have := h.2.2; omega⟩ := by
  have hm : x.1 ∈ shells ∧ x.2.1 ∈ shells ∧ x.2.2.1 ∈ shells ∧ x.2.2.2 ∈ shells := by
    simp only [eight, List.mem_cons, List.not_mem_nil, or_false] at hx
    rcases hx with rfl | rfl | rfl | rfl | rfl | rfl | rfl | rfl <;>
      exact ⟨by assumption, by assumption, by assumption, by assumption⟩
  obtain ⟨i', hi'⟩ := List.mem_iff_getElem?.1 hm.1
  obtain ⟨j', hj'⟩ := List.mem_iff_getElem?.1 hm.2.1
  obtain ⟨k', hk'⟩ := List.mem_iff_getElem?.1 hm.2.2.1
  obtain ⟨l', hl'⟩ := List.mem_iff_getElem?.1 hm.2.2.2
  have := setEight_set (kernel := kernel) hp hi' hj' hk' hl' ⟨a - x.1.start, by have := h.1.1; omega⟩
    ⟨b - x.2.1.start, by have := h.1.2; omega⟩ ⟨c - x.2.2.1.start, by have := h.2.1; omega⟩
    ⟨d - x.2.2.2.start, by have := h.2.2; omega⟩ hs hx1 hx2 hx3 hx4 hx V
  simp only [Nat.add_sub_cancel' h.1.1.1, Nat.add_sub_cancel' h.1.2.1, Nat.add_sub_cancel' h.2.1.1,
    Nat.add_sub_cancel' h.2.2.1] at this
  exact this

theorem setEight_sym {kernel : Kernel4} {shells : List GShell} (hp : Placed shells) (hs : Sym8 kernel shells)
    {p q r s : GShell} (hx1 : p ∈ shells) (hx2 : q ∈ shells) (hx3 : r ∈ shells) (hx4 : s ∈ shells)
    {V : ℕ → ℕ → ℕ → ℕ → ℝ} (hV : Sym4 V) : Sym4 (setEight V p q r s (kernel p q r s)) := by
  intro a b c d
  have hcl : ∀ x ∈ eight p q r s, (x.2.1, x.1, x.2.2) ∈ eight p q r s ∧
      (x.1, x.2.1, x.2.2.2, x.2.2.1) ∈ eight p q r s ∧ (x.2.2.1, x.2.2.2, x.1, x.2.1) ∈ eight p q r s := by
    intro x hx
    simp only [eight, List.mem_cons, List.not_mem_nil, or_false] at hx ⊢
    rcases hx with rfl | rfl | rfl | rfl | rfl | rfl | rfl | rfl <;> simp
  have hm : ∀ x ∈ eight p q r s, x.1 ∈ shells ∧ x.2.1 ∈ shells ∧ x.2.2.1 ∈ shells ∧ x.2.2.2 ∈ shells := by
    intro x hx
    simp only [eight, List.mem_cons, List.not_mem_nil, or_false] at hx
    rcases hx with rfl | rfl | rfl | rfl | rfl | rfl | rfl | rfl <;>
      exact ⟨by assumption, by assumption, by assumption, by assumption⟩
  by_cases h : ∃ x ∈ eight p q r s, InShells x a b c d
  · obtain ⟨x, hx, hin⟩ := h
    obtain ⟨m1, m2, m3, m4⟩ := hm x hx
    obtain ⟨c1, c2, c3⟩ := hcl x hx
    rw [setEight_in hp hs hx1 hx2 hx3 hx4 V hx hin]
    refine ⟨?_, ?_, ?_⟩
    · rw [setEight_in hp hs hx1 hx2 hx3 hx4 V c1 ⟨⟨hin.1.2, hin.1.1⟩, hin.2⟩]
      exact hs.left _ m1 _ m2 _ m3 _ m4 _ _ _ _
    · rw [setEight_in hp hs hx1 hx2 hx3 hx4 V c2 ⟨hin.1, hin.2.2, hin.2.1⟩]
      exact hs.right _ m1 _ m2 _ m3 _ m4 _ _ _ _
    · rw [setEight_in hp hs hx1 hx2 hx3 hx4 V c3 ⟨hin.2, hin.1⟩]
      exact hs.pair _ m1 _ m2 _ m3 _ m4 _ _ _ _
  · have h' : ∀ x ∈ eight p q r s, ¬ InShells x a b c d := fun x hx hin => h ⟨x, hx, hin⟩
    rw [setEight_out hs hx1 hx2 hx3 hx4 V h']
    refine ⟨?_, ?_, ?_⟩
    · rw [setEight_out hs hx1 hx2 hx3 hx4 V fun x hx hin => h' _ (hcl x hx).1 ⟨⟨hin.1.2, hin.1.1⟩, hin.2⟩]
      exact (hV a b c d).1
    · rw [setEight_out hs hx1 hx2 hx3 hx4 V fun x hx hin => h' _ (hcl x hx).2.1 ⟨hin.1, hin.2.2, hin.2.1⟩]
      exact (hV a b c d).2.1
    · rw [setEight_out hs hx1 hx2 hx3 hx4 V fun x hx hin => h' _ (hcl x hx).2.2 ⟨hin.2, hin.1⟩]
      exact (hV a b c d).2.2

theorem foldl_inv {σ ι : Type} (P : σ → Prop) (step : σ → ι → σ) :
    ∀ (l : List ι), (∀ x ∈ l, ∀ S, P S → P (step S x)) → ∀ S, P S → P (l.foldl step S)
  | [], _, _, h => h
  | x :: l, hl, S, h => foldl_inv P step l (fun y hy => hl y (List.mem_cons_of_mem _ hy)) _ (hl x (by simp) S h)

/-- The whole tensor has the permutational symmetry, whatever the screening. -/
theorem driver_sym {kernel : Kernel4} {shells : List GShell} (hp : Placed shells) (hs : Sym8 kernel shells)
    (screen : Option ((ℕ → ℕ → ℝ) × ℝ)) : Sym4 (repulsionDriver kernel screen shells) := by
  unfold repulsionDriver
  have hm : ∀ {x : GShell × ℕ}, x ∈ shells.zipIdx → x.1 ∈ shells := fun h => List.mem_of_getElem? (mem_zipIdx_shell.1 h)
  refine foldl_inv Sym4 _ _ (fun p hp' V hV => foldl_inv Sym4 _ _ (fun q hq' V hV => ?_) V hV) _
    (fun _ _ _ _ => ⟨rfl, rfl, rfl⟩)
  by_cases c1 : q.2 < p.2
  · rw [if_pos c1]; exact hV
  · rw [if_neg c1]
    refine foldl_inv Sym4 _ _ (fun r hr' V hV => foldl_inv Sym4 _ _ (fun s hs' V hV => ?_) V hV) V hV
    by_cases h : (r.2 ≤ s.2 ∧ pairIndex r.2 s.2 ≤ pairIndex p.2 q.2) ∧ Kept screen p.2 q.2 r.2 s.2
    · rw [repulsionStep_visit screen V h]
      exact setEight_sym hp hs (hm hp') (hm hq') (hm hr') (hm hs') hV
    · rw [repulsionStep_skip screen V h]
      exact hV

/-! ## The Cauchy-Schwarz matrix -/

theorem cauchySchwarzMatrix_eq (kernel : Kernel4) {shells : List GShell} {i j : ℕ} {p q : GShell}
    (hi : shells[i]? = some p) (hj : shells[j]? = some q) (hij : i ≤ j) :
    cauchySchwarzMatrix kernel shells i j = cauchySchwarzEntry kernel p q ∧
      cauchySchwarzMatrix kernel shells j i = cauchySchwarzEntry kernel p q := by
  have key : ∀ read : (ℕ → ℕ → ℝ) → ℝ, (∀ C, read C = C i j) ∨ (∀ C, read C = C j i) →
      read (cauchySchwarzMatrix kernel shells) = cauchySchwarzEntry kernel p q := by
    intro read hread
    have hstep : ∀ p' q' : GShell × ℕ, p' ∈ shells.zipIdx → q' ∈ shells.zipIdx → ¬ q'.2 < p'.2 → ∀ C : ℕ → ℕ → ℝ,
        read (fun a b => if (a = p'.2 ∧ b = q'.2) ∨ (a = q'.2 ∧ b = p'.2) then cauchySchwarzEntry kernel p'.1 q'.1
          else C a b) = cauchySchwarzEntry kernel p q ∨
        read (fun a b => if (a = p'.2 ∧ b = q'.2) ∨ (a = q'.2 ∧ b = p'.2) then cauchySchwarzEntry kernel p'.1 q'.1
          else C a b) = read C := by
      intro p' q' hp' hq' hle C
      by_cases h : p'.2 = i ∧ q'.2 = j
      · left
        rw [mem_zipIdx_shell, h.1, hi] at hp'
        rw [mem_zipIdx_shell, h.2, hj] at hq'
        cases hp'; cases hq'
        rcases hread with hr | hr <;> rw [hr] <;> simp [h.1, h.2]
      · right
        rcases hread with hr | hr
        · rw [hr, hr, if_neg (by rintro (⟨rfl, rfl⟩ | ⟨rfl, rfl⟩) <;> omega)]
        · rw [hr, hr, if_neg (by rintro (⟨rfl, rfl⟩ | ⟨rfl, rfl⟩) <;> omega)]
    unfold cauchySchwarzMatrix
    refine foldl_set read _ _ _ (fun p' hp' C => ?_) ⟨(p, i), mem_zipIdx_shell.2 hi, fun C => ?_⟩ _
    · refine foldl_keep read _ _ _ (fun q' hq' C => ?_) C
      split_ifs with h
      · exact Or.inr rfl
      · exact hstep p' q' hp' hq' h C
    · refine foldl_set read _ _ _ (fun q' hq' C => ?_) ⟨(q, j), mem_zipIdx_shell.2 hj, fun C => ?_⟩ C
      · split_ifs with h
        · exact Or.inr rfl
        · exact hstep (p, i) q' (mem_zipIdx_shell.2 hi) hq' h C
      · rw [if_neg (show ¬ j < i by omega)]
        rcases hread with hr | hr <;> rw [hr] <;> simp
  exact ⟨key (fun C => C i j) (Or.inl fun _ => rfl), key (fun C => C j i) (Or.inr fun _ => rfl)⟩

/-- The matrix is symmetric. -/
theorem cauchySchwarzMatrix_symm (kernel : Kernel4) (shells : List GShell) (a b : ℕ) :
    cauchySchwarzMatrix kernel shells a b = cauchySchwarzMatrix kernel shells b a := by
  unfold cauchySchwarzMatrix
  let P := fun C : ℕ → ℕ → ℝ => ∀ a b, C a b = C b a
  refine foldl_inv P _ _ (fun p _ C hC => foldl_inv P _ _ (fun q _ C hC => ?_) C hC) _ (fun _ _ => rfl) a b
  intro a b
  by_cases c : q.2 < p.2
  · rw [if_pos c]; exact hC a b
  · rw [if_neg c]
    simp only [and_comm (a := b = _), or_comm (a := a = q.2 ∧ _)]
    rw [hC a b]

end SQ
