import Verif.Spec.HigherDensity
import Verif.Model.HigherDensity
import Verif.Lemmas.DensityFill
import Mathlib.Data.List.Permutation
import Mathlib.Data.List.Sort

/-! # Three- and four-electron density matrices -/

namespace SQ

section
variable {R : Type*} [CommRing R]

/-- `Σ_σ a†_{pσ} X a_{qσ}`. -/
noncomputable def wrap (x : ℕ × ℕ) (X : FOp R) : FOp R :=
  cr (2 * x.1) * X * an (2 * x.2) + cr (2 * x.1 + 1) * X * an (2 * x.2 + 1)

theorem excN_cons (x : ℕ × ℕ) (l : List (ℕ × ℕ)) : (excN (x :: l) : FOp R) = wrap x (excN l) := rfl

theorem wrap_add (x : ℕ × ℕ) (X Y : FOp R) : wrap x (X + Y) = wrap x X + wrap x Y := by
  unfold wrap; simp only [mul_add, add_mul]; abel

theorem wrap_smul (x : ℕ × ℕ) (c : R) (X : FOp R) : wrap x (c • X) = c • wrap x X := by
  unfold wrap; simp only [mul_smul_comm, smul_mul_assoc, smul_add]

theorem wrap_sum (x : ℕ × ℕ) (l : List (FOp R)) : wrap x l.sum = (l.map (wrap x)).sum := by
  induction l with
  | nil => simp [wrap]
  | cons a l ih => rw [List.sum_cons, wrap_add, ih, List.map_cons, List.sum_cons]

theorem sandwich_swap (p q r s : ℕ) (X : FOp R) :
    cr p * (cr r * X * an s) * an q = cr r * (cr p * X * an q) * an s := by
  have h1 : cr p * (cr r * X * an s) * an q = (cr p * cr r) * X * (an s * an q) := by simp only [mul_assoc]
  rw [h1, cr_cr p r, an_an s q]
  simp only [neg_mul, mul_neg, neg_neg, mul_assoc]

theorem wrap_comm (x y : ℕ × ℕ) (X : FOp R) : wrap x (wrap y X) = wrap y (wrap x X) := by
  unfold wrap
  simp only [mul_add, add_mul]
  rw [sandwich_swap (2 * x.1) (2 * x.2) (2 * y.1), sandwich_swap (2 * x.1) (2 * x.2) (2 * y.1 + 1),
    sandwich_swap (2 * x.1 + 1) (2 * x.2 + 1) (2 * y.1), sandwich_swap (2 * x.1 + 1) (2 * x.2 + 1) (2 * y.1 + 1)]
  abel

theorem excN_perm {l l' : List (ℕ × ℕ)} (h : l.Perm l') : (excN l : FOp R) = excN l' := by
  induction h with
  | nil => rfl
  | cons x _ ih => rw [excN_cons, excN_cons, ih]
  | swap x y l => rw [excN_cons, excN_cons, excN_cons, excN_cons, wrap_comm]
  | trans _ _ h1 h2 => rw [h1, h2]

theorem adjoint_wrap {X Y : FOp R} (h : IsAdjoint X Y) (x : ℕ × ℕ) : IsAdjoint (wrap x X) (wrap x.swap Y) := by
  unfold wrap
  have k : ∀ a b, IsAdjoint (cr a * X * an b : FOp R) (cr b * Y * an a) := fun a b => by
    rw [mul_assoc (cr b)]
    exact ((adjoint_cr a).mul h).mul (adjoint_an b)
  exact (k _ _).add (k _ _)

theorem adjoint_excN (l : List (ℕ × ℕ)) : IsAdjoint (excN l : FOp R) (excN (l.map Prod.swap)) := by
  induction l with
  | nil => exact isAdjoint_one
  | cons x l ih => exact adjoint_wrap ih x

theorem excN_one (p q : ℕ) : (excN [(p, q)] : FOp R) = E p q := by
  simp only [excN, E, mul_one]

theorem excN_two (p q r s : ℕ) : (excN [(p, q), (r, s)] : FOp R) = e p q r s := by
  simp only [excN, e, mul_one, mul_add, add_mul, mul_assoc, add_assoc]

/-- The lists with the creation index of one pair equal to `q` replaced by `p`, with `0` in place of the others. -/
noncomputable def contr (p q : ℕ) : List (ℕ × ℕ) → FOp R
  | [] => 0
  | x :: l => (delta q x.1 : R) • excN ((p, x.2) :: l) + wrap x (contr p q l)

theorem E_wrap (p q : ℕ) (x : ℕ × ℕ) (X : FOp R) :
    E p q * wrap x X = (delta q x.1 : R) • wrap (p, x.2) X + wrap x (E p q * X) := by
  have k : ∀ a b c d, (cr a * an b) * (cr c * X * an d)
      = (if b = c then (1 : R) else 0) • (cr a * X * an d) + cr c * (cr a * an b * X) * an d := by
    intro a b c d
    have h1 : (cr a * an b) * (cr c * X * an d) = cr a * (an b * cr c) * (X * an d) := by simp only [mul_assoc]
    have h2 : cr c * (cr a * an b * X) * an d = (cr c * cr a) * (an b * (X * an d)) := by simp only [mul_assoc]
    rw [h1, an_cr, h2, cr_cr c a]
    split_ifs <;> simp only [mul_sub, sub_mul, mul_one, mul_zero, zero_mul, mul_assoc, neg_mul, one_smul, zero_smul] <;>
      abel
  obtain ⟨r, s⟩ := x
  unfold wrap E delta
  simp only [add_mul, mul_add, k]
  by_cases h : q = r
  · subst h
    have h1 : ¬ (2 * q = 2 * q + 1) := by omega
    have h2 : ¬ (2 * q + 1 = 2 * q) := by omega
    simp only [if_true, h1, h2, if_false, one_smul, zero_smul]
    abel
  · have h1 : ¬ (2 * q = 2 * r) := by omega
    have h2 : ¬ (2 * q + 1 = 2 * r) := by omega
    have h3 : ¬ (2 * q = 2 * r + 1) := by omega
    have h4 : ¬ (2 * q + 1 = 2 * r + 1) := by omega
    simp only [h, h1, h2, h3, h4, if_false, zero_smul]
    abel

/-- Wick's theorem for a one-electron excitation and a normal-ordered operator. -/
theorem E_excN (p q : ℕ) (l : List (ℕ × ℕ)) : (E p q * excN l : FOp R) = excN ((p, q) :: l) + contr p q l := by
  induction l with
  | nil => rw [excN_one]; simp [excN, contr]
  | cons x l ih =>
    rw [excN_cons x, E_wrap, ih, wrap_add, ← excN_cons x, ← excN_cons (p, x.2), excN_perm (List.Perm.swap (p, q) x l)]
    show _ = excN ((p, q) :: x :: l) + ((delta q x.1 : R) • excN ((p, x.2) :: l) + wrap x (contr p q l))
    abel

end

section
variable (Ψs : List (Fock ℝ))

/-- The elements of the density matrices. -/
noncomputable def dens (l : List (ℕ × ℕ)) : ℝ := mean Ψs (excN l)

theorem dens_perm {l l' : List (ℕ × ℕ)} (h : l.Perm l') : dens Ψs l = dens Ψs l' := by
  unfold dens; rw [excN_perm h]

theorem dens_swap (l : List (ℕ × ℕ)) : dens Ψs (l.map Prod.swap) = dens Ψs l :=
  (mean_adjoint Ψs (adjoint_excN l)).symm

theorem mean_E_exc1 (p q r s : ℕ) : mean Ψs (E p q * excN [(r, s)]) =
    dens Ψs [(p, q), (r, s)] + delta q r * dens Ψs [(p, s)] := by
  rw [E_excN]
  simp only [contr, wrap_add, wrap_smul, ← excN_cons]
  simp only [wrap, mul_zero, zero_mul, add_zero]
  simp only [← meanL_apply, map_add, map_smul, smul_eq_mul]
  rfl

theorem mean_E_exc2 (p q r s t u : ℕ) : mean Ψs (E p q * excN [(r, s), (t, u)]) =
    dens Ψs [(p, q), (r, s), (t, u)] + (delta q r * dens Ψs [(p, s), (t, u)]
      + delta q t * dens Ψs [(r, s), (p, u)]) := by
  rw [E_excN]
  simp only [contr, wrap_add, wrap_smul, ← excN_cons]
  simp only [wrap, mul_zero, zero_mul, add_zero]
  simp only [← meanL_apply, map_add, map_smul, smul_eq_mul]
  rfl

theorem mean_E_exc3 (p q r s t u m n : ℕ) : mean Ψs (E p q * excN [(r, s), (t, u), (m, n)]) =
    dens Ψs [(p, q), (r, s), (t, u), (m, n)] + (delta q r * dens Ψs [(p, s), (t, u), (m, n)]
      + (delta q t * dens Ψs [(r, s), (p, u), (m, n)] + delta q m * dens Ψs [(r, s), (t, u), (p, n)])) := by
  rw [E_excN]
  simp only [contr, wrap_add, wrap_smul, ← excN_cons]
  simp only [wrap, mul_zero, zero_mul, add_zero]
  simp only [← meanL_apply, map_add, map_smul, smul_eq_mul]
  rfl

theorem EEE_eq (p q r s t u : ℕ) : (E p q * (E r s * E t u) : FOp ℝ) =
    excN [(p, q), (r, s), (t, u)] + (delta q r : ℝ) • excN [(p, s), (t, u)] + (delta q t : ℝ) • excN [(r, s), (p, u)]
      + (delta s t : ℝ) • (excN [(p, q), (r, u)] + (delta q r : ℝ) • excN [(p, u)]) := by
  rw [E_mul_E, ← excN_two, ← excN_one r u, mul_add, mul_smul_comm, E_excN, E_excN]
  simp only [contr, wrap_add, wrap_smul, ← excN_cons]
  simp only [wrap, mul_zero, zero_mul, add_zero, smul_add]
  abel

theorem subIf_eq (a b : ℕ) (x v : ℝ) : subIf (a = b) x v = v - delta b a * x := by
  unfold subIf delta
  by_cases h : a = b
  · rw [if_pos h, if_pos h.symm, one_mul]
  · rw [if_neg h, if_neg fun k => h k.symm]; ring

theorem subIf_and (a b : ℕ) (P : Prop) [Decidable P] (x v : ℝ) :
    subIf (a = b ∧ P) x v = subIf P (delta b a * x) v := by
  unfold subIf delta
  by_cases h : a = b
  · by_cases k : P
    · rw [if_pos ⟨h, k⟩, if_pos k, if_pos h.symm, one_mul]
    · rw [if_neg fun z => k z.2, if_neg k]
  · have h' : ¬ b = a := fun k => h k.symm
    rw [if_neg fun z => h z.1, if_neg h', zero_mul, sub_zero, ite_self]

theorem rdm3Val_eq {d1 : Mat ℝ} {d2 : Arr4} {nI : ℕ} {p q r s t u : ℕ}
    (h1 : d1 p u = dens Ψs [(nI + p, nI + u)])
    (h2 : ∀ a b c d, (a, b, c, d) ∈ [(p, q, r, u), (p, s, t, u), (p, u, r, s)] →
      d2 a b c d = dens Ψs [(nI + a, nI + b), (nI + c, nI + d)]) :
    rdm3Val d1 d2 p q r s t u (mean Ψs (E (nI + p) (nI + q) * (E (nI + r) (nI + s) * E (nI + t) (nI + u))))
      = dens Ψs [(nI + p, nI + q), (nI + r, nI + s), (nI + t, nI + u)] := by
  have hd : ∀ a b : ℕ, (delta (nI + a) (nI + b) : ℝ) = delta a b := fun a b => by simp [delta]
  rw [EEE_eq]
  simp only [← meanL_apply, map_add, map_smul, smul_eq_mul]
  simp only [meanL_apply]
  unfold rdm3Val
  simp only [subIf_and, subIf_eq, hd]
  rw [h1, h2 p q r u (by simp), h2 p s t u (by simp), h2 p u r s (by simp),
    dens_perm Ψs (List.Perm.swap (nI + r, nI + s) (nI + p, nI + u) [])]
  unfold dens
  ring

theorem rdm4Val_eq {d1 : Mat ℝ} {d2 : Arr4} {d3 : ArrN} {nI : ℕ} {p q r s t u m n : ℕ}
    (h1 : d1 p n = dens Ψs [(nI + p, nI + n)])
    (h2 : ∀ a b c d, (a, b, c, d) ∈ [(p, s, t, n), (p, n, r, s), (p, q, r, n), (p, u, m, n), (p, n, r, u), (p, n, t, u),
      (p, u, r, n)] → d2 a b c d = dens Ψs [(nI + a, nI + b), (nI + c, nI + d)])
    (h3 : ∀ a b c d f g, (a, b, c, d, f, g) ∈ [(p, s, t, u, m, n), (p, u, r, s, m, n), (p, n, r, s, t, u),
      (p, q, r, s, t, n), (p, q, r, u, m, n), (p, q, r, n, t, u)] →
      d3 [(a, b), (c, d), (f, g)] = dens Ψs [(nI + a, nI + b), (nI + c, nI + d), (nI + f, nI + g)]) :
    rdm4Val d1 d2 d3 p q r s t u m n (mean Ψs (E (nI + p) (nI + q) * (E (nI + r) (nI + s) *
      (E (nI + t) (nI + u) * E (nI + m) (nI + n)))))
      = dens Ψs [(nI + p, nI + q), (nI + r, nI + s), (nI + t, nI + u), (nI + m, nI + n)] := by
  have hd : ∀ a b : ℕ, (delta (nI + a) (nI + b) : ℝ) = delta a b := fun a b => by simp [delta]
  rw [EEE_eq]
  simp only [mul_add, smul_add, mul_smul_comm]
  simp only [← meanL_apply, map_add, map_smul, smul_eq_mul]
  simp only [meanL_apply]
  rw [mean_E_exc3, mean_E_exc2, mean_E_exc2, mean_E_exc2, mean_E_exc1]
  unfold rdm4Val
  simp only [subIf_and, subIf_eq, hd]
  rw [h1, h2 p s t n (by simp), h2 p n r s (by simp), h2 p q r n (by simp), h2 p u m n (by simp), h2 p n r u (by simp),
    h2 p n t u (by simp), h2 p u r n (by simp), h3 p s t u m n (by simp), h3 p u r s m n (by simp),
    h3 p n r s t u (by simp), h3 p q r s t n (by simp), h3 p q r u m n (by simp), h3 p q r n t u (by simp)]
  have s2 : ∀ x y : ℕ × ℕ, dens Ψs [x, y] = dens Ψs [y, x] := fun x y => dens_perm Ψs (List.Perm.swap y x [])
  have s3 : ∀ x y z : ℕ × ℕ, dens Ψs [x, y, z] = dens Ψs [y, x, z] := fun x y z => dens_perm Ψs (List.Perm.swap y x [z])
  have t3 : ∀ x y z : ℕ × ℕ, dens Ψs [x, y, z] = dens Ψs [x, z, y] := fun x y z =>
    dens_perm Ψs ((List.Perm.swap z y []).cons x)
  rw [s3 (nI + r, nI + s) (nI + p, nI + u), t3 (nI + r, nI + s) (nI + t, nI + u) (nI + p, nI + n),
    s3 (nI + r, nI + s) (nI + p, nI + n), s2 (nI + r, nI + u) (nI + p, nI + n), t3 (nI + p, nI + q) (nI + t, nI + u),
    s2 (nI + t, nI + u) (nI + p, nI + n), s2 (nI + r, nI + s) (nI + p, nI + n)]
  ring

/-! ### The loops -/

theorem foldl_setN (v : ℝ) (l : List (List (ℕ × ℕ))) (a : ArrN) (j : List (ℕ × ℕ)) :
    l.foldl (fun a i => setN a i v) a j = if j ∈ l then v else a j := by
  induction l generalizing a with
  | nil => simp
  | cons i l ih =>
    rw [List.foldl_cons, ih]
    unfold setN
    by_cases h : j ∈ l
    · rw [if_pos h, if_pos (List.mem_cons_of_mem _ h)]
    · rw [if_neg h]
      by_cases k : j = i
      · rw [if_pos k, if_pos (by simp [k])]
      · rw [if_neg k, if_neg (by simp [k, h])]

theorem mem_rdm3Orders {a b c : ℕ × ℕ} {l : List (ℕ × ℕ)} : l ∈ rdm3Orders a b c ↔ l.Perm [a, b, c] := by
  rw [← List.mem_permutations']
  have h : List.permutations' [a, b, c] = [[a, b, c], [b, a, c], [b, c, a], [a, c, b], [c, a, b], [c, b, a]] := rfl
  rw [h]
  unfold rdm3Orders
  simp only [List.mem_cons, List.not_mem_nil, or_false]
  tauto

theorem mem_rdm4Orders {a b c d : ℕ × ℕ} {l : List (ℕ × ℕ)} : l ∈ rdm4Orders a b c d ↔ l.Perm [a, b, c, d] := by
  rw [← List.mem_permutations']
  let g : ℕ × ℕ → ℕ × ℕ := fun x => if x.1 = 0 then a else if x.1 = 1 then b else if x.1 = 2 then c else d
  have h1 : rdm4Orders a b c d = (rdm4Orders (0, 0) (1, 0) (2, 0) (3, 0)).map (List.map g) := rfl
  have h2 : List.permutations' [a, b, c, d] = (List.permutations' [(0, 0), (1, 0), (2, 0), (3, 0)]).map (List.map g) := by
    rw [List.map_permutations']; rfl
  rw [h1, h2]
  exact ((by decide : (rdm4Orders (0, 0) (1, 0) (2, 0) (3, 0)).Perm
    (List.permutations' [(0, 0), (1, 0), (2, 0), (3, 0)])).map _).mem_iff

theorem mem_rdm3Writes {p q r s t u : ℕ} {l : List (ℕ × ℕ)} : l ∈ rdm3Writes p q r s t u ↔
    l.Perm [(p, q), (r, s), (t, u)] ∨ (l.map Prod.swap).Perm [(p, q), (r, s), (t, u)] := by
  unfold rdm3Writes
  rw [List.mem_append, mem_rdm3Orders, mem_rdm3Orders]
  have : l.Perm [(q, p), (s, r), (u, t)] ↔ (l.map Prod.swap).Perm [(p, q), (r, s), (t, u)] := by
    constructor
    · intro h; exact h.map Prod.swap
    · intro h
      have := h.map Prod.swap
      rwa [List.map_map, Prod.swap_swap_eq, List.map_id] at this
  rw [this]

theorem mem_rdm4Writes {p q r s t u m n : ℕ} {l : List (ℕ × ℕ)} : l ∈ rdm4Writes p q r s t u m n ↔
    l.Perm [(p, q), (r, s), (t, u), (m, n)] ∨ (l.map Prod.swap).Perm [(p, q), (r, s), (t, u), (m, n)] := by
  unfold rdm4Writes
  rw [List.mem_append, mem_rdm4Orders, mem_rdm4Orders]
  have : l.Perm [(q, p), (s, r), (u, t), (n, m)] ↔ (l.map Prod.swap).Perm [(p, q), (r, s), (t, u), (m, n)] := by
    constructor
    · intro h; exact h.map Prod.swap
    · intro h
      have := h.map Prod.swap
      rwa [List.map_map, Prod.swap_swap_eq, List.map_id] at this
  rw [this]

theorem mem_upTo {nI x y : ℕ} (h : nI ≤ x) : y ∈ upTo nI x ↔ nI ≤ y ∧ y ≤ x := by
  unfold upTo
  rw [mem_rangeFrom]
  omega

theorem mem_rdm3Iter {nI nA p q r s t u : ℕ} : (p, q, r, s, t, u) ∈ rdm3Iter nI nA ↔
    p < nI + nA ∧ (nI ≤ q ∧ q ≤ p) ∧ (nI ≤ r ∧ r ≤ p) ∧ (nI ≤ s ∧ s ≤ p) ∧ (nI ≤ t ∧ t ≤ r) ∧ nI ≤ u ∧ u ≤ p := by
  simp only [rdm3Iter, upTo, List.mem_flatMap, List.mem_map, mem_rangeFrom, Prod.mk.injEq]
  constructor
  · rintro ⟨p, h1, q, h2, r, h3, s, h4, t, h5, u, h6, rfl, rfl, rfl, rfl, rfl, rfl⟩; omega
  · intro h
    exact ⟨p, by omega, q, by omega, r, by omega, s, by omega, t, by omega, u, by omega, rfl, rfl, rfl, rfl, rfl, rfl⟩

theorem mem_rdm4Iter {nI nA p q r s t u m n : ℕ} : (p, q, r, s, t, u, m, n) ∈ rdm4Iter nI nA ↔
    p < nI + nA ∧ (nI ≤ q ∧ q ≤ p) ∧ (nI ≤ r ∧ r ≤ p) ∧ (nI ≤ s ∧ s ≤ p) ∧ (nI ≤ t ∧ t ≤ r) ∧ (nI ≤ u ∧ u ≤ p) ∧
      (nI ≤ m ∧ m ≤ t) ∧ nI ≤ n ∧ n ≤ p := by
  simp only [rdm4Iter, upTo, List.mem_flatMap, List.mem_map, mem_rangeFrom, Prod.mk.injEq]
  constructor
  · rintro ⟨p, h1, q, h2, r, h3, s, h4, t, h5, u, h6, m, h7, n, h8, rfl, rfl, rfl, rfl, rfl, rfl, rfl, rfl⟩; omega
  · intro h
    exact ⟨p, by omega, q, by omega, r, by omega, s, by omega, t, by omega, u, by omega, m, by omega, n, by omega,
      rfl, rfl, rfl, rfl, rfl, rfl, rfl, rfl⟩

/-- Each list of pairs is, up to the order and perhaps with all pairs reversed, one whose first components decrease and
whose second components are at most the first component of the first pair. -/
theorem sorted_cover (l : List (ℕ × ℕ)) : ∃ l', (l.Perm l' ∨ (l.map Prod.swap).Perm l') ∧
    l'.Pairwise (fun x y => y.1 ≤ x.1) ∧ ∀ x ∈ l', ∃ y ∈ l', x.2 ≤ y.1 := by
  have srt : ∀ k : List (ℕ × ℕ), ∃ k', k.Perm k' ∧ k'.Pairwise (fun x y : ℕ × ℕ => y.1 ≤ x.1) := fun k => by
    let r : ℕ × ℕ → ℕ × ℕ → Prop := fun x y => y.1 ≤ x.1
    haveI : Std.Total r := ⟨fun x y => Nat.le_total y.1 x.1⟩
    haveI : IsTrans _ r := ⟨fun x y z h1 h2 => Nat.le_trans h2 h1⟩
    exact ⟨k.insertionSort r, (List.perm_insertionSort r k).symm, List.pairwise_insertionSort r k⟩
  by_cases h : ∀ x ∈ l, ∃ y ∈ l, x.2 ≤ y.1
  · obtain ⟨k, h1, h2⟩ := srt l
    refine ⟨k, Or.inl h1, h2, fun x hx => ?_⟩
    obtain ⟨y, hy, hxy⟩ := h x (h1.mem_iff.2 hx)
    exact ⟨y, h1.mem_iff.1 hy, hxy⟩
  · push Not at h
    obtain ⟨x, hx, h⟩ := h
    obtain ⟨k, h1, h2⟩ := srt (l.map Prod.swap)
    refine ⟨k, Or.inr h1, h2, fun y hy => ⟨x.swap, h1.mem_iff.1 (List.mem_map_of_mem hx), ?_⟩⟩
    obtain ⟨z, hz, rfl⟩ := List.mem_map.1 (h1.mem_iff.2 hy)
    exact (h z hz).le

end

section
variable {Ψs : List (Fock ℝ)} {nI nA : ℕ}

/-- The pairs of orbitals of the pairs of active indices. -/
def shiftN (nI : ℕ) (l : List (ℕ × ℕ)) : List (ℕ × ℕ) := l.map fun x => (nI + x.1, nI + x.2)

theorem dens_writes {l k : List (ℕ × ℕ)} (h : l.Perm k ∨ (l.map Prod.swap).Perm k) :
    dens Ψs (shiftN nI k) = dens Ψs (shiftN nI l) := by
  rcases h with h | h
  · exact (dens_perm Ψs (h.map _)).symm
  · rw [← dens_swap Ψs (shiftN nI l)]
    have : (shiftN nI l).map Prod.swap = shiftN nI (l.map Prod.swap) := by
      unfold shiftN
      simp only [List.map_map]
      rfl
    rw [this]
    exact (dens_perm Ψs (h.map _)).symm

theorem lt_of_cover {l k : List (ℕ × ℕ)} (h : l.Perm k ∨ (l.map Prod.swap).Perm k)
    (hl : ∀ x ∈ l, x.1 < nA ∧ x.2 < nA) : ∀ x ∈ k, x.1 < nA ∧ x.2 < nA := by
  intro x hx
  rcases h with h | h
  · exact hl x (h.mem_iff.2 hx)
  · obtain ⟨z, hz, rfl⟩ := List.mem_map.1 (h.mem_iff.2 hx)
    exact ⟨(hl z hz).2, (hl z hz).1⟩

theorem rdm3Loop_sem {ev : List (ℕ × ℕ) → Res ℝ} {d1 : Mat ℝ} {d2 : Arr4} (hR : IsRdm nI nA Ψs d1 d2)
    (hev : ∀ p q r s t u, p < nA → q < nA → r < nA → s < nA → t < nA → u < nA →
      ev [(nI + p, nI + q), (nI + r, nI + s), (nI + t, nI + u)]
        = .ok (mean Ψs (E (nI + p) (nI + q) * (E (nI + r) (nI + s) * E (nI + t) (nI + u))))) :
    ∃ D, rdm3Loop ev d1 d2 nI nA = .ok D ∧ IsRdmN nI nA Ψs 3 D := by
  have hstep : ∀ x ∈ rdm3Iter nI nA, ∀ a : ArrN, ∃ a', rdm3Step ev d1 d2 nI a x = .ok a' ∧ ∀ j,
      (j ∈ rdm3Writes (x.1 - nI) (x.2.1 - nI) (x.2.2.1 - nI) (x.2.2.2.1 - nI) (x.2.2.2.2.1 - nI) (x.2.2.2.2.2 - nI) →
        a' j = dens Ψs (shiftN nI j)) ∧
      (j ∉ rdm3Writes (x.1 - nI) (x.2.1 - nI) (x.2.2.1 - nI) (x.2.2.2.1 - nI) (x.2.2.2.2.1 - nI) (x.2.2.2.2.2 - nI) →
        a' j = a j) := by
    rintro ⟨p, q, r, s, t, u⟩ hx a
    rw [mem_rdm3Iter] at hx
    obtain ⟨p, rfl⟩ : ∃ k, p = nI + k := ⟨p - nI, by omega⟩
    obtain ⟨q, rfl⟩ : ∃ k, q = nI + k := ⟨q - nI, by omega⟩
    obtain ⟨r, rfl⟩ : ∃ k, r = nI + k := ⟨r - nI, by omega⟩
    obtain ⟨s, rfl⟩ : ∃ k, s = nI + k := ⟨s - nI, by omega⟩
    obtain ⟨t, rfl⟩ : ∃ k, t = nI + k := ⟨t - nI, by omega⟩
    obtain ⟨u, rfl⟩ : ∃ k, u = nI + k := ⟨u - nI, by omega⟩
    have hv := rdm3Val_eq Ψs (d1 := d1) (d2 := d2) (nI := nI) (p := p) (q := q) (r := r) (s := s) (t := t) (u := u)
      (by rw [hR.one p u (by omega) (by omega), dens, excN_one]) (by
        intro a b c d h
        simp only [List.mem_cons, List.not_mem_nil, or_false, Prod.mk.injEq] at h
        rw [hR.two a b c d (by omega) (by omega) (by omega) (by omega), dens, excN_two])
    refine ⟨_, by
      unfold rdm3Step
      dsimp only
      rw [hev p q r s t u (by omega) (by omega) (by omega) (by omega) (by omega) (by omega), ok_bind]
      simp only [Nat.add_sub_cancel_left]
      rw [hv]
      rfl, fun j => ?_⟩
    simp only [Nat.add_sub_cancel_left]
    rw [foldl_setN]
    constructor
    · intro h
      have := dens_writes (Ψs := Ψs) (nI := nI) (mem_rdm3Writes.1 h)
      rw [if_pos h, ← this]
      rfl
    · intro h
      rw [if_neg h]
  obtain ⟨D, k1, k2⟩ := fill (fun (a : ArrN) (j : List (ℕ × ℕ)) => a j) (rdm3Step ev d1 d2 nI)
    (fun j => dens Ψs (shiftN nI j))
    (fun x j => j ∈ rdm3Writes (x.1 - nI) (x.2.1 - nI) (x.2.2.1 - nI) (x.2.2.2.1 - nI) (x.2.2.2.2.1 - nI)
      (x.2.2.2.2.2 - nI)) (rdm3Iter nI nA) hstep (fun _ => 0)
  refine ⟨D, k1, fun l hl hb => k2 l (Or.inl ?_)⟩
  obtain ⟨k, c1, c2, c3⟩ := sorted_cover l
  have hk : k.length = 3 := by
    rcases c1 with c | c
    · rw [← c.length_eq, hl]
    · rw [← c.length_eq, List.length_map, hl]
  obtain ⟨⟨p, q⟩, ⟨r, s⟩, ⟨t, u⟩, rfl⟩ := List.length_eq_three.1 hk
  have hlt := lt_of_cover c1 hb
  simp only [List.pairwise_cons, List.mem_cons, List.not_mem_nil, or_false, forall_eq_or_imp, forall_eq,
    exists_eq_or_imp, exists_eq_left] at c2 c3 hlt
  refine ⟨(nI + p, nI + q, nI + r, nI + s, nI + t, nI + u), mem_rdm3Iter.2 (by omega), ?_⟩
  simp only [Nat.add_sub_cancel_left]
  exact mem_rdm3Writes.2 c1

theorem rdm4Loop_sem {ev : List (ℕ × ℕ) → Res ℝ} {d1 : Mat ℝ} {d2 : Arr4} {d3 : ArrN} (hR : IsRdm nI nA Ψs d1 d2)
    (h3 : IsRdmN nI nA Ψs 3 d3)
    (hev : ∀ p q r s t u m n, p < nA → q < nA → r < nA → s < nA → t < nA → u < nA → m < nA → n < nA →
      ev [(nI + p, nI + q), (nI + r, nI + s), (nI + t, nI + u), (nI + m, nI + n)]
        = .ok (mean Ψs (E (nI + p) (nI + q) * (E (nI + r) (nI + s) * (E (nI + t) (nI + u) * E (nI + m) (nI + n)))))) :
    ∃ D, rdm4Loop ev d1 d2 d3 nI nA = .ok D ∧ IsRdmN nI nA Ψs 4 D := by
  have hstep : ∀ x ∈ rdm4Iter nI nA, ∀ a : ArrN, ∃ a', rdm4Step ev d1 d2 d3 nI a x = .ok a' ∧ ∀ j,
      (j ∈ rdm4Writes (x.1 - nI) (x.2.1 - nI) (x.2.2.1 - nI) (x.2.2.2.1 - nI) (x.2.2.2.2.1 - nI) (x.2.2.2.2.2.1 - nI)
        (x.2.2.2.2.2.2.1 - nI) (x.2.2.2.2.2.2.2 - nI) → a' j = dens Ψs (shiftN nI j)) ∧
      (j ∉ rdm4Writes (x.1 - nI) (x.2.1 - nI) (x.2.2.1 - nI) (x.2.2.2.1 - nI) (x.2.2.2.2.1 - nI) (x.2.2.2.2.2.1 - nI)
        (x.2.2.2.2.2.2.1 - nI) (x.2.2.2.2.2.2.2 - nI) → a' j = a j) := by
    rintro ⟨p, q, r, s, t, u, m, n⟩ hx a
    rw [mem_rdm4Iter] at hx
    obtain ⟨p, rfl⟩ : ∃ k, p = nI + k := ⟨p - nI, by omega⟩
    obtain ⟨q, rfl⟩ : ∃ k, q = nI + k := ⟨q - nI, by omega⟩
    obtain ⟨r, rfl⟩ : ∃ k, r = nI + k := ⟨r - nI, by omega⟩
    obtain ⟨s, rfl⟩ : ∃ k, s = nI + k := ⟨s - nI, by omega⟩
    obtain ⟨t, rfl⟩ : ∃ k, t = nI + k := ⟨t - nI, by omega⟩
    obtain ⟨u, rfl⟩ : ∃ k, u = nI + k := ⟨u - nI, by omega⟩
    obtain ⟨m, rfl⟩ : ∃ k, m = nI + k := ⟨m - nI, by omega⟩
    obtain ⟨n, rfl⟩ : ∃ k, n = nI + k := ⟨n - nI, by omega⟩
    have b : p < nA ∧ q < nA ∧ r < nA ∧ s < nA ∧ t < nA ∧ u < nA ∧ m < nA ∧ n < nA := by omega
    obtain ⟨bp, bq, br, bs, bt, bu, bm, bn⟩ := b
    have hv := rdm4Val_eq Ψs (d1 := d1) (d2 := d2) (d3 := d3) (nI := nI) (p := p) (q := q) (r := r) (s := s) (t := t)
      (u := u) (m := m) (n := n)
      (by rw [hR.one p n bp bn, dens, excN_one]) (by
        intro a b c d h
        simp only [List.mem_cons, List.not_mem_nil, or_false, Prod.mk.injEq] at h
        have : a < nA ∧ b < nA ∧ c < nA ∧ d < nA := by
          rcases h with h | h | h | h | h | h | h <;> obtain ⟨rfl, rfl, rfl, rfl⟩ := h <;>
            exact ⟨‹_›, ‹_›, ‹_›, ‹_›⟩
        rw [hR.two a b c d this.1 this.2.1 this.2.2.1 this.2.2.2, dens, excN_two]) (by
        intro a b c d f g h
        simp only [List.mem_cons, List.not_mem_nil, or_false, Prod.mk.injEq] at h
        have : a < nA ∧ b < nA ∧ c < nA ∧ d < nA ∧ f < nA ∧ g < nA := by
          rcases h with h | h | h | h | h | h <;> obtain ⟨rfl, rfl, rfl, rfl, rfl, rfl⟩ := h <;>
            exact ⟨‹_›, ‹_›, ‹_›, ‹_›, ‹_›, ‹_›⟩
        obtain ⟨h1, h2, h4, h5, h6, h7⟩ := this
        exact h3 [(a, b), (c, d), (f, g)] rfl (by
          intro x hx
          simp only [List.mem_cons, List.not_mem_nil, or_false] at hx
          rcases hx with rfl | rfl | rfl
          · exact ⟨h1, h2⟩
          · exact ⟨h4, h5⟩
          · exact ⟨h6, h7⟩))
    refine ⟨_, by
      unfold rdm4Step
      dsimp only
      rw [hev p q r s t u m n bp bq br bs bt bu bm bn, ok_bind]
      simp only [Nat.add_sub_cancel_left]
      rw [hv]
      rfl, fun j => ?_⟩
    simp only [Nat.add_sub_cancel_left]
    rw [foldl_setN]
    constructor
    · intro h
      have := dens_writes (Ψs := Ψs) (nI := nI) (mem_rdm4Writes.1 h)
      rw [if_pos h, ← this]
      rfl
    · intro h
      rw [if_neg h]
  obtain ⟨D, k1, k2⟩ := fill (fun (a : ArrN) (j : List (ℕ × ℕ)) => a j) (rdm4Step ev d1 d2 d3 nI)
    (fun j => dens Ψs (shiftN nI j))
    (fun x j => j ∈ rdm4Writes (x.1 - nI) (x.2.1 - nI) (x.2.2.1 - nI) (x.2.2.2.1 - nI) (x.2.2.2.2.1 - nI)
      (x.2.2.2.2.2.1 - nI) (x.2.2.2.2.2.2.1 - nI) (x.2.2.2.2.2.2.2 - nI)) (rdm4Iter nI nA) hstep (fun _ => 0)
  refine ⟨D, k1, fun l hl hb => k2 l (Or.inl ?_)⟩
  obtain ⟨k, c1, c2, c3⟩ := sorted_cover l
  have hk : k.length = 4 := by
    rcases c1 with c | c
    · rw [← c.length_eq, hl]
    · rw [← c.length_eq, List.length_map, hl]
  obtain ⟨⟨p, q⟩, ⟨r, s⟩, ⟨t, u⟩, ⟨m, n⟩, rfl⟩ : ∃ a b c d, k = [a, b, c, d] := by
    rcases k with _ | ⟨a, _ | ⟨b, _ | ⟨c, _ | ⟨d, _ | ⟨f, k⟩⟩⟩⟩⟩
    · cases hk
    · cases hk
    · cases hk
    · cases hk
    · exact ⟨a, b, c, d, rfl⟩
    · simp only [List.length_cons] at hk; omega
  have hlt := lt_of_cover c1 hb
  simp only [List.pairwise_cons, List.mem_cons, List.not_mem_nil, or_false, forall_eq_or_imp, forall_eq,
    exists_eq_or_imp, exists_eq_left] at c2 c3 hlt
  refine ⟨(nI + p, nI + q, nI + r, nI + s, nI + t, nI + u, nI + m, nI + n), mem_rdm4Iter.2 (by omega), ?_⟩
  simp only [Nat.add_sub_cancel_left]
  exact mem_rdm4Writes.2 c1

end

end SQ
