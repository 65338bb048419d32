import Mathlib.Analysis.SpecialFunctions.Integrals.Basic
import Verif.Lemmas.FillTable
import Verif.Lemmas.HermiteGaussian

/-!
# Lemmas: the table of Hermite Coulomb integrals
-/

namespace SQ

open MeasureTheory Real

theorem fillTable_rel_foldl {κ : Type} [DecidableEq κ] (r : κ → κ → Prop) (hirr : ∀ a, ¬ r a a)
    (has : ∀ a b, r a b → ¬ r b a) (f : (κ → ℝ) → κ → ℝ) (R : κ → ℝ → Prop) (all : List κ)
    (h : ∀ k ∈ all, ∀ T : κ → ℝ, (∀ k' ∈ all, r k' k → R k' (T k')) → R k (f T k)) :
    ∀ (post pre : List κ) (T : κ → ℝ), all = pre ++ post → all.Pairwise r → (∀ k ∈ pre, R k (T k)) →
      ∀ k ∈ all, R k (post.foldl (fun T k => Function.update T k (f T k)) T k)
  | [], pre, T, hall, _, h1 => by
    subst hall
    simpa using h1
  | k :: post, pre, T, hall, hp, h1 => by
    have hp' := hp
    rw [hall, List.pairwise_append] at hp'
    obtain ⟨_, hp2, hp3⟩ := hp'
    rw [List.pairwise_cons] at hp2
    have hk : k ∈ all := by rw [hall]; simp
    have hf : R k (f T k) := by
      refine h k hk T fun k' hk' hr => h1 k' ?_
      rw [hall] at hk'
      rcases List.mem_append.1 hk' with hm | hm
      · exact hm
      · rcases List.mem_cons.1 hm with rfl | hm
        · exact absurd hr (hirr _)
        · exact absurd hr (has _ _ (hp2.1 k' hm))
    rw [List.foldl_cons]
    refine fillTable_rel_foldl r hirr has f R all h post (pre ++ [k]) _ (by simp [hall]) hp ?_
    intro k' hk'
    by_cases he : k' = k
    · subst he; simpa using hf
    · rw [Function.update_of_ne he]
      refine h1 k' ?_
      simpa [he] using hk'

/-- A property of the entries of a table that follows from the same property of earlier entries. -/
theorem fillTable_rel {κ : Type} [DecidableEq κ] (r : κ → κ → Prop) (hirr : ∀ a, ¬ r a a)
    (has : ∀ a b, r a b → ¬ r b a) (f : (κ → ℝ) → κ → ℝ) (R : κ → ℝ → Prop) (keys : List κ) (hp : keys.Pairwise r)
    (h : ∀ k ∈ keys, ∀ T : κ → ℝ, (∀ k' ∈ keys, r k' k → R k' (T k')) → R k (f T k)) :
    ∀ k ∈ keys, R k (fillTable keys f k) :=
  fillTable_rel_foldl r hirr has f R keys h keys [] (fun _ => 0) rfl hp (by simp)

/-- The part of the table used is given by any solution of the recursions. -/
theorem hermiteCoulomb_eq {boys : ℕ → ℝ → ℝ} {p X Y Z : ℝ} {R : ℕ → ℕ → ℕ → ℕ → ℝ}
    (hR : CoulombRecursion boys p X Y Z R) (lx ly lz t u v : ℕ) (ht : t ≤ lx) (hu : u ≤ ly) (hv : v ≤ lz) :
    hermiteCoulomb boys lx ly lz p X Y Z t u v = R 0 t u v := by
  unfold hermiteCoulomb
  have key := fillTable_rel lex4 lex4_irrefl lex4_asymm (coulombStep boys p X Y Z)
    (fun k x => k.1 + k.2.1 + k.2.2.1 + k.2.2.2 ≤ lx + ly + lz → x = R k.2.2.2 k.1 k.2.1 k.2.2.1)
    (loop4 (lx + 1) (ly + 1) (lz + 1) (lx + ly + lz + 1)) (loop4_pairwise _ _ _ _) ?_ (t, u, v, 0)
    (mem_loop4.2 (by simp only; omega)) (by simp only; omega)
  · exact key
  · rintro ⟨t, u, v, n⟩ hk T hT hle
    rw [mem_loop4] at hk
    simp only at hk hle ⊢
    have hget : ∀ t' u' v' n', lex4 (t', u', v', n') (t, u, v, n) → t' ≤ t → u' ≤ u → v' ≤ v →
        t' + u' + v' + n' ≤ lx + ly + lz → T (t', u', v', n') = R n' t' u' v' := fun t' u' v' n' hl h1 h2 h3 h4 =>
      hT (t', u', v', n') (mem_loop4.2 (by simp only; omega)) hl h4
    simp only [coulombStep]
    rcases t with _ | t
    · rcases u with _ | u
      · rcases v with _ | v
        · rw [if_pos ⟨rfl, rfl, rfl⟩, hR.zero, sq_sqrt (by positivity)]
        · rw [if_neg (by omega), if_pos ⟨rfl, rfl⟩, hR.stepZ, if_pos (show v + 1 > 0 by omega),
            hget 0 0 (v + 1 - 1) (n + 1) (by unfold lex4 lex3; simp) le_rfl le_rfl (by omega) (by omega)]
          congr 1
          · rcases v with _ | v
            · simp
            · rw [if_pos (by omega), hget 0 0 (v + 1 + 1 - 2) (n + 1) (by unfold lex4 lex3; simp) le_rfl le_rfl (by omega)
                (by omega)]
              push_cast
              rw [add_sub_cancel_right]
      · rw [if_neg (by omega), if_neg (by omega), if_pos rfl, hR.stepY, if_pos (show u + 1 > 0 by omega),
            hget 0 (u + 1 - 1) v (n + 1) (by unfold lex4 lex3; simp) le_rfl (by omega) le_rfl (by omega)]
        congr 1
        · rcases u with _ | u
          · simp
          · rw [if_pos (by omega), hget 0 (u + 1 + 1 - 2) v (n + 1) (by unfold lex4 lex3; simp) le_rfl (by omega) le_rfl
              (by omega)]
            push_cast
            rw [add_sub_cancel_right]
    · rw [if_neg (by omega), if_neg (by omega), if_neg (by omega), hR.stepX, if_pos (show t + 1 > 0 by omega),
            hget (t + 1 - 1) u v (n + 1) (by unfold lex4; simp) (by omega) le_rfl le_rfl (by omega)]
      congr 1
      · rcases t with _ | t
        · simp
        · rw [if_pos (by omega), hget (t + 1 + 1 - 2) u v (n + 1) (by unfold lex4; simp) (by omega) le_rfl le_rfl
            (by omega)]
          push_cast
          rw [add_sub_cancel_right]

/-! ## The exact solution -/

theorem hg_continuous_both : ∀ t : ℕ, Continuous fun x : ℝ × ℝ => hg x.1 t x.2 := by
  intro t
  induction t using Nat.twoStepInduction with
  | zero => simp only [hg]; fun_prop
  | one => simp only [hg]; fun_prop
  | more t h0 h1 => simp only [hg]; fun_prop

theorem hg_continuous_param (p X : ℝ) (t : ℕ) : Continuous fun s : ℝ => hg (p * s ^ 2) t X :=
  (hg_continuous_both t).comp (by fun_prop : Continuous fun s : ℝ => (p * s ^ 2, X))

/-- The Hermite Coulomb integrals of all orders. -/
noncomputable def coulombExact (p X Y Z : ℝ) (n t u v : ℕ) : ℝ :=
  (-2 * p) ^ n * ∫ s in (0 : ℝ)..1, s ^ (2 * n) * (hg (p * s ^ 2) t X * hg (p * s ^ 2) u Y * hg (p * s ^ 2) v Z)

theorem coulomb_step_integral (p X c : ℝ) (n t : ℕ) (g : ℝ → ℝ) (hg' : Continuous g) :
    (-2 * p) ^ n * ∫ s in (0 : ℝ)..1, s ^ (2 * n) * (hg (p * s ^ 2) (t + 1) X * g s) =
      t * ((-2 * p) ^ (n + 1) * ∫ s in (0 : ℝ)..1, s ^ (2 * (n + 1)) * (hg (p * s ^ 2) (t - 1) X * g s)) +
      X * ((-2 * p) ^ (n + 1) * ∫ s in (0 : ℝ)..1, s ^ (2 * (n + 1)) * (hg (p * s ^ 2) t X * g s)) := by
  have hc : ∀ t m, Continuous fun s : ℝ => s ^ m * (hg (p * s ^ 2) t X * g s) := fun t m =>
    (continuous_pow m).mul ((hg_continuous_param p X t).mul hg')
  have e : ∀ s : ℝ, s ^ (2 * n) * (hg (p * s ^ 2) (t + 1) X * g s) =
      (-2 * p) * (t * (s ^ (2 * (n + 1)) * (hg (p * s ^ 2) (t - 1) X * g s)) +
        X * (s ^ (2 * (n + 1)) * (hg (p * s ^ 2) t X * g s))) := by
    intro s
    rw [hg_succ]
    ring
  simp only [e]
  rw [intervalIntegral.integral_const_mul, intervalIntegral.integral_add
    (((hc _ _).intervalIntegrable _ _).const_mul _) (((hc _ _).intervalIntegrable _ _).const_mul _),
    intervalIntegral.integral_const_mul, intervalIntegral.integral_const_mul]
  ring

theorem coulombExact_recursion (p X Y Z : ℝ) :
    CoulombRecursion boysExact p X Y Z (coulombExact p X Y Z) where
  zero n := by
    unfold coulombExact boysExact
    congr 1
    refine intervalIntegral.integral_congr fun s _ => ?_
    simp only [hg_zero, ← exp_add]
    congr 2
    ring
  stepX n t u v := by
    have := coulomb_step_integral p X 0 n t (fun s => hg (p * s ^ 2) u Y * hg (p * s ^ 2) v Z)
      ((hg_continuous_param p Y u).mul (hg_continuous_param p Z v))
    unfold coulombExact
    simpa only [mul_assoc] using this
  stepY n u v := by
    have := coulomb_step_integral p Y 0 n u (fun s => hg (p * s ^ 2) 0 X * hg (p * s ^ 2) v Z)
      ((hg_continuous_param p X 0).mul (hg_continuous_param p Z v))
    unfold coulombExact
    simp only [mul_left_comm (hg _ _ Y), ← mul_assoc] at this ⊢
    exact this
  stepZ n v := by
    have := coulomb_step_integral p Z 0 n v (fun s => hg (p * s ^ 2) 0 X * hg (p * s ^ 2) 0 Y)
      ((hg_continuous_param p X 0).mul (hg_continuous_param p Y 0))
    unfold coulombExact
    simp only [mul_comm (hg _ _ Z)] at this ⊢
    exact this

theorem hermiteCoulomb_exact (p X Y Z : ℝ) (lx ly lz t u v : ℕ) (ht : t ≤ lx) (hu : u ≤ ly) (hv : v ≤ lz) :
    hermiteCoulomb boysExact lx ly lz p X Y Z t u v =
      ∫ s in (0 : ℝ)..1, hg (p * s ^ 2) t X * hg (p * s ^ 2) u Y * hg (p * s ^ 2) v Z := by
  rw [hermiteCoulomb_eq (coulombExact_recursion p X Y Z) lx ly lz t u v ht hu hv]
  simp [coulombExact]

end SQ
