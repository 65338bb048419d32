import Verif.Lemmas.CircuitLayouts
import Verif.Spec.Trotter

/-! # Layouts of the ansatz structures as layouts of evolutions -/

namespace SQ

theorem names_ext : ∀ {l1 l2 : List (String × ℕ)}, l1.map Prod.fst = l2.map Prod.fst →
    (l1.map fun p => some p.2) = (l2.map fun p => some p.2) → l1 = l2
  | [], [], _, _ => rfl
  | [], _ :: _, h, _ => by simp at h
  | _ :: _, [], h, _ => by simp at h
  | x :: l1, y :: l2, h, k => by
    simp only [List.map_cons, List.cons.injEq, Option.some.injEq] at h k
    rw [Prod.ext h.1 k.1, names_ext h.2 k.2]

theorem trotter_exc {n : ℕ} {ty : String} {idx : List ℕ} {T T' : FOp ℝ} (h : Excitation 0 n ty idx T')
    (h' : CircuitExc n ty idx T) : TrotterExc n ty idx T := by
  have names : ∀ k, 1 ≤ k ∧ k ≤ 6 → (spinName k = "single" → k = 1) ∧ (spinName k = "double" → k = 2) := by
    rintro k ⟨h1, h2⟩
    interval_cases k <;> decide
  cases h' with
  | single i a hr hc =>
    have hn : i ≠ a := by rintro rfl; omega
    generalize e1 : "single" = ty at h
    generalize e2 : [i, a] = idx at h
    cases h with
    | spin k hk I A hI hA _ hs =>
      obtain rfl := (names k hk).1 e1.symm
      match I, A, hI, hA with
      | [i'], [a'], _, _ =>
        simp only [List.cons_append, List.nil_append, List.cons.injEq, and_true] at e2
        obtain ⟨rfl, rfl⟩ := e2
        rw [e1.symm]
        refine .single i a hr hn ?_
        simp only [List.countP_cons, List.countP_nil] at hs
        rcases Nat.mod_two_eq_zero_or_one a with h | h <;> rcases Nat.mod_two_eq_zero_or_one i with h' | h' <;>
          simp [h, h'] at hs ⊢
    | saSingle => exact absurd e1 (by decide)
    | saDouble1 => exact absurd e1 (by decide)
    | saDouble2 => exact absurd e1 (by decide)
    | saDouble3 => exact absurd e1 (by decide)
    | saDouble4 => exact absurd e1 (by decide)
    | saDouble5 => exact absurd e1 (by decide)
  | double i j a b hr hn =>
    generalize e1 : "double" = ty at h
    generalize e2 : [i, j, a, b] = idx at h
    cases h with
    | spin k hk I A hI hA _ hs =>
      obtain rfl := (names k hk).2 e1.symm
      match I, A, hI, hA with
      | [i', j'], [a', b'], _, _ =>
        simp only [List.cons_append, List.nil_append, List.cons.injEq, and_true] at e2
        obtain ⟨rfl, rfl, rfl, rfl⟩ := e2
        rw [e1.symm]
        exact .double i j a b hr hn hs
    | saSingle => exact absurd e1 (by decide)
    | saDouble1 => exact absurd e1 (by decide)
    | saDouble2 => exact absurd e1 (by decide)
    | saDouble3 => exact absurd e1 (by decide)
    | saDouble4 => exact absurd e1 (by decide)
    | saDouble5 => exact absurd e1 (by decide)
  | saSingle i a hlt ha =>
    refine .saSingle i a (fun p hp => ?_) (by omega)
    simp only [List.mem_cons, List.not_mem_nil, or_false] at hp
    rcases hp with rfl | rfl <;> omega

theorem trotter_layout {n : ℕ} {types : List String} {indices : List (List ℕ)} {Ts Ts' : List (FOp ℝ)}
    (h : Layout 0 n types indices Ts') (h' : CircuitLayout n types indices Ts) : TrotterLayout n types indices Ts := by
  induction h generalizing Ts with
  | nil => cases h'; exact .nil
  | cons h1 _ ih =>
    cases h' with
    | cons k1 k2 => exact .cons (trotter_exc h1 k1) (ih k2)

end SQ
