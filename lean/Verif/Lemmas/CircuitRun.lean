import Verif.Lemmas.CircuitExp

/-! # Circuits of whole layouts -/

namespace SQ

open Finset

/-- The single excitation circuit. -/
theorem single_prepares {norb i a : ℕ} (hi : i < 2 * norb) (ha : a < 2 * norb) (h : f2q i norb < f2q a norb) (θ : ℝ) :
    ∃ gs, (singleGates (f2q a norb) (f2q i norb) θ).mapM (GateCall.place (2 * norb)) = .ok gs ∧
      Prepares norb gs (cr a * an i - cr i * an a) θ := by
  obtain ⟨gs, hg⟩ := calls_fit (single_fits h (f2q_bound ha) θ)
  refine ⟨gs, hg, prepares_of (Tb := cr (f2q a norb) * an (f2q i norb) - cr (f2q i norb) * an (f2q a norb)) hg (cube_single a i)
    (fun x hx => ?_) (fun x hx => ?_) fun X => ?_⟩
  · rw [LinearMap.sub_apply]
    exact (below_cr ha (below_an hx)).sub (below_cr hi (below_an hx))
  · have e1 := excite_blocked (C := [a]) (A := [i]) (by simpa using ha) (by simpa using hi) hx
    have e2 := excite_blocked (C := [i]) (A := [a]) (by simpa using hi) (by simpa using ha) hx
    simp only [excite, List.map_cons, List.map_nil, List.prod_cons, List.prod_nil, mul_one] at e1 e2
    rw [LinearMap.sub_apply, map_sub, e1, e2, LinearMap.sub_apply]
  · rw [single_circuit h, single_fock h (f2q_bound ha)]

theorem f2q_min {n p q : ℕ} (hp : p < 2 * n) (hq : q < 2 * n) : f2q p n < f2q q n ↔ (p % 2 = q % 2 ∧ p < q) ∨ (p % 2 = 0 ∧ q % 2 = 1) := by
  unfold f2q
  split <;> split <;> omega

/-- What the double excitation circuit accepts besides the order. -/
theorem double_case {n i j a b : ℕ} (hi : i < 2 * n) (hj : j < 2 * n) (ha : a < 2 * n) (hb : b < 2 * n)
    (h1 : i < a) (h2 : i < b) (h3 : j < a) (h4 : j < b) (hp : [i, j, a, b].countP (· % 2 = 0) % 2 = 0) {f : ℤ}
    (hf : f = if a % 2 = b % 2 ∧ a % 2 = 0 ∧ i % 2 ≠ 0 then -1 else 1) :
    (f = 1 ∧ min (f2q i n) (f2q j n) < min (f2q a n) (f2q b n) ∧ max (f2q i n) (f2q j n) < max (f2q a n) (f2q b n)) ∨
    (f = -1 ∧ min (f2q a n) (f2q b n) < min (f2q i n) (f2q j n) ∧ max (f2q a n) (f2q b n) < max (f2q i n) (f2q j n)) := by
  simp only [List.countP_cons, List.countP_nil, decide_eq_true_eq] at hp
  unfold f2q
  rcases Nat.mod_two_eq_zero_or_one i with ei | ei <;> rcases Nat.mod_two_eq_zero_or_one j with ej | ej <;>
    rcases Nat.mod_two_eq_zero_or_one a with ea | ea <;> rcases Nat.mod_two_eq_zero_or_one b with eb | eb <;>
    simp only [ei, ej, ea, eb] at hp hf ⊢ <;> first | (exfalso; norm_num at hp; done) | (norm_num at hf; subst hf; norm_num; omega)

theorem double_prepares {norb i j a b : ℕ} (hi : i < 2 * norb) (hj : j < 2 * norb) (ha : a < 2 * norb) (hb : b < 2 * norb)
    (hn : [i, j, a, b].Nodup) (h1 : i < a) (h2 : i < b) (h3 : j < a) (h4 : j < b)
    (hp : [i, j, a, b].countP (· % 2 = 0) % 2 = 0) (θ : ℝ) :
    ∃ calls gs, doubleEfficient a b i j norb θ = .ok calls ∧ calls.mapM (GateCall.place (2 * norb)) = .ok gs ∧
      Prepares norb gs (excite [a, b] [j, i] - excite [i, j] [b, a]) θ := by
  have hn' : [f2q i norb, f2q j norb, f2q a norb, f2q b norb].Nodup := by
    have inj : ∀ {p q}, p < 2 * norb → q < 2 * norb → p ≠ q → f2q p norb ≠ f2q q norb := fun hp hq h e => h (f2q_inj hp hq e)
    simp only [List.nodup_cons, List.mem_cons, List.not_mem_nil, or_false, not_or] at hn ⊢
    obtain ⟨⟨a1, a2, a3⟩, ⟨a4, a5⟩, a6, -⟩ := hn
    exact ⟨⟨inj hi hj a1, inj hi ha a2, inj hi hb a3⟩, ⟨inj hj ha a4, inj hj hb a5⟩, inj ha hb a6, id, List.nodup_nil⟩
  obtain ⟨k, l, i', j', fac, e, c1, c2, c3, c4, c5, c6, c7⟩ := swaps_spec hn' (double_case hi hj ha hb h1 h2 h3 h4 hp rfl)
  have hl : l < 2 * norb := by
    have := f2q_bound hi; have := f2q_bound hj; have := f2q_bound ha; have := f2q_bound hb
    omega
  have hβ : [i, j, a, b].countP (· % 2 ≠ 0) % 2 = 0 := by
    simp only [List.countP_cons, List.countP_nil, decide_eq_true_eq] at hp ⊢
    rcases Nat.mod_two_eq_zero_or_one i with ei | ei <;> rcases Nat.mod_two_eq_zero_or_one j with ej | ej <;>
    rcases Nat.mod_two_eq_zero_or_one a with ea | ea <;> rcases Nat.mod_two_eq_zero_or_one b with eb | eb <;>
    simp only [ei, ej, ea, eb] at hp ⊢ <;> first | (exfalso; norm_num at hp; done) | norm_num
  obtain ⟨gs, hg⟩ := calls_fit (double_fits c1 c2 c3 c4 c5 hl (2 * θ * fac))
  refine ⟨doubleGates k l i' j' (2 * θ * fac), gs, ?_, hg, ?_⟩
  · unfold doubleEfficient
    rw [if_neg (by omega), if_neg (by omega)]
    simp only
    rw [if_neg (by rw [hp, hβ]; simp), e]
  · refine prepares_of (Tb := dblT (f2q a norb) (f2q b norb) (f2q i norb) (f2q j norb)) hg (cube_double a b i j)
      (fun x hx => ?_) (fun x hx => ?_) fun X => ?_
    · rw [LinearMap.sub_apply]
      exact (below_excite (by simp [ha, hb]) hx).sub (below_excite (by simp [hi, hj]) hx)
    · have e1 := excite_blocked (C := [a, b]) (A := [j, i]) (by simp [ha, hb]) (by simp [hi, hj]) hx
      have e2 := excite_blocked (C := [i, j]) (A := [b, a]) (by simp [hi, hj]) (by simp [ha, hb]) hx
      rw [LinearMap.sub_apply, map_sub, e1, e2]
      rfl
    · rw [mul_assoc, double_all c1 c2 c3 c4 c5, ← double_fock c1 c2 c3 c4 c5 hl]
      rcases c7 with ⟨rfl, h⟩ | ⟨rfl, h⟩
      · rw [h]; simp
      · rw [h]; simp

/-! ### Chains -/

theorem Prepares.comp {norb : ℕ} {g1 g2 : List (PGate (2 * norb))} {A B : FOp ℝ} {θ : ℝ} (h1 : Prepares norb g1 A θ)
    (h2 : Prepares norb g2 B θ) (hA : A * (A * A) = -A) (hB : B * (B * B) = -B) (hc : B * A = A * B) :
    Prepares norb (g1 ++ g2) (A + B) θ := by
  intro x hx
  obtain ⟨y, e1, b1, r1⟩ := h1 x hx
  obtain ⟨z, e2, b2, r2⟩ := h2 y b1
  refine ⟨z, ?_, b2, ?_⟩
  · have uniq : ∀ {T : FOp ℝ} {U : FOp ℝ} {x y : Fock ℝ}, IsExp T θ U → ExpTo T θ x y → y = U x :=
      fun hU hy => fock_ext fun S => (hy S).unique (hU _ S)
    have f1 := uniq ((freq1 A hA).isExp θ) e1
    have f2 := uniq ((freq1 B hB).isExp θ) e2
    intro S
    rw [f2, f1, ← u1, ← u1, ← Module.End.mul_apply, u12 hA hB hc]
    exact (freq12 hA hB hc).isExp θ x S
  · unfold runPCircuit at *
    rw [List.foldl_append, r1, r2]

theorem sa_prepares {norb i a : ℕ} (h : i < a) (ha : a < norb) (θ : ℝ) :
    ∃ calls gs, saSingleEfficient a i norb θ = .ok calls ∧ calls.mapM (GateCall.place (2 * norb)) = .ok gs ∧
      Prepares norb gs (E a i - E i a) θ := by
  have f1 : f2q (2 * i) norb < f2q (2 * a) norb := (f2q_min (by omega) (by omega)).2 (by omega)
  have f2 : f2q (2 * i + 1) norb < f2q (2 * a + 1) norb := (f2q_min (by omega) (by omega)).2 (by omega)
  obtain ⟨g1, e1, p1⟩ := single_prepares (norb := norb) (i := 2 * i) (a := 2 * a) (by omega) (by omega) f1 θ
  obtain ⟨g2, e2, p2⟩ := single_prepares (norb := norb) (i := 2 * i + 1) (a := 2 * a + 1) (by omega) (by omega) f2 θ
  refine ⟨singleGates (f2q (2 * a) norb) (f2q (2 * i) norb) θ ++ singleGates (f2q (2 * a + 1) norb) (f2q (2 * i + 1) norb) θ,
    g1 ++ g2, ?_, ?_, ?_⟩
  · unfold saSingleEfficient singleEfficient
    simp only
    rw [if_neg (by omega), if_neg (by omega)]
    rfl
  · rw [List.mapM_append, e1, e2]; rfl
  · have hc : ∀ p q r s : ℕ, p ≠ r → p ≠ s → q ≠ r → q ≠ s →
        (cr p * an q - cr q * an p : FOp ℝ) * (cr r * an s - cr s * an r)
          = (cr r * an s - cr s * an r) * (cr p * an q - cr q * an p) := by
      intro p q r s h1 h2 h3 h4
      rw [sub_mul, mul_sub, mul_sub, sub_mul, mul_sub, mul_sub, pair_comm h3 h2, pair_comm h4 h1,
        pair_comm h1 h4, pair_comm h2 h3]
      abel
    have := p1.comp p2 (cube_single _ _) (cube_single _ _) (hc _ _ _ _ (by omega) (by omega) (by omega) (by omega))
    have eT : (E a i - E i a : FOp ℝ) = cr (2 * a) * an (2 * i) - cr (2 * i) * an (2 * a) +
        (cr (2 * a + 1) * an (2 * i + 1) - cr (2 * i + 1) * an (2 * a + 1)) := by unfold E; abel
    rw [eT]; exact this

end SQ
