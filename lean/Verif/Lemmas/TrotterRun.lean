import Verif.Lemmas.Trotter
import Verif.Lemmas.AnsatzSem
import Verif.Lemmas.CircuitRun

/-! # The circuits of evolutions for excitations -/

namespace SQ

open Finset

variable {norb : ℕ}

/-! ### All states of electrons in the order of the register -/

theorem f2q_onto {n q : ℕ} (h : q < 2 * n) : ∃ p, p < 2 * n ∧ f2q p n = q := by
  unfold f2q
  by_cases hq : q < n
  · exact ⟨2 * q, by omega, by rw [if_pos (by omega)]; omega⟩
  · exact ⟨2 * (q - n) + 1, by omega, by rw [if_neg (by omega)]; omega⟩

theorem blocked_onto {n : ℕ} {X : Fock ℝ} (hX : Below (2 * n) X) : ∃ x, Below (2 * n) x ∧ toBlocked n x = X := by
  have hs : ∀ S : Finset ℕ, (∀ q ∈ S, q < 2 * n) → ∀ c : ℝ, ∃ x, Below (2 * n) x ∧ toBlocked n x = (sgl S c : Fock ℝ) := by
    intro S hS c
    set U := (range (2 * n)).filter fun p => f2q p n ∈ S with hU
    have hUb : ∀ q ∈ U, q < 2 * n := fun q hq => mem_range.1 (mem_filter.1 hq).1
    have e : (U.image fun p => f2q p n) = S := by
      ext q
      rw [mem_image]
      constructor
      · rintro ⟨p, hp, rfl⟩
        exact (mem_filter.1 hp).2
      · intro hq
        obtain ⟨p, h1, rfl⟩ := f2q_onto (hS q hq)
        exact ⟨p, mem_filter.2 ⟨mem_range.2 h1, hq⟩, rfl⟩
    have hne : ((getReorderingSign (occString (2 * n) U) : ℤ) : ℝ) ≠ 0 := by
      intro h0
      have := C15_isometry (R := ℝ) n hUb hUb
      rw [toBlocked_sgl, h0, inner_single_single, inner_single_single] at this
      simp at this
    refine ⟨sgl U (c / ((getReorderingSign (occString (2 * n) U) : ℤ) : ℝ)), below_sgl hUb _, ?_⟩
    rw [toBlocked_sgl, e, div_mul_cancel₀ _ hne]
  rw [fock_sum X]
  refine Finset.sum_induction _ (fun X => ∃ x, Below (2 * n) x ∧ toBlocked n x = X) ?_ ?_ fun S hS => hs S (below_mem hX hS) _
  · rintro _ _ ⟨x, hx, rfl⟩ ⟨y, hy, rfl⟩
    exact ⟨x + y, hx.add hy, map_add _ _ _⟩
  · exact ⟨0, Below.zero _, map_zero _⟩

theorem ModeOps.blocked {enc : Fock ℝ →ₗ[ℝ] QState (2 * norb)} {u : ℕ → Bool → QOp (2 * norb)} (h : ModeOps (2 * norb) enc u) :
    ModeOps (2 * norb) (enc ∘ₗ toBlocked norb) fun k b => u (f2q k norb) b := by
  have hl : ∀ k < 2 * norb, ∀ c, ∀ X : Fock ℝ, Below (2 * norb) X →
      toBlocked norb (ladder (k, c) X) = ladder (f2q k norb, c) (toBlocked norb X) := by
    intro k hk c X hX
    have := C15_intertwines norb [(k, c)] (by simpa using hk) hX
    simpa [strOp] using this
  refine ⟨fun ψ => ?_, fun k b => h.mono _ b, fun k hk X hX => ?_, fun k hk X hX => ?_⟩
  · obtain ⟨X, Y, hX, hY, rfl⟩ := h.onto ψ
    obtain ⟨x, hx, rfl⟩ := blocked_onto hX
    obtain ⟨y, hy, rfl⟩ := blocked_onto hY
    exact ⟨x, y, hx, hy, rfl⟩
  · have := hl k hk true X hX
    change toBlocked norb (cr k X) = cr (f2q k norb) (toBlocked norb X) at this
    change enc (toBlocked norb (cr k X)) = _
    rw [this]
    exact h.cre _ (f2q_bound hk) _ (below_blocked hX)
  · have := hl k hk false X hX
    change toBlocked norb (an k X) = an (f2q k norb) (toBlocked norb X) at this
    change enc (toBlocked norb (an k X)) = _
    rw [this]
    exact h.ann _ (f2q_bound hk) _ (below_blocked hX)

/-! ### Gates -/

theorem sorted_map (obs : List (List Char × ℂ)) : ∃ gs : List (List Char × ℂ), gs.Perm obs ∧
    sortedFactors obs = gs.map fun pc => (pc.1, (Complex.I * pc.2).re) := by
  refine ⟨obs.mergeSort fun x y => decide (x.1 ≤ y.1), List.mergeSort_perm _ _, ?_⟩
  unfold sortedFactors
  exact (List.map_mergeSort (f := fun pc : List Char × ℂ => (pc.1, (Complex.I * pc.2).re)) (fun a _ b _ => rfl)).symm

/-- The gates of an operator whose mapped form is a sum of commuting strings. -/
theorem gates_evolve {map : SDict ℝ → Res (List (List Char × ℂ))} {enc : Fock ℝ →ₗ[ℝ] QState (2 * norb)}
    (hM : PauliMapper (2 * norb) map enc) {A : Dict ℝ} (hA : WF A) (hr : ∀ kv ∈ A, ∀ o ∈ kv.1, o.1 < 2 * norb)
    {T : FOp ℝ} (hT : sumOp A = T) (h0 : T ≠ 0) (h3 : T * (T * T) = -T)
    (hN : ∀ B : QOp (2 * norb), (∀ x, Below (2 * norb) x → B (enc (toBlocked norb x)) = enc (toBlocked norb (T x))) → Nice B) (θ : ℝ) :
    ∃ gs, evolutionGates map norb (2 * norb) A θ = .ok gs ∧ Evolves norb enc gs T θ := by
  obtain ⟨hW, hR⟩ := renumbered_wf hA hr
  have hne : renumbered norb A ≠ [] := by
    intro h
    unfold renumbered at h
    rw [List.map_eq_nil_iff] at h
    refine h0 ?_
    rw [← hT, h]
    simp [sumOp]
  obtain ⟨obs, e1, e2⟩ := hM.exact _ hne hW hR
  obtain ⟨l1, l2⟩ := hM.labels _ _ e1
  obtain ⟨gs, hp, hs⟩ := sorted_map obs
  have hb : ∀ x, Below (2 * norb) x → Below (2 * norb) (T x) := by
    intro x hx
    rw [← hT]
    exact below_of hr hx
  have hx : ∀ x, Below (2 * norb) x → obsOp (2 * norb) obs ((enc ∘ₗ toBlocked norb) x) = (enc ∘ₗ toBlocked norb) (T x) := by
    intro x hx
    rw [LinearMap.comp_apply, LinearMap.comp_apply, e2 _ (below_blocked hx), renumbered_op hr hx, hT]
  obtain ⟨G, g1, g2, g3, g4⟩ := hN (obsLin (2 * norb) obs) fun x hx' => by rw [obsLin_apply]; exact hx x hx'
  refine ⟨gs.map fun pc => (pc.1, (Complex.I * pc.2).re * θ), ?_, fun x hx' => ?_⟩
  · unfold evolutionGates
    rw [qiskitForm_texts hA hr]
    change (map _ >>= _) = _
    unfold renumbered at e1
    rw [e1]
    change (sortedFactors obs).mapM _ = _
    rw [hs]
    have hlen : ∀ pc ∈ gs, pc.1.length = 2 * norb := fun pc hpc => (l1 pc (hp.subset hpc)).1
    clear hs hp e1 e2 g4 hN hx
    induction gs with
    | nil => rfl
    | cons g gs ih =>
      rw [List.map_cons, List.mapM_cons, if_pos (hlen g (by simp)), ih fun pc hpc => hlen pc (by simp [hpc])]
      rfl
  · have hx1 := hb x hx'
    have hx2 := hb _ hx1
    refine ⟨(1 + Real.sin θ • T + (1 - Real.cos θ) • (T * T) : FOp ℝ) x, fun S => ?_, (hx'.add (hx1.smul _)).add (hx2.smul _), ?_⟩
    · rw [u1]; exact (freq1 T h3).isExp θ x S
    · exact evolutions_exp (enc := enc ∘ₗ toBlocked norb) hp h3 hb hx l1 l2 g1 g2 g3 g4 θ hx'

theorem phase_ne (S : Finset ℕ) (p : ℕ) : (phase S p : ℝ) ≠ 0 := fun h => by
  have := phase_sq (R := ℝ) S p
  rw [h] at this
  simp at this

theorem single_ne {i a : ℕ} (h : i ≠ a) : (cr a * an i - cr i * an a : FOp ℝ) ≠ 0 := by
  intro h0
  have h1 : (cr a * an i - cr i * an a : FOp ℝ) (ket {i}) = 0 := by rw [h0]; rfl
  have h2 : (cr a * an i : FOp ℝ) (ket {i}) = sgl {a} (1 * phase {i} i * phase ∅ a) := by
    rw [Module.End.mul_apply, an_single, if_pos (by simp)]
    have : ({i} : Finset ℕ).erase i = ∅ := by simp
    rw [this, cr_single, if_neg (by simp)]
    rfl
  have h3 : (cr i * an a : FOp ℝ) (ket {i}) = 0 := by
    rw [Module.End.mul_apply, an_single, if_neg (by simpa using Ne.symm h), map_zero]
  rw [LinearMap.sub_apply, h2, h3, sub_zero] at h1
  have := congrArg (fun x => coeff x {a}) h1
  simp only [coeff_sgl, if_true, coeff_zero, one_mul] at this
  exact mul_ne_zero (phase_ne _ _) (phase_ne _ _) this

theorem double_ne {i j a b : ℕ} (hn : [i, j, a, b].Nodup) : (excite [a, b] [j, i] - excite [i, j] [b, a] : FOp ℝ) ≠ 0 := by
  simp only [List.nodup_cons, List.mem_cons, List.not_mem_nil, or_false, not_or, List.nodup_nil, not_false_eq_true, and_true] at hn
  obtain ⟨⟨h1, h2, h3⟩, ⟨h4, h5⟩, h6⟩ := hn
  intro h0
  have k1 : (excite [a, b] [j, i] - excite [i, j] [b, a] : FOp ℝ) (ket {i, j}) = 0 := by rw [h0]; rfl
  have e : ∀ p q r s : ℕ, ∀ x, (excite [p, q] [r, s] : FOp ℝ) x = cr p (cr q (an r (an s x))) := by intros; simp [excite]
  have k2 : (excite [a, b] [j, i] : FOp ℝ) (ket {i, j})
      = sgl {a, b} (1 * phase {i, j} i * phase {j} j * phase ∅ b * phase {b} a) := by
    rw [e, an_single, if_pos (by simp)]
    have : ({i, j} : Finset ℕ).erase i = {j} := by simp [h1]
    rw [this, an_single, if_pos (by simp)]
    have : ({j} : Finset ℕ).erase j = ∅ := by simp
    rw [this, cr_single, if_neg (by simp), show insert b (∅ : Finset ℕ) = {b} from rfl, cr_single, if_neg (by simpa using h6)]
  have k3 : (excite [i, j] [b, a] : FOp ℝ) (ket {i, j}) = 0 := by
    rw [e, an_single, if_neg (by simp only [Finset.mem_insert, Finset.mem_singleton, not_or]; exact ⟨Ne.symm h2, Ne.symm h4⟩),
      map_zero, map_zero, map_zero]
  rw [LinearMap.sub_apply, k2, k3, sub_zero] at k1
  have := congrArg (fun x => coeff x {a, b}) k1
  simp only [coeff_sgl, if_true, coeff_zero, one_mul] at this
  exact mul_ne_zero (mul_ne_zero (mul_ne_zero (phase_ne _ _) (phase_ne _ _)) (phase_ne _ _)) (phase_ne _ _) this

theorem single_evolves {tiny : ℝ → Bool} (ht : ExactTiny tiny) {map : SDict ℝ → Res (List (List Char × ℂ))}
    {enc : Fock ℝ →ₗ[ℝ] QState (2 * norb)} (hM : PauliMapper (2 * norb) map enc) {i a : ℕ} (hi : i < 2 * norb) (ha : a < 2 * norb)
    (hn : i ≠ a) (hs : i % 2 = a % 2) (θ : ℝ) : ∃ gs, singleTrotter tiny map i a norb (2 * norb) θ = .ok gs ∧
      Evolves norb enc gs (cr a * an i - cr i * an a) θ := by
  obtain ⟨A, e1, e2, e3, e4⟩ := dk_G (P := (· < 2 * norb)) (R := ℝ) ht [a] [i] rfl (by simp) (by simp [hi, ha])
    (by simp only [List.countP_cons, List.countP_nil, hs])
  obtain ⟨u, hu⟩ := hM.modeOps
  have hb := hu.blocked
  have eT : sumOp A = (cr a * an i - cr i * an a : FOp ℝ) := by rw [e3]; simp [excite]
  have key : singleTrotter tiny map i a norb (2 * norb) θ
      = (do antiH tiny true (← gChain tiny [(a, true), (i, false)])) >>= fun T => evolutionGates map norb (2 * norb) T θ := by
    unfold singleTrotter gChain antiH
    simp [List.foldlM]
  rw [key]
  change (do antiH tiny true (← gChain tiny [(a, true), (i, false)])) = Except.ok A at e1
  rw [e1]
  refine gates_evolve hM (A := A) e2.wf (fun kv hkv o ho => (e4 kv hkv).1 o ho) eT (single_ne hn) (cube_single a i) (fun B hB => ?_) θ
  have : B = lad (fun k b => u (f2q k norb) b) a true * lad (fun k b => u (f2q k norb) b) i false
      - lad (fun k b => u (f2q k norb) b) i true * lad (fun k b => u (f2q k norb) b) a false := hb.ext fun X hX => ?_
  · rw [this]; exact hb.single hi ha
  · refine (hB X hX).trans ?_
    have e1 := hb.onLad ha true (below_ladder hi false hX)
    have e2 := hb.onLad hi true (below_ladder ha false hX)
    rw [hb.onLad hi false hX] at e1
    rw [hb.onLad ha false hX] at e2
    rw [LinearMap.sub_apply, LinearMap.sub_apply, map_sub, map_sub]
    exact congrArg₂ (· - ·) e1 e2

theorem double_evolves {tiny : ℝ → Bool} (ht : ExactTiny tiny) {map : SDict ℝ → Res (List (List Char × ℂ))}
    {enc : Fock ℝ →ₗ[ℝ] QState (2 * norb)} (hM : PauliMapper (2 * norb) map enc) {i j a b : ℕ} (hi : i < 2 * norb) (hj : j < 2 * norb)
    (ha : a < 2 * norb) (hb : b < 2 * norb) (hn : [i, j, a, b].Nodup)
    (hs : [i, j].countP (· % 2 = 1) = [a, b].countP (· % 2 = 1)) (θ : ℝ) :
    ∃ gs, doubleTrotter tiny map i j a b norb (2 * norb) θ = .ok gs ∧
      Evolves norb enc gs (excite [a, b] [j, i] - excite [i, j] [b, a]) θ := by
  obtain ⟨A, e1, e2, e3, e4⟩ := dk_G (P := (· < 2 * norb)) (R := ℝ) ht [a, b] [j, i] rfl (by simp) (by simp [hi, hj, ha, hb])
    (by rw [← hs]; simp only [List.countP_cons, List.countP_nil]; omega)
  obtain ⟨u, hu⟩ := hM.modeOps
  have hB := hu.blocked
  have eT : sumOp A = (excite [a, b] [j, i] - excite [i, j] [b, a] : FOp ℝ) := by rw [e3]; simp
  have key : doubleTrotter tiny map i j a b norb (2 * norb) θ
      = (do antiH tiny true (← gChain tiny [(a, true), (b, true), (j, false), (i, false)])) >>=
        fun T => evolutionGates map norb (2 * norb) T θ := by
    unfold doubleTrotter gChain antiH
    simp [List.foldlM]
  rw [key]
  change (do antiH tiny true (← gChain tiny [(a, true), (b, true), (j, false), (i, false)])) = Except.ok A at e1
  rw [e1]
  refine gates_evolve hM (A := A) e2.wf (fun kv hkv o ho => (e4 kv hkv).1 o ho) eT (double_ne hn) (cube_double a b i j) (fun B h => ?_) θ
  set v : ℕ → Bool → QOp (2 * norb) := fun k b => u (f2q k norb) b with hv
  have hn' : [a, b, j, i].Nodup := by
    simp only [List.nodup_cons, List.mem_cons, List.not_mem_nil, or_false, not_or, List.nodup_nil, not_false_eq_true, and_true] at hn ⊢
    obtain ⟨⟨h1, h2, h3⟩, ⟨h4, h5⟩, h6⟩ := hn
    exact ⟨⟨h6, Ne.symm h4, Ne.symm h2⟩, ⟨Ne.symm h5, Ne.symm h3⟩, Ne.symm h1⟩
  have chain : ∀ {p q r s : ℕ}, p < 2 * norb → q < 2 * norb → r < 2 * norb → s < 2 * norb → ∀ X, Below (2 * norb) X →
      enc (toBlocked norb (excite [p, q] [r, s] X)) = (lad v p true * lad v q true * lad v r false * lad v s false) (enc (toBlocked norb X)) := by
    intro p q r s hp hq hr hs' X hX
    have b1 := below_ladder hs' false hX
    have b2 := below_ladder hr false b1
    have b3 := below_ladder hq true b2
    have c1 := hB.onLad hs' false hX
    have c2 := hB.onLad hr false b1
    have c3 := hB.onLad hq true b2
    have c4 := hB.onLad hp true b3
    rw [c3, c2, c1] at c4
    have e : excite [p, q] [r, s] X = ladder (p, true) (ladder (q, true) (ladder (r, false) (ladder (s, false) X))) := by
      simp [excite, ladder]
    rw [e]
    exact c4
  have : B = lad v a true * lad v b true * lad v j false * lad v i false
      - lad v i true * lad v j true * lad v b false * lad v a false := hB.ext fun X hX => ?_
  · rw [this]; exact hB.double ha hb hj hi hn'
  · refine (h X hX).trans ?_
    rw [LinearMap.sub_apply, LinearMap.sub_apply, map_sub, map_sub, chain ha hb hj hi X hX, chain hi hj hb ha X hX]
    rfl

/-! ### Chains -/

theorem Evolves.comp {enc : Fock ℝ →ₗ[ℝ] QState (2 * norb)} {g1 g2 : List Evolution} {A B : FOp ℝ} {θ : ℝ}
    (h1 : Evolves norb enc g1 A θ) (h2 : Evolves norb enc g2 B θ) (hA : A * (A * A) = -A) (hB : B * (B * B) = -B)
    (hc : B * A = A * B) : Evolves norb enc (g1 ++ g2) (A + B) θ := by
  intro x hx
  obtain ⟨y, e1, b1, r1⟩ := h1 x hx
  obtain ⟨z, e2, b2, r2⟩ := h2 y b1
  refine ⟨z, ?_, b2, ?_⟩
  · have uniq : ∀ {T : FOp ℝ} {U : FOp ℝ} {x y : Fock ℝ}, IsExp T θ U → ExpTo T θ x y → y = U x :=
      fun hU hy => fock_ext fun S => (hy S).unique (hU _ S)
    have f1 := uniq ((freq1 A hA).isExp θ) e1
    have f2 := uniq ((freq1 B hB).isExp θ) e2
    intro S
    rw [f2, f1, ← u1, ← u1, ← Module.End.mul_apply, u12 hA hB hc]
    exact (freq12 hA hB hc).isExp θ x S
  · unfold runEvolutions at *
    rw [List.foldl_append, r1, r2]

theorem sa_evolves {tiny : ℝ → Bool} (ht : ExactTiny tiny) {map : SDict ℝ → Res (List (List Char × ℂ))}
    {enc : Fock ℝ →ₗ[ℝ] QState (2 * norb)} (hM : PauliMapper (2 * norb) map enc) {i a : ℕ} (hi : i < norb) (ha : a < norb)
    (hn : i ≠ a) (θ : ℝ) : ∃ gs, saSingleTrotter tiny map i a norb (2 * norb) θ = .ok gs ∧ Evolves norb enc gs (E a i - E i a) θ := by
  obtain ⟨g1, e1, p1⟩ := single_evolves ht hM (i := 2 * i) (a := 2 * a) (by omega) (by omega) (by omega) (by omega) θ
  obtain ⟨g2, e2, p2⟩ := single_evolves ht hM (i := 2 * i + 1) (a := 2 * a + 1) (by omega) (by omega) (by omega) (by omega) θ
  refine ⟨g1 ++ g2, ?_, ?_⟩
  · unfold saSingleTrotter
    rw [e1, e2]
    rfl
  · have hc : ∀ p q r s : ℕ, p ≠ r → p ≠ s → q ≠ r → q ≠ s →
        (cr p * an q - cr q * an p : FOp ℝ) * (cr r * an s - cr s * an r)
          = (cr r * an s - cr s * an r) * (cr p * an q - cr q * an p) := by
      intro p q r s h1 h2 h3 h4
      rw [sub_mul, mul_sub, mul_sub, sub_mul, mul_sub, mul_sub, pair_comm h3 h2, pair_comm h4 h1,
        pair_comm h1 h4, pair_comm h2 h3]
      abel
    have := p1.comp p2 (cube_single _ _) (cube_single _ _) (hc _ _ _ _ (by omega) (by omega) (by omega) (by omega))
    have eT : (E a i - E i a : FOp ℝ) = cr (2 * a) * an (2 * i) - cr (2 * i) * an (2 * a) +
        (cr (2 * a + 1) * an (2 * i + 1) - cr (2 * i + 1) * an (2 * a + 1)) := by unfold E; abel
    rw [eT]; exact this

end SQ
