import Verif.Lemmas.PauliDiag
import Verif.Lemmas.QubitMapRun

/-!
# Lemmas: an entry whose labels are overwritten
-/

namespace SQ

/-! ### One-electron moves on determinants -/

theorem E_move {p q : ℕ} {S S' : Finset ℕ} (h : coeff (E p q (sgl S 1) : Fock ℝ) S' ≠ 0) :
    ∃ s, s < 2 ∧ 2 * q + s ∈ S ∧ (2 * p + s = 2 * q + s ∨ 2 * p + s ∉ S) ∧ S' = insert (2 * p + s) (S.erase (2 * q + s)) := by
  have one : ∀ a b : ℕ, coeff ((cr a * an b : FOp ℝ) (sgl S 1)) S' ≠ 0 → b ∈ S ∧ (a = b ∨ a ∉ S) ∧ S' = insert a (S.erase b) := by
    intro a b h
    rw [Module.End.mul_apply, an_single] at h
    by_cases hb : b ∈ S
    · rw [if_pos hb, cr_single] at h
      by_cases ha : a ∈ S.erase b
      · rw [if_pos ha] at h; exact absurd rfl h
      · rw [if_neg ha, coeff_sgl] at h
        refine ⟨hb, ?_, ?_⟩
        · by_cases e : a = b
          · exact Or.inl e
          · exact Or.inr fun hm => ha (Finset.mem_erase.2 ⟨e, hm⟩)
        · by_contra hn
          rw [if_neg fun e => hn e.symm] at h
          exact h rfl
    · rw [if_neg hb, map_zero] at h; exact absurd rfl h
  unfold E at h
  rw [LinearMap.add_apply, coeff_add] at h
  by_cases h0 : coeff ((cr (2 * p) * an (2 * q) : FOp ℝ) (sgl S 1)) S' = 0
  · rw [h0, zero_add] at h
    exact ⟨1, by omega, one _ _ h⟩
  · exact ⟨0, by omega, one _ _ h0⟩

theorem E_below {n p q : ℕ} (hp : p < n) {x : Fock ℝ} (hx : Below (2 * n) x) : Below (2 * n) (E p q x) := by
  intro S' h
  by_contra hn
  push Not at hn
  obtain ⟨r, r1, r2⟩ := hn
  refine h (coeff_apply_eq_zero fun S hS => ?_)
  by_contra hc
  obtain ⟨s, s1, s2, -, rfl⟩ := E_move hc
  rcases Finset.mem_insert.1 r1 with h | h
  · omega
  · exact absurd (hx S hS r (Finset.mem_of_mem_erase h)) (by omega)

theorem E_diag {p q : ℕ} (h : p ≠ q) (S : Finset ℕ) : coeff (E p q (sgl S 1) : Fock ℝ) S = 0 := by
  by_contra hc
  obtain ⟨s, -, h1, -, h2⟩ := E_move hc
  rw [h2] at h1
  rcases Finset.mem_insert.1 h1 with h1 | h1
  · omega
  · simp at h1

/-- `E_rs E_pq` with `p` not among `q`, `r`, `s`. -/
theorem EE_diag {p q r s : ℕ} (h1 : p ≠ q) (h2 : p ≠ s) (S : Finset ℕ) :
    coeff (E r s (E p q (sgl S 1)) : Fock ℝ) S = 0 := by
  by_contra hc
  obtain ⟨U, u1, u2⟩ := mul_ket_ne (R := ℝ) (A := E r s) (B := E p q) (S := S) (S' := S) hc
  obtain ⟨a, a1, a2, a3, rfl⟩ := E_move u1
  obtain ⟨b, b1, b2, b3, e⟩ := E_move u2
  have hp : 2 * p + a ∉ S := a3.resolve_left (by omega)
  refine hp ?_
  rw [e]
  refine Finset.mem_insert_of_mem (Finset.mem_erase.2 ⟨by omega, Finset.mem_insert_self _ _⟩)

theorem E20_zero : (E 2 0 (sgl {0} 1) : Fock ℝ) = sgl {4} 1 := by
  unfold E
  simp [Module.End.mul_apply, an_single, cr_single, phase]

theorem E10_zero : (E 1 0 (sgl {0} 1) : Fock ℝ) = sgl {2} 1 := by
  unfold E
  simp [Module.End.mul_apply, an_single, cr_single, phase]

theorem E10_two : (E 1 0 (sgl {2} 1) : Fock ℝ) = 0 := by
  unfold E
  simp [Module.End.mul_apply, an_single]

theorem E02_four : (E 0 2 (sgl {4} 1) : Fock ℝ) = sgl {0} 1 := by
  unfold E
  simp [Module.End.mul_apply, an_single, cr_single, phase, Finset.filter_singleton]

theorem E20_four : (E 2 0 (sgl {4} 1) : Fock ℝ) = 0 := by
  unfold E
  simp [Module.End.mul_apply, an_single]

theorem E20_none : (E 2 0 (sgl ∅ 1) : Fock ℝ) = 0 := by
  unfold E
  simp [Module.End.mul_apply, an_single]

theorem core_none (x : Fock ℝ) : core 0 x = x := by
  have : (core 0 : FOp ℝ) = 1 := fop_ext fun S => by
    have := core_sgl (R := ℝ) 0 S 1
    rw [this]
    simp [withCore]
  rw [this]; rfl

/-! ### The operators -/

variable {tiny big : ℝ → Bool} {map : SDict ℝ → Res (List (List Char × ℂ))} {W : RespWf}
  {qev : (List Char → ℝ) → Dict ℝ → Res ℝ} {e : (List Char → ℝ) → ℝ}

theorem fold_value (hI : W.ci.nI = 0) {A : Dict ℝ} (hA : GenOp W.ci A) {x y : Fock ℝ} (hx : Below (2 * W.ci.nA) x)
    (hy : Below (2 * W.ci.nA) y) : inner x (sumOp (W.fold A) y) = inner x (sumOp A y) := by
  unfold RespWf.fold
  rw [getFolded_sem _ _ _ A hA.1.ord hA.1.bal (fun kv hk o ho => (hA.2 kv hk).1 o ho) hx hy, hI, mul_zero, core_none, core_none]

theorem hamOp_moves {h : ℕ → ℕ → ℝ} {g : ℕ → ℕ → ℕ → ℕ → ℝ}
    (hh : ∀ p q, h p q = if p = 0 ∧ q = 2 ∨ p = 2 ∧ q = 0 then 1 else 0) (hg : ∀ p q r s, g p q r s = 0) :
    hamOp h g 3 = E 0 2 + E 2 0 := by
  unfold hamOp oneOp twoOp
  simp [hg, hh, Finset.sum_range_succ]

theorem read_obs (hM : JWMapper (2 * W.ci.nA) map) (hr : ∀ v, ReadsValues map W.ci.nA v (qev v)) {A : Dict ℝ}
    (hA : GenOp W.ci A) : ∃ obs, opToQbit map W.ci.nA (W.fold A) = .ok obs ∧
      (∀ x, Below (2 * W.ci.nA) x → obsOp (2 * W.ci.nA) obs (onRegister W.ci.nA x) = onRegister W.ci.nA (sumOp (W.fold A) x)) ∧
      (∀ v, qexp (qev v) W.ci A = .ok (valueWith v obs)) ∧ qlab map W.ci A = .ok (obs.map Prod.fst) ∧
      Pins (2 * W.ci.nA) (fun v => valueWith v obs) (obs.map Prod.fst) := by
  obtain ⟨f1, f2⟩ := fold_below hA
  obtain ⟨obs, o1, o2⟩ := opToQbit_ok hM f1 f2
  obtain ⟨p1, p2⟩ := opToQbit_labels hM o1
  refine ⟨obs, o1, o2, fun v => hr v _ obs o1, qlab_of o1, ⟨by simpa using p1, fun p hp => ?_⟩, fix_valueWith obs⟩
  obtain ⟨pc, h1, rfl⟩ := List.mem_map.1 hp
  exact (p2 pc h1).1

/-! ### Two active operators -/

theorem qpAct_B {qev : Dict ℝ → Res ℝ} {H0 : Dict ℝ} {E : List (ℝ × ℝ)} {GJ GI : Dict ℝ × ℕ} {f : ℝ × ℝ × ℝ} {ei ej : ℝ × ℝ}
    (h : qpAct tiny qev W H0 E GJ GI = .ok f) (hi : qpAt E GI.2 = .ok ei) (hj : qpAt E GJ.2 = .ok ej) :
    f.2.1 = 1 / 2 * ei.2 * ej.1 + 1 / 2 * ej.2 * ei.1 - ei.1 * ej.1 * W.energy := by
  unfold qpAct at h
  obtain ⟨_, -, h⟩ := Res.of_bind h
  obtain ⟨_, -, h⟩ := Res.of_bind h
  obtain ⟨_, -, h⟩ := Res.of_bind h
  obtain ⟨_, -, h⟩ := Res.of_bind h
  obtain ⟨_, -, h⟩ := Res.of_bind h
  rw [hi, ok_bind, hj, ok_bind] at h
  cases h
  rfl

theorem mapProjAct_B {H0 : Dict ℝ} {energy : List (List Char)} {E : List (List (List Char) × List (List Char))}
    {GJ GI : Dict ℝ × ℕ} {s : List (List Char) × List (List Char) × List (List Char)} {ei ej : List (List Char) × List (List Char)}
    (h : mapProjAct tiny map true W H0 energy E GJ GI = .ok s) (hi : mapAt E GI.2 = .ok ei) (hj : mapAt E GJ.2 = .ok ej) :
    s.2.1 = (ej.2 ++ ei.1) ++ (ei.1 ++ ej.1 ++ energy) := by
  unfold mapProjAct at h
  obtain ⟨_, -, h⟩ := Res.of_bind h
  obtain ⟨_, -, h⟩ := Res.of_bind h
  obtain ⟨_, -, h⟩ := Res.of_bind h
  obtain ⟨_, -, h⟩ := Res.of_bind h
  obtain ⟨_, -, h⟩ := Res.of_bind h
  rw [hi, ok_bind, hj, ok_bind] at h
  cases h
  rfl

theorem lrLoop_two {ν : Type} {g0 g1 : Dict ℝ} {entry : Dict ℝ × ℕ → Dict ℝ × ℕ → Res ν} {put : LRMats → ℕ → ℕ → ν → LRMats}
    {a b c : ν} (h0 : entry (g0, 0) (g0, 0) = .ok a) (h1 : entry (g0, 0) (g1, 1) = .ok b) (h2 : entry (g1, 1) (g1, 1) = .ok c)
    (M : LRMats) : lrLoop [g0, g1].zipIdx (fun j => ([g0, g1].drop j).zipIdx j) (fun x => pure x) (fun _ x y => entry x y) put M
      = .ok (put (put (put M 0 0 a) 1 0 b) 1 1 c) := by
  unfold lrLoop
  simp only [List.zipIdx_cons, List.zipIdx_nil, List.foldlM_cons, List.foldlM_nil, List.drop_zero, List.drop_succ_cons, zero_add,
    pure_bind, h0, h1, h2, ok_bind]
  rfl

theorem labLoop_two {ν : Type} {g0 g1 : Dict ℝ} {entry : Dict ℝ × ℕ → Dict ℝ × ℕ → Res ν} {put : LabMats → ℕ → ℕ → ν → LabMats}
    {a b c : ν} (h0 : entry (g0, 0) (g0, 0) = .ok a) (h1 : entry (g0, 0) (g1, 1) = .ok b) (h2 : entry (g1, 1) (g1, 1) = .ok c)
    (M : LabMats) : labLoop [g0, g1].zipIdx (fun j => ([g0, g1].drop j).zipIdx j) entry put M
      = .ok (put (put (put M 0 0 a) 1 0 b) 1 1 c) := by
  unfold labLoop
  simp only [List.zipIdx_cons, List.zipIdx_nil, List.foldlM_cons, List.foldlM_nil, List.drop_zero, List.drop_succ_cons, zero_add,
    pure_bind, h0, h1, h2, ok_bind]
  rfl

theorem qlrInit_ops (ht : ExactTiny tiny) (hW : W.Proper) {excitations : String} {L : QLR}
    (h : qlrInit tiny big W excitations = .ok L) : L.G.map sumOp = lrOps W (lettersOf excitations) := by
  obtain ⟨G, hG, opsG, -⟩ := lrG_ok ht hW excitations
  unfold qlrInit at h
  obtain ⟨_, -, h⟩ := Res.of_bind h
  obtain ⟨_, -, h⟩ := Res.of_bind h
  rw [hG, ok_bind] at h
  obtain ⟨_, -, h⟩ := Res.of_bind h
  cases h
  exact opsG

theorem two_ops (hocc : W.occ = [0]) (hun : W.unocc = [1, 2]) : lrOps W (lettersOf "s") = [qOp 1 0, qOp 2 0] := by
  have hl : lettersOf "s" = ['s'] := by decide
  unfold lrOps
  rw [hl, hocc, hun]
  simp [iterateT1sa]

/-- The run of allprojected.py with two active operators and no orbital rotations. -/
theorem qaRun_two {qev : Dict ℝ → Res ℝ} {dg : Bool} {L : QLR} {g0 g1 : Dict ℝ} {e0 e1 : ℝ × ℝ} {f00 f10 f11 : ℝ × ℝ × ℝ}
    (hQ : L.Q = []) (hG : L.G = [g0, g1]) (h0 : qpExp tiny qev W L.H0 g0 = .ok e0) (h1 : qpExp tiny qev W L.H0 g1 = .ok e1)
    (k00 : qpAct tiny qev W L.H0 [e0, e1] (g0, 0) (g0, 0) = .ok f00)
    (k10 : qpAct tiny qev W L.H0 [e0, e1] (g0, 0) (g1, 1) = .ok f10)
    (k11 : qpAct tiny qev W L.H0 [e0, e1] (g1, 1) (g1, 1) = .ok f11) :
    ∃ M, qaRun tiny big qev W dg L = .ok (M, [e0, e1]) ∧ M.B 1 0 = f10.2.1 := by
  have hE : L.G.mapM (qpExp tiny qev W L.H0) = .ok [e0, e1] := by
    rw [hG, List.mapM_cons, h0, ok_bind, List.mapM_cons, h1]
    rfl
  obtain ⟨M', m1, m2⟩ : ∃ M', qpActLoop tiny qev W L [e0, e1] L.M = .ok M' ∧ M'.B 1 0 = f10.2.1 := by
    unfold qpActLoop
    rw [hG]
    refine ⟨_, lrLoop_two (entry := fun x y => qpAct tiny qev W L.H0 [e0, e1] x y) k00 k10 k11 L.M, ?_⟩
    rw [hQ]
    simp [setSym, set2]
  refine ⟨M', ?_, m2⟩
  unfold qaRun qaH2
  rw [if_neg (by simp [hQ])]
  simp only [pure_bind, hE, ok_bind, hQ, List.zipIdx_nil]
  unfold lrLoop
  simp only [List.foldlM_nil, pure_bind, List.mapM_nil, m1, ok_bind]
  cases dg <;> rfl

theorem qaMap_two {h2 : Option (Dict ℝ)} {L : QLR} {g0 g1 : Dict ℝ} {energy : List (List Char)}
    {e0 e1 : List (List Char) × List (List Char)} {f00 f10 f11 : List (List Char) × List (List Char) × List (List Char)}
    (hQ : L.Q = []) (hG : L.G = [g0, g1]) (hH : qlab map W.ci L.H0 = .ok energy)
    (h0 : mapExp tiny map W L.H0 g0 = .ok e0) (h1 : mapExp tiny map W L.H0 g1 = .ok e1)
    (k00 : mapProjAct tiny map true W L.H0 energy [e0, e1] (g0, 0) (g0, 0) = .ok f00)
    (k10 : mapProjAct tiny map true W L.H0 energy [e0, e1] (g0, 0) (g1, 1) = .ok f10)
    (k11 : mapProjAct tiny map true W L.H0 energy [e0, e1] (g1, 1) (g1, 1) = .ok f11) :
    ∃ S, qaMap tiny map W h2 false L = .ok S ∧ S.B 1 0 = some f10.2.1 := by
  have hE : L.G.mapM (mapExp tiny map W L.H0) = .ok [e0, e1] := by
    rw [hG, List.mapM_cons, h0, ok_bind, List.mapM_cons, h1]
    rfl
  obtain ⟨S', m1, m2⟩ : ∃ S', mapProjActLoop tiny map true W L energy [e0, e1] LabMats.blank = .ok S' ∧
      S'.B 1 0 = some f10.2.1 := by
    unfold mapProjActLoop
    rw [hG]
    refine ⟨_, labLoop_two (entry := fun x y => mapProjAct tiny map true W L.H0 energy [e0, e1] x y) k00 k10 k11 _, ?_⟩
    rw [hQ]
    simp [labSym]
  refine ⟨S', ?_, m2⟩
  unfold qaMap
  simp only [hE, hH, ok_bind, hQ, List.zipIdx_nil]
  unfold labLoop
  simp only [List.foldlM_nil, pure_bind, m1, ok_bind, hG, labFinish_eq]
  rfl

/-- One occupied and two unoccupied active orbitals, `h` with one off-diagonal element: with a mapper that lists no label
with the coefficient zero, the labels listed for `B[1][0]` do not fix it. -/
theorem lost_entry (ht : ExactTiny tiny) (hb : ExactBig big) (hW : W.Proper) (hI : W.ci.nI = 0) (hA : W.ci.nA = 3)
    (hV : W.ci.nV = 0) (hk : W.kappa = []) (hocc : W.occ = [0]) (hun : W.unocc = [1, 2])
    (hh : ∀ p q, W.h p q = if p = 0 ∧ q = 2 ∨ p = 2 ∧ q = 0 then 1 else 0) (hg : ∀ p q r s, W.g p q r s = 0) (dg : Bool) :
    ∃ (map : SDict ℝ → Res (List (List Char × ℂ))) (qev : (List Char → ℝ) → Dict ℝ → Res ℝ) (e : (List Char → ℝ) → ℝ)
      (L : QLR) (M : (List Char → ℝ) → LRMats), JWMapper (2 * W.ci.nA) map ∧ (∀ v, ReadsValues map W.ci.nA v (qev v)) ∧
      (∀ H, hamiltonian0i0a tiny big W.h W.g W.ci.nI W.ci.nA = .ok H → ∀ v, qev v (W.fold H) = .ok (e v)) ∧
      qlrInit tiny big W "s" = .ok L ∧ (∀ v, ∃ E, qaRun tiny big (qev v) (W.withEnergy (e v)) dg L = .ok (M v, E)) ∧
      ∀ h2, ∃ S, qaMap tiny map W h2 false L = .ok S ∧ ¬ FixedBy false (fun v => (M v).B 1 0) (S.B 1 0) := by
  obtain ⟨map, hM, htidy⟩ := tidyMapper_exists (2 * W.ci.nA)
  let qev : (List Char → ℝ) → Dict ℝ → Res ℝ := fun v A => (opToQbit map W.ci.nA A).map (valueWith v)
  have hr : ∀ v, ReadsValues map W.ci.nA v (qev v) := fun v A obs ho => by
    show (opToQbit map W.ci.nA A).map (valueWith v) = _
    rw [ho]
    rfl
  obtain ⟨L, H2, l1, -, l3, -, -, gens, h0⟩ := qlrInit_mapGens ht hb hW "s"
  have hQ : L.Q = [] := List.length_eq_zero_iff.1 (by rw [l3, hk]; rfl)
  have ops := (qlrInit_ops ht hW l1).trans (two_ops hocc hun)
  obtain ⟨g0, g1, hG, s0, s1⟩ : ∃ g0 g1, L.G = [g0, g1] ∧ sumOp g0 = qOp 1 0 ∧ sumOp g1 = qOp 2 0 := by
    obtain ⟨a, b, hL⟩ := List.length_eq_two.1 (show L.G.length = 2 by simpa using congrArg List.length ops)
    rw [hL] at ops
    simp only [List.map_cons, List.map_nil, List.cons.injEq, and_true] at ops
    exact ⟨a, b, hL, ops.1, ops.2⟩
  have k0 : GenOp W.ci g0 := gens.g g0 (by rw [hG]; simp)
  have k1 : GenOp W.ci g1 := gens.g g1 (by rw [hG]; simp)
  have kH := gens.h0
  obtain ⟨d0, m0, kd0, t0⟩ := kH.mul ht k0
  obtain ⟨d1, m1, kd1, t1⟩ := kH.mul ht k1
  -- the Hamiltonian
  have ham : ∀ x y, Below (2 * W.ci.nA) x → Below (2 * W.ci.nA) y → inner x (sumOp L.H0 y) = inner x ((E 0 2 + E 2 0 : FOp ℝ) y) := by
    intro x y hx hy
    obtain ⟨H, e1, -, e2⟩ := ham0_gen ht hb W.h W.g W.ci
    rw [h0] at e1
    obtain rfl := Except.ok.inj e1
    have act : ∀ z : Fock ℝ, Below (2 * W.ci.nA) z → ActiveState W.ci.nI W.ci.nA z := fun z hz S hS =>
      ⟨fun p hp => by omega, fun p hp => by have := hz S hS p hp; omega⟩
    rw [e2 x y (act x hx) (act y hy), hI, hA, hV, ← hamOp_moves hh hg]
  have hc : (Real.sqrt 2)⁻¹ ≠ 0 := by positivity
  have qb : ∀ {p : ℕ} {x : Fock ℝ}, p < 3 → Below (2 * W.ci.nA) x → Below (2 * W.ci.nA) (qOp p 0 x) := by
    intro p x hp hx S hS
    refine E_below (n := W.ci.nA) (p := p) (q := 0) (by omega) hx S fun h => hS ?_
    unfold qOp
    rw [LinearMap.smul_apply, coeff_smul, h, mul_zero]
  have hgv : ∀ {g : Dict ℝ} {p : ℕ}, GenOp W.ci g → sumOp g = qOp p 0 → ∀ {x : Fock ℝ}, Below (2 * W.ci.nA) x →
      inner x (sumOp (W.fold g) x) = (Real.sqrt 2)⁻¹ * inner x (E p 0 x) := by
    intro g p k s x hx
    rw [fold_value hI k hx hx, s]
    unfold qOp
    rw [LinearMap.smul_apply, inner_smul_right]
  have hdv : ∀ {g d : Dict ℝ} {p : ℕ}, p < 3 → GenOp W.ci d → sumOp g = qOp p 0 → sumOp d = sumOp L.H0 * sumOp g →
      ∀ {x : Fock ℝ}, Below (2 * W.ci.nA) x →
      inner x (sumOp (W.fold d) x) = (Real.sqrt 2)⁻¹ * (inner x (E 0 2 (E p 0 x)) + inner x (E 2 0 (E p 0 x))) := by
    intro g d p hp k s t x hx
    rw [fold_value hI k hx hx, t, Module.End.mul_apply, s, ham _ _ hx (qb hp hx)]
    unfold qOp
    rw [LinearMap.smul_apply, map_smul, inner_smul_right, LinearMap.add_apply, inner_add_right]
  -- no diagonal elements
  have n0 : NoDiag W.ci.nA (W.fold g0) := fun S hS => by
    rw [hgv k0 s0 (below_sgl hS 1), inner_ket_left, E_diag (by omega), mul_zero]
  have n1 : NoDiag W.ci.nA (W.fold g1) := fun S hS => by
    rw [hgv k1 s1 (below_sgl hS 1), inner_ket_left, E_diag (by omega), mul_zero]
  have nd : NoDiag W.ci.nA (W.fold d0) := fun S hS => by
    rw [hdv (by omega) kd0 s0 t0 (below_sgl hS 1), inner_ket_left, inner_ket_left, EE_diag (by omega) (by omega),
      EE_diag (by omega) (by omega), add_zero, mul_zero]
  have nH : NoDiag W.ci.nA (W.fold L.H0) := fun S hS => by
    rw [fold_value hI kH (below_sgl hS 1) (below_sgl hS 1), ham _ _ (below_sgl hS 1) (below_sgl hS 1), inner_ket_left,
      LinearMap.add_apply, coeff_add, E_diag (by omega), E_diag (by omega), add_zero]
  -- the observables
  obtain ⟨o0, a1, a2, a3, a4, a5⟩ := read_obs hM hr k0
  obtain ⟨o1, b1, b2, b3, b4, b5⟩ := read_obs hM hr k1
  obtain ⟨p0, c1, c2, c3, c4, c5⟩ := read_obs hM hr kd0
  obtain ⟨p1, r1, r2, r3, r4, r5⟩ := read_obs hM hr kd1
  obtain ⟨oH, u1, u2, u3, u4, u5⟩ := read_obs hM hr kH
  let e : (List Char → ℝ) → ℝ := fun v => valueWith v oH
  have six : ∀ {k : ℕ}, k < 6 → ∀ p ∈ ({k} : Finset ℕ), p < 2 * W.ci.nA := fun {k} hk p hp => by
    rw [Finset.mem_singleton] at hp
    omega
  let x : Fock ℝ := sgl {0} 1 + sgl {2} 1
  have hx : Below (2 * W.ci.nA) x := by
    intro S hS
    by_cases e0 : coeff (sgl {0} 1 : Fock ℝ) S = 0
    · refine below_sgl (six (k := 2) (by omega)) 1 S fun h => hS ?_
      show coeff (sgl {0} 1 : Fock ℝ) S + coeff (sgl {2} 1 : Fock ℝ) S = 0
      rw [e0, h, add_zero]
    · exact below_sgl (six (k := 0) (by omega)) 1 S e0
  let v := stateValue W.ci.nA x
  have vx : valueWith v o0 ≠ 0 := by
    have := stateValue_op a2 (fold_below k0).2 hx
    rw [show valueWith v o0 = _ from this, hgv k0 s0 hx]
    refine mul_ne_zero hc ?_
    show inner x (E 1 0 (sgl {0} 1 + sgl {2} 1)) ≠ 0
    rw [map_add, E10_zero, E10_two, add_zero]
    show inner (sgl {0} 1 + sgl {2} 1) (sgl {2} 1 : Fock ℝ) ≠ 0
    rw [inner_add_left, inner_ket_left, inner_ket_left, coeff_sgl, coeff_sgl]
    simp
  obtain ⟨v', w1, w2⟩ := lost_label hM htidy (fold_below kd1).1 (fold_below kd1).2 (S := {0}) (T := ∅) (six (by omega))
    (by simp) (by
      rw [hdv (by omega) kd1 s1 t1 (below_sgl (six (by omega)) 1), hdv (by omega) kd1 s1 t1 (below_sgl (by simp) 1),
        E20_zero, E02_four, E20_four, E20_none, map_zero, map_zero, inner_ket_left, inner_ket_left, inner_ket_left,
        coeff_sgl]
      simpa using hc) v
  have y0 := w1 _ o0 (fold_below k0).1 (fold_below k0).2 n0 a1
  have y1 := w1 _ o1 (fold_below k1).1 (fold_below k1).2 n1 b1
  have yd := w1 _ p0 (fold_below kd0).1 (fold_below kd0).2 nd c1
  have yH := w1 _ oH (fold_below kH).1 (fold_below kH).2 nH u1
  have ne := w2 p1 r1
  -- the run
  let X : List (((List Char → ℝ) → ℝ) × ((List Char → ℝ) → ℝ)) :=
    [(fun v => valueWith v o0, fun v => valueWith v p0), (fun v => valueWith v o1, fun v => valueWith v p1)]
  let F : List (List (List Char) × List (List Char)) :=
    [(o0.map Prod.fst, p0.map Prod.fst), (o1.map Prod.fst, p1.map Prod.fst)]
  have hX : List.Forall₂ (fun x l => Pins (2 * W.ci.nA) x.1 l.1 ∧ Pins (2 * W.ci.nA) x.2 l.2) X F :=
    .cons ⟨a5, c5⟩ (.cons ⟨b5, r5⟩ .nil)
  obtain ⟨f00, q00, f1, q1, -⟩ := pActEntry (e := e) (GJ := (g0, 0)) (GI := (g0, 0)) ht hM hr kH k0 k0 u5 hX (by simp [X])
    (by simp [X]) true
  obtain ⟨f10, q10, f2, q2, -⟩ := pActEntry (e := e) (GJ := (g0, 0)) (GI := (g1, 1)) ht hM hr kH k0 k1 u5 hX (by simp [X])
    (by simp [X]) true
  obtain ⟨f11, q11, f3, q3, -⟩ := pActEntry (e := e) (GJ := (g1, 1)) (GI := (g1, 1)) ht hM hr kH k1 k1 u5 hX (by simp [X])
    (by simp [X]) true
  have run : ∀ v, ∃ M, qaRun tiny big (qev v) (W.withEnergy (e v)) dg L
      = .ok (M, [(valueWith v o0, valueWith v p0), (valueWith v o1, valueWith v p1)]) ∧ M.B 1 0 = (f10 v).2.1 := by
    intro v
    refine qaRun_two hQ hG ?_ ?_ (f1 v) (f2 v) (f3 v)
    · unfold qpExp
      simp only [withEnergy_ci, a3, m0, ok_bind, c3]
      rfl
    · unfold qpExp
      simp only [withEnergy_ci, b3, m1, ok_bind, r3]
      rfl
  choose M M1 M2 using run
  refine ⟨map, qev, e, L, M, hM, hr, fun H hH v => ?_, l1, fun v => ⟨_, M1 v⟩, fun h2 => ?_⟩
  · rw [h0] at hH
    obtain rfl := Except.ok.inj hH
    exact u3 v
  · obtain ⟨S, z1, z2⟩ := qaMap_two (h2 := h2) hQ hG u4 (e0 := (o0.map Prod.fst, p0.map Prod.fst))
      (e1 := (o1.map Prod.fst, p1.map Prod.fst)) (by
        unfold mapExp
        simp only [a4, m0, ok_bind, c4]
        rfl) (by
        unfold mapExp
        simp only [b4, m1, ok_bind, r4]
        rfl) q1 q2 q3
    refine ⟨S, z1, fun hf => ?_⟩
    have sB := mapProjAct_B q2 (ei := (o1.map Prod.fst, p1.map Prod.fst)) (ej := (o0.map Prod.fst, p0.map Prod.fst)) rfl rfl
    have agree := hf v v' (by
      rintro p ⟨q, hq, e⟩
      simp only [Bool.false_eq_true, if_false] at e
      subst e
      rw [z2, sB] at hq
      simp only [Option.getD_some, List.mem_append] at hq
      rcases hq with (h | h) | (h | h) | h
      · exact yd q h
      · exact y1 q h
      · exact y1 q h
      · exact y0 q h
      · exact yH q h)
    dsimp only at agree
    rw [M2, M2, qpAct_B (f2 v) (ei := (valueWith v o1, valueWith v p1)) (ej := (valueWith v o0, valueWith v p0)) rfl rfl,
      qpAct_B (f2 v') (ei := (valueWith v' o1, valueWith v' p1)) (ej := (valueWith v' o0, valueWith v' p0)) rfl rfl] at agree
    dsimp only [RespWf.withEnergy] at agree
    have A0 : valueWith v o0 = valueWith v' o0 := a5.2 v v' y0
    have A1 : valueWith v o1 = valueWith v' o1 := b5.2 v v' y1
    have A2 : valueWith v p0 = valueWith v' p0 := c5.2 v v' yd
    have A3 : e v = e v' := u5.2 v v' yH
    rw [← A0, ← A1, ← A2, ← A3] at agree
    refine ne (mul_right_cancel₀ vx ?_)
    linarith

end SQ
