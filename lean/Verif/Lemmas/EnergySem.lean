import Verif.Lemmas.HamKeys
import Verif.Lemmas.AnsatzRows
import Verif.Model.UpsGradient
import Verif.Props.Excitations

/-! # Folded operators on complete spaces; the gradient loop -/

namespace SQ

theorem activeState_core {nI nA : ℕ} {R : Type*} [CommRing R] {x : Fock R} (h : Below (2 * nA) x) :
    ActiveState nI nA (core (2 * nI) x) := by
  intro T hT
  obtain ⟨S, hS, rfl⟩ := coeff_core_ne hT
  unfold withCore
  refine ⟨fun p hp => by simp [hp], fun p hp => ?_⟩
  rcases Finset.mem_union.1 hp with h1 | h1
  · have := Finset.mem_range.1 h1; omega
  · obtain ⟨q, hq, rfl⟩ := Finset.mem_image.1 h1
    have := h S hS q hq
    omega

section
variable {tiny big : ℝ → Bool} {ci : CIInfo} {th : Threads}

theorem applyFold (ht : ExactTiny tiny) (hs : AnsatzSpace ci ci.nA) (hth : th.Fair ci.idx2det.length)
    (U : Bool → Vec ℝ → Res (Vec ℝ)) {A : Dict ℝ} (hA : NumCons A)
    (hk : Keys (· < 2 * (ci.nI + ci.nA + ci.nV)) (fun _ => 0) A) (v : Vec ℝ) :
    ∃ w, propagateState tiny th ci U true false [.op A] v = .ok w ∧
      ∀ bra, dot ci.idx2det.length bra w
        = inner (core (2 * ci.nI) (stateOf ci bra)) (sumOp A (core (2 * ci.nI) (stateOf ci v))) := by
  obtain ⟨f1, f2⟩ := getFolded_inv hA hk
  have h0 : ci.offset = 0 := by have := hs.fits; omega
  have hc : ci.ClosedOn (· < 2 * ci.nA) := by
    intro S S' h1 h2 h3 h4
    refine hs.closed S S' h1 (fun p hp => h2 p fun h => hp ?_) h3 h4
    dsimp only at h
    omega
  obtain ⟨w, hw, ew⟩ := applyOp_closed ht hs.valid hc (fun _ h => h) hth v f1 f2
  refine ⟨w, ?_, fun bra => ?_⟩
  · simpa [propagateState, propStep] using hw
  · rw [dot_eq_inner hs.valid, ew, getFolded_sem ci.nI ci.nA ci.nV A hA.ord hA.bal
      (fun kv h o ho => (hk kv h).1 o ho) (below_stateOf ci bra) (below_stateOf ci v)]

/-- The full Hamiltonian. -/
noncomputable def hamOp (h : ℕ → ℕ → ℝ) (g : ℕ → ℕ → ℕ → ℕ → ℝ) (n : ℕ) : FOp ℝ :=
  oneOp h n + (1 / 2 : ℝ) • twoOp g n

theorem applyHam_sem (ht : ExactTiny tiny) (hb : ExactBig big) (hs : AnsatzSpace ci ci.nA)
    (hth : th.Fair ci.idx2det.length) (h : ℕ → ℕ → ℝ) (g : ℕ → ℕ → ℕ → ℕ → ℝ) (v : Vec ℝ) :
    ∃ w, applyHam tiny big th ci h g v = .ok w ∧ ∀ bra, dot ci.idx2det.length bra w
        = inner (core (2 * ci.nI) (stateOf ci bra))
          (hamOp h g (ci.nI + ci.nA + ci.nV) (core (2 * ci.nI) (stateOf ci v))) := by
  obtain ⟨d, hd, hn, -⟩ := den_hamiltonian0i0a ht hb h g ci.nI ci.nA
  have hk := keys_ham0 (tiny := tiny) (big := big) h g ci.nI ci.nA ci.nV d hd
  obtain ⟨w, hw, ew⟩ := applyFold ht hs hth (fun _ _ => .error .valueError) hn hk v
  refine ⟨w, ?_, fun bra => ?_⟩
  · unfold applyHam; rw [hd]; exact hw
  · rw [ew bra]
    obtain ⟨⟨d', f, e1, e2, e3⟩, -⟩ := C12_active ht hb h g ci.nI ci.nA ci.nV
      (activeState_core (nI := ci.nI) (below_stateOf ci bra))
      (activeState_core (nI := ci.nI) (below_stateOf ci v))
    rw [hd] at e1
    obtain rfl := Except.ok.inj e1
    rw [e3]
    obtain ⟨f', k1, -, k3⟩ := (C11_form ht hb h g (ci.nI + ci.nA + ci.nV)).1
    rw [k1] at e2
    obtain rfl := Except.ok.inj e2
    rw [k3]; rfl

/-! ### The loop -/

theorem opOf_take_succ {gs : List Fac} {i : ℕ} {g : Fac} (h : gs[i]? = some g) :
    opOf (gs.take (i + 1)) = g.2.2 g.1 * opOf (gs.take i) := by
  rw [List.take_add_one, h, opOf_append]
  simp [opOf]

theorem gradLoop_sem (hv : ci.Valid) {st : AnsatzStruct} {thetas : List ℝ} {gs : List Fac}
    (hA : ∀ i g, gs[i]? = some g →
      ActsAs ci (gradAction (propVec tiny th ci) tiny ci.offset st i) g.2.1 ∧
      ActsAs ci (propagateUnitary (propVec tiny th ci) tiny ci.offset st thetas i) (g.2.2 g.1))
    (x y : Fock ℝ) : ∀ (m k : ℕ), k + m = gs.length → ∀ (bra ket : Vec ℝ),
    stateOf ci bra = opOf (gs.take k) x → stateOf ci ket = opOf (gs.take k) y →
    ∃ grad, gradLoop tiny th ci st thetas (List.range' k m) bra ket = .ok grad ∧ grad.length = m ∧
      ∀ j g, gs[k + j]? = some g → grad[j]? = some (2 * inner (opOf (gs.take (k + j)) x)
        (g.2.1 (opOf (gs.take (k + j)) y))) := by
  intro m
  induction m with
  | zero =>
    intro k hk bra ket _ _
    refine ⟨[], rfl, rfl, fun j g hg => ?_⟩
    have := (List.getElem?_eq_some_iff.1 hg).1
    omega
  | succ m ih =>
    intro k hk bra ket hb hke
    have hlt : k < gs.length := by omega
    obtain ⟨g, hg⟩ : ∃ g, gs[k]? = some g := ⟨_, List.getElem?_eq_getElem hlt⟩
    obtain ⟨a1, a2⟩ := hA k g hg
    obtain ⟨tmp, t1, t2⟩ := a1 ket
    obtain ⟨bra', b1, b2⟩ := a2 bra
    obtain ⟨ket', c1, c2⟩ := a2 ket
    obtain ⟨grad, r1, r2, r3⟩ := ih (k + 1) (by omega) bra' ket'
      (by rw [b2, hb, opOf_take_succ hg]; rfl) (by rw [c2, hke, opOf_take_succ hg]; rfl)
    refine ⟨2 * dot ci.idx2det.length bra tmp :: grad, ?_, by simp [r2], fun j g' hg' => ?_⟩
    · rw [List.range'_succ, gradLoop]
      simp only [t1, b1, c1, r1, ok_bind]
      rfl
    · cases j with
      | zero =>
        rw [Nat.add_zero] at hg' ⊢
        rw [hg] at hg'
        obtain rfl := Option.some.inj hg'
        rw [List.getElem?_cons_zero, dot_eq_inner hv, t2, hb, hke]
      | succ j =>
        rw [List.getElem?_cons_succ, r3 j g' (by rw [← hg']; congr 1; omega)]
        rw [show k + 1 + j = k + (j + 1) by omega]

/-- Derivative of the product with respect to the angle of factor `i`. -/
theorem opOf_der {gs : List Fac} (hgood : GoodFacs gs) {i : ℕ} {g : Fac} (hg : gs[i]? = some g)
    (x : Fock ℝ) : FDer (fun t => opOf (gs.set i (t, g.2)) x)
      (opOf (gs.drop (i + 1)) (g.2.2 g.1 (g.2.1 (opOf (gs.take i) x)))) g.1 := by
  have hi := (List.getElem?_eq_some_iff.1 hg).1
  have e : ∀ t, opOf (gs.set i (t, g.2)) x = opOf (gs.drop (i + 1)) (g.2.2 t (opOf (gs.take i) x)) := by
    intro t
    rw [List.set_eq_take_append_cons_drop, if_pos hi, opOf_append, opOf]
    rfl
  simp only [e]
  have ho := hgood g (List.mem_of_getElem? hg)
  exact (ho.curve (opOf (gs.take i) x) g.1).map (opOf (gs.drop (i + 1)))

theorem invFacs_append (a b : List Fac) : invFacs (a ++ b) = invFacs b ++ invFacs a := by
  simp [invFacs]

/-- The back-propagated bra. -/
theorem opOf_take_inv {gs : List Fac} (hgood : GoodFacs gs) (i : ℕ) :
    opOf (gs.take i) * opOf (invFacs gs) = opOf (invFacs (gs.drop i)) := by
  have hg : GoodFacs (gs.take i) := fun g h => hgood g (List.mem_of_mem_take h)
  conv_lhs => rw [← List.take_append_drop i gs, invFacs_append, opOf_append]
  rw [List.take_append_drop, ← mul_assoc, (opOf_inv hg).2, one_mul]

end

end SQ
