import Verif.Lemmas.ExtendedRef

/-!
# Lemmas for linear response in the extended space: the entries of the matrices
-/

namespace SQ

/-- Determinants of the space with one excitation out of or into the active space per spin. -/
def Single (W : ExtWf) (x : Fock ℝ) : Prop :=
  ∀ S, coeff x S ≠ 0 → InExtended W.ci.nI W.ci.nA W.ci.nV W.na W.nb false S

/-- What is known after the start of the constructors. -/
structure ExtCtx (W : ExtWf) (U Ud : FOp ℝ) (dbl : Bool) (I : ExtInfo) : Prop where
  sp : ExtSpace W.ci W.na W.nb dbl I.ci
  csf : stateOf I.ci I.csf = ket W.refDet
  c : stateOf I.ci I.c = W.state
  run : ∀ v, ∃ w, I.U false v = .ok w ∧ stateOf I.ci w = U (stateOf I.ci v)
  runD : ∀ v, ∃ w, I.U true v = .ok w ∧ stateOf I.ci w = Ud (stateOf I.ci v)
  adj : IsAdjoint U Ud
  state : W.state = U (ket W.refDet)
  ref : Cas W.ci W.na W.nb (ket W.refDet)
  st : Cas W.ci W.na W.nb W.state
  cas : ∀ x, Cas W.ci W.na W.nb x → Cas W.ci W.na W.nb (U x) ∧ Cas W.ci W.na W.nb (Ud x) ∧ Ud (U x) = x
  one : ∀ x, Single W x → Single W (U x) ∧ Single W (Ud x) ∧ Ud (U x) = x
  all : ∀ x, Inside I.ci x → Inside I.ci (U x) ∧ Inside I.ci (Ud x) ∧ Ud (U x) = x

section
variable {tiny big : ℝ → Bool} {W : ExtWf} {U Ud : FOp ℝ} {dbl : Bool} {I : ExtInfo}

theorem Single.near {x : Fock ℝ} (h : Single W x) : NearState W.ci.nI W.ci.nA x := fun S hS =>
  near_of_extended (h S hS)

theorem Cas.single {x : Fock ℝ} (h : Cas W.ci W.na W.nb x) : Single W x := fun S hS => (h S hS).inExtended false

/-- The start of the constructors does not fail. -/
theorem extStart_ok (hW : W.Proper) (hR : W.Rotates U Ud) {order : ℤ} (ho : order = 1 ∨ order = 2) :
    ∃ I, extStart tiny .one W order = .ok I ∧ ExtCtx W U Ud (decide (order = 2)) I := by
  have hN : 0 < W.ci.nI + W.ci.nA + W.ci.nV := hW.orbs
  obtain ⟨E, e1, e2⟩ := extSpace_get W.ci hN W.na W.nb ho
  obtain ⟨E1, f1, f2⟩ := extSpace_get W.ci hN W.na W.nb (order := 1) (.inl rfl)
  have hv := hW.base.space.valid
  have ref : Cas W.ci W.na W.nb (ket W.refDet) := by rw [← hW.csf]; exact cas_emb hW.cas _
  have refD : CasDet W.ci.nI W.ci.nA W.na W.nb W.refDet := ref _ (by simp [ket, sgl, coeff])
  have mem : E.Mem (Finset.range W.numElec) := by
    rw [← hW.ref]; exact (e2.mem _).2 (refD.inExtended _)
  have hle : W.numElec ≤ 2 * E.nA := by
    by_contra hlt
    have h1 := ActiveDet.subset (nV := W.ci.nV) refD.1
    rw [hW.ref, Finset.range_subset_range] at h1
    rw [e2.nA] at hlt
    omega
  obtain ⟨csf, c1, c2⟩ := reference_hf e2.valid (by rw [e2.nA]; exact hN) hle mem
  rw [← hW.ref] at c2
  obtain ⟨c, d1, d2⟩ := hR.run order E csf ho e1
  have state : W.state = U (ket W.refDet) := by rw [hR.base.state, hW.csf]
  have key : ∀ (o : ℤ) (F : CIInfo), o = 1 ∨ o = 2 → F.Valid →
      getIndexingExtended W.ci.nI W.ci.nA W.ci.nV W.na W.nb o = .ok F →
      ∀ x, Inside F x → Inside F (U x) ∧ Inside F (Ud x) ∧ Ud (U x) = x := by
    intro o F ho hF hg x hx
    obtain ⟨v, rfl⟩ := hx.vec hF
    obtain ⟨w, -, h1⟩ := hR.run o F v ho hg
    obtain ⟨w', -, h2⟩ := hR.runDagger o F v ho hg
    exact ⟨by rw [← h1]; exact inside_stateOf _ _, by rw [← h2]; exact inside_stateOf _ _, hR.inverse o F v ho hg⟩
  refine ⟨⟨E, W.ans E, csf, c⟩, ?_, e2, c2, by rw [d2, c2, state], fun v => hR.run order E v ho e1,
    fun v => hR.runDagger order E v ho e1, hR.base.adjoint, state, ref, cas_emb hW.cas _, ?_, ?_,
    key order E ho e2.valid e1⟩
  · unfold extStart
    have hp := ExtInfo.prop_U (tiny := tiny) (th := .one) (I := ⟨E, W.ans E, csf, csf⟩) false csf
    unfold ExtInfo.prop at hp
    rw [e2.nA] at c1
    simp only [e1, ok_bind, c1]
    rw [hp]
    dsimp only
    rw [d1]
    rfl
  · intro x hx
    obtain ⟨v, rfl⟩ := hx.vec hW.cas hv
    obtain ⟨w, -, h1⟩ := hR.base.run v
    obtain ⟨w', -, h2⟩ := hR.base.runDagger v
    exact ⟨by rw [← h1]; exact cas_emb hW.cas _, by rw [← h2]; exact cas_emb hW.cas _, hR.base.inverse v⟩
  · intro x hx
    obtain ⟨a, b, c⟩ := key 1 E1 (.inl rfl) f2.valid f1 x fun S hS => (f2.mem S).2 (hx S hS)
    exact ⟨fun S hS => (f2.mem S).1 (a S hS), fun S hS => (f2.mem S).1 (b S hS), c⟩

variable (hC : ExtCtx W U Ud dbl I)
include hC

theorem ExtCtx.goU {u : Bool} {l : List (StateOp ℝ)} {v : Vec ℝ} {x : Fock ℝ}
    (h : Gives I (I.prop tiny .one u l v) x) : Gives I (I.prop tiny .one u (.name "U" :: l) v) (U x) := by
  obtain ⟨w, h1, rfl⟩ := h
  obtain ⟨w', h2, h3⟩ := hC.run w
  exact ⟨w', by rw [I.prop_cons _ _ h1, I.prop_U, h2], h3⟩

theorem ExtCtx.goD {u : Bool} {l : List (StateOp ℝ)} {v : Vec ℝ} {x : Fock ℝ}
    (h : Gives I (I.prop tiny .one u l v) x) : Gives I (I.prop tiny .one u (.name "Ud" :: l) v) (Ud x) := by
  obtain ⟨w, h1, rfl⟩ := h
  obtain ⟨w', h2, h3⟩ := hC.runD w
  exact ⟨w', by rw [I.prop_cons _ _ h1, I.prop_Ud, h2], h3⟩

theorem ExtCtx.of_csf (u : Bool) : Gives I (I.prop tiny .one u [] I.csf) (ket W.refDet) := by
  rw [← hC.csf]; exact Gives.nil _ _

theorem ExtCtx.of_c (u : Bool) : Gives I (I.prop tiny .one u [] I.c) W.state := by
  rw [← hC.c]; exact Gives.nil _ _

theorem ExtCtx.drop {x : Fock ℝ} (h : Inside I.ci x) (y : Fock ℝ) : inner x (I.ci.proj y) = inner x y :=
  h.drop hC.sp.valid y

theorem ExtCtx.inside {x : Fock ℝ} (h : Cas W.ci W.na W.nb x) : Inside I.ci x := hC.sp.inside_cas h

/-- An active operator. -/
theorem ExtCtx.act (ht : ExactTiny tiny) (hz : tiny 0 = true) {u : Bool} {l : List (StateOp ℝ)} {v : Vec ℝ}
    {x : Fock ℝ} (h : Gives I (I.prop tiny .one u l v) x) {A : Dict ℝ} (hA : ActOp W.ci A) :
    Gives I (I.prop tiny .one u (.op A :: l) v) (sumOp A x) :=
  h.op ht hz hC.sp hA.gen (reach_act hC.sp hA h.inside)

/-- The state `U†H|0⟩` of the truncated Hamiltonian. -/
theorem ExtCtx.udh (ht : ExactTiny tiny) (hz : tiny 0 = true) {H0 : Dict ℝ} (hg : GenOp W.ci H0)
    (hk : ∀ kv ∈ H0, CoreStr W.ci.nI W.ci.nA kv.1)
    (hs : ∀ x y, ActiveState W.ci.nI W.ci.nA x → ActiveState W.ci.nI W.ci.nA y →
      inner x (sumOp H0 y) = inner x (W.ham y)) :
    ∃ w, I.prop tiny .one false [.name "Ud", .op H0] I.c = .ok w ∧ Cas W.ci W.na W.nb (stateOf I.ci w) ∧
      ∀ x, Cas W.ci W.na W.nb x → inner x (stateOf I.ci w) = inner (U x) (W.ham W.state) := by
  have h1 := (hC.of_c (tiny := tiny) false).op ht hz hC.sp hg (reach_core hC.sp hk hC.st)
  obtain ⟨w, h2, h3⟩ := hC.goD h1
  refine ⟨w, h2, ?_, fun x hx => ?_⟩
  · rw [h3]; exact (hC.cas _ (hC.st.core hk)).2.1
  · rw [h3, ← hC.adj, hs _ _ (hC.cas _ hx).1.active hC.st.active]

/-- One pass of the gradient loop. -/
theorem ExtCtx.grad (ht : ExactTiny tiny) (hz : tiny 0 = true) {H00 : Vec ℝ}
    (hH : ∀ x, Cas W.ci W.na W.nb x → inner x (stateOf I.ci H00) = inner (U x) (W.ham W.state))
    {A : Dict ℝ} (hA : ActOp W.ci A) :
    ∃ v, xGrad tiny .one I H00 A = .ok v ∧ v.1 = - inner (U (sumOp A (ket W.refDet))) (W.ham W.state) ∧
      v.2 = inner (U (sumOp A (ket W.refDet))) (W.ham W.state) := by
  obtain ⟨g, h1, h2⟩ := hC.act ht hz (hC.of_csf false) hA
  have e := hH _ (hC.ref.core (act_core hA))
  refine ⟨_, by
    unfold xGrad
    simp only [h1, ok_bind, I.ev_nil hC.sp.valid]
    rfl, ?_, ?_⟩
  · dsimp only; rw [h2, inner_comm, e]
  · dsimp only; rw [h2, e]

/-- The entries of two active operators. -/
theorem ExtCtx.act_entry (ht : ExactTiny tiny) (hz : tiny 0 = true) {H0 : Dict ℝ} (hg : GenOp W.ci H0)
    (hk : ∀ kv ∈ H0, CoreStr W.ci.nI W.ci.nA kv.1)
    (hs : ∀ x y, ActiveState W.ci.nI W.ci.nA x → ActiveState W.ci.nI W.ci.nA y →
      inner x (sumOp H0 y) = inner x (W.ham y)) {H00 : Vec ℝ} (hc : Cas W.ci W.na W.nb (stateOf I.ci H00))
    (hH : ∀ x, Cas W.ci W.na W.nb x → inner x (stateOf I.ci H00) = inner (U x) (W.ham W.state))
    {GJ : Dict ℝ} (hJ : ActOp W.ci GJ) {GJd : FOp ℝ} (aJ : IsAdjoint (sumOp GJ) GJd) :
    ∃ k, scActPre tiny .one I H0 H00 GJ = .ok k ∧ ∀ (GI : Dict ℝ) (GId : FOp ℝ), ActOp W.ci GI → IsAdjoint (sumOp GI) GId →
      ∃ v, scAct tiny .one I H00 k GI = .ok v ∧
        v.1 = inner (U (sumOp GI (ket W.refDet))) (W.ham (U (sumOp GJ (ket W.refDet))))
          - 1 / 2 * inner (U (GJd (sumOp GI (ket W.refDet)))) (W.ham W.state)
          - 1 / 2 * inner (U (GId (sumOp GJ (ket W.refDet)))) (W.ham W.state) ∧
        v.2 = - inner (U (sumOp GJ (sumOp GI (ket W.refDet)))) (W.ham W.state) := by
  have refJ := hC.ref.core (act_core hJ)
  have uJ := (hC.cas _ refJ).1
  obtain ⟨k1, a1, a2⟩ := hC.goD ((hC.goU (hC.act ht hz (hC.of_csf false) hJ)).op ht hz hC.sp hg (reach_core hC.sp hk uJ))
  obtain ⟨k2, b1, b2⟩ := hC.act ht hz (Gives.nil (tiny := tiny) false H00) hJ
  obtain ⟨Jd, c1, c2, c3⟩ := hJ.dagger ht
  obtain rfl := c3.unique aJ
  obtain ⟨k3, d1, d2⟩ := hC.act ht hz (Gives.nil (tiny := tiny) false H00) c2
  refine ⟨(k1, k2, k3, GJ), by
    unfold scActPre
    simp only [a1, b1, c1, d1, ok_bind]
    rfl, fun GI GId hI aI => ?_⟩
  have refI := hC.ref.core (act_core hI)
  obtain ⟨g, e1, e2⟩ := hC.act ht hz (hC.of_csf false) hI
  obtain ⟨Id, f1, f2, f3⟩ := hI.dagger ht
  obtain rfl := f3.unique aI
  obtain ⟨w, g1, g2⟩ := hC.act ht hz (hC.act ht hz (hC.of_csf false) hJ) f2
  refine ⟨_, by
    unfold scAct
    simp only [e1, f1, ok_bind, I.ev_nil hC.sp.valid, I.ev_of hC.sp.valid H00 g1]
    rfl, ?_, ?_⟩
  · dsimp only
    rw [a2, b2, e2, g2, ← hC.adj, hs _ _ (hC.cas _ refI).1.active uJ.active, ← c3.symm, hH _ (refI.core (act_core c2)),
      inner_comm (stateOf I.ci H00), hH _ (refJ.core (act_core f2))]
  · dsimp only
    rw [d2, e2, ← c3, hH _ (refI.core (act_core hJ))]

end

/-! ### Mixed entries of selfconsistent.py -/

section
variable {tiny big : ℝ → Bool} {W : ExtWf} {U Ud : FOp ℝ} {I : ExtInfo}

theorem ExtCtx.sc_mixed (hC : ExtCtx W U Ud false I) (ht : ExactTiny tiny) (hz : tiny 0 = true)
    (hHa : IsAdjoint W.ham W.ham) {H1 : Dict ℝ} (hg : GenOp W.ci H1)
    (hs : ∀ x y, ActiveState W.ci.nI W.ci.nA x → NearState W.ci.nI W.ci.nA y →
      inner x (sumOp H1 y) = inner x (W.ham y) ∧ inner y (sumOp H1 x) = inner y (W.ham x))
    {p q : ℕ} {qJ : Dict ℝ} (hq : ExcGen W.ci p q qJ) {qd : FOp ℝ} (aq : IsAdjoint (sumOp qJ) qd) :
    ∃ k, scMixedPre tiny .one I H1 qJ = .ok k ∧ ∀ (GI : Dict ℝ) (GId : FOp ℝ), ActOp W.ci GI → IsAdjoint (sumOp GI) GId →
      ∃ v, scMixed tiny .one I H1 k qJ GI = .ok v ∧
        v.1 = inner (U (sumOp GI (ket W.refDet))) (W.ham (sumOp qJ W.state))
          - 1 / 2 * inner (U (GId (Ud (sumOp qJ W.state)))) (W.ham W.state) ∧
        v.2 = - 1 / 2 * inner (sumOp qJ (U (sumOp GI (ket W.refDet)))) (W.ham W.state)
          - 1 / 2 * inner (U (sumOp GI (Ud (sumOp qJ W.state)))) (W.ham W.state) := by
  have hqr := reach_excite hC.sp hq hC.st
  have gq := (hC.of_c (tiny := tiny) true).op ht hz hC.sp hq.1 hqr
  have qin : Inside I.ci (sumOp qJ W.state) := gq.inside
  have near : ∀ {x}, Inside I.ci x → NearState W.ci.nI W.ci.nA x := fun h => hC.sp.near h
  obtain ⟨k1, a1, a2⟩ := hC.goD (gq.opP ht hC.sp hg)
  obtain ⟨q', b1, b2, b3⟩ := hq.dagger ht
  obtain rfl := b3.unique aq
  have gH := (hC.of_c (tiny := tiny) true).opP ht hC.sp hg
  obtain ⟨k2, c1, c2⟩ := hC.goD (gH.opP ht hC.sp b2.1)
  refine ⟨(k1, k2), by
    unfold scMixedPre
    simp only [a1, b1, c1, ok_bind]
    rfl, fun GI GId hI aI => ?_⟩
  have refI := hC.ref.core (act_core hI)
  have uI := (hC.cas _ refI).1
  obtain ⟨g, e1, e2⟩ := hC.act ht hz (hC.of_csf false) hI
  obtain ⟨Id, f1, f2, f3⟩ := hI.dagger ht
  obtain rfl := f3.unique aI
  have gx := hC.goU (hC.act ht hz (hC.goD gq) f2)
  obtain ⟨w1, g1, g2⟩ := gx.opP ht hC.sp hg
  obtain ⟨w2, i1, i2⟩ := (hC.goU (hC.act ht hz (hC.goD gH) f2)).opP ht hC.sp b2.1
  refine ⟨_, by
    unfold scMixed
    simp only [e1, f1, b1, ok_bind, I.ev_nil hC.sp.valid, I.ev_of hC.sp.valid _ g1, I.ev_of hC.sp.valid _ i1]
    rfl, ?_, ?_⟩
  · dsimp only
    rw [a2, e2, g2, hC.c, ← hC.adj, hC.drop (hC.inside uI), (hs _ _ uI.active (near qin)).1,
      hC.drop (hC.inside hC.st), (hs _ _ hC.st.active (near gx.inside)).1, ← hHa W.state,
      inner_comm (W.ham W.state)]
  · dsimp only
    rw [c2, e2, i2, hC.c, ← hC.adj, hC.drop (hC.inside uI), ← b3, hC.drop (hC.inside hC.st), ← b3]
    have x1 : Inside I.ci (sumOp qJ (U (sumOp GI (ket W.refDet)))) :=
      Inside.sumOp (reach_excite hC.sp hq uI)
    have x2 := hC.goU (hC.act ht hz (hC.goD gq) hI)
    rw [hC.drop x1, (hs _ _ hC.st.active (near x1)).2, ← hC.adj.symm, ← f3, ← hC.adj, hC.drop x2.inside,
      (hs _ _ hC.st.active (near x2.inside)).2]

end

/-! ### `hamiltonian_2i_2a` on an active state -/

/-- `⟨x|e_pqrs|y⟩ ≠ 0` with an active ket. -/
theorem trunc3 {nI nA : ℕ} {x y : Fock ℝ} (hy : ActiveState nI nA y) {p q r s : ℕ} (h : inner x (e p q r s y) ≠ 0) :
    numVirt (nI + nA) p q r s ≤ 2 ∧ numAct nI p q r s ≤ 2 := by
  obtain ⟨S, S', h1, h2, h3⟩ := mel_ne_zero h
  obtain ⟨⟨q', hq, s', hs, hqs, eq, es⟩, p', hp, r', hr, hpr, ep, er⟩ := e_ket_ne h3
  have a := (hy S' h2).2 q' hq
  have b := (hy S' h2).2 s' hs
  have aq : q < nI + nA := by unfold spat at eq; omega
  have as : s < nI + nA := by unfold spat at es; omega
  have key : ∀ V : Finset ℕ, (∀ k ∈ V, k < nI) → vInd V p + vInd V r ≤ vInd V q + vInd V s := by
    intro V hV
    have sh := shift_e (R := ℝ) (vInd V) p q r s S' S h3
    have g1 := weight_le hV S
    have g2 := weight_ge hV (hy.holes h2)
    push_cast at g2
    linarith
  have kp : p < nI → q = p ∨ s = p := by
    intro h
    by_contra hn
    push Not at hn
    have := key {p} (by simp [h])
    simp [vInd, hn.1, hn.2] at this
    split_ifs at this <;> omega
  have kr : r < nI → q = r ∨ s = r := by
    intro h
    by_contra hn
    push Not at hn
    have := key {r} (by simp [h])
    simp [vInd, hn.1, hn.2] at this
    split_ifs at this <;> omega
  have kpr : p < nI → r = p → q = p ∧ s = p := by
    rintro h rfl
    have := key {r} (by simp [h])
    simp only [vInd, Finset.mem_singleton, if_true] at this
    split_ifs at this <;> first | omega | simp_all
  constructor
  · unfold numVirt
    split_ifs <;> omega
  · unfold numAct
    by_cases c1 : p < nI <;> by_cases c2 : q < nI <;> by_cases c3 : r < nI <;> by_cases c4 : s < nI <;>
      simp only [c1, c2, c3, c4, if_true, if_false, true_and, false_and, forall_const] at * <;>
      (try split_ifs) <;> omega

theorem ham2_any {tiny big : ℝ → Bool} (ht : ExactTiny tiny) (hb : ExactBig big) (h : ℕ → ℕ → ℝ)
    (g : ℕ → ℕ → ℕ → ℕ → ℝ) (ci : CIInfo) {H : Dict ℝ} (hH : hamiltonian2i2a tiny big h g ci.nI ci.nA ci.nV = .ok H)
    {y : Fock ℝ} (hy : ActiveState ci.nI ci.nA y) (x : Fock ℝ) :
    inner x (sumOp H y) = inner x (hamOp h g (ci.nI + ci.nA + ci.nV) y) := by
  obtain ⟨f, -, -, a3⟩ := (C11_form ht hb h g (ci.nI + ci.nA + ci.nV)).1
  obtain ⟨d, k1, -, k3⟩ := den_hamiltonian2i2a ht hb h g ci.nI ci.nA ci.nV
  rw [hH] at k1
  obtain rfl := Except.ok.inj k1
  have e : hamOp h g (ci.nI + ci.nA + ci.nV) = sumOp f := by rw [a3]; rfl
  rw [e, k3, a3, LinearMap.add_apply, LinearMap.add_apply, inner_add_right, inner_add_right,
      twoK_mel g fun p q r s hne => by simpa using trunc3 hy hne]

/-! ### Entries of allstatetransfer.py and allselfconsistent.py -/

section
variable {tiny big : ℝ → Bool} {W : ExtWf} {U Ud : FOp ℝ} {dbl : Bool} {I : ExtInfo}

theorem single_excite {p q : ℕ} {A : Dict ℝ} (hA : ExcGen W.ci p q A) {x : Fock ℝ} (hx : Cas W.ci W.na W.nb x) :
    Single W (sumOp A x) := fun S' h' => by
  obtain ⟨kv, hk, S, h1, h2⟩ := sumOp_reach h'
  exact excite_active (hA.1.2 kv hk) (hA.2 kv hk) (hx S h1) h2

variable (hC : ExtCtx W U Ud dbl I)
include hC

/-- An operator out of the active space on a state of it. -/
theorem ExtCtx.exc (ht : ExactTiny tiny) (hz : tiny 0 = true) {u : Bool} {l : List (StateOp ℝ)} {v : Vec ℝ}
    {x : Fock ℝ} (h : Gives I (I.prop tiny .one u l v) x) (hx : Cas W.ci W.na W.nb x) {p q : ℕ} {A : Dict ℝ}
    (hA : ExcGen W.ci p q A) : Gives I (I.prop tiny .one u (.op A :: l) v) (sumOp A x) :=
  h.op ht hz hC.sp hA.1 (reach_excite hC.sp hA hx)

/-- An operator back into the active space. -/
theorem ExtCtx.deexc (ht : ExactTiny tiny) (hz : tiny 0 = true) {u : Bool} {l : List (StateOp ℝ)} {v : Vec ℝ}
    {x : Fock ℝ} (h : Gives I (I.prop tiny .one u l v) x) {k : ℕ × ℕ} (hk : NonRedundant W.ci.nI W.ci.nA k) {A : Dict ℝ}
    (hA : ExcGen W.ci k.1 k.2 A) : Gives I (I.prop tiny .one u (.op A :: l) v) (sumOp A x) :=
  h.op ht hz hC.sp hA.1 (reach_deexcite hC.sp (by unfold NonRedundant at hk; omega) (by unfold NonRedundant at hk; omega)
    hA h.inside)

/-- The state `U†HU|x⟩` of the outer loops, with the Hamiltonian for two extra indices. -/
theorem ExtCtx.ast_pre (ht : ExactTiny tiny) (hz : tiny 0 = true) {H2 : Dict ℝ} (hg : GenOp W.ci H2)
    (hs : ∀ x y, NearState W.ci.nI W.ci.nA x → NearState W.ci.nI W.ci.nA y →
      inner x (sumOp H2 y) = inner x (W.ham y)) {p q : ℕ} {qJ : Dict ℝ} (hq : ExcGen W.ci p q qJ) :
    ∃ k, I.prop tiny .one true [.name "Ud", .op H2, .name "U", .op qJ] I.csf = .ok k ∧
      ∀ x, Inside I.ci x → Single W x → inner x (stateOf I.ci k) = inner (U x) (W.ham (U (sumOp qJ (ket W.refDet)))) := by
  obtain ⟨k, h1, h2⟩ := hC.goD ((hC.goU (hC.exc ht hz (hC.of_csf true) hC.ref hq)).opP ht hC.sp hg)
  refine ⟨k, h1, fun x hx hx' => ?_⟩
  rw [h2, ← hC.adj, hC.drop (hC.all x hx).1, hs _ _ (hC.one x hx').1.near (hC.one _ (single_excite hq hC.ref)).1.near]

/-- The value for two orbital operators. -/
theorem ExtCtx.ast_orb (ht : ExactTiny tiny) (hz : tiny 0 = true) {k : Vec ℝ} (b : Bool) {l : ℕ × ℕ}
    (hl : NonRedundant W.ci.nI W.ci.nA l) {qI : Dict ℝ} (hI : ExcGen W.ci l.2 l.1 qI) :
    astOrb tiny .one W I k b qI = .ok (if b then inner (sumOp qI (ket W.refDet)) (stateOf I.ci k) - W.energy
      else inner (sumOp qI (ket W.refDet)) (stateOf I.ci k)) := by
  obtain ⟨qd, h1, h2, h3⟩ := hI.dagger ht
  obtain ⟨w, g1, g2⟩ := hC.deexc ht hz (Gives.nil (tiny := tiny) false k) hl h2
  unfold astOrb
  simp only [h1, ok_bind, I.ev_of hC.sp.valid _ g1]
  rw [g2, hC.csf, ← h3]
  rfl

/-- The value for an active operator. -/
theorem ExtCtx.ast_act (ht : ExactTiny tiny) (hz : tiny 0 = true) {k : Vec ℝ} (b : Bool) {GI : Dict ℝ}
    (hI : ActOp W.ci GI) :
    astOrb tiny .one W I k b GI = .ok (if b then inner (sumOp GI (ket W.refDet)) (stateOf I.ci k) - W.energy
      else inner (sumOp GI (ket W.refDet)) (stateOf I.ci k)) ∧
    astMixed tiny .one I k GI = .ok (inner (sumOp GI (ket W.refDet)) (stateOf I.ci k)) := by
  obtain ⟨qd, h1, h2, h3⟩ := hI.dagger ht
  obtain ⟨w, g1, g2⟩ := hC.act ht hz (Gives.nil (tiny := tiny) false k) h2
  unfold astOrb astMixed
  simp only [h1, ok_bind, I.ev_of hC.sp.valid _ g1]
  rw [g2, hC.csf, ← h3]
  exact ⟨rfl, rfl⟩

/-- The state `U†HU G|ref⟩` of the loop over active operators. -/
theorem ExtCtx.ast_act_pre (ht : ExactTiny tiny) (hz : tiny 0 = true) {H0 : Dict ℝ} (hg : GenOp W.ci H0)
    (hk : ∀ kv ∈ H0, CoreStr W.ci.nI W.ci.nA kv.1)
    (hs : ∀ x y, ActiveState W.ci.nI W.ci.nA x → ActiveState W.ci.nI W.ci.nA y →
      inner x (sumOp H0 y) = inner x (W.ham y)) {GJ : Dict ℝ} (hJ : ActOp W.ci GJ) :
    ∃ k, I.prop tiny .one false [.name "Ud", .op H0, .name "U", .op GJ] I.csf = .ok k ∧
      ∀ x, Cas W.ci W.na W.nb x → inner x (stateOf I.ci k) = inner (U x) (W.ham (U (sumOp GJ (ket W.refDet)))) := by
  have uJ := (hC.cas _ (hC.ref.core (act_core hJ))).1
  obtain ⟨k, a1, a2⟩ := hC.goD ((hC.goU (hC.act ht hz (hC.of_csf false) hJ)).op ht hz hC.sp hg (reach_core hC.sp hk uJ))
  refine ⟨k, a1, fun x hx => ?_⟩
  rw [a2, ← hC.adj, hs _ _ (hC.cas _ hx).1.active uJ.active]

end

section
variable {tiny big : ℝ → Bool} {W : ExtWf} {U Ud : FOp ℝ} {I : ExtInfo} (hC : ExtCtx W U Ud true I)
include hC

/-- `UdH_ket` of allselfconsistent.py:126-127. -/
theorem ExtCtx.udh2 (ht : ExactTiny tiny) {H2 : Dict ℝ} (hg : GenOp W.ci H2)
    (hs : ∀ x, inner x (sumOp H2 W.state) = inner x (W.ham W.state)) :
    ∃ w w', I.prop tiny .one true [.op H2] I.c = .ok w ∧ I.prop tiny .one true [.name "Ud"] w = .ok w' ∧
      ∀ x, Inside I.ci x → inner x (stateOf I.ci w') = inner (U x) (W.ham W.state) := by
  obtain ⟨w, h1, h2⟩ := (hC.of_c (tiny := tiny) true).opP ht hC.sp hg
  obtain ⟨w', g1, g2⟩ := hC.goD (Gives.nil (tiny := tiny) true w)
  refine ⟨w, w', h1, g1, fun x hx => ?_⟩
  rw [g2, h2, ← hC.adj, hC.drop (hC.all x hx).1, hs]

theorem ExtCtx.inside_deexc {k : ℕ × ℕ} (hk : NonRedundant W.ci.nI W.ci.nA k) {A : Dict ℝ}
    (hA : ExcGen W.ci k.1 k.2 A) {x : Fock ℝ} (hx : Inside I.ci x) : Inside I.ci (sumOp A x) :=
  Inside.sumOp (reach_deexcite hC.sp (by unfold NonRedundant at hk; omega) (by unfold NonRedundant at hk; omega) hA hx)

/-- The entries of two orbital operators. -/
theorem ExtCtx.asc_orb (ht : ExactTiny tiny) (hz : tiny 0 = true) {H2 : Dict ℝ} (hg : GenOp W.ci H2)
    (hs : ∀ x y, NearState W.ci.nI W.ci.nA x → NearState W.ci.nI W.ci.nA y →
      inner x (sumOp H2 y) = inner x (W.ham y)) {h : Vec ℝ}
    (hH : ∀ x, Inside I.ci x → inner x (stateOf I.ci h) = inner (U x) (W.ham W.state))
    {k : ℕ × ℕ} (hk : NonRedundant W.ci.nI W.ci.nA k) {qJ : Dict ℝ} (hJ : ExcGen W.ci k.2 k.1 qJ) {qJd : FOp ℝ}
    (aJ : IsAdjoint (sumOp qJ) qJd) :
    ∃ t, ascOrbPre tiny .one I H2 h qJ = .ok t ∧ ∀ (l : ℕ × ℕ) (qI : Dict ℝ) (qId : FOp ℝ),
      NonRedundant W.ci.nI W.ci.nA l → ExcGen W.ci l.2 l.1 qI → IsAdjoint (sumOp qI) qId →
      ∃ v, ascOrb tiny .one I h t qI = .ok v ∧
        v.1 = inner (U (sumOp qI (ket W.refDet))) (W.ham (U (sumOp qJ (ket W.refDet))))
          - 1 / 2 * inner (U (qJd (sumOp qI (ket W.refDet)))) (W.ham W.state)
          - 1 / 2 * inner (U (qId (sumOp qJ (ket W.refDet)))) (W.ham W.state) ∧
        v.2 = - inner (U (sumOp qJ (sumOp qI (ket W.refDet)))) (W.ham W.state) := by
  obtain ⟨k1, a1, a2⟩ := hC.ast_pre ht hz hg hs hJ
  obtain ⟨k2, b1, b2⟩ := (Gives.nil (tiny := tiny) (th := .one) (I := I) true h).opP ht hC.sp hJ.1
  obtain ⟨Jd, c1, c2, c3⟩ := hJ.dagger ht
  obtain rfl := c3.unique aJ
  obtain ⟨k3, d1, d2⟩ := (Gives.nil (tiny := tiny) (th := .one) (I := I) true h).opP ht hC.sp c2.1
  refine ⟨(k1, k2, k3, qJ), by
    unfold ascOrbPre
    simp only [a1, b1, c1, d1, ok_bind]
    rfl, fun l qI qId hl hI aI => ?_⟩
  have gI := hC.exc ht hz (hC.of_csf (tiny := tiny) true) hC.ref hI
  have gJ := hC.exc ht hz (hC.of_csf (tiny := tiny) false) hC.ref hJ
  have inI := gI.inside
  obtain ⟨g, e1, e2⟩ := gI
  obtain ⟨Id, f1, f2, f3⟩ := hI.dagger ht
  obtain rfl := f3.unique aI
  have gw := hC.deexc ht hz gJ hl f2
  have inw := gw.inside
  obtain ⟨w, g1, g2⟩ := gw
  refine ⟨_, by
    unfold ascOrb
    simp only [e1, f1, ok_bind, I.ev_nil hC.sp.valid, I.ev_of hC.sp.valid h g1]
    rfl, ?_, ?_⟩
  · dsimp only
    rw [e2, a2 _ inI (single_excite hI hC.ref), b2, g2, hC.drop inI, ← c3.symm, hH _ (hC.inside_deexc hk c2 inI),
      inner_comm (stateOf I.ci h), hH _ inw]
  · dsimp only
    rw [d2, e2, hC.drop inI, ← c3, hH _ (Inside.sumOp (reach_twice hC.sp hI hJ hC.ref))]

/-- The mixed entries. -/
theorem ExtCtx.asc_mixed (ht : ExactTiny tiny) (hz : tiny 0 = true) {H1 : Dict ℝ} (hg : GenOp W.ci H1)
    (hs : ∀ x y, ActiveState W.ci.nI W.ci.nA x → NearState W.ci.nI W.ci.nA y →
      inner x (sumOp H1 y) = inner x (W.ham y) ∧ inner y (sumOp H1 x) = inner y (W.ham x)) {h : Vec ℝ}
    (hH : ∀ x, Inside I.ci x → inner x (stateOf I.ci h) = inner (U x) (W.ham W.state))
    {k : ℕ × ℕ} (hk : NonRedundant W.ci.nI W.ci.nA k) {qJ : Dict ℝ} (hJ : ExcGen W.ci k.2 k.1 qJ) :
    ∃ t, ascMixedPre tiny .one I H1 qJ = .ok t ∧ ∀ (GI : Dict ℝ), ActOp W.ci GI →
      ∃ v, ascMixed tiny .one I h t qJ GI = .ok v ∧
        v.1 = inner (U (sumOp GI (ket W.refDet))) (W.ham (U (sumOp qJ (ket W.refDet)))) ∧
        v.2 = - 1 / 2 * inner (U (sumOp qJ (sumOp GI (ket W.refDet)))) (W.ham W.state)
          - 1 / 2 * inner (U (sumOp GI (sumOp qJ (ket W.refDet)))) (W.ham W.state) := by
  obtain ⟨k1, a1, a2⟩ := hC.goD ((hC.goU (hC.exc ht hz (hC.of_csf true) hC.ref hJ)).opP ht hC.sp hg)
  obtain ⟨Jd, c1, c2, c3⟩ := hJ.dagger ht
  obtain ⟨k2, d1, d2⟩ := (hC.goD ((hC.of_c (tiny := tiny) true).opP ht hC.sp hg)).opP ht hC.sp c2.1
  refine ⟨(k1, k2), by
    unfold ascMixedPre
    simp only [a1, c1, d1, ok_bind]
    rfl, fun GI hI => ?_⟩
  have refI := hC.ref.core (act_core hI)
  have uI := (hC.cas _ refI).1
  obtain ⟨g, e1, e2⟩ := hC.act ht hz (hC.of_csf false) hI
  obtain ⟨Id, f1, f2, f3⟩ := hI.dagger ht
  obtain ⟨w, g1, g2⟩ := hC.deexc ht hz (hC.act ht hz (Gives.nil (tiny := tiny) false h) f2) hk c2
  refine ⟨_, by
    unfold ascMixed
    simp only [e1, c1, f1, ok_bind, I.ev_nil hC.sp.valid, I.ev_of hC.sp.valid I.csf g1]
    rfl, ?_, ?_⟩
  · dsimp only
    rw [a2, e2, ← hC.adj, hC.drop (hC.inside uI),
      (hs _ _ uI.active (hC.one _ (single_excite hJ hC.ref)).1.near).1]
  · dsimp only
    have x1 : Inside I.ci (sumOp qJ (sumOp GI (ket W.refDet))) := Inside.sumOp (reach_excite hC.sp hJ refI)
    have x2 := hC.act ht hz (hC.exc ht hz (hC.of_csf (tiny := tiny) false) hC.ref hJ) hI
    rw [d2, e2, g2, hC.csf, hC.drop (hC.inside refI), ← c3, ← c3, ← hC.adj, ← f3, hC.drop (hC.all _ x1).1,
      (hs _ _ hC.st.active (hC.one _ (single_excite hJ refI)).1.near).2, hH _ x2.inside]

end

end SQ
