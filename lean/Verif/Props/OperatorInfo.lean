import Verif.Spec.OperatorInfo
import Verif.Props.Folding
import Verif.Props.CircuitWave
import Verif.Lemmas.ProjStd

/-! # C147: `get_operator_info` -/

namespace SQ

section
variable {tiny big : ℝ → Bool} {W : RespWf}

/-- The terms of a one-electron excitation between two orbitals. -/
theorem Epq_dict (p q : ℕ) : (Epq tiny p q : Res (Dict ℝ)) =
    .ok [([(2 * p, true), (2 * q, false)], 1), ([(2 * p + 1, true), (2 * q + 1, false)], 1)] := by
  have h : ∀ a b : ℕ, (SQ.fmul tiny (aOpSpin a true) (aOpSpin b false) : Res (Dict ℝ))
      = .ok [([(a, true), (b, false)], 1)] := by
    intro a b
    simp [SQ.fmul, aOpSpin, normalOrder, budget, orderQueue, orderOne, sweep, addTo, bind, Except.bind, pure, Except.pure]
  have e : (Epq tiny p q : Res (Dict ℝ)) =
      (SQ.fmul tiny (aOpSpin (2 * p) true) (aOpSpin (2 * q) false) >>= fun A =>
        SQ.fmul tiny (aOpSpin (2 * p + 1) true) (aOpSpin (2 * q + 1) false) >>= fun B =>
          Except.ok (SQ.fadd tiny A B)) := rfl
  rw [e, h, h]
  simp [SQ.fadd, addTo, bind, Except.bind]

theorem G1sa_dict (i a : ℕ) : (G1sa tiny (Real.sqrt 2)⁻¹ i a false : Res (Dict ℝ)) =
    .ok [([(2 * a, true), (2 * i, false)], (Real.sqrt 2)⁻¹), ([(2 * a + 1, true), (2 * i + 1, false)], (Real.sqrt 2)⁻¹)] := by
  unfold G1sa
  rw [Epq_dict]
  simp [antiH, frmul, bind, Except.bind, pure, Except.pure]

theorem lrQ_dict : lrQ tiny W = .ok (W.kappa.map fun k =>
    [([(2 * k.2, true), (2 * k.1, false)], (Real.sqrt 2)⁻¹),
      ([(2 * k.2 + 1, true), (2 * k.1 + 1, false)], (Real.sqrt 2)⁻¹)]) := by
  have key : ∀ (l : List (ℕ × ℕ)) (Q0 : List (Dict ℝ)),
      l.foldlM (fun Q pq => do let op ← G1sa tiny (Real.sqrt 2)⁻¹ pq.1 pq.2 false; pure (Q ++ [op])) Q0
        = (.ok (Q0 ++ l.map fun k => [([(2 * k.2, true), (2 * k.1, false)], (Real.sqrt 2)⁻¹),
          ([(2 * k.2 + 1, true), (2 * k.1 + 1, false)], (Real.sqrt 2)⁻¹)]) : Res _) := by
    intro l
    induction l with
    | nil => intro Q0; rw [List.map_nil, List.append_nil]; rfl
    | cons k l ih =>
      intro Q0
      rw [List.foldlM_cons, G1sa_dict]
      exact (ih _).trans (by rw [List.append_assoc]; rfl)
  exact (key W.kappa []).trans (by rw [List.nil_append])

theorem infoTerms_eq {A : Dict ℝ} (hA : NumCons A) : infoTerms A = A.map fun kv =>
    ((kv.1.filter fun o => !o.2).map (·.1), (kv.1.filter (·.2)).map (·.1), kv.2) := by
  unfold infoTerms
  rw [C69_get_info hA]
  simp only [List.zip_map']

theorem qInfo_eq {active : List ℕ} {nI nA : ℕ} (hact : ∀ p, p ∈ active ↔ nI ≤ p / 2 ∧ p / 2 < nI + nA)
    {k : ℕ × ℕ} (hk : NonRedundant nI nA k)
    (hN : NumCons ([([(2 * k.2, true), (2 * k.1, false)], (Real.sqrt 2)⁻¹),
      ([(2 * k.2 + 1, true), (2 * k.1 + 1, false)], (Real.sqrt 2)⁻¹)] : Dict ℝ)) :
    qInfo active [([(2 * k.2, true), (2 * k.1, false)], (Real.sqrt 2)⁻¹),
      ([(2 * k.2 + 1, true), (2 * k.1 + 1, false)], (Real.sqrt 2)⁻¹)] = .ok (rotationLines nI nA k) := by
  have ht : ∀ σ < 2, excType active [2 * k.1 + σ] [2 * k.2 + σ]
      = .ok (spaceName nI nA k.1 ++ " -> " ++ spaceName nI nA k.2) := by
    intro σ hσ
    have e1 : 2 * k.1 + σ ∈ active ↔ nI ≤ k.1 ∧ k.1 < nI + nA := by rw [hact, show (2 * k.1 + σ) / 2 = k.1 by omega]
    have e2 : 2 * k.2 + σ ∈ active ↔ nI ≤ k.2 ∧ k.2 < nI + nA := by rw [hact, show (2 * k.2 + σ) / 2 = k.2 by omega]
    unfold excType spaceName
    simp only [e1, e2]
    rcases hk with ⟨h1, h2⟩ | ⟨h1, h2, h3⟩
    · by_cases h4 : k.2 < nI + nA
      · rw [if_neg (by omega), if_pos ⟨h2, h4⟩, if_pos h1, if_neg (by omega), if_pos h4]; rfl
      · rw [if_neg (by omega), if_neg (by omega), if_pos h1, if_neg (by omega), if_neg h4]; rfl
    · rw [if_pos ⟨h1, h2⟩, if_neg (by omega), if_pos h2, if_neg (by omega), if_neg (by omega)]; rfl
  have h0 := ht 0 (by omega)
  have h1 := ht 1 (by omega)
  rw [Nat.add_zero, Nat.add_zero] at h0
  unfold qInfo
  rw [infoTerms_eq hN]
  simp [h0, h1, rotationLines, bind, Except.bind, pure, Except.pure]

theorem gInfo_term {A : Dict ℝ} (hA : NumCons A) : ((gInfo A).map InfoLine.term).sum = sumOp A := by
  unfold gInfo sumOp
  rw [infoTerms_eq hA, List.map_map, List.map_map]
  congr 1
  refine List.map_congr_left fun kv hk => ?_
  show kv.2 • excite _ _ = _
  rw [excite_eq]
  congr 2
  conv_rhs => rw [(hA.ord kv hk).split]
  congr 1
  · rw [List.map_map]
    refine (List.map_congr_left fun o ho => ?_).trans (List.map_id _)
    have := (List.mem_filter.1 ho).2
    exact Prod.ext rfl this.symm
  · rw [List.map_map]
    refine (List.map_congr_left fun o ho => ?_).trans (List.map_id _)
    have := (List.mem_filter.1 ho).2
    exact Prod.ext rfl (by simpa using this.symm)

theorem gInfo_active {ci : CIInfo} {A : Dict ℝ} (hA : ActOp ci A) : ∀ l ∈ gInfo A, l.ActiveTerm ci.nI ci.nA := by
  intro l hl
  unfold gInfo at hl
  rw [infoTerms_eq hA.1, List.map_map] at hl
  obtain ⟨kv, hk, rfl⟩ := List.mem_map.1 hl
  refine ⟨_, _, _, rfl, ?_, fun p hp => ?_⟩
  · have := hA.1.bal kv hk
    unfold Balanced at this
    rw [List.countP_eq_length_filter, List.countP_eq_length_filter] at this
    rw [List.length_map, List.length_map, this]
  · have : ActIdx ci.nI ci.nA p := by
      rcases List.mem_append.1 hp with hp | hp <;>
      · obtain ⟨o, ho, rfl⟩ := List.mem_map.1 hp
        exact (hA.2 kv hk).1 o (List.mem_filter.1 ho).1
    unfold ActIdx at this
    unfold spaceName
    rw [if_neg (by omega), if_pos (by omega)]

/-- C147: `get_operator_info` of a response object prints, under their titles and numbered as the attributes are, for
every orbital rotation the electron of either spin that it moves, the coefficient and the spaces that it moves between,
and for every active operator rows whose sum is the operator, with indices of active orbitals. -/
theorem C147_lines (ht : ExactTiny tiny) (hb : ExactBig big) (hW : W.Proper) (excitations : String) {active : List ℕ}
    (hact : ∀ p, p ∈ active ↔ W.ci.nI ≤ p / 2 ∧ p / 2 < W.ci.nI + W.ci.nA) :
    ∃ L rows, qlrInit tiny big W excitations = .ok L ∧
      operatorInfo active L = .ok (.heading :: (titled .qTitle .qNr (W.kappa.map (rotationLines W.ci.nI W.ci.nA)) ++
        titled .gTitle .gNr rows)) ∧
      rows.map (fun r => (r.map InfoLine.term).sum) = lrOps W (lettersOf excitations) ∧
      ∀ r ∈ rows, ∀ l ∈ r, l.ActiveTerm W.ci.nI W.ci.nA := by
  obtain ⟨L, -, hL, -⟩ := qlrInit_gens ht hb hW excitations
  obtain ⟨G, g1, g2, g3⟩ := lrG_ok ht hW excitations
  obtain ⟨Q, q1, q2⟩ := lrQ_ok ht hW
  have hQ := Except.ok.inj (q1.symm.trans lrQ_dict)
  obtain ⟨eG, eQ⟩ : L.G = G ∧ L.Q = Q := by
    unfold qlrInit at hL
    obtain ⟨H0, -, hL⟩ := Res.of_bind hL
    obtain ⟨H1, -, hL⟩ := Res.of_bind hL
    rw [g1, ok_bind, q1, ok_bind] at hL
    obtain rfl := Except.ok.inj hL
    exact ⟨rfl, rfl⟩
  refine ⟨L, G.map gInfo, hL, ?_, ?_, ?_⟩
  · have hq : ∀ n, (Q.zipIdx n).mapM (fun x => do
          let r ← qInfo active x.1
          pure (InfoLine.qNr x.2 :: r))
        = (.ok (((W.kappa.map (rotationLines W.ci.nI W.ci.nA)).zipIdx n).map fun b => InfoLine.qNr b.2 :: b.1) : Res _) := by
      rw [hQ] at q2 ⊢
      have hk := hW.kappa
      generalize W.kappa = l at q2 hk
      induction l with
      | nil => intro n; rfl
      | cons k l ih =>
        intro n
        rw [List.map_cons] at q2
        obtain ⟨⟨⟨hN, -⟩, -⟩, q3⟩ := List.forall₂_cons.1 q2
        rw [List.map_cons, List.zipIdx_cons, List.mapM_cons]
        simp only [qInfo_eq hact (hk k (by simp)).1 hN, ok_bind]
        have := ih q3 (fun k' hk' => hk k' (by simp [hk'])) (n + 1)
        rw [this]
        rfl
    unfold operatorInfo titled
    rw [eG, eQ]
    have l1 : Q.length = W.kappa.length := by rw [hQ, List.length_map]
    have h1 : (0 < Q.length) ↔ ¬ (W.kappa.map (rotationLines W.ci.nI W.ci.nA) = []) := by
      rw [l1, List.map_eq_nil_iff, List.length_pos_iff]
    have h2 : (0 < G.length) ↔ ¬ (G.map gInfo = []) := by rw [List.map_eq_nil_iff, List.length_pos_iff]
    have h3 : ((G.map gInfo).zipIdx.map fun b => InfoLine.gNr b.2 :: b.1)
        = G.zipIdx.map fun x => InfoLine.gNr x.2 :: gInfo x.1 := by
      rw [List.zipIdx_map, List.map_map]; rfl
    rw [hq 0, h3]
    simp only [h1, h2, ite_not]
    split <;> rfl
  · rw [List.map_map, lettersOf, ← g2]
    exact List.map_congr_left fun d hd => gInfo_term (g3 d hd).1.1
  · intro r hr
    obtain ⟨d, hd, rfl⟩ := List.mem_map.1 hr
    exact gInfo_active (g3 d hd).1

/-- C147: the active spin orbitals of the constructor (C38) are as required, for the objects of C107. -/
theorem C147_active {numOrbs numElec cas0 cas1 : ℕ} (h : CasFits numOrbs numElec cas0 cas1) (hA : 0 < cas1) (na nb : ℤ) :
    let s := mkSpaces numOrbs numElec cas0 cas1
    ∃ ci, getIndexing s.numInactiveOrbs s.numActiveOrbs s.numVirtualOrbs na nb = .ok ci ∧
      ∀ p, p ∈ s.activeSpin ↔ ci.nI ≤ p / 2 ∧ p / 2 < ci.nI + ci.nA := by
  intro s
  obtain ⟨s', -, rfl, -, -, -, -, -, -, hs, -, -, -, -, -, -, -, -, -, -, hnA, hnI, -⟩ := C38_orbitals h
  obtain ⟨ci, h1, h2, h3, -⟩ := C17_space (nA := s.numActiveOrbs) (by rw [hnA]; exact hA)
    s.numInactiveOrbs s.numVirtualOrbs na nb
  refine ⟨ci, h1, fun p => ?_⟩
  rw [h2, h3, hs.2 p, hnA, hnI]

/-- C147: a term without ladder operators has no type: the program raises. -/
theorem C147_empty (active c : List ℕ) : excType active [] c = .error .indexError := rfl

/-- Four electrons in three orbitals, one of each kind: the three rotations are of the three types. -/
example : CasFits 3 4 2 1 ∧ (mkSpaces 3 4 2 1).activeSpin = [2, 3] ∧
    (kappaLists (mkSpaces 3 4 2 1) 3 false).noActiveActive = [(0, 1), (0, 2), (1, 2)] ∧
    rotationLines 1 1 (0, 1) = [.row [0] [2] (Real.sqrt 2)⁻¹ (some "inactive -> active"),
      .row [1] [3] (Real.sqrt 2)⁻¹ (some "inactive -> active")] ∧
    rotationLines 1 1 (0, 2) = [.row [0] [4] (Real.sqrt 2)⁻¹ (some "inactive -> virtual"),
      .row [1] [5] (Real.sqrt 2)⁻¹ (some "inactive -> virtual")] ∧
    rotationLines 1 1 (1, 2) = [.row [2] [4] (Real.sqrt 2)⁻¹ (some "active -> virtual"),
      .row [3] [5] (Real.sqrt 2)⁻¹ (some "active -> virtual")] :=
  ⟨⟨rfl, rfl, by decide, by decide, by decide⟩, by decide, by decide, rfl, rfl, rfl⟩

end

end SQ
