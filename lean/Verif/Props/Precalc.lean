import Verif.Lemmas.Precalc
import Verif.Props.ReadOut
import Verif.Props.HigherDensity

/-!
# C133: measuring for density matrices in advance

`Bench.Asked`, `Bench.Answers`: Spec/Precalc.lean.
-/

namespace SQ

variable {norb : ℕ} {B : Bench norb} {tiny : ℝ → Bool} {ci : CIInfo} {order : List (List Char) → List (List Char)} {k : ℕ}
  {ansatz : List ℝ → List (PGate (2 * norb))}

theorem circList_listOp (qev : Dict ℝ → Res ℝ) (l : List (ℕ × ℕ)) :
    circList tiny qev ci l = listOp tiny l >>= fun A => qexp qev ci A := by
  cases l with
  | nil => rfl
  | cons x l =>
    unfold circList listOp
    rw [bind_assoc]

theorem listOp_gen (ht : ExactTiny tiny) {l : List (ℕ × ℕ)} (hne : l ≠ []) (h : ∀ x ∈ l, x.1 < ci.nI + ci.nA ∧ x.2 < ci.nI + ci.nA) :
    ∃ A, listOp tiny l = .ok A ∧ GenOp ci A := by
  have hE : ∀ x : ℕ × ℕ, x.1 < ci.nI + ci.nA ∧ x.2 < ci.nI + ci.nA → ∃ A, Epq tiny x.1 x.2 = .ok A ∧ GenOp ci A := by
    intro x hx
    obtain ⟨A, h1, h2, h3⟩ := den_Epq (tiny := tiny) ht x.1 x.2
    exact ⟨A, h1, h2, keys_Epq (P := (· < 2 * (ci.nI + ci.nA + ci.nV))) (both_lt (by omega)) (both_lt (by omega)) A h1⟩
  cases l with
  | nil => exact absurd rfl hne
  | cons x l =>
    obtain ⟨A, a1, a2⟩ := hE x (h x (by simp))
    unfold listOp
    simp only
    rw [a1, ok_bind]
    have hl : ∀ y ∈ l, y.1 < ci.nI + ci.nA ∧ y.2 < ci.nI + ci.nA := fun y hy => h y (by simp [hy])
    clear a1 h hne
    induction l generalizing A with
    | nil => exact ⟨A, rfl, a2⟩
    | cons y l ih =>
      obtain ⟨B, b1, b2⟩ := hE y (hl y (by simp))
      obtain ⟨C, c1, c2, -⟩ := a2.mul ht b2
      rw [List.foldlM_cons, b1, ok_bind, c1, ok_bind]
      exact ih C c2 fun z hz => hl z (by simp [hz])

theorem mapM_ends {α β : Type} {f : α → Res β} {l : List α} (h : ∀ a ∈ l, ∃ b, f a = .ok b) : ∃ ls, l.mapM f = .ok ls := by
  induction l with
  | nil => exact ⟨[], rfl⟩
  | cons a l ih =>
    obtain ⟨b, hb⟩ := h a (by simp)
    obtain ⟨ls, hl⟩ := ih fun x hx => h x (by simp [hx])
    rw [List.mapM_cons, hb, ok_bind, hl]
    exact ⟨_, rfl⟩

theorem mem_precalc {l : List (ℕ × ℕ)} (h : l ∈ precalcIter ci.nI ci.nA k) :
    l ≠ [] ∧ ∀ x ∈ l, (ci.nI ≤ x.1 ∧ x.1 < ci.nI + ci.nA) ∧ ci.nI ≤ x.2 ∧ x.2 < ci.nI + ci.nA := by
  unfold precalcIter at h
  simp only [List.mem_append] at h
  rcases h with ((h | h) | h) | h
  · obtain ⟨⟨p, q⟩, hx, rfl⟩ := List.mem_map.1 h
    rw [mem_rdm1Iter] at hx
    refine ⟨by simp, fun x hx => ?_⟩
    simp only [List.mem_singleton] at hx
    subst hx; simp only; omega
  · split_ifs at h
    · obtain ⟨⟨p, q, r, s⟩, hx, rfl⟩ := List.mem_map.1 h
      rw [mem_rdm2Iter] at hx
      have hs : s ≤ p := by
        obtain ⟨a, b, c, d⟩ := hx
        unfold sLim at d; split_ifs at d <;> omega
      refine ⟨by simp, fun x hx => ?_⟩
      simp only [List.mem_cons, List.not_mem_nil, or_false] at hx
      rcases hx with rfl | rfl <;> simp only <;> omega
    · simp at h
  · split_ifs at h
    · obtain ⟨⟨p, q, r, s, t, u⟩, hx, rfl⟩ := List.mem_map.1 h
      rw [mem_rdm3Iter] at hx
      refine ⟨by simp, fun x hx => ?_⟩
      simp only [List.mem_cons, List.not_mem_nil, or_false] at hx
      rcases hx with rfl | rfl | rfl <;> simp only <;> omega
    · simp at h
  · split_ifs at h
    · obtain ⟨⟨p, q, r, s, t, u, m, n⟩, hx, rfl⟩ := List.mem_map.1 h
      rw [mem_rdm4Iter] at hx
      refine ⟨by simp, fun x hx => ?_⟩
      simp only [List.mem_cons, List.not_mem_nil, or_false] at hx
      rcases hx with rfl | rfl | rfl | rfl <;> simp only <;> omega
    · simp at h

/-- C133: orders other than 1 to 4 are refused. -/
theorem C133_orders (q : QI) (h : k = 0 ∨ 4 < k) : precalcRdm B tiny ci order k q = (.error .valueError, q) := by
  unfold precalcRdm
  rcases h with rfl | h
  · rfl
  · rw [if_pos h]

/-- C133: after it the interface is one that has been used as any other, so that what is known of the values evaluated on
such interfaces (C113, C132) holds for those evaluated then. -/
theorem C133_reached (hM : JWMapper (2 * norb) B.map) (ho : SetOrder order) {q : QI} (hq : B.Reached q) :
    B.Reached (precalcRdm B tiny ci order k q).2 := by
  unfold precalcRdm
  split_ifs
  · exact hq
  · exact hq
  cases e : (precalcIter ci.nI ci.nA k).mapM (precalcLabels B tiny ci) with
  | error er => exact hq
  | ok ls =>
    simp only
    split_ifs with hl
    · exact hq
    have hlab := precalc_labels hM ho e hl
    have : B.Reached (evLabels B (defaultDet norb B.numElec) B.state 1 ((order ls.flatten).map fun p => (p, 1)) q).2 := by
      obtain ⟨v2, mx, s, f, np, q0, ops, hi, hops, rfl⟩ := hq
      refine ⟨v2, mx, s, f, np, q0, ops ++ [.labels ((order ls.flatten).map fun p => (p, 1))], hi, fun op hop => ?_, ?_⟩
      · rcases List.mem_append.1 hop with hop | hop
        · exact hops op hop
        · rw [List.mem_singleton] at hop
          subst hop
          exact hlab
      · rw [List.foldl_append]
        rfl
    rcases e2 : evLabels B (defaultDet norb B.numElec) B.state 1 ((order ls.flatten).map fun p => (p, 1)) q with ⟨r, q'⟩
    rw [e2] at this
    cases r <;> exact this

/-- C133: with saving on, after `precalc_rdm_paulis(k)` has returned, every expectation value that the density matrices up to
order `k` need has a fixed value: whatever of them has been evaluated since, and whatever the device does by then. Nothing is
measured any more. -/
theorem C133_elements (hn : 0 < norb) (hM : JWMapper (2 * norb) B.map) (hsave : B.save = true) (ho : SetOrder order) {q q' : QI}
    (hq : B.Reached q) (h : precalcRdm B tiny ci order k q = (.ok (), q')) :
    ∃ v : List (ℕ × ℕ) → ℝ, ∀ l ∈ precalcIter ci.nI ci.nA k, ∀ q2, B.Asked tiny ci (precalcIter ci.nI ci.nA k) q' q2 →
      ∀ dev, (rdmElement { B with dev := dev } tiny ci l q2).1 = .ok (v l) := by
  unfold precalcRdm at h
  split_ifs at h
  · cases h
  · cases h
  cases e : (precalcIter ci.nI ci.nA k).mapM (precalcLabels B tiny ci) with
  | error er => rw [e] at h; cases h
  | ok ls =>
    rw [e] at h
    simp only at h
    split_ifs at h with hl
    · cases h
    obtain ⟨hne, hlab⟩ := precalc_labels hM ho e hl
    unfold evLabels at h
    cases ek : detInt (defaultDet norb B.numElec) with
    | error er => rw [ek] at h; cases h
    | ok key =>
      rw [ek] at h
      simp only at h
      rcases e2 : q.evaluate B.dev (fun _ _ => B.state) key 1 ((order ls.flatten).map fun p => (p, 1)) with ⟨r, qq⟩
      rw [e2] at h
      cases r with
      | error er => cases h
      | ok x =>
        cases h
        obtain ⟨ops, hh⟩ := keptAny_entry (reached_any hM hq) key 1
        obtain ⟨w, hw⟩ := evaluate_within (by omega : 0 < 2 * norb) hh hlab hne (v := x) (by rw [e2])
        have hfl : q'.flags = q.flags := by
          obtain ⟨cs, ops', -, -, f, -⟩ := evaluate_any (dev := B.dev) (circ := fun _ _ => B.state) hh
            fun pc hpc => (hlab pc hpc).1
          rw [e2] at f; exact f
        rw [e2] at hw
        obtain ⟨m1, -⟩ := mapM_ok_mem e
        have hstep : ∀ l ∈ precalcIter ci.nI ci.nA k, ∃ y, ∀ (dev : Device (List (Gate (2 * norb)))) (q2 : QI),
            q2.entry key 1 = q'.entry key 1 → q2.flags = q.flags →
            (rdmElement { B with dev := dev } tiny ci l q2).1 = .ok y ∧
            (rdmElement { B with dev := dev } tiny ci l q2).2.entry key 1 = q'.entry key 1 ∧
            (rdmElement { B with dev := dev } tiny ci l q2).2.flags = q.flags := by
          intro l hl
          obtain ⟨ps, hps, hl2⟩ := m1 l hl
          obtain ⟨A, obs, a1, a2, rfl⟩ := precalcLabels_ok hl2
          refine ⟨w (realParts obs), fun dev q2 g1 g2 => ?_⟩
          have hq2 := hw dev (fun _ _ => B.state) q2 g1 g2 (realParts obs) (labels_ok hM a2).2 (fun pc hpc => by
            obtain ⟨z, hz, rfl⟩ := List.mem_map.1 hpc
            rw [List.map_map]
            exact List.mem_map.2 ⟨z.1, ((ho _).2 _).2 (List.mem_flatten.2 ⟨_, hps, List.mem_map_of_mem hz⟩), rfl⟩)
          have he : rdmElement { B with dev := dev } tiny ci l q2
              = q2.evaluate dev (fun _ _ => B.state) key 1 (realParts obs) := by
            unfold rdmElement
            rw [a1]
            change quantumExpectation { B with dev := dev } none (getFolded ci.nI ci.nA ci.nV A) q2 = _
            unfold quantumExpectation evOne evSaved
            simp only [hsave, if_true, ek, a2]
          rw [he]
          exact ⟨hq2.1, hq2.2.1.trans g1, hq2.2.2⟩
        have hasked : ∀ q2, B.Asked tiny ci (precalcIter ci.nI ci.nA k) q' q2 → q2.entry key 1 = q'.entry key 1 ∧ q2.flags = q.flags := by
          intro q2 ha
          induction ha with
          | start => exact ⟨rfl, hfl⟩
          | ask _ dev hl ih =>
            obtain ⟨y, hy⟩ := hstep _ hl
            exact (hy dev _ ih.1 ih.2).2
        refine ⟨fun l => if hl : l ∈ precalcIter ci.nI ci.nA k then (hstep l hl).choose else 0, fun l hl q2 ha dev => ?_⟩
        simp only [dif_pos hl]
        obtain ⟨i1, i2⟩ := hasked q2 ha
        exact ((hstep l hl).choose_spec dev q2 i1 i2).1

theorem foldlM_same {α β : Type} {f g : β → α → Res β} {l : List α} (h : ∀ b, ∀ a ∈ l, f b a = g b a) (b : β) :
    l.foldlM f b = l.foldlM g b := by
  induction l generalizing b with
  | nil => rfl
  | cons a l ih =>
    rw [List.foldlM_cons, List.foldlM_cons, h b a (by simp)]
    congr 1
    funext c
    exact ih (fun b a ha => h b a (by simp [ha])) c

theorem foldlM_ends {α β : Type} {f : β → α → Res β} {l : List α} (h : ∀ b, ∀ a ∈ l, ∃ c, f b a = .ok c) (b : β) :
    ∃ c, l.foldlM f b = .ok c := by
  induction l generalizing b with
  | nil => exact ⟨b, rfl⟩
  | cons a l ih =>
    obtain ⟨c, hc⟩ := h b a (by simp)
    rw [List.foldlM_cons, hc, ok_bind]
    exact ih (fun b a ha => h b a (by simp [ha])) c

/-- C133: hence the density matrices read afterwards are the same whenever and on whatever device they are read, and reading
them does not raise. -/
theorem C133_matrices (hn : 0 < norb) (hM : JWMapper (2 * norb) B.map) (hsave : B.save = true) (ho : SetOrder order) {q q' : QI}
    (hq : B.Reached q) (h : precalcRdm B tiny ci order k q = (.ok (), q')) :
    ∃ R1 R2 R3 R4, ∀ qev, B.Answers tiny ci (precalcIter ci.nI ci.nA k) q' qev →
      circRdm1 tiny qev ci = .ok R1 ∧ (2 ≤ k → circRdm2 tiny qev ci = .ok R2) ∧ (3 ≤ k → circRdm3 tiny qev ci = .ok R3) ∧
      (4 ≤ k → circRdm4 tiny qev ci = .ok R4) := by
  obtain ⟨v, hv⟩ := C133_elements hn hM hsave ho hq h
  obtain ⟨R1, r1⟩ : ∃ R1, rdm1Loop (fun p q => .ok (v [(p, q)])) ci.nI ci.nA = .ok R1 := foldlM_ends (fun _ _ _ => ⟨_, rfl⟩) _
  obtain ⟨R2, r2⟩ : ∃ R2, rdm2Loop (fun p q r s => .ok (v [(p, q), (r, s)])) R1 ci.nI ci.nA = .ok R2 :=
    foldlM_ends (fun _ _ _ => ⟨_, rfl⟩) _
  obtain ⟨R3, r3⟩ : ∃ R3, rdm3Loop (fun l => .ok (v l)) R1 R2 ci.nI ci.nA = .ok R3 := foldlM_ends (fun _ _ _ => ⟨_, rfl⟩) _
  obtain ⟨R4, r4⟩ : ∃ R4, rdm4Loop (fun l => .ok (v l)) R1 R2 R3 ci.nI ci.nA = .ok R4 := foldlM_ends (fun _ _ _ => ⟨_, rfl⟩) _
  refine ⟨R1, R2, R3, R4, fun qev ha => ?_⟩
  have hval : ∀ l ∈ precalcIter ci.nI ci.nA k, circList tiny qev ci l = .ok (v l) := by
    intro l hl
    obtain ⟨q2, dev, h1, h2⟩ := ha l hl
    rw [h2]
    exact hv l hl q2 h1 dev
  have hE : ∀ p q, circE tiny qev ci p q = circList tiny qev ci [(p, q)] := fun p q => by
    unfold circE circList
    simp only [List.foldlM_nil, pure_bind]
  have hEE : ∀ p q r s, circEE tiny qev ci p q r s = circList tiny qev ci [(p, q), (r, s)] := fun p q r s => by
    unfold circEE circList
    simp only [List.foldlM_cons, List.foldlM_nil, bind_assoc, bind_pure]
  have h1 : circRdm1 tiny qev ci = .ok R1 := by
    rw [← r1]
    refine foldlM_same (fun a pq hpq => ?_) _
    rw [hE, hval _ (by unfold precalcIter; simp only [List.mem_append]; exact .inl (.inl (.inl (List.mem_map.2 ⟨_, hpq, rfl⟩))))]
  have h2 : 2 ≤ k → circRdm2 tiny qev ci = .ok R2 := fun hk => by
    unfold circRdm2
    rw [h1, ok_bind, ← r2]
    refine foldlM_same (fun a x hx => ?_) _
    rw [hEE, hval _ (by unfold precalcIter; simp only [List.mem_append, if_pos hk]; exact .inl (.inl (.inr (List.mem_map.2 ⟨_, hx, rfl⟩))))]
  have h3 : 3 ≤ k → circRdm3 tiny qev ci = .ok R3 := fun hk => by
    unfold circRdm3
    rw [h1, ok_bind, h2 (by omega), ok_bind, ← r3]
    refine foldlM_same (fun a x hx => ?_) _
    unfold rdm3Step
    simp only
    rw [hval _ (by unfold precalcIter; simp only [List.mem_append, if_pos hk]; exact .inl (.inr (List.mem_map.2 ⟨_, hx, rfl⟩)))]
  have h4 : 4 ≤ k → circRdm4 tiny qev ci = .ok R4 := fun hk => by
    unfold circRdm4
    rw [h1, ok_bind, h2 (by omega), ok_bind, h3 (by omega), ok_bind, ← r4]
    refine foldlM_same (fun a x hx => ?_) _
    unfold rdm4Step
    simp only
    rw [hval _ (by unfold precalcIter; simp only [List.mem_append, if_pos hk]; exact .inr (List.mem_map.2 ⟨_, hx, rfl⟩))]
  exact ⟨h1, h2, h3, h4⟩

/-- C133: on an ideal device and with mitigation off it returns for the orders 1 to 4, and changes neither the parameters nor
the flags. -/
theorem C133_runs (hB : B.Sound ansatz) (ht : ExactTiny tiny) (ho : SetOrder order) (hA : ci.nA = norb) {q : QI} (hq : B.Reached q)
    (hf : q.flags.isEnabled = false) (h1 : 1 ≤ k) (h4 : k ≤ 4) :
    ∃ q', precalcRdm B tiny ci order k q = (.ok (), q') ∧ q'.params = q.params ∧ q'.flags = q.flags := by
  have hok : ∀ l ∈ precalcIter ci.nI ci.nA k, ∃ ps, precalcLabels B tiny ci l = .ok ps := by
    intro l hl
    obtain ⟨hne, hr⟩ := mem_precalc hl
    obtain ⟨A, e, g⟩ := listOp_gen (ci := ci) ht hne fun x hx => ⟨by have := (hr x hx).1; omega, by have := (hr x hx).2; omega⟩
    obtain ⟨n1, n2⟩ := getFolded_inv g.1 g.2
    obtain ⟨obs, o, -⟩ := opToQbit_ok hB.mapping n1.wf (fun kv hkv x hx => by
      have := (n2 kv hkv).1 x hx
      rw [hA] at this; exact this)
    exact ⟨_, by unfold precalcLabels; rw [e, ok_bind, o]; rfl⟩
  obtain ⟨ls, e⟩ := mapM_ends hok
  have hne : ls ≠ [] := by
    intro h0
    subst h0
    obtain ⟨m1, -⟩ := mapM_ok_mem e
    have := hB.orbitals
    obtain ⟨b, hb, -⟩ := m1 [(ci.nI, ci.nI)] (by
      unfold precalcIter; simp only [List.mem_append]
      exact .inl (.inl (.inl (List.mem_map.2 ⟨_, mem_rdm1Iter.2 ⟨le_refl _, le_refl _, by omega⟩, rfl⟩))))
    simp at hb
  obtain ⟨hne2, hlab⟩ := precalc_labels hB.mapping ho e hne
  obtain ⟨r, q', e1, -, e2, e3, e4⟩ := evLabels_spec hB.orbitals hB.device (reached_kept hB hq) hB.key 1 hne2 hlab
  refine ⟨q', ?_, e2, e3⟩
  unfold precalcRdm
  rw [if_neg (by omega), if_neg (by omega), e]
  simp only
  rw [if_neg hne, e1, e4 hf]

/-- Such an interface exists, and what it returns from now on answers in this sense. -/
example (tiny : ℝ → Bool) (ht : ExactTiny tiny) (ci : CIInfo) (hA : ci.nA = 2) : ∃ (B : Bench 2)
    (ansatz : List ℝ → List (PGate (2 * 2))) (order : List (List Char) → List (List Char)) (q q' : QI),
    B.Sound ansatz ∧ B.save = true ∧ SetOrder order ∧ B.Reached q ∧ precalcRdm B tiny ci order 4 q = (.ok (), q') ∧
    B.Answers tiny ci (precalcIter ci.nI ci.nA 4) q' fun A => (quantumExpectation B none A q').1 := by
  have h : CircuitLayout 2 ["sa_single", "double"] [[0, 1], [0, 1, 2, 3]]
      [E 1 0 - E 0 1, excite [2, 3] [1, 0] - excite [0, 1] [3, 2]] :=
    .cons (.saSingle 0 1 (by decide) (by decide)) (.cons (.double 0 1 2 3 (by decide) (by decide) (by decide) (by decide)) .nil)
  obtain ⟨map, hM⟩ := jwMapper_exists (2 * 2)
  set ansatz : List ℝ → List (PGate (2 * 2)) := fun p => (C90_layout h fun k => p.getD k 0).choose
  set B : Bench 2 := ⟨exactDevice ansatz, .jordanWigner, map, (1, 1), hfCircuit 2 (1, 1), true, true⟩ with hBdef
  have hB : B.Sound ansatz := C114_sound (m := 1) (by decide) (by decide) (exactDevice_ideal ansatz) hM rfl rfl rfl
  obtain ⟨q, hq, hf⟩ : ∃ q, B.Reached q ∧ q.flags.isEnabled = false :=
    ⟨_, ⟨true, 100, some 10, Flags.init (.bool false) (.bool false) (.bool false) (.bool false), 2, _, [], rfl, by simp, rfl⟩, rfl⟩
  have ho : SetOrder List.dedup := fun l => ⟨List.nodup_dedup l, fun p => List.mem_dedup⟩
  obtain ⟨q', e, -⟩ := C133_runs (k := 4) hB ht ho hA hq hf (by decide) (by decide)
  refine ⟨B, ansatz, List.dedup, q, q', hB, rfl, ho, hq, e, fun l hl => ⟨q', B.dev, .start, ?_⟩⟩
  rw [circList_listOp]
  obtain ⟨hne, hr⟩ := mem_precalc hl
  obtain ⟨A, a, -⟩ := listOp_gen (ci := ci) ht hne fun x hx => ⟨by have := (hr x hx).1; omega, by have := (hr x hx).2; omega⟩
  rw [a, ok_bind]
  unfold rdmElement
  rw [a]
  rfl

end SQ
