import Verif.Props.CircEnv
import Verif.Props.UpsBuilt

/-! # C130: what the constructor of the circuit wave function makes is set up -/

namespace SQ

theorem lookup_at {l : List (String × ℕ)} (hn : (l.map Prod.fst).Nodup) {k : ℕ} {x : String × ℕ} (h : l[k]? = some x) :
    l.lookup x.1 = some x.2 := by
  induction l generalizing k with
  | nil => simp at h
  | cons y l ih =>
    obtain ⟨y1, y2⟩ := y
    simp only [List.map_cons, List.nodup_cons] at hn
    cases k with
    | zero =>
      simp only [List.getElem?_cons_zero, Option.some.injEq] at h
      subst h
      simp
    | succ k =>
      simp only [List.getElem?_cons_succ] at h
      have hne : x.1 ≠ y1 := fun e => hn.1 (List.mem_map.2 ⟨x, List.mem_of_getElem? h, e⟩)
      rw [List.lookup_cons, show (x.1 == y1) = false by simpa using hne]
      exact ih hn.2 h

theorem doubled_inj : ∀ {f g : List Bool}, doubled f = doubled g → f = g
  | [], [], _ => rfl
  | [], _ :: _, h => by cases h
  | _ :: _, [], h => by cases h
  | a :: f, b :: g, h => by
    simp only [doubled, List.cons.injEq] at h
    rw [h.1, doubled_inj h.2.2]

/-- C130: the object as its constructor makes it, for any molecule, active space and layout with circuits, is set up as the
other theorems of C130 suppose, with all parameters zero; the reference is the Hartree-Fock determinant, or the perfect-pairing
one if the layout asks for it; the orbitals are the given ones, exchanged for perfect pairing such that those that come first
are filled, unless that is turned off; the orbital rotations are those between the spaces, and those within the active space if asked
for. -/
theorem C130_constructed {n numElec cas0 cas1 : ℕ} (h : CasFits n numElec cas0 cas1) (hA : 0 < cas1)
    {s : UpsStruct} {calls : List UpsCall} (e1 : s = calls.foldl UpsCall.run {}) (e2 : ∀ c ∈ calls, c.HasCircuit cas1)
    (hs : s.nParams ≤ 10 ^ 9) {mo : ℕ → Fin n → ℝ} {o : Options} {inc force : Bool} {c : CircWf (Fin n → ℝ)}
    (hw : circuitObject n numElec cas0 cas1 mo s o inc force = .ok c) :
    ∃ ci Ts, ∃ f : List Bool,
      getIndexing c.spaces.numInactiveOrbs cas1 c.spaces.numVirtualOrbs (cas0 / 2 : ℕ) (cas0 / 2 : ℕ) = .ok ci ∧
      (if o.flag "do_pp" ≠ 0 then ppDet (2 * cas1) cas0 else .ok (hfDet (2 * cas1) cas0)) = .ok (doubled f) ∧
      c.params = List.replicate s.types.length 0 ∧
      Lists c.kappa.kappa (fun pq => (pq.1 < pq.2 ∧ pq.2 < n) ∧ Rotates ((numElec - cas0) / 2) cas1 inc pq) ∧
      ∀ tiny big dev map save cliques qi hAo gAo, ExactTiny tiny → ExactBig big → JWMapper (2 * c.spaces.numActiveOrbs) map →
        RealAo hAo gAo →
        (∃ σ : ℕ → ℕ, (∀ a q, (c.data ci tiny big dev map save cliques qi hAo gAo).mo a q = mo (σ q) a) ∧
          (if o.flag "do_pp" ≠ 0 ∧ force = true then σ = id
            else FillsLowest ((numElec - cas0) / 2) cas1 (cas0 / 2) f σ ∧ (o.flag "do_pp" = 0 → σ = id))) ∧
        (c.data ci tiny big dev map save cliques qi hAo gAo).Ready c.ansatz (detText (doubled f)) ⟨s.types, s.indices⟩ Ts := by
  obtain ⟨-, f2, f3, f4, f5, f6, f7, f8⟩ := spaces_fits h
  obtain ⟨hk, -⟩ := C38_kappa h inc
  obtain ⟨nI, nV, oo, hn, he⟩ : ∃ nI nV oo, n = nI + cas1 + nV ∧ numElec = 2 * (nI + oo) ∧ cas0 = 2 * oo ∧ oo ≤ cas1 := by
    have h1 := h.evenElec
    have h2 := h.evenActive
    have h3 := h.enoughElec
    have h4 := h.enoughActive
    have h5 := h.enoughOrbs
    exact ⟨(numElec - cas0) / 2, n - cas1 - (numElec - cas0) / 2, cas0 / 2, by omega, by omega, by omega, by omega⟩
  have horb : (mkSpaces n numElec cas0 cas1).numInactiveOrbs + cas1 + (mkSpaces n numElec cas0 cas1).numVirtualOrbs = n := by
    obtain ⟨he1, he2, he3⟩ := he
    have e := mkSpaces_eq (nI := nI) (nA := cas1) (nV := nV) he3
    rw [hn, he1, he2, e]
  have hnI : (mkSpaces n numElec cas0 cas1).numInactiveOrbs = (numElec - cas0) / 2 := by
    obtain ⟨he1, he2, he3⟩ := he
    have e := mkSpaces_eq (nI := nI) (nA := cas1) (nV := nV) he3
    rw [hn, he1, he2, e]
    simp only
    omega
  have h2 := h.evenActive
  have h4 := h.enoughActive
  set S := mkSpaces n numElec cas0 cas1 with hS
  unfold circuitObject at hw
  rw [f8, ok_bind] at hw
  obtain ⟨cMo, hcMo, hb⟩ : ∃ cMo : ℕ → Fin n → ℝ, (if o.flag "do_pp" ≠ 0 ∧ force = false then do
        let det ← ppDet S.activeSpin.length cas0
        ppColumns S.numInactiveOrbs (hfDet S.activeSpin.length cas0) det mo
      else .ok mo : Res (ℕ → Fin n → ℝ)) = .ok cMo ∧
      buildCircuit S (kappaLists S n inc) cMo (cas0 / 2, cas0 / 2) o s none = .ok c := by
    cases hc : (if o.flag "do_pp" ≠ 0 ∧ force = false then do
        let det ← ppDet S.activeSpin.length cas0
        ppColumns S.numInactiveOrbs (hfDet S.activeSpin.length cas0) det mo
      else .ok mo : Res (ℕ → Fin n → ℝ)) with
    | error e => rw [hc] at hw; cases hw
    | ok cMo =>
      rw [hc, ok_bind] at hw
      exact ⟨cMo, rfl, hw⟩
  obtain ⟨g1, g2, Ts, t1, t2, g3⟩ := calls_circuit e1 e2 hs
  obtain ⟨st, f, k1, k2, k3, k4, k5⟩ := start_det (n := S.numActiveOrbs) (m := cas0 / 2) (by omega) o
  have g3' := g3
  rw [← f3] at g3'
  obtain ⟨gs, R, p1, p2⟩ := g3' (fun _ => 0)
  unfold buildCircuit at hb
  rw [k1, ok_bind, p1, ok_bind, p2, ok_bind] at hb
  cases hb
  obtain ⟨ci, i1, i2, i3⟩ := (C26_spaces S.numInactiveOrbs cas1 S.numVirtualOrbs (cas0 / 2 : ℕ) (cas0 / 2 : ℕ) 0).1 hA
  obtain ⟨ci', j1, j2, j3, j4, j5, -, -⟩ := C17_space hA S.numInactiveOrbs S.numVirtualOrbs (cas0 / 2 : ℕ) (cas0 / 2 : ℕ)
  obtain rfl : ci = ci' := Except.ok.inj (i1.symm.trans j1)
  obtain ⟨cs, r1, r2⟩ := reference_doubled (R := ℝ) hA i1 f (k2.trans f3) k3
  have hR : R.map Prod.fst = s.names ∧ R.map (fun p => some p.2) = s.types.map gradR ∧ (R.map Prod.fst).Nodup := by
    have t1' := t1
    have e2' := e2
    rw [← f3] at t1' e2'
    obtain ⟨gs', R', c1, c2, c3, -⟩ := C90_layout t1' (fun _ => 0)
    rw [p1] at c1
    cases c1
    have hnd : (R.map Prod.fst).Nodup := by
      rw [c2]
      exact List.nodup_range.map fun a b h => pname_inj h
    obtain ⟨Ts', gs2, R2, -, -, a3, a4, -⟩ := C90_structures calls e2' (fun _ => 0)
    rw [← e1] at a3 a4
    rw [p1] at a3
    cases a3
    exact ⟨a4, c3, hnd⟩
  obtain ⟨hR1, hR2, hR3⟩ := hR
  refine ⟨ci, Ts, f, i1, ?_, ?_, hk, ?_⟩
  · rw [show 2 * (cas0 / 2) = cas0 by omega, f3] at k4
    exact k4
  · show List.replicate s.names.length (0 : ℝ) = _
    rw [g2, g1]
  · intro tiny big dev map save cliques qi hAo gAo ht hb hM hr
    have hfin : (finPairs n (kappaLists S n inc).kappa).map (fun x => (x.1.val, x.2.val)) = (kappaLists S n inc).kappa :=
      finPairs_val fun pq hpq => by
        have := ((hk.2 pq).1 hpq).1
        omega
    have hno : S.numActiveOrbs = ci.nA := by rw [f3, j3]
    refine ⟨?_, ht, hb, i2, hno, ?_, ?_, ?_, ?_, hM, ?_, isDet_text k2, k5, ⟨cs, ?_⟩, ?_, ?_, ?_, hr, ?_, ?_⟩
    · rw [show 2 * (cas0 / 2) = cas0 by omega, f3] at k4
      rw [f4] at hcMo
      by_cases hp : o.flag "do_pp" ≠ 0
      · by_cases hf : force = true
        · rw [if_neg (by simp [hf])] at hcMo
          refine ⟨id, fun a q => ?_, by rw [if_pos ⟨hp, hf⟩]⟩
          exact congrFun (congrFun (Except.ok.inj hcMo).symm q) a
        · rw [if_pos ⟨hp, by simpa using hf⟩] at hcMo
          rw [if_pos hp] at k4
          rw [k4, ok_bind] at hcMo
          rw [show cas0 = 2 * (cas0 / 2) by omega] at hcMo k4
          obtain ⟨σ, q1, q2⟩ := C73_columns (nI := S.numInactiveOrbs) (nA := cas1) (o := cas0 / 2) (by omega) mo k4
          rw [q1] at hcMo
          rw [ppDet_eq (by omega)] at k4
          refine ⟨σ, fun a q => congrFun (congrFun (Except.ok.inj hcMo).symm q) a, ?_⟩
          rw [if_neg (by simp [hf]), ← hnI, ← doubled_inj (Except.ok.inj k4)]
          exact ⟨q2, fun h0 => absurd h0 hp⟩
      · rw [if_neg (by simp [hp])] at hcMo
        rw [if_neg hp, show cas0 = 2 * (cas0 / 2) by omega, hfDet_eq (by omega)] at k4
        refine ⟨id, fun a q => congrFun (congrFun (Except.ok.inj hcMo).symm q) a, ?_⟩
        rw [if_neg (by simp [hp]), ← hnI, ← doubled_inj (Except.ok.inj k4)]
        refine ⟨⟨fun _ => rfl, fun _ _ => rfl, fun c hc => ?_⟩, fun _ => rfl⟩
        show _ ↔ S.numInactiveOrbs ≤ c ∧ c < S.numInactiveOrbs + cas0 / 2
        by_cases hlt : c - S.numInactiveOrbs < cas0 / 2
        · rw [List.getElem?_append_left (by simpa using hlt), List.getElem?_replicate, if_pos hlt]
          simp only [true_iff]
          omega
        · rw [List.getElem?_append_right (by simpa using hlt), List.getElem?_replicate, List.length_replicate]
          split <;> simp <;> omega
    · show 0 < S.numActiveOrbs
      rw [f3]; exact hA
    · show Layout 0 ci.nA _ _ Ts
      rw [j3]; exact t2
    · show CircuitLayout ci.nA _ _ Ts
      rw [j3]; exact t1
    · intro p
      obtain ⟨gs, R, q1, -⟩ := g3' (fun k => p.getD k 0)
      refine ⟨R, ?_⟩
      show upslayout2circuit S.numActiveOrbs _ _ _ = .ok (layoutGates S.numActiveOrbs s p, R)
      unfold layoutGates
      rw [q1]
    · show cas0 / 2 + cas0 / 2 ≤ 2 * S.numActiveOrbs
      omega
    · show stateOf ci cs = _
      rw [r2, detSet_text k2, f3]
    · show s.names.length = s.types.length
      rw [g2, g1]
    · intro k ty hty
      show ∃ x, s.names[k]? = some x ∧ R.lookup x = gradR ty
      have hty' : s.types[k]? = some ty := hty
      have : (R.map fun p => some p.2)[k]? = some (gradR ty) := by
        rw [hR2, List.getElem?_map, hty']; rfl
      rw [List.getElem?_map] at this
      cases hx : R[k]? with
      | none => rw [hx] at this; cases this
      | some x =>
        rw [hx] at this
        simp only [Option.map_some, Option.some.injEq] at this
        refine ⟨x.1, ?_, ?_⟩
        · rw [← hR1, List.getElem?_map, hx]; rfl
        · rw [lookup_at hR3 hx, this]
    · show n = ci.nI + ci.nA + ci.nV
      rw [j2, j3, j4, horb]
    · refine List.Nodup.of_map (fun x : Fin n × Fin n => (x.1.val, x.2.val)) ?_
      show (List.map _ (finPairs n (kappaLists S n inc).kappa)).Nodup
      rw [hfin]
      exact hk.1
    · intro x hx
      have : (x.1.val, x.2.val) ∈ (kappaLists S n inc).kappa := by
        rw [← hfin]
        exact List.mem_map.2 ⟨x, hx, rfl⟩
      exact ((hk.2 _).1 this).1.1

/-- A fresh interface that gets its parameters. -/
noncomputable def freshQI (np : ℕ) (θ : List ℝ) : QI :=
  (okOr ⟨true, 0, none, 0, 0, [], [], none, Flags.init (.bool false) (.bool false) (.bool false) (.bool false), 0⟩
    (QI.init true 100 (some 10) (Flags.init (.bool false) (.bool false) (.bool false) (.bool false)) np)).setParams θ |>.2

theorem freshQI_use {norb : ℕ} (B : Bench norb) {np : ℕ} {θ : List ℝ} (h : θ.length = np) :
    B.ReachedSimply (freshQI np θ) ∧ (freshQI np θ).flags.isEnabled = false ∧ (freshQI np θ).params = θ := by
  refine ⟨⟨true, 100, some 10, Flags.init (.bool false) (.bool false) (.bool false) (.bool false), np, _, [.params θ], rfl, ?_, rfl⟩, ?_⟩
  · intro op hop
    rw [List.mem_singleton] at hop
    subst hop
    trivial
  · have e : freshQI np θ = { (okOr ⟨true, 0, none, 0, 0, [], [], none, Flags.init (.bool false) (.bool false) (.bool false) (.bool false), 0⟩
        (QI.init true 100 (some 10) (Flags.init (.bool false) (.bool false) (.bool false) (.bool false)) np)) with params := θ } := by
      unfold freshQI QI.setParams
      rw [if_neg (by rw [not_not]; exact h)]
      simp only
      split_ifs <;> rfl
    rw [e]
    exact ⟨rfl, rfl⟩

/-- A circuit wave function of four electrons in three orbitals with perfect pairing, with an ideal device and an interface in
use. -/
theorem circ_ready_case (mo : ℕ → Fin 3 → ℝ) : ∃ (s : UpsStruct) (c : CircWf (Fin 3 → ℝ)) (D : CircData)
    (ansatz : List ℝ → List (PGate (2 * D.norb))) (d : List Char) (Ts : List (FOp ℝ)),
    circuitObject 3 4 4 3 mo s [("do_pp", 1)] false false = .ok c ∧ D.names = c.names ∧ s.types.length = 6 ∧
    D.Ready ansatz d ⟨s.types, s.indices⟩ Ts ∧ D.InUse ansatz ∧ Ideal D.bench.dev ansatz := by
  have hfit : CasFits 3 4 4 3 := ⟨by decide, by decide, by decide, by decide, by decide⟩
  obtain ⟨-, f2, f3, f4, f5, f6, f7, f8⟩ := spaces_fits hfit
  set s : UpsStruct := [UpsCall.tiled 3 [("do_pp", 1), ("n_layers", 1), ("do_tups", 1)]].foldl UpsCall.run {} with hs
  have e2 : ∀ c ∈ [UpsCall.tiled 3 [("do_pp", 1), ("n_layers", 1), ("do_tups", 1)]], c.HasCircuit 3 := by simp [UpsCall.HasCircuit]
  have hn : s.nParams = 6 := rfl
  have hd : ppDet 6 4 = .ok (doubled [true, false, true]) := rfl
  obtain ⟨σ, hcol, -⟩ := C73_columns (nI := (mkSpaces 3 4 4 3).numInactiveOrbs) (nA := 3) (o := 2) (by decide) mo hd
  obtain ⟨c, c', b1, -⟩ := build_ok hfit hs e2 (by rw [hn]; norm_num) (kappaLists (mkSpaces 3 4 4 3) 3 false) (fun i => mo (σ i))
    [("do_pp", 1)] none (t := List.replicate 6 0) (by rw [hn]; rfl)
  have hw : circuitObject 3 4 4 3 mo s [("do_pp", 1)] false false = .ok c := by
    unfold circuitObject
    rw [f8, ok_bind, if_pos (by simp [Options.flag]), f4, show 2 * 3 = 6 from rfl, hd, ok_bind,
      show hfDet 6 4 = hfDet (2 * 3) (2 * 2) from rfl, hcol, ok_bind]
    exact b1
  obtain ⟨ci, Ts, f, -, -, -, -, h5⟩ := C130_constructed hfit (by decide) hs e2 (by rw [hn]; norm_num) hw
  obtain ⟨map, hM⟩ := jwMapper_exists (2 * c.spaces.numActiveOrbs)
  refine ⟨s, c, c.data ci (fun x => decide (x = 0)) (fun x => !decide (x = 0)) (exactDevice c.ansatz) map true true
    (fun _ θ _ _ => freshQI c.names.length θ) (fun a b => if a = b then -1 else 0) (fun a b c d => if a = b ∧ c = d then 1 else 0),
    c.ansatz, detText (doubled f), Ts, hw, rfl, rfl, (h5 _ _ _ _ _ _ _ _ _ (fun x hx => by simpa using hx)
      (fun x hx => by simpa using hx) hM ⟨fun a b => by simp [eq_comm], fun a b c d => by simp [and_comm], fun a b c d => by simp [eq_comm]⟩).2,
    fun dev θ x A _ hl => freshQI_use _ hl, exactDevice_ideal _⟩

end SQ
