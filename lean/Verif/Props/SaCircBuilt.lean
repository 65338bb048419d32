import Verif.Props.CircBuilt
import Verif.Props.SaCircEnv

/-! # C131: what the constructor of the state-averaged circuit wave function makes is set up -/

namespace SQ

/-- A state made of determinants of the space is in the space. -/
theorem csf_in_space {ci : CIInfo} (hv : ci.Valid) (hA : 0 < ci.nA) {s : Csf} (hd : ∀ d ∈ s.2, IsDet ci.nA d ∧ ci.Mem (detSet d)) :
    ∃ v : Vec ℝ, csfFock s = stateOf ci v := by
  unfold csfFock
  have : ∀ cd ∈ s.1.zip s.2, IsDet ci.nA cd.2 ∧ ci.Mem (detSet cd.2) := fun cd h => hd _ (List.of_mem_zip h).2
  revert this
  generalize s.1.zip s.2 = l
  intro hl
  induction l with
  | nil => exact ⟨0, by rw [stateOf_zero]; rfl⟩
  | cons cd l ih =>
    obtain ⟨v, hv'⟩ := ih fun x hx => hl x (List.mem_cons_of_mem _ hx)
    obtain ⟨h1, h2⟩ := hl cd List.mem_cons_self
    obtain ⟨i, i1, i2, -⟩ := saStep_ok (v := v) hv hA h1 h2
    refine ⟨Function.update v i (v i + cd.1), ?_⟩
    rw [stateOf_update v i1, ← hv', i2, List.map_cons, List.sum_cons, add_comm]

/-- C131: the object as its constructor makes it, for any molecule, active space with electrons, layout with circuits and
orthonormal states made of determinants with the right numbers of electrons, is set up as the other theorems of C131 suppose,
with all parameters zero and the given orbitals. -/
theorem C131_constructed {n numElec cas0 cas1 : ℕ} (h : CasFits n numElec cas0 cas1) (hel : 0 < cas0)
    {s : UpsStruct} {calls : List UpsCall} (e1 : s = calls.foldl UpsCall.run {}) (e2 : ∀ c ∈ calls, c.HasCircuit cas1)
    (hs : s.nParams ≤ 10 ^ 9) {mo : ℕ → Fin n → ℝ} {o : Options} {inc : Bool} {c : CircWf (Fin n → ℝ)} {states : List Csf}
    (hpos : 0 < states.length)
    (hgood : ∀ x ∈ states, Csf.Good cas1 x ∧ ∀ d ∈ x.2, InCAS cas1 (cas0 / 2 : ℕ) (cas0 / 2 : ℕ) (detSet d))
    (hortho : ∀ i j : Fin states.length, inner (csfFock (states.get i)) (csfFock (states.get j) : Fock ℝ) = if i = j then 1 else 0)
    (hw : saCircuitObject n numElec cas0 cas1 mo states s o inc = .ok c) :
    ∃ ci Ts, getIndexing c.spaces.numInactiveOrbs cas1 c.spaces.numVirtualOrbs (cas0 / 2 : ℕ) (cas0 / 2 : ℕ) = .ok ci ∧
      c.states = some states ∧ c.params = List.replicate s.types.length 0 ∧
      Lists c.kappa.kappa (fun pq => (pq.1 < pq.2 ∧ pq.2 < n) ∧ Rotates ((numElec - cas0) / 2) cas1 inc pq) ∧
      ∀ tiny big eig dev map save cliques opt qi hAo gAo dipole, ExactTiny tiny → ExactBig big → EigOK eig →
        JWMapper (2 * c.spaces.numActiveOrbs) map → RealAo hAo gAo →
        (∀ a q, (c.saData states ci tiny big eig dev map save cliques opt qi hAo gAo dipole).mo a q = mo q a) ∧
        (c.saData states ci tiny big eig dev map save cliques opt qi hAo gAo dipole).Ready c.ansatz ⟨s.types, s.indices⟩ Ts := by
  obtain ⟨-, f2, f3, f4, f5, f6, f7, f8⟩ := spaces_fits h
  obtain ⟨hk, -⟩ := C38_kappa h inc
  obtain ⟨nI, nV, oo, hn, he⟩ : ∃ nI nV oo, n = nI + cas1 + nV ∧ numElec = 2 * (nI + oo) ∧ cas0 = 2 * oo ∧ oo ≤ cas1 := by
    have h1 := h.evenElec
    have h2 := h.evenActive
    have h3 := h.enoughElec
    have h4 := h.enoughActive
    have h5 := h.enoughOrbs
    exact ⟨(numElec - cas0) / 2, n - cas1 - (numElec - cas0) / 2, cas0 / 2, by omega, by omega, by omega, by omega⟩
  have horb : (mkSpaces n numElec cas0 cas1).numInactiveOrbs + cas1 + (mkSpaces n numElec cas0 cas1).numVirtualOrbs = n := by
    obtain ⟨he1, he2, he3⟩ := he
    have e := mkSpaces_eq (nI := nI) (nA := cas1) (nV := nV) he3
    rw [hn, he1, he2, e]
  have h2 := h.evenActive
  have h4 := h.enoughActive
  set S := mkSpaces n numElec cas0 cas1 with hS
  have hA : 0 < cas1 := by omega
  unfold saCircuitObject at hw
  rw [f8, ok_bind] at hw
  by_cases hpp : o.flag "do_pp" ≠ 0
  · rw [if_pos hpp] at hw; cases hw
  rw [if_neg hpp] at hw
  obtain ⟨g1, g2, Ts, t1, t2, g3⟩ := calls_circuit e1 e2 hs
  obtain ⟨st, f, k1, k2, k3, k4, k5⟩ := start_det (n := S.numActiveOrbs) (m := cas0 / 2) (by omega) o
  have g3' := g3
  rw [← f3] at g3'
  obtain ⟨gs, R, p1, p2⟩ := g3' (fun _ => 0)
  unfold buildCircuit at hw
  rw [k1, ok_bind, p1, ok_bind, p2, ok_bind] at hw
  cases hw
  obtain ⟨ci, i1, i2, i3⟩ := (C26_spaces S.numInactiveOrbs cas1 S.numVirtualOrbs (cas0 / 2 : ℕ) (cas0 / 2 : ℕ) 0).1 hA
  obtain ⟨ci', j1, j2, j3, j4, j5, jv, -, jm⟩ := C17_space hA S.numInactiveOrbs S.numVirtualOrbs (cas0 / 2 : ℕ) (cas0 / 2 : ℕ)
  obtain rfl : ci = ci' := Except.ok.inj (i1.symm.trans j1)
  have hR : R.map Prod.fst = s.names ∧ R.map (fun p => some p.2) = s.types.map gradR ∧ (R.map Prod.fst).Nodup := by
    have t1' := t1
    have e2' := e2
    rw [← f3] at t1' e2'
    obtain ⟨gs', R', c1, c2, c3, -⟩ := C90_layout t1' (fun _ => 0)
    rw [p1] at c1
    cases c1
    have hnd : (R.map Prod.fst).Nodup := by
      rw [c2]
      exact List.nodup_range.map fun a b h => pname_inj h
    obtain ⟨Ts', gs2, R2, -, -, a3, a4, -⟩ := C90_structures calls e2' (fun _ => 0)
    rw [← e1] at a3 a4
    rw [p1] at a3
    cases a3
    exact ⟨a4, c3, hnd⟩
  obtain ⟨hR1, hR2, hR3⟩ := hR
  have hdef : detText (doubled f) = defaultDet S.numActiveOrbs (cas0 / 2, cas0 / 2) := by
    rw [if_neg hpp] at k4
    have hy := hfDet_eq (n := S.numActiveOrbs) (o := cas0 / 2) (by omega)
    rw [Except.ok.inj k4] at hy
    rw [default_text (by omega), hy]
  refine ⟨ci, Ts, i1, rfl, ?_, hk, ?_⟩
  · show List.replicate s.names.length (0 : ℝ) = _
    rw [g2, g1]
  · intro tiny big eig dev map save cliques opt qi hAo gAo dipole ht hb he' hM hr
    have hfin : (finPairs n (kappaLists S n inc).kappa).map (fun x => (x.1.val, x.2.val)) = (kappaLists S n inc).kappa :=
      finPairs_val fun pq hpq => by
        have := ((hk.2 pq).1 hpq).1
        omega
    have hno : S.numActiveOrbs = ci.nA := by rw [f3, j3]
    refine ⟨fun _ _ => rfl, ht, hb, he', i2, hno, ?_, ?_, ?_, ?_, hM, rfl, ?_, ?_, hpos, fun x hx => ?_, fun x hx => ?_, hortho, ?_, ?_, ?_, hr, ?_, ?_⟩
    · show 0 < S.numActiveOrbs
      rw [f3]; exact hA
    · show Layout 0 ci.nA _ _ Ts
      rw [j3]; exact t2
    · show CircuitLayout ci.nA _ _ Ts
      rw [j3]; exact t1
    · intro p
      obtain ⟨gs, R, q1, -⟩ := g3' (fun k => p.getD k 0)
      refine ⟨R, ?_⟩
      show upslayout2circuit S.numActiveOrbs _ _ _ = .ok (layoutGates S.numActiveOrbs s p, R)
      unfold layoutGates
      rw [q1]
    · show cas0 / 2 + cas0 / 2 ≤ 2 * S.numActiveOrbs
      omega
    · show runCircuit st _ = basis (detBits S.numActiveOrbs (defaultDet S.numActiveOrbs (cas0 / 2, cas0 / 2)))
      rw [← hdef]
      exact k5
    · obtain ⟨y1, y2⟩ := hgood x hx
      refine ⟨?_, fun d hd => ?_⟩
      · show Csf.Good S.numActiveOrbs x
        rw [f3]; exact y1
      · obtain ⟨-, k3', -⟩ := y2 d hd
        have hc : 0 < (spatOf cas1 0 (detSet d)).card := by omega
        obtain ⟨p, hp'⟩ := Finset.card_pos.1 hc
        have := (Finset.mem_filter.1 hp').2
        exact List.mem_of_getElem? (Finset.mem_filter.1 this).2
    · obtain ⟨y1, y2⟩ := hgood x hx
      refine csf_in_space (ci := ci) jv (by rw [j3]; exact hA) fun d hd => ⟨?_, (jm _).2 (y2 d hd)⟩
      rw [j3]
      exact y1.2 d hd
    · show s.names.length = s.types.length
      rw [g2, g1]
    · intro k ty hty
      show ∃ x, s.names[k]? = some x ∧ R.lookup x = gradR ty
      have hty' : s.types[k]? = some ty := hty
      have : (R.map fun p => some p.2)[k]? = some (gradR ty) := by
        rw [hR2, List.getElem?_map, hty']; rfl
      rw [List.getElem?_map] at this
      cases hx : R[k]? with
      | none => rw [hx] at this; cases this
      | some x =>
        rw [hx] at this
        simp only [Option.map_some, Option.some.injEq] at this
        refine ⟨x.1, ?_, ?_⟩
        · rw [← hR1, List.getElem?_map, hx]; rfl
        · rw [lookup_at hR3 hx, this]
    · show n = ci.nI + ci.nA + ci.nV
      rw [j2, j3, j4, horb]
    · refine List.Nodup.of_map (fun x : Fin n × Fin n => (x.1.val, x.2.val)) ?_
      show (List.map _ (finPairs n (kappaLists S n inc).kappa)).Nodup
      rw [hfin]
      exact hk.1
    · intro x hx
      have : (x.1.val, x.2.val) ∈ (kappaLists S n inc).kappa := by
        rw [← hfin]
        exact List.mem_map.2 ⟨x, hx, rfl⟩
      exact ((hk.2 _).1 this).1.1

/-- A fresh interface is one in use. -/
theorem freshQI_reached {norb : ℕ} (B : Bench norb) {np : ℕ} {θ : List ℝ} (h : θ.length = np) :
    B.Reached (freshQI np θ) ∧ (freshQI np θ).flags.isEnabled = false ∧ (freshQI np θ).params = θ :=
  ⟨⟨true, 100, some 10, Flags.init (.bool false) (.bool false) (.bool false) (.bool false), np, _, [.params θ], rfl, fun op hop => by
    rw [List.mem_singleton] at hop
    subst hop
    trivial, rfl⟩, (freshQI_use B h).2⟩

/-- A state-averaged circuit wave function of two electrons in two orbitals, over a determinant and a combination of two others,
with an ideal device and an interface in use. -/
theorem sacirc_ready_case (mo : ℕ → Fin 2 → ℝ) : ∃ (s : UpsStruct) (c : CircWf (Fin 2 → ℝ)) (D : SaCircData)
    (ansatz : List ℝ → List (PGate (2 * D.norb))) (Ts : List (FOp ℝ)),
    saCircuitObject 2 2 2 2 mo [([1], ["1100".toList]), ([3 / 5, 4 / 5], ["1001".toList, "0110".toList])] s [] false = .ok c ∧
    D.names = c.names ∧ D.states.length = 2 ∧ 0 < s.types.length ∧
    D.Ready ansatz ⟨s.types, s.indices⟩ Ts ∧ D.InUse ansatz ∧ Ideal D.bench.dev ansatz := by
  have hfit : CasFits 2 2 2 2 := ⟨by decide, by decide, by decide, by decide, by decide⟩
  obtain ⟨-, f2, f3, f4, f5, f6, f7, f8⟩ := spaces_fits hfit
  set s : UpsStruct := [UpsCall.tiled 2 [("n_layers", 1), ("do_tups", 1)]].foldl UpsCall.run {} with hs
  have e2 : ∀ c ∈ [UpsCall.tiled 2 [("n_layers", 1), ("do_tups", 1)]], c.HasCircuit 2 := by simp [UpsCall.HasCircuit]
  have hn : s.nParams = 3 := rfl
  set L : List Csf := [([1], ["1100".toList]), ([3 / 5, 4 / 5], ["1001".toList, "0110".toList])] with hL
  obtain ⟨c, c', b1, -⟩ := build_ok hfit hs e2 (by rw [hn]; norm_num) (kappaLists (mkSpaces 2 2 2 2) 2 false) mo
    [] (some L) (t := List.replicate 3 0) (by rw [hn]; rfl)
  have hw : saCircuitObject 2 2 2 2 mo L s [] false = .ok c := by
    unfold saCircuitObject
    rw [f8, ok_bind, if_neg (show ¬ Options.flag [] "do_pp" ≠ 0 by simp [Options.flag])]
    exact b1
  have d1 : detSet "1100".toList = {0, 1} := by decide
  have d2 : detSet "1001".toList = {0, 3} := by decide
  have d3 : detSet "0110".toList = {1, 2} := by decide
  have c1 : csfFock ([1], ["1100".toList]) = sgl {0, 1} 1 := by
    simp only [csfFock, List.zip_cons_cons, List.zip_nil_right, List.map_cons, List.map_nil, d1, List.sum_cons, List.sum_nil, add_zero]
  have c2 : csfFock ([3 / 5, 4 / 5], ["1001".toList, "0110".toList]) = sgl {0, 3} (3 / 5) + sgl {1, 2} (4 / 5) := by
    simp only [csfFock, List.zip_cons_cons, List.zip_nil_right, List.map_cons, List.map_nil, d2, d3, List.sum_cons, List.sum_nil, add_zero]
  have n1 : (({0, 1} : Finset ℕ) = {0, 3}) = False := by decide
  have n2 : (({0, 1} : Finset ℕ) = {1, 2}) = False := by decide
  have n3 : (({0, 3} : Finset ℕ) = {1, 2}) = False := by decide
  have n4 : (({0, 3} : Finset ℕ) = {0, 1}) = False := by decide
  have n5 : (({1, 2} : Finset ℕ) = {0, 1}) = False := by decide
  have n6 : (({1, 2} : Finset ℕ) = {0, 3}) = False := by decide
  obtain ⟨ci, Ts, -, -, -, -, h5⟩ := C131_constructed hfit (by decide) hs e2 (by rw [hn]; norm_num) (states := L) (by simp [hL])
    (fun x hx => by
      have hx' : x = ([1], ["1100".toList]) ∨ x = ([3 / 5, 4 / 5], ["1001".toList, "0110".toList]) := by simpa [hL] using hx
      rcases hx' with rfl | rfl
      · refine ⟨⟨rfl, ?_⟩, ?_⟩ <;> simp only [List.mem_singleton, forall_eq]
        · unfold IsDet; decide
        · unfold InCAS; decide
      · refine ⟨⟨rfl, ?_⟩, ?_⟩ <;> simp only [List.mem_cons, List.not_mem_nil, or_false, forall_eq_or_imp, forall_eq]
        · unfold IsDet; decide
        · unfold InCAS; decide)
    (fun i j => by
      have two : ∀ k : Fin L.length, (k = ⟨0, by simp [hL]⟩ ∧ L.get k = ([1], ["1100".toList])) ∨
          (k = ⟨1, by simp [hL]⟩ ∧ L.get k = ([3 / 5, 4 / 5], ["1001".toList, "0110".toList])) := by
        rintro ⟨k, hk⟩
        match k, hk with
        | 0, hk => exact .inl ⟨rfl, rfl⟩
        | 1, hk => exact .inr ⟨rfl, rfl⟩
      rcases two i with ⟨rfl, e⟩ | ⟨rfl, e⟩ <;> rcases two j with ⟨rfl, e'⟩ | ⟨rfl, e'⟩ <;>
        simp only [e, e', c1, c2, inner_add_left, inner_add_right, inner_single_single, n1, n2, n3, n4, n5, n6, if_true, if_false,
          Fin.mk.injEq] <;>
        norm_num) hw
  obtain ⟨map, hM⟩ := jwMapper_exists (2 * c.spaces.numActiveOrbs)
  obtain ⟨eig, he⟩ := exists_eigOK
  refine ⟨s, c, c.saData L ci (fun x => decide (x = 0)) (fun x => !decide (x = 0)) eig (exactDevice c.ansatz) map true true 1
    (fun _ θ _ _ _ _ => freshQI c.names.length θ) (fun a b => if a = b then -1 else 0)
    (fun a b c d => if a = b ∧ c = d then 1 else 0) (fun _ => 1),
    c.ansatz, Ts, hw, rfl, rfl, by rw [show s.types.length = 3 from rfl]; norm_num, (h5 _ _ _ _ _ _ _ _ _ _ _ _ (fun x hx => by simpa using hx)
      (fun x hx => by simpa using hx) he hM ⟨fun a b => by simp [eq_comm], fun a b c d => by simp [and_comm], fun a b c d => by simp [eq_comm]⟩).2,
    fun dev θ x s A t _ hl => freshQI_reached _ hl, exactDevice_ideal _⟩

end SQ
