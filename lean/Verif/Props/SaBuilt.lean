import Verif.Model.SaBuilt
import Verif.Props.SaEnv
import Verif.Props.SaStates
import Verif.Props.UpsBuilt

/-! # C128: what the constructor makes is set up -/

namespace SQ

theorem saLayout_fits {name : String} {L : OrbLists} {o o' : Options} {s : UpsStruct}
    (h : saLayout name L o = (.ok s, o')) (hp : name = "ksasdsfupccgsd" → o'.flag "pD" = 0) (hL : L.Ok) :
    ∃ calls : List UpsCall, s = calls.foldl UpsCall.run {} ∧ ∀ c ∈ calls, c.Fits L.numOrbs := by
  have done : ∀ {r : Res Unit × UpsStruct}, builtLayout r = .ok s → s = r.2 := by
    rintro ⟨_ | _, r⟩ h
    · cases h
    · cases h; rfl
  unfold saLayout at h
  by_cases h1 : name ∈ ["tups", "qnp"]
  · rw [if_pos h1] at h
    by_cases h0 : o.flag "do_pp" ≠ 0
    · rw [if_pos h0] at h; cases h
    rw [if_neg h0] at h
    exact ⟨[.tiled L.numOrbs _], done (congrArg Prod.fst h), by simp [UpsCall.Fits]⟩
  rw [if_neg h1] at h
  by_cases h2 : name ∈ ["fucc", "ksafupccgsd", "safuccsd"]
  · rw [if_pos h2] at h
    obtain rfl : _ = o' := congrArg Prod.snd h
    refine ⟨[.fucc L _], done (congrArg Prod.fst h), ?_⟩
    · simp only [List.mem_singleton, forall_eq]
      exact ⟨hL, rfl⟩
  rw [if_neg h2] at h
  by_cases h3 : name = "ksasdsfupccgsd"
  · rw [if_pos h3] at h
    obtain rfl : _ = o' := congrArg Prod.snd h
    refine ⟨[.sds L _], done (congrArg Prod.fst h), ?_⟩
    · simp only [List.mem_singleton, forall_eq]
      exact ⟨hL, rfl, hp h3⟩
  rw [if_neg h3] at h
  cases h

/-- C128: the object as its constructor makes it, for any molecule, active space and named ansatz and any orthonormal states
given by determinants, is set up as the other theorems ask; its reference states and orbitals are those given. -/
theorem C128_constructed {n numElec cas0 cas1 : ℕ} (h : CasFits n numElec cas0 cas1) (hA : 0 < cas1)
    {mo : ℕ → Fin n → ℝ} {coeffs : List (List ℝ)} {dets : List (List (List Char))} {name : String} {o : Options} {inc : Bool}
    {csf : Mat ℝ} {ci : CIInfo} {w : UpsObj (Fin n → ℝ)}
    (hw : saObject n numElec [cas0, cas1] mo coeffs dets name o inc = .ok (csf, ci, w))
    (h0 : coeffs ≠ []) (hnd : ∀ s ∈ coeffs.zip dets, s.2.Nodup)
    (horth : ∀ (i j : ℕ) (s t : Csf), (coeffs.zip dets)[i]? = some s → (coeffs.zip dets)[j]? = some t →
      inner (csfFock s) (csfFock t) = if i = j then 1 else 0)
    (hp : name = "ksasdsfupccgsd" → w.options.flag "pD" = 0)
    {tiny big : ℝ → Bool} {th : Threads} {eig : EigLib} (ht : ∀ x, tiny x = true ↔ x = 0) (hb : ∀ x, big x = false ↔ x = 0)
    (hth : th.Fair ci.idx2det.length) (he : EigOK eig)
    {hAo : Matrix (Fin n) (Fin n) ℝ} {gAo : Tensor4 (Fin n)} (hr : RealAo hAo gAo) :
    let D := w.saData coeffs.length csf ci tiny big th eig hAo gAo
    (∃ Ts, D.Ready Ts) ∧ w.thetas = List.replicate D.st.types.length 0 ∧
      (∀ a q, D.mo a q = mo q a) ∧
      (∀ a s, (coeffs.zip dets)[a]? = some s → stateOf D.ci (D.csf a) = csfFock s) ∧
      Lists (D.kappaIdx.map fun x => (x.1.val, x.2.val)) (fun pq => (pq.1 < pq.2 ∧ pq.2 < n) ∧
        Rotates ((numElec - cas0) / 2) cas1 inc pq) := by
  obtain ⟨f1, f2, f3, f4, f5, f6, f7, f8⟩ := spaces_fits h
  obtain ⟨hk, -⟩ := C38_kappa h inc
  obtain ⟨nI, nV, oo, hn, hel⟩ : ∃ nI nV oo, n = nI + cas1 + nV ∧ numElec = 2 * (nI + oo) ∧ cas0 = 2 * oo ∧ oo ≤ cas1 := by
    have h1 := h.evenElec
    have h2 := h.evenActive
    have h3 := h.enoughElec
    have h4 := h.enoughActive
    have h5 := h.enoughOrbs
    exact ⟨(numElec - cas0) / 2, n - cas1 - (numElec - cas0) / 2, cas0 / 2, by omega, by omega, by omega, by omega⟩
  have horb : (mkSpaces n numElec cas0 cas1).numInactiveOrbs + cas1 + (mkSpaces n numElec cas0 cas1).numVirtualOrbs = n := by
    obtain ⟨he1, he2, he3⟩ := hel
    have e := mkSpaces_eq (nI := nI) (nA := cas1) (nV := nV) he3
    rw [hn, he1, he2, e]
  set S := mkSpaces n numElec cas0 cas1 with hS
  unfold saObject at hw
  rw [f1, ok_bind, f2, f4, f3] at hw
  obtain ⟨ci', i1, i2, i3⟩ := (C26_spaces S.numInactiveOrbs cas1 S.numVirtualOrbs (cas0 / 2 : ℕ) (cas0 / 2 : ℕ) 0).1 hA
  obtain ⟨ci'', j1, j2, j3, j4, j5, j6, -⟩ := C17_space hA S.numInactiveOrbs S.numVirtualOrbs (cas0 / 2 : ℕ) (cas0 / 2 : ℕ)
  obtain rfl : ci' = ci'' := Except.ok.inj (i1.symm.trans j1)
  rw [i1, ok_bind] at hw
  cases hM : saCsf ci' (2 * cas1) coeffs dets with
  | error e => rw [hM] at hw; cases hw
  | ok M =>
  rw [hM, ok_bind] at hw
  rcases hu : saLayout name S.lists o with ⟨_ | layout, o'⟩
  · rw [hu] at hw; cases hw
  rw [hu] at hw
  cases hw
  simp only at hp ⊢
  obtain ⟨calls, e1, e2⟩ := saLayout_fits hu hp f5
  rw [f7] at e2
  obtain ⟨hlen, -⟩ := C36_ups_consistent calls
  obtain ⟨Ts, hTs⟩ := (C36_ups_layout calls e2).1 0
  rw [← e1] at hTs hlen
  have hfin : (finPairs n (kappaLists S n inc).kappa).map (fun x => (x.1.val, x.2.val)) = (kappaLists S n inc).kappa :=
    finPairs_val fun pq hpq => by
      have := ((hk.2 pq).1 hpq).1
      omega
  obtain ⟨hle, -⟩ := (C121_accepts hA i1 hnd).1 ⟨csf, hM⟩
  have rows : ∀ a s, (coeffs.zip dets)[a]? = some s → stateOf ci (csf a) = csfFock s := fun a s hs =>
    C121_rows hA i1 hM hs (hnd s (List.mem_of_getElem? hs))
  have here : ∀ a < coeffs.length, ∃ s, (coeffs.zip dets)[a]? = some s := fun a ha =>
    ⟨_, List.getElem?_eq_getElem (by rw [List.length_zip]; omega)⟩
  refine ⟨⟨Ts, ?_⟩, ?_, fun _ _ => rfl, rows, ?_⟩
  · refine ⟨ht, hb, hth, he, i2, ?_, List.length_pos_iff.2 h0, ?_, ?_, hr, ?_, ?_⟩
    · show Layout ci.offset ci.nA _ _ Ts
      rw [j5, j3]
      exact hTs
    · intro a b ha hb'
      obtain ⟨s, hs⟩ := here a ha
      obtain ⟨t, ht'⟩ := here b hb'
      show dot ci.idx2det.length (csf a) (csf b) = _
      rw [dot_eq_inner j6, rows a s hs, rows b t ht']
      exact horth a b s t hs ht'
    · show n = ci.nI + ci.nA + ci.nV
      rw [j2, j3, j4, horb]
    · refine List.Nodup.of_map (fun x : Fin n × Fin n => (x.1.val, x.2.val)) ?_
      show (List.map _ (finPairs n (kappaLists S n inc).kappa)).Nodup
      rw [hfin]
      exact hk.1
    · intro x hx
      have : (x.1.val, x.2.val) ∈ (kappaLists S n inc).kappa := by
        rw [← hfin]
        exact List.mem_map.2 ⟨x, hx, rfl⟩
      exact ((hk.2 _).1 this).1.1
  · show List.replicate layout.nParams (0 : ℝ) = List.replicate layout.types.length 0
    rw [hlen]
  · exact (congrArg (fun l => Lists l fun pq => (pq.1 < pq.2 ∧ pq.2 < n) ∧ Rotates ((numElec - cas0) / 2) cas1 inc pq) hfin).mpr hk

/-- A state-averaged QNP wave function of two electrons in two orbitals over the states `|1100⟩` and
`3/5 |1001⟩ + 4/5 |0110⟩` is set up. -/
theorem sa_ready_case (mo : ℕ → Fin 2 → ℝ) {eig : EigLib} (he : EigOK eig) : ∃ csf ci w Ts,
    saObject 2 2 [2, 2] mo [[1], [3 / 5, 4 / 5]] [["1100".toList], ["1001".toList, "0110".toList]] "qnp"
      [("n_layers", 1)] false = .ok (csf, ci, w) ∧ 0 < w.layout.types.length ∧
    (w.saData 2 csf ci (fun x => decide (x = 0)) (fun x => !decide (x = 0)) .one eig (fun a b => if a = b then -1 else 0)
      (fun a b c d => if a = b ∧ c = d then 1 else 0)).Ready Ts := by
  have hfit : CasFits 2 2 2 2 := ⟨by decide, by decide, by decide, by decide, by decide⟩
  obtain ⟨f1, f2, f3, f4, -⟩ := spaces_fits hfit
  obtain ⟨l, o', hl, hpos⟩ : ∃ l o', saLayout "qnp" (mkSpaces 2 2 2 2).lists [("n_layers", 1)] = (.ok l, o') ∧
      0 < l.types.length := ⟨_, _, rfl, by decide⟩
  obtain ⟨ci, M, h1, h2⟩ := saCsf_case
  have hw : saObject 2 2 [2, 2] mo [[1], [3 / 5, 4 / 5]] [["1100".toList], ["1001".toList, "0110".toList]] "qnp"
      [("n_layers", 1)] false = .ok (M, ci, ⟨.sa (List.zip [[1], [3 / 5, 4 / 5]] [["1100".toList], ["1001".toList, "0110".toList]]), 2, 2,
      mkSpaces 2 2 2 2, false, none, l, o', mo, List.replicate l.nParams 0⟩) := by
    unfold saObject
    rw [f1, ok_bind, f2, f3, f4, show (mkSpaces 2 2 2 2).numInactiveOrbs = 0 from rfl,
      show (mkSpaces 2 2 2 2).numVirtualOrbs = 0 from rfl, show ((2 / 2 : ℕ) : ℤ) = 1 from rfl, h1, ok_bind,
      show 2 * 2 = 4 from rfl, h2, ok_bind, hl]
  have two : ∀ {k : ℕ} {u : Csf}, (List.zip [[1], [3 / 5, 4 / 5]] [["1100".toList], ["1001".toList, "0110".toList]])[k]? = some u →
      (k = 0 ∧ u = ([1], ["1100".toList])) ∨ (k = 1 ∧ u = ([3 / 5, 4 / 5], ["1001".toList, "0110".toList])) := by
    intro k u hu
    match k, hu with
    | 0, hu => exact .inl ⟨rfl, (Option.some.inj hu).symm⟩
    | 1, hu => exact .inr ⟨rfl, (Option.some.inj hu).symm⟩
    | k + 2, hu => simp at hu
  have d1 : detSet "1100".toList = {0, 1} := by decide
  have d2 : detSet "1001".toList = {0, 3} := by decide
  have d3 : detSet "0110".toList = {1, 2} := by decide
  have e1 : csfFock ([1], ["1100".toList]) = sgl {0, 1} 1 := by
    simp only [csfFock, List.zip_cons_cons, List.zip_nil_right, List.map_cons, List.map_nil, d1, List.sum_cons, List.sum_nil, add_zero]
  have e2 : csfFock ([3 / 5, 4 / 5], ["1001".toList, "0110".toList]) = sgl {0, 3} (3 / 5) + sgl {1, 2} (4 / 5) := by
    simp only [csfFock, List.zip_cons_cons, List.zip_nil_right, List.map_cons, List.map_nil, d2, d3, List.sum_cons, List.sum_nil, add_zero]
  have n1 : (({0, 1} : Finset ℕ) = {0, 3}) = False := by decide
  have n2 : (({0, 1} : Finset ℕ) = {1, 2}) = False := by decide
  have n3 : (({0, 3} : Finset ℕ) = {1, 2}) = False := by decide
  have n4 : (({0, 3} : Finset ℕ) = {0, 1}) = False := by decide
  have n5 : (({1, 2} : Finset ℕ) = {0, 1}) = False := by decide
  have n6 : (({1, 2} : Finset ℕ) = {0, 3}) = False := by decide
  obtain ⟨⟨Ts, h3⟩, -⟩ := C128_constructed (hAo := fun a b => if a = b then -1 else 0)
    (gAo := fun a b c d => if a = b ∧ c = d then 1 else 0) hfit (by decide) hw (by simp) (by simp)
    (by
      intro i j s t hi hj
      rcases two hi with ⟨rfl, rfl⟩ | ⟨rfl, rfl⟩ <;> rcases two hj with ⟨rfl, rfl⟩ | ⟨rfl, rfl⟩ <;>
        simp only [e1, e2, inner_add_left, inner_add_right, inner_single_single, n1, n2, n3, n4, n5, n6, if_true, if_false] <;>
        norm_num) (by simp)
    (tiny := fun x => decide (x = 0)) (big := fun x => !decide (x = 0)) (by simp) (by simp)
    (th := .one) (by simp [Threads.Fair]) he ⟨fun a b => by simp [eq_comm], fun a b c d => by simp [and_comm], fun a b c d => by simp [eq_comm]⟩
  exact ⟨M, ci, _, Ts, hw, hpos, h3⟩

end SQ
