import Verif.Model.UpsBuilt
import Verif.Spec.UpsBuilt
import Verif.Props.UpsEnv
import Verif.Props.FromUps

/-! # C127: what the constructor makes is set up -/

namespace SQ

theorem finPairs_val {n : ℕ} {l : List (ℕ × ℕ)} (h : ∀ pq ∈ l, pq.1 < n ∧ pq.2 < n) :
    (finPairs n l).map (fun x => (x.1.val, x.2.val)) = l := by
  induction l with
  | nil => rfl
  | cons a l ih =>
    have ha := h a (by simp)
    unfold finPairs at ih ⊢
    rw [List.filterMap_cons, dif_pos ha]
    simp only [List.map_cons]
    rw [ih fun pq hpq => h pq (by simp [hpq])]

theorem upsLayout_fits {name : String} {L : OrbLists} {o o' : Options} {s : UpsStruct}
    (h : upsLayout name L o = (.ok s, o')) (hp : name ∈ ["sdsfuccsd", "ksasdsfupccgsd"] → o'.flag "pD" = 0) (hL : L.Ok) :
    ∃ calls : List UpsCall, s = calls.foldl UpsCall.run {} ∧ ∀ c ∈ calls, c.Fits L.numOrbs := by
  have done : ∀ {r : Res Unit × UpsStruct}, builtLayout r = .ok s → s = r.2 := by
    rintro ⟨_ | _, r⟩ h
    · cases h
    · cases h; rfl
  unfold upsLayout at h
  by_cases h1 : name ∈ ["tups", "qnp"]
  · rw [if_pos h1] at h
    exact ⟨[.tiled L.numOrbs _], done (congrArg Prod.fst h), by simp [UpsCall.Fits]⟩
  rw [if_neg h1] at h
  by_cases h2 : name ∈ ["fucc", "fuccsd", "ksafupccgsd", "fuccpd", "safuccsd"]
  · rw [if_pos h2] at h
    obtain rfl : _ = o' := congrArg Prod.snd h
    refine ⟨[.fucc L _], done (congrArg Prod.fst h), ?_⟩
    · simp only [List.mem_singleton, forall_eq]
      exact ⟨hL, rfl⟩
  rw [if_neg h2] at h
  by_cases h3 : name ∈ ["sdsfuccsd", "ksasdsfupccgsd"]
  · rw [if_pos h3] at h
    obtain rfl : _ = o' := congrArg Prod.snd h
    refine ⟨[.sds L _], done (congrArg Prod.fst h), ?_⟩
    · simp only [List.mem_singleton, forall_eq]
      exact ⟨hL, rfl, hp h3⟩
  rw [if_neg h3] at h
  cases h

/-- C127: the object as its constructor makes it, for any molecule, active space and named ansatz, is set up as the other
theorems ask; the rotations are those of the lists of the constructor, and there is one parameter, zero, for each operator.
The orbitals are the given ones, for perfect pairing with columns exchanged, and the reference is the determinant that
fills those that come first among the given ones. -/
theorem C127_constructed {n numElec cas0 cas1 : ℕ} (h : CasFits n numElec cas0 cas1) (hA : 0 < cas1)
    {mo : ℕ → Fin n → ℝ} {name : String} {o : Options} {inc : Bool} {csf : Vec ℝ} {ci : CIInfo} {w : UpsObj (Fin n → ℝ)}
    (hw : upsObject n numElec [cas0, cas1] mo name o inc = .ok (csf, ci, w))
    (hp : name ∈ ["sdsfuccsd", "ksasdsfupccgsd"] → w.options.flag "pD" = 0)
    {tiny big : ℝ → Bool} {th : Threads} (ht : ExactTiny tiny) (hb : ExactBig big) (hth : th.Fair ci.idx2det.length)
    {hAo : Matrix (Fin n) (Fin n) ℝ} {gAo : Tensor4 (Fin n)} (hr : RealAo hAo gAo) :
    let D := w.data csf ci tiny big th hAo gAo
    (∃ Ts, D.Ready Ts) ∧ w.thetas = List.replicate D.st.types.length 0 ∧
      Lists (D.kappaIdx.map fun x => (x.1.val, x.2.val)) (fun pq => (pq.1 < pq.2 ∧ pq.2 < n) ∧
        Rotates ((numElec - cas0) / 2) cas1 inc pq) ∧
      ∃ (f : List Bool) (σ : ℕ → ℕ), (∀ a q, D.mo a q = mo (σ q) a) ∧
        stateOf D.ci D.csf = ket ((Finset.range (2 * cas1)).filter fun p => f[p / 2]? = some true) ∧
        FillsLowest ((numElec - cas0) / 2) cas1 (cas0 / 2) f σ ∧
        (if name = "tups" ∧ o.flag "do_pp" ≠ 0 then f = pairing cas1 (cas0 / 2) else σ = id) := by
  obtain ⟨f1, f2, f3, f4, f5, f6, f7, f8⟩ := spaces_fits h
  obtain ⟨hk, -⟩ := C38_kappa h inc
  obtain ⟨nI, nV, oo, hn, he⟩ : ∃ nI nV oo, n = nI + cas1 + nV ∧ numElec = 2 * (nI + oo) ∧ cas0 = 2 * oo ∧ oo ≤ cas1 := by
    have h1 := h.evenElec
    have h2 := h.evenActive
    have h3 := h.enoughElec
    have h4 := h.enoughActive
    have h5 := h.enoughOrbs
    exact ⟨(numElec - cas0) / 2, n - cas1 - (numElec - cas0) / 2, cas0 / 2, by omega, by omega, by omega, by omega⟩
  have horb : (mkSpaces n numElec cas0 cas1).numInactiveOrbs + cas1 + (mkSpaces n numElec cas0 cas1).numVirtualOrbs = n := by
    obtain ⟨he1, he2, he3⟩ := he
    have e := mkSpaces_eq (nI := nI) (nA := cas1) (nV := nV) he3
    rw [hn, he1, he2, e]
  have hnI : (mkSpaces n numElec cas0 cas1).numInactiveOrbs = (numElec - cas0) / 2 := by
    obtain ⟨he1, he2, he3⟩ := he
    have e := mkSpaces_eq (nI := nI) (nA := cas1) (nV := nV) he3
    rw [hn, he1, he2, e]
    simp only
    omega
  have h2 := h.evenActive
  have h4 := h.enoughActive
  set S := mkSpaces n numElec cas0 cas1 with hS
  unfold upsObject at hw
  rw [f1, ok_bind, f2, f4, f3] at hw
  obtain ⟨ci', i1, i2, i3⟩ := (C26_spaces S.numInactiveOrbs cas1 S.numVirtualOrbs (cas0 / 2 : ℕ) (cas0 / 2 : ℕ) 0).1 hA
  obtain ⟨ci'', j1, j2, j3, j4, j5, j6, -⟩ := C17_space hA S.numInactiveOrbs S.numVirtualOrbs (cas0 / 2 : ℕ) (cas0 / 2 : ℕ)
  obtain rfl : ci' = ci'' := Except.ok.inj (i1.symm.trans j1)
  rw [i1, ok_bind] at hw
  simp only at hw
  set pp := decide (name = "tups" ∧ o.flag "do_pp" ≠ 0) with hpp
  have start : ∀ det : List Bool, (if pp = true then ppDet (2 * cas1) cas0 else .ok (hfDet (2 * cas1) cas0) : Res (List Bool)) = .ok det →
      ∀ eC, (if pp = true then ppColumns S.numInactiveOrbs (hfDet (2 * cas1) cas0) det mo else .ok mo : Res (ℕ → Fin n → ℝ)) = .ok eC →
      ∃ cs f σ, reference (R := ℝ) ci' det = .ok cs ∧ dot ci'.idx2det.length cs cs = 1 ∧ (∀ q, eC q = mo (σ q)) ∧
        stateOf ci' cs = ket ((Finset.range (2 * cas1)).filter fun p => f[p / 2]? = some true) ∧
        FillsLowest S.numInactiveOrbs cas1 (cas0 / 2) f σ ∧ (if pp = true then f = pairing cas1 (cas0 / 2) else σ = id) := by
    intro det hdet eC hC
    have key : ∃ (f : List Bool) (σ : ℕ → ℕ), det = doubled f ∧ f.length = cas1 ∧ f.count true = cas0 / 2 ∧ (∀ q, eC q = mo (σ q)) ∧
        FillsLowest S.numInactiveOrbs cas1 (cas0 / 2) f σ ∧ (if pp = true then f = pairing cas1 (cas0 / 2) else σ = id) := by
      by_cases hb : pp = true
      · rw [if_pos hb] at hdet hC
        rw [show cas0 = 2 * (cas0 / 2) by omega] at hdet hC
        obtain ⟨σ, q1, q2⟩ := C73_columns (nI := S.numInactiveOrbs) (nA := cas1) (o := cas0 / 2) (by omega) mo hdet
        rw [q1] at hC
        rw [ppDet_eq (by omega)] at hdet
        exact ⟨_, σ, (Except.ok.inj hdet).symm, pairing_length (by omega), pairing_count (by omega),
          fun q => congrFun (Except.ok.inj hC).symm q, q2, by rw [if_pos hb]⟩
      · rw [if_neg hb] at hdet hC
        rw [show cas0 = 2 * (cas0 / 2) by omega, hfDet_eq (by omega)] at hdet
        refine ⟨_, id, (Except.ok.inj hdet).symm, by simp; omega, by simp [List.count_replicate],
          fun q => congrFun (Except.ok.inj hC).symm q, ⟨fun _ => rfl, fun _ _ => rfl, fun c hc => ?_⟩, by rw [if_neg hb]⟩
        show _ ↔ S.numInactiveOrbs ≤ c ∧ c < S.numInactiveOrbs + cas0 / 2
        by_cases hlt : c - S.numInactiveOrbs < cas0 / 2
        · rw [List.getElem?_append_left (by simpa using hlt), List.getElem?_replicate, if_pos hlt]
          simp only [true_iff]
          omega
        · rw [List.getElem?_append_right (by simpa using hlt), List.getElem?_replicate, List.length_replicate]
          split <;> simp <;> omega
    obtain ⟨f, σ, rfl, l1, l2, l3, l4, l5⟩ := key
    obtain ⟨cs, r1, r2⟩ := reference_doubled (R := ℝ) hA i1 f l1 l2
    refine ⟨cs, f, σ, r1, ?_, l3, r2, l4, l5⟩
    rw [dot_eq_inner j6, r2]
    rw [show ∀ T : Finset ℕ, (ket T : Fock ℝ) = sgl T 1 from fun _ => rfl, inner_ket_left]
    simp [coeff, sgl]
  obtain ⟨cs, eC, f, σ, hcs, hmo, hst, hfill, hpair, hlay⟩ : ∃ cs eC f σ, dot ci'.idx2det.length cs cs = 1 ∧ (∀ q, eC q = mo (σ q)) ∧
      stateOf ci' cs = ket ((Finset.range (2 * cas1)).filter fun p => f[p / 2]? = some true) ∧
      FillsLowest S.numInactiveOrbs cas1 (cas0 / 2) f σ ∧ (if pp = true then f = pairing cas1 (cas0 / 2) else σ = id) ∧
      (match upsLayout name S.lists o with
        | (.error e, _) => .error e
        | (.ok layout, o') =>
          .ok (cs, ci', ⟨.ups, n, numElec, S, inc, some pp, layout, o', eC, List.replicate layout.nParams 0⟩) :
            Res (Vec ℝ × CIInfo × UpsObj (Fin n → ℝ))) = .ok (csf, ci, w) := by
    cases hd : (if pp = true then ppDet (2 * cas1) cas0 else .ok (hfDet (2 * cas1) cas0) : Res (List Bool)) with
    | error e => rw [hd] at hw; cases hw
    | ok det =>
      rw [hd, ok_bind] at hw
      cases hc : (if pp = true then ppColumns S.numInactiveOrbs (hfDet (2 * cas1) cas0) det mo else .ok mo : Res (ℕ → Fin n → ℝ)) with
      | error e => rw [hc] at hw; cases hw
      | ok eC =>
        obtain ⟨cs, f, σ, r1, r2⟩ := start det hd eC hc
        rw [hc, ok_bind, r1, ok_bind] at hw
        exact ⟨cs, eC, f, σ, r2.1, r2.2.1, r2.2.2.1, r2.2.2.2.1, r2.2.2.2.2, hw⟩
  rcases hu : upsLayout name S.lists o with ⟨_ | layout, o'⟩
  · rw [hu] at hlay; cases hlay
  rw [hu] at hlay
  cases hlay
  simp only at hp ⊢
  obtain ⟨calls, e1, e2⟩ := upsLayout_fits hu hp f5
  rw [f7] at e2
  obtain ⟨hlen, -⟩ := C36_ups_consistent calls
  obtain ⟨Ts, hTs⟩ := (C36_ups_layout calls e2).1 0
  rw [← e1] at hTs hlen
  have hfin : (finPairs n (kappaLists S n inc).kappa).map (fun x => (x.1.val, x.2.val)) = (kappaLists S n inc).kappa :=
    finPairs_val fun pq hpq => by
      have := ((hk.2 pq).1 hpq).1
      omega
  refine ⟨⟨Ts, ?_⟩, ?_, ?_, f, σ, fun a q => congrFun (hmo q) a, hst, hnI ▸ hfill, ?_⟩
  · refine ⟨ht, hb, hth, i2, ?_, hcs, ?_, hr, ?_, ?_⟩
    · show Layout ci.offset ci.nA _ _ Ts
      rw [j5, j3]
      exact hTs
    · show n = ci.nI + ci.nA + ci.nV
      rw [j2, j3, j4, horb]
    · refine List.Nodup.of_map (fun x : Fin n × Fin n => (x.1.val, x.2.val)) ?_
      show (List.map _ (finPairs n (kappaLists S n inc).kappa)).Nodup
      rw [hfin]
      exact hk.1
    · intro x hx
      have : (x.1.val, x.2.val) ∈ (kappaLists S n inc).kappa := by
        rw [← hfin]
        exact List.mem_map.2 ⟨x, hx, rfl⟩
      exact ((hk.2 _).1 this).1.1
  · show List.replicate layout.nParams (0 : ℝ) = List.replicate layout.types.length 0
    rw [hlen]
  · exact (congrArg (fun l => Lists l fun pq => (pq.1 < pq.2 ∧ pq.2 < n) ∧ Rotates ((numElec - cas0) / 2) cas1 inc pq) hfin).mpr hk
  · by_cases hq : name = "tups" ∧ o.flag "do_pp" ≠ 0
    · rw [if_pos (show pp = true from decide_eq_true hq)] at hpair
      rw [if_pos hq]
      exact hpair
    · rw [if_neg (show ¬ pp = true by rw [hpp, decide_eq_true_eq]; exact hq)] at hpair
      rw [if_neg hq]
      exact hpair

/-- A perfect-pairing tUPS wave function of four electrons in three orbitals is set up. -/
theorem ups_ready_case (mo : ℕ → Fin 3 → ℝ) : ∃ csf ci w Ts,
    upsObject 3 4 [4, 3] mo "tups" [("do_pp", 1), ("n_layers", 1)] false = .ok (csf, ci, w) ∧
    (w.layout.nParams = 6 ∧ w.layout.types.length = 6) ∧
    (w.data csf ci (fun x => decide (x = 0)) (fun x => !decide (x = 0)) .one (fun a b => if a = b then -1 else 0)
      (fun a b c d => if a = b ∧ c = d then 1 else 0)).Ready Ts := by
  have hfit : CasFits 3 4 4 3 := ⟨by decide, by decide, by decide, by decide, by decide⟩
  obtain ⟨f1, f2, f3, f4, -⟩ := spaces_fits hfit
  obtain ⟨ci, i1, -⟩ := (C26_spaces (mkSpaces 3 4 4 3).numInactiveOrbs 3 (mkSpaces 3 4 4 3).numVirtualOrbs 2 2 0).1 (by decide)
  obtain ⟨cs, r1, -⟩ := reference_doubled (R := ℝ) (o := 2) (by decide) i1 [true, false, true] rfl rfl
  have hd : ppDet 6 4 = .ok (doubled [true, false, true]) := rfl
  have hpp : decide (True ∧ Options.flag [("do_pp", 1), ("n_layers", 1)] "do_pp" ≠ 0) = true := by decide
  obtain ⟨σ, hcol, -⟩ := C73_columns (nI := (mkSpaces 3 4 4 3).numInactiveOrbs) (nA := 3) (o := 2) (by decide) mo hd
  obtain ⟨l, o', hl, hn⟩ : ∃ l o', upsLayout "tups" (mkSpaces 3 4 4 3).lists [("do_pp", 1), ("n_layers", 1)] = (.ok l, o') ∧
      (l.nParams = 6 ∧ l.types.length = 6) := ⟨_, _, rfl, rfl, rfl⟩
  have hw : upsObject 3 4 [4, 3] mo "tups" [("do_pp", 1), ("n_layers", 1)] false = .ok (cs, ci,
      ⟨.ups, 3, 4, mkSpaces 3 4 4 3, false, some true, l, o', fun c => mo (σ c), List.replicate l.nParams 0⟩) := by
    unfold upsObject
    rw [f1, ok_bind, f2, f3, f4]
    simp only
    rw [show ((4 / 2 : ℕ) : ℤ) = 2 from rfl, i1, ok_bind, hpp, if_pos rfl, show (2 * 3) = 6 from rfl, hd, ok_bind, if_pos rfl,
      show hfDet 6 4 = hfDet (2 * 3) (2 * 2) from rfl, hcol, ok_bind, r1, ok_bind, hl]
  obtain ⟨⟨Ts, h1⟩, -⟩ := C127_constructed (hAo := fun a b => if a = b then -1 else 0)
    (gAo := fun a b c d => if a = b ∧ c = d then 1 else 0) hfit (by decide) hw (by simp)
    (tiny := fun x => decide (x = 0)) (big := fun x => !decide (x = 0)) (fun x hx => by simpa using hx) (fun x hx => by simpa using hx)
    (th := .one) (by simp [Threads.Fair]) ⟨fun a b => by simp [eq_comm], fun a b c d => by simp [and_comm], fun a b c d => by simp [eq_comm]⟩
  exact ⟨cs, ci, _, Ts, hw, hn, h1⟩

end SQ
