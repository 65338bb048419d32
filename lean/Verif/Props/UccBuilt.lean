import Verif.Model.UccBuilt
import Verif.Props.UccEnv
import Verif.Props.UpsBuilt
import Verif.Props.AnsatzChoice

/-! # C129: what the constructor makes is set up -/

namespace SQ

theorem reference_inside {ci : CIInfo} (hv : ci.Valid) {det : List Bool} {v : Vec ℝ} (h : reference ci det = .ok v) {i : ℕ}
    (hi : ci.idx2det.length ≤ i) : v i = 0 := by
  unfold reference at h
  by_cases h0 : det = []
  · rw [if_pos h0] at h; cases h
  rw [if_neg h0] at h
  cases hf : ci.find (bitsToNat det) with
  | none => rw [hf] at h; cases h
  | some j =>
    rw [hf] at h
    have hj := (List.getElem?_eq_some_iff.1 ((hv.inv _ _).1 hf)).1
    cases h
    rw [Function.update_of_ne (by omega)]
    rfl

/-- C129: the constructor raises for no molecule, active space and choice of excitations, and the object it makes is set up as
the other theorems ask; the rotations are those of the lists of the constructor, and there is one parameter, zero, for each
operator. -/
theorem C129_constructed {n numElec cas0 cas1 : ℕ} (h : CasFits n numElec cas0 cas1) (hA : 0 < cas1)
    (mo : ℕ → Fin n → ℝ) (exc : List Char) (inc : Bool) {tiny big : ℝ → Bool} (ht : ExactTiny tiny)
    (hb : ExactBig big) {hAo : Matrix (Fin n) (Fin n) ℝ} {gAo : Tensor4 (Fin n)} (hr : RealAo hAo gAo) :
    ∃ w, uccObject n numElec [cas0, cas1] mo exc inc = .ok w ∧ ∀ th : Threads, th.Fair w.ci.idx2det.length →
      let D := w.data tiny big th hAo gAo
      (∃ Ts, D.Ready Ts) ∧ w.thetas = List.replicate D.st.types.length 0 ∧ (∀ a q, D.mo a q = mo q a) ∧
      stateOf D.ci D.csf = ket (Finset.range cas0) ∧
      Lists (D.kappaIdx.map fun x => (x.1.val, x.2.val)) (fun pq => (pq.1 < pq.2 ∧ pq.2 < n) ∧
        Rotates ((numElec - cas0) / 2) cas1 inc pq) := by
  obtain ⟨f1, f2, f3, f4, f5, f6, f7, f8⟩ := spaces_fits h
  obtain ⟨hk, -⟩ := C38_kappa h inc
  obtain ⟨nI, nV, oo, hn, he⟩ : ∃ nI nV oo, n = nI + cas1 + nV ∧ numElec = 2 * (nI + oo) ∧ cas0 = 2 * oo ∧ oo ≤ cas1 := by
    have h1 := h.evenElec
    have h2 := h.evenActive
    have h3 := h.enoughElec
    have h4 := h.enoughActive
    have h5 := h.enoughOrbs
    exact ⟨(numElec - cas0) / 2, n - cas1 - (numElec - cas0) / 2, cas0 / 2, by omega, by omega, by omega, by omega⟩
  have horb : (mkSpaces n numElec cas0 cas1).numInactiveOrbs + cas1 + (mkSpaces n numElec cas0 cas1).numVirtualOrbs = n := by
    obtain ⟨he1, he2, he3⟩ := he
    have e := mkSpaces_eq (nI := nI) (nA := cas1) (nV := nV) he3
    rw [hn, he1, he2, e]
  have h2 := h.evenActive
  have h4 := h.enoughActive
  set S := mkSpaces n numElec cas0 cas1 with hS
  obtain ⟨ci, i1, i2, i3⟩ := (C26_spaces S.numInactiveOrbs cas1 S.numVirtualOrbs (cas0 / 2 : ℕ) (cas0 / 2 : ℕ) 0).1 hA
  obtain ⟨ci'', j1, j2, j3, j4, j5, j6, -⟩ := C17_space hA S.numInactiveOrbs S.numVirtualOrbs (cas0 / 2 : ℕ) (cas0 / 2 : ℕ)
  obtain rfl : ci = ci'' := Except.ok.inj (i1.symm.trans j1)
  have hdet : hfDet (2 * cas1) cas0 = doubled (List.replicate (cas0 / 2) true ++ List.replicate (cas1 - cas0 / 2) false) := by
    conv_lhs => rw [show cas0 = 2 * (cas0 / 2) by omega, hfDet_eq (by omega)]
  obtain ⟨cs, r1, r2⟩ := reference_doubled (R := ℝ) hA i1 (List.replicate (cas0 / 2) true ++ List.replicate (cas1 - cas0 / 2) false)
    (by simp; omega) (by simp [List.count_replicate])
  rw [← hdet] at r1
  have hket : stateOf ci cs = ket (Finset.range cas0) := by
    rw [r2]
    congr 1
    ext p
    simp only [Finset.mem_filter, Finset.mem_range, List.getElem?_append, List.length_replicate, List.getElem?_replicate]
    constructor
    · rintro ⟨h1, h3⟩
      by_contra hp
      rw [if_neg (by omega)] at h3
      split_ifs at h3
      cases h3
    · intro hp
      exact ⟨by omega, by rw [if_pos (by omega), if_pos (by omega)]⟩
  have hnorm : dot ci.idx2det.length cs cs = 1 := by
    rw [dot_eq_inner j6, r2]
    rw [show ∀ T : Finset ℕ, (ket T : Fock ℝ) = sgl T 1 from fun _ => rfl, inner_ket_left]
    simp [coeff, sgl]
  obtain ⟨-, hlen, hlay⟩ := C115_ucc f5 (exc := exc) (exc' := exc) fun _ _ => Iff.rfl
  obtain ⟨Ts, hTs⟩ := hlay 0
  rw [f7] at hTs
  have hw : uccObject n numElec [cas0, cas1] mo exc inc =
      .ok ⟨S, ci, cs, inc, uccLayout exc S.lists, mo, List.replicate (uccLayout exc S.lists).nParams 0⟩ := by
    unfold uccObject
    rw [f1, ok_bind, f2, f4, f3, i1, ok_bind, r1, ok_bind]
  have hfin : (finPairs n (kappaLists S n inc).kappa).map (fun x => (x.1.val, x.2.val)) = (kappaLists S n inc).kappa :=
    finPairs_val fun pq hpq => by
      have := ((hk.2 pq).1 hpq).1
      omega
  refine ⟨_, hw, fun th hth => ⟨⟨Ts, ?_⟩, ?_, fun _ _ => rfl, hket, ?_⟩⟩
  · refine ⟨ht, hb, hth, ?_, j5, ?_, hnorm, fun i hi => reference_inside j6 r1 hi, ?_, hr, ?_, ?_⟩
    · exact i2
    · show Layout ci.offset ci.nA _ _ Ts
      rw [j5, j3]
      exact hTs
    · show n = ci.nI + ci.nA + ci.nV
      rw [j2, j3, j4, horb]
    · refine List.Nodup.of_map (fun x : Fin n × Fin n => (x.1.val, x.2.val)) ?_
      show (List.map _ (finPairs n (kappaLists S n inc).kappa)).Nodup
      rw [hfin]
      exact hk.1
    · intro x hx
      have : (x.1.val, x.2.val) ∈ (kappaLists S n inc).kappa := by
        rw [← hfin]
        exact List.mem_map.2 ⟨x, hx, rfl⟩
      exact ((hk.2 _).1 this).1.1
  · show List.replicate (uccLayout exc S.lists).nParams (0 : ℝ) = List.replicate (uccLayout exc S.lists).types.length 0
    rw [hlen]
  · exact (congrArg (fun l => Lists l fun pq => (pq.1 < pq.2 ∧ pq.2 < n) ∧ Rotates ((numElec - cas0) / 2) cas1 inc pq) hfin).mpr hk

theorem uccObject_layout {α : Type} {n numElec : ℕ} {cas : List ℕ} {mo : ℕ → α} {exc : List Char} {inc : Bool} {w : UccObj α}
    {S : Spaces} (hS : upsSpaces n numElec cas = .ok S) (h : uccObject n numElec cas mo exc inc = .ok w) :
    w.layout = uccLayout exc S.lists := by
  unfold uccObject at h
  rw [hS, ok_bind] at h
  cases hc : getIndexing S.numInactiveOrbs S.numActiveOrbs S.numVirtualOrbs (S.numActiveElec / 2 : ℕ) (S.numActiveElec / 2 : ℕ) with
  | error e => rw [hc] at h; cases h
  | ok ci =>
    rw [hc, ok_bind] at h
    cases hr : reference (R := ℝ) ci (hfDet S.activeSpin.length S.numActiveElec) with
    | error e => rw [hr] at h; cases h
    | ok csf =>
      rw [hr, ok_bind] at h
      cases h
      rfl

/-- A UCCSD wave function of four electrons in three orbitals: five parameters. -/
example (mo : ℕ → Fin 3 → ℝ) : ∃ w Ts, uccObject 3 4 [4, 3] mo ['s', 'd'] false = .ok w ∧ w.layout.nParams = 5 ∧
    (w.data (fun x => decide (x = 0)) (fun x => !decide (x = 0)) .one (fun a b => if a = b then -1 else 0)
      (fun a b c d => if a = b ∧ c = d then 1 else 0)).Ready Ts := by
  have hfit : CasFits 3 4 4 3 := ⟨by decide, by decide, by decide, by decide, by decide⟩
  obtain ⟨w, h1, h2⟩ := C129_constructed (hAo := fun a b : Fin 3 => if a = b then (-1 : ℝ) else 0)
    (gAo := fun a b c d => if a = b ∧ c = d then 1 else 0) hfit (by decide) mo
    ['s', 'd'] false (tiny := fun x => decide (x = 0)) (big := fun x => !decide (x = 0)) (fun x hx => by simpa using hx)
    (fun x hx => by simpa using hx)
    ⟨fun a b => by simp [eq_comm], fun a b c d => by simp [and_comm], fun a b c d => by simp [eq_comm]⟩
  obtain ⟨⟨Ts, h3⟩, -⟩ := h2 .one (by simp [Threads.Fair])
  refine ⟨w, Ts, h1, ?_, h3⟩
  rw [uccObject_layout (spaces_fits hfit).1 h1]
  rfl

end SQ
