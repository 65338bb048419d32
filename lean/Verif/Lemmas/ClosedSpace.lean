import Verif.Lemmas.KeyInv

/-! # Operators on spaces that are closed under them -/

namespace SQ

variable {R : Type*} [CommRing R]

theorem proj_eq_self (ci : CIInfo) {x : Fock R} (h : ∀ S, coeff x S ≠ 0 → ci.Mem S) :
    ci.proj x = x := by
  apply fock_ext
  intro S
  have key : (innerB (ket S)).comp (ci.proj : FOp R)
      = if ci.Mem S then innerB (ket S) else 0 := by
    apply fhom_ext
    intro T
    rw [LinearMap.comp_apply, proj_sgl]
    by_cases hT : ci.Mem T
    · rw [if_pos hT]
      by_cases hS : ci.Mem S
      · rw [if_pos hS]
      · rw [if_neg hS, innerB_apply]
        show inner (sgl S 1) (sgl T 1) = 0
        rw [inner_ket_left, coeff_sgl, if_neg]
        rintro rfl; exact hS hT
    · rw [if_neg hT, map_zero]
      by_cases hS : ci.Mem S
      · rw [if_pos hS, innerB_apply]
        show 0 = inner (sgl S 1) (sgl T 1)
        rw [inner_ket_left, coeff_sgl, if_neg]
        rintro rfl; exact hT hS
      · rw [if_neg hS]; rfl
  have k1 : inner (ket S) (ci.proj x) = (if ci.Mem S then innerB (ket S) else 0) x := by
    rw [← key]; rfl
  have e : ∀ y : Fock R, inner (ket S) y = coeff y S := fun y => inner_ket_left S y
  rw [e] at k1
  rw [k1]
  by_cases hS : ci.Mem S
  · rw [if_pos hS, innerB_apply, e]
  · rw [if_neg hS, LinearMap.zero_apply]
    by_contra hne
    exact hS (h S fun h0 => hne h0.symm)

theorem KInv.adj {P : ℕ → Prop} {s : Str} (h : KInv P (fun _ => 0) s) :
    KInv P (fun _ => 0) (adjStr s) := by
  have e : adjStr s = flipKey s := by
    unfold adjStr flipKey
    rw [← List.map_reverse]
    apply List.map_congr_left
    rintro ⟨p, b⟩ _
    cases b <;> rfl
  rw [e]
  have := h.flip
  simpa using this

/-- In a closed space nothing is ever outside. -/
theorem CIInfo.ClosedOn.inside {ci : CIInfo} {P : ℕ → Prop} (hc : ci.ClosedOn P) {s : Str}
    (hs : KInv P (fun _ => 0) s) {S S' : Finset ℕ} (hS : ci.Mem S)
    (h : coeff (strOp s (ket S) : Fock R) S' ≠ 0) : ci.Mem S' :=
  have hr := hs.reach h
  hc S S' hS hr.1 hr.2.1 hr.2.2

theorem mem_D {ci : CIInfo} {i : ℕ} (hi : i < ci.idx2det.length) : ci.Mem (ci.D i) :=
  ⟨_, CIInfo.Valid.getD_mem hi, rfl⟩

theorem tStep_closed [Nontrivial R] {ci : CIInfo} (hv : ci.Valid) {P : ℕ → Prop} (hc : ci.ClosedOn P)
    (state : Vec R) {s : Str} (hs : KInv P (fun _ => 0) s) (hn : NormalOrdered s)
    (hr : ∀ o ∈ s, o.1 < 2 * ci.nA) (factor : R) (tmp : Vec R) {i : ℕ} (hi : i < ci.idx2det.length) :
    ∃ tmp', tStep ci false state s factor tmp i = .ok tmp' := by
  rw [tStep_eq _ _ hr _ _ hi]
  by_cases hp : PassesT s (ci.D i)
  · rw [if_neg (not_not.2 hp)]
    have hadj := adj_pass (R := R) hn hr (det := ci.idx2det.getD i 0) hp 1
    set r := flips (2 * ci.nA - 1) (parityCheck ci.nA) (createIdx s ++ anniIdx s)
      (ci.idx2det.getD i 0) with hrdef
    have hlt : r.1 < 2 ^ (2 * ci.nA) := by
      apply flips_lt
      · intro o ho
        rcases List.mem_append.1 ho with h | h
        · exact hr _ (mem_createIdx.1 h)
        · exact hr _ (mem_anniIdx.1 h)
      · exact hv.bits _ (CIInfo.Valid.getD_mem hi)
    have hm : ci.Mem (decode ci.nA r.1) := by
      refine hc.inside (R := R) hs.adj (mem_D hi) ?_
      show coeff (strOp (adjStr s) (sgl (decode ci.nA (ci.idx2det.getD i 0)) 1)) _ ≠ 0
      rw [hadj, coeff_sgl, if_pos rfl, one_mul, signOf_eq]
      intro h0
      have := congrArg (· * (-1 : R) ^ r.2) h0
      simp only [← mul_pow, mul_neg, mul_one, neg_neg, one_pow, zero_mul] at this
      exact one_ne_zero this
    unfold deliver
    cases hf : ci.find r.1 with
    | some j => exact ⟨_, rfl⟩
    | none => exact absurd hm (hv.find_none hlt hf)
  · rw [if_pos hp]; exact ⟨_, rfl⟩

/-- On a closed space an operator acts as it should, with any number of threads. -/
theorem applyOp_closed [Nontrivial R] {tiny : R → Bool} (ht : ExactTiny tiny) {ci : CIInfo}
    (hv : ci.Valid) {P : ℕ → Prop} (hc : ci.ClosedOn P) (hP : ∀ p, P p → p < 2 * ci.nA) {th : Threads}
    (hth : th.Fair ci.idx2det.length) (v : Vec R) {A : Dict R} (hA : NumCons A)
    (hk : Keys P (fun _ => 0) A) :
    ∃ w, applyOp tiny th ci false v A = .ok w ∧ stateOf ci w = sumOp A (stateOf ci v) := by
  have hr : ∀ kv ∈ A, ∀ o ∈ kv.1, o.1 < 2 * ci.nA := fun kv h o ho => hP _ ((hk kv h).1 o ho)
  cases th with
  | one =>
    have : ∃ w, applyOp tiny .one ci false v A = .ok w := by
      rw [applyOp_one_ok_iff tiny hv false v (hA.good hr)]
      refine Or.inr fun kv hkv i hi => Or.inr fun S hS => ?_
      exact hc.inside (R := R) (hk kv hkv) (mem_D hi) hS
    obtain ⟨w, hw⟩ := this
    refine ⟨w, hw, ?_⟩
    rw [applyOp_one_sem ht hv false v (hA.good hr) w hw]
    rfl
  | many sched =>
    have : ∃ w, applyOp tiny (.many sched) ci false v A = .ok w := by
      show ∃ v', A.foldlM (fun tmp kv => applyThreaded ci false (sched kv.1) v kv.1 kv.2 tmp) 0 = .ok v'
      rw [foldlM_ok_iff _ (fun _ => True) A fun kv hkv b => ⟨fun _ => trivial, fun _ => ?_⟩]
      · simp
      · rw [applyThreaded_eq, foldlM_ok_iff _ (fun _ => True) (sched kv.1) fun i hi b =>
          ⟨fun _ => trivial, fun _ => tStep_closed hv hc v (hk kv hkv) (hA.ord kv hkv) (hr kv hkv) kv.2 b
            (List.mem_range.1 ((hth kv.1).mem_iff.1 hi))⟩]
        simp
    obtain ⟨w, hw⟩ := this
    refine ⟨w, hw, ?_⟩
    rw [applyOp_many_sem tiny hv false v hA.ord hr hth w hw]
    apply proj_eq_self
    intro S hS
    by_contra hne
    apply hS
    refine coeff_apply_eq_zero fun S' hS' => ?_
    by_contra h0
    have hS'' : ci.Mem S' := by
      by_contra hm; exact hS' (coeff_stateOf_ne v hm)
    obtain ⟨kv, hkv, hne'⟩ : ∃ kv ∈ A, coeff (strOp kv.1 (ket S') : Fock R) S ≠ 0 := by
      by_contra hall
      push Not at hall
      apply h0
      rw [sumOp_apply]
      clear hA hk hr hw h0 hS
      induction A with
      | nil => rfl
      | cons kv t ih =>
        rw [List.map_cons, List.sum_cons, coeff_add, coeff_smul, hall kv (by simp), mul_zero, zero_add]
        exact ih fun x hx => hall x (by simp [hx])
    exact hne (hc.inside (R := R) (hk kv hkv) hS'' hne')

end SQ
