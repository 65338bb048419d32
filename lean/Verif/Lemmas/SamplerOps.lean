import Verif.Lemmas.SamplerRun
import Verif.Lemmas.CircuitInner
import Verif.Lemmas.ResponseOps
import Verif.Props.Folding
import Verif.Spec.QuantumTransfer

/-! # Lemmas: measured labels and operators on electrons -/

namespace SQ

open Finset

/-! ### Linear maps on the register -/

noncomputable def tensorLin {n : ℕ} (M : Fin n → Matrix Bool Bool ℂ) : QState n →ₗ[ℂ] QState n where
  toFun := tensor M
  map_add' φ ψ := by funext b; simp [tensor, mul_add, sum_add_distrib]
  map_smul' c ψ := by funext b; simp [tensor, mul_sum, mul_left_comm]

noncomputable def onQubitLin {n : ℕ} (i : Fin n) (M : Matrix Bool Bool ℂ) : QState n →ₗ[ℂ] QState n where
  toFun := onQubit i M
  map_add' φ ψ := by funext b; simp [onQubit, mul_add, sum_add_distrib]; try ring
  map_smul' c ψ := by funext b; simp [onQubit, mul_left_comm, mul_add]

noncomputable def PGate.lin {n : ℕ} (g : PGate n) : QState n →ₗ[ℂ] QState n where
  toFun := g.act
  map_add' φ ψ := by
    cases g <;> first
      | exact (onQubitLin _ _).map_add φ ψ
      | (funext b; simp only [PGate.act, Pi.add_apply]; split_ifs <;> first | rfl | ring)
  map_smul' c ψ := by
    cases g <;> first
      | exact (onQubitLin _ _).map_smul c ψ
      | (funext b; simp only [PGate.act, Pi.smul_apply, smul_eq_mul, RingHom.id_apply]; split_ifs <;> first | rfl | ring)

noncomputable def runLin {n : ℕ} : List (PGate n) → QState n →ₗ[ℂ] QState n
  | [] => LinearMap.id
  | g :: gs => runLin gs ∘ₗ g.lin

theorem runLin_apply {n : ℕ} (gs : List (PGate n)) : ∀ ψ, runLin gs ψ = runPCircuit gs ψ := by
  induction gs with
  | nil => intro ψ; rfl
  | cons g gs ih => intro ψ; exact ih _

theorem sum_basis {n : ℕ} (ψ : QState n) : ψ = ∑ b, ψ b • basis b := by
  funext c
  rw [Finset.sum_apply, sum_eq_single c]
  · simp [basis]
  · intro b _ hb
    simp [basis, Ne.symm hb]
  · simp

/-- The operator with the matrix elements `⟨U b|H|U c⟩`. -/
noncomputable def pullback {n : ℕ} (U H : QState n →ₗ[ℂ] QState n) : QState n →ₗ[ℂ] QState n where
  toFun ψ := fun b => qinner (U (basis b)) (H (U ψ))
  map_add' φ ψ := by funext b; simp [qinner_add_right]
  map_smul' c ψ := by funext b; simp [qinner_smul_right]

theorem qinner_sum_left {n : ℕ} {ι : Type} (s : Finset ι) (f : ι → QState n) (ψ : QState n) :
    qinner (∑ i ∈ s, f i) ψ = ∑ i ∈ s, qinner (f i) ψ := by
  classical
  induction s using Finset.induction_on with
  | empty => simp [qinner_zero_left]
  | insert i s hi ih => rw [sum_insert hi, sum_insert hi, qinner_add_left, ih]

theorem qinner_pullback {n : ℕ} (U H : QState n →ₗ[ℂ] QState n) (φ ψ : QState n) :
    qinner φ (pullback U H ψ) = qinner (U φ) (H (U ψ)) := by
  conv_rhs => rw [sum_basis φ, map_sum, qinner_sum_left]
  change ∑ b, _ = _
  refine sum_congr rfl fun b _ => ?_
  rw [map_smul, qinner_smul_left]
  rfl

/-! ### Labels -/

theorem sigma_herm (l : Char) : (sigma l).conjTranspose = sigma l := by
  unfold sigma
  split_ifs
  · ext b c; cases b <;> cases c <;> simp [sigmaX]
  · ext b c; cases b <;> cases c <;> simp [sigmaY]
  · ext b c; cases b <;> cases c <;> simp [sigmaZ]
  · simp

theorem qinner_conj {n : ℕ} (φ ψ : QState n) : (starRingEnd ℂ) (qinner φ ψ) = qinner ψ φ := by
  unfold qinner
  rw [map_sum]
  refine sum_congr rfl fun b _ => ?_
  rw [map_mul, Complex.conj_conj, mul_comm]

theorem pauli_herm {n : ℕ} (p : List Char) (φ ψ : QState n) :
    qinner φ (pauliOp n p ψ) = (starRingEnd ℂ) (qinner ψ (pauliOp n p φ)) := by
  rw [qinner_conj]
  unfold pauliOp
  rw [qinner_tensor]
  simp only [sigma_herm]

noncomputable def pauliLin (n : ℕ) (p : List Char) : QState n →ₗ[ℂ] QState n := tensorLin fun i => sigma (letter p i)

/-- The Hermitian part of the operator of the labels. -/
noncomputable def hermLin (n : ℕ) (obs : List (List Char × ℂ)) : QState n →ₗ[ℂ] QState n :=
  (obs.map fun pc => ((pc.2.re : ℝ) : ℂ) • pauliLin n pc.1).sum

theorem hermLin_cons (n : ℕ) (pc : List Char × ℂ) (obs : List (List Char × ℂ)) (ψ : QState n) :
    hermLin n (pc :: obs) ψ = ((pc.2.re : ℝ) : ℂ) • pauliOp n pc.1 ψ + hermLin n obs ψ := by
  unfold hermLin
  rw [List.map_cons, List.sum_cons, LinearMap.add_apply]
  rfl

theorem obsOp_cons (n : ℕ) (pc : List Char × ℂ) (obs : List (List Char × ℂ)) (ψ : QState n) :
    obsOp n (pc :: obs) ψ = pc.2 • pauliOp n pc.1 ψ + obsOp n obs ψ := by
  unfold obsOp
  rw [List.map_cons, List.sum_cons]

theorem hermLin_half (n : ℕ) (obs : List (List Char × ℂ)) (φ ψ : QState n) :
    qinner φ (hermLin n obs ψ) = (1 / 2) * (qinner φ (obsOp n obs ψ) + (starRingEnd ℂ) (qinner ψ (obsOp n obs φ))) := by
  induction obs with
  | nil => simp [hermLin, obsOp, qinner_zero_right]
  | cons pc obs ih =>
    rw [hermLin_cons, obsOp_cons, obsOp_cons, qinner_add_right, qinner_add_right, qinner_add_right, qinner_smul_right,
      qinner_smul_right, qinner_smul_right, ih, map_add, map_mul, ← pauli_herm pc.1 φ ψ]
    have : pc.2 + (starRingEnd ℂ) pc.2 = ((2 * pc.2.re : ℝ) : ℂ) := Complex.add_conj _
    push_cast at this
    linear_combination (-(1 / 2) * qinner φ (pauliOp n pc.1 ψ)) * this

theorem hermLin_herm (n : ℕ) (obs : List (List Char × ℂ)) (φ ψ : QState n) :
    qinner φ (hermLin n obs ψ) = (starRingEnd ℂ) (qinner ψ (hermLin n obs φ)) := by
  rw [hermLin_half, hermLin_half, map_mul, map_add, Complex.conj_conj]
  have : (starRingEnd ℂ) (1 / 2 : ℂ) = 1 / 2 := by
    rw [show (1 / 2 : ℂ) = ((1 / 2 : ℝ) : ℂ) by norm_num, Complex.conj_ofReal]
  rw [this]; ring

theorem labelSum_herm {n : ℕ} (ψ : QState n) (obs : List (List Char × ℂ)) :
    labelSum ψ (realParts obs) = (qinner ψ (hermLin n obs ψ)).re := by
  induction obs with
  | nil => simp [labelSum, realParts, hermLin, qinner_zero_right]
  | cons pc obs ih =>
    rw [hermLin_cons, qinner_add_right, qinner_smul_right, Complex.add_re, ← ih, Complex.re_ofReal_mul]
    simp [labelSum, realParts]

theorem labelSum_smul {n : ℕ} {s : ℂ} (hs : (starRingEnd ℂ) s * s = 1) (ψ : QState n) (obs : List (List Char × ℝ)) :
    labelSum (s • ψ) obs = labelSum ψ obs := by
  unfold labelSum
  congr 1
  refine List.map_congr_left fun pc _ => ?_
  have : pauliOp n pc.1 (s • ψ) = s • pauliOp n pc.1 ψ := (pauliLin n pc.1).map_smul s ψ
  rw [this, qinner_smul_left, qinner_smul_right, ← mul_assoc, hs, one_mul]

/-! ### The text form -/

theorem qtext_qiskit (n : ℕ) (s : Str) (hs : ∀ o ∈ s, o.1 < 2 * n) :
    qtext n s = qiskitText (s.map fun o => (f2q o.1 n, o.2)) := by
  have hb : ∀ k, k < 2 * n → blocked n k = f2q k n := by
    intro k hk
    unfold blocked f2q
    split
    · rfl
    · omega
  have e : (s.map fun o => (blocked n o.1, o.2)) = s.map fun o => (f2q o.1 n, o.2) :=
    List.map_congr_left fun o ho => by rw [hb _ (hs o ho)]
  unfold qtext qiskitText
  rw [e]
  generalize (s.map fun o => (f2q o.1 n, o.2)) = t
  have key : ∀ t : Str, t ≠ [] → render qpre t
      = ' ' :: List.intercalate [' '] (t.map fun o => (if o.2 then '+' else '-') :: '_' :: pyStr o.1) := by
    intro t
    induction t with
    | nil => intro h; exact absurd rfl h
    | cons o t ih =>
      intro _
      have e1 : render qpre (o :: t) = qpre o.2 ++ (pyStr o.1 ++ render qpre t) := by simp [render]
      rw [e1]
      cases t with
      | nil => cases hb : o.2 <;> simp [qpre, render, List.intercalate, hb]
      | cons o' t =>
        rw [ih (by simp)]
        cases hb : o.2 <;> simp [qpre, List.intercalate, hb]
  cases t with
  | nil => rfl
  | cons o t => rw [key _ (by simp)]; rfl

theorem qiskitForm_texts {n : ℕ} {A : Dict ℝ} (hA : WF A) (hr : ∀ kv ∈ A, ∀ o ∈ kv.1, o.1 < 2 * n) :
    getQiskitForm n A = .ok ((A.map fun kv => (kv.1.map fun o => (f2q o.1 n, o.2), kv.2)).map
      fun kv => (qiskitText kv.1, kv.2)) := by
  obtain ⟨⟨d, h1, h2, -, h4⟩, -⟩ := C14_qiskit_form n hA hr
  rw [h1, List.map_map]
  congr 1
  clear h1 hA
  induction h4 with
  | nil => rfl
  | @cons kv kv' A d hk _ ih =>
    rw [List.map_cons, ← ih (fun x hx => hr x (by simp [hx])) (by simpa using (List.cons.inj h2).2)]
    congr 1
    have hq : qiskitKey n kv.1 = .ok (qtext n kv.1) := by
      unfold qiskitKey qtext
      rw [qiskitLoop_ok n kv.1 (hr kv (by simp))]; rfl
    rw [hq] at hk
    refine Prod.ext ?_ (List.cons.inj h2).1
    rw [← Except.ok.inj hk, qtext_qiskit n _ (hr kv (by simp))]
    rfl

theorem sumOp_map_keys (f : Str → Str) (A : Dict ℝ) (x : Fock ℝ) :
    sumOp (A.map fun kv => (f kv.1, kv.2)) x = (A.map fun kv => kv.2 • strOp (f kv.1) x).sum := by
  induction A with
  | nil => simp [sumOp]
  | cons kv A ih =>
    rw [List.map_cons, sumOp_cons, LinearMap.add_apply, ih, List.map_cons, List.sum_cons]
    rfl

/-- An operator with its modes renumbered for the register. -/
def renumbered (norb : ℕ) (A : Dict ℝ) : Dict ℝ := A.map fun kv => (kv.1.map fun o => (f2q o.1 norb, o.2), kv.2)

theorem renumbered_wf {norb : ℕ} {A : Dict ℝ} (hA : WF A) (hr : ∀ kv ∈ A, ∀ o ∈ kv.1, o.1 < 2 * norb) :
    WF (renumbered norb A) ∧ ∀ kv ∈ renumbered norb A, ∀ o ∈ kv.1, o.1 < 2 * norb := by
  set T : Dict ℝ := renumbered norb A with hT
  unfold renumbered at hT
  have hinj : ∀ s t : Str, (∀ o ∈ s, o.1 < 2 * norb) → (∀ o ∈ t, o.1 < 2 * norb) →
      (s.map fun o => (f2q o.1 norb, o.2)) = (t.map fun o => (f2q o.1 norb, o.2)) → s = t := by
    intro s
    induction s with
    | nil =>
      intro t _ _ h
      cases t with
      | nil => rfl
      | cons o t => simp at h
    | cons o s ih =>
      intro t h1 h2 h
      cases t with
      | nil => simp at h
      | cons o' t =>
        rw [List.map_cons, List.map_cons, List.cons.injEq] at h
        rw [ih t (fun x hx => h1 x (by simp [hx])) (fun x hx => h2 x (by simp [hx])) h.2]
        congr 1
        have h3 := Prod.mk.inj h.1
        exact Prod.ext (f2q_inj (h1 o (by simp)) (h2 o' (by simp)) h3.1) h3.2
  have hW : WF T := by
    unfold WF at hA ⊢
    rw [hT, List.map_map]
    have : A.map ((fun kv => kv.1) ∘ fun kv : Str × ℝ => (kv.1.map fun o => (f2q o.1 norb, o.2), kv.2))
        = (A.map (·.1)).map fun s => s.map fun o => (f2q o.1 norb, o.2) := by simp
    refine Eq.subst this.symm (motive := List.Nodup) (List.Nodup.map_on ?_ hA)
    intro s hs t ht h
    obtain ⟨a, ha, rfl⟩ := List.mem_map.1 hs
    obtain ⟨b, hb, rfl⟩ := List.mem_map.1 ht
    exact hinj _ _ (hr a ha) (hr b hb) h
  have hR : ∀ kv ∈ T, ∀ o ∈ kv.1, o.1 < 2 * norb := by
    intro kv hkv o ho
    obtain ⟨a, ha, rfl⟩ := List.mem_map.1 hkv
    obtain ⟨o', ho', rfl⟩ := List.mem_map.1 ho
    exact f2q_bound (hr a ha o' ho')
  exact ⟨hW, hR⟩

theorem renumbered_op {norb : ℕ} {A : Dict ℝ} (hr : ∀ kv ∈ A, ∀ o ∈ kv.1, o.1 < 2 * norb) {x : Fock ℝ} (hx : Below (2 * norb) x) :
    sumOp (renumbered norb A) (toBlocked norb x) = toBlocked norb (sumOp A x) := by
  unfold renumbered
  rw [sumOp_map_keys]
  induction A with
  | nil => simp [sumOp]
  | cons kv A ih =>
    rw [List.map_cons, List.sum_cons, ih fun y hy => hr y (by simp [hy]), sumOp_cons, LinearMap.add_apply, map_add,
      LinearMap.smul_apply, map_smul, C15_intertwines norb kv.1 (hr kv (by simp)) hx]

theorem opToQbit_ok {norb : ℕ} {map : SDict ℝ → Res (List (List Char × ℂ))} (hM : JWMapper (2 * norb) map) {A : Dict ℝ}
    (hA : WF A) (hr : ∀ kv ∈ A, ∀ o ∈ kv.1, o.1 < 2 * norb) :
    ∃ obs, opToQbit map norb A = .ok obs ∧
      ∀ x, Below (2 * norb) x → obsOp (2 * norb) obs (onRegister norb x) = onRegister norb (sumOp A x) := by
  obtain ⟨hW, hR⟩ := renumbered_wf hA hr
  obtain ⟨obs, e1, e2⟩ := hM.exact _ hW hR
  refine ⟨obs, ?_, fun x hx => ?_⟩
  · unfold opToQbit
    rw [qiskitForm_texts hA hr]
    exact e1
  · have ereg : ∀ x, onRegister norb x = amps (2 * norb) (toBlocked norb x) := fun _ => rfl
    rw [ereg, ereg, e2 _ (below_blocked hx), renumbered_op hr hx]

/-! ### Values -/

theorem register_qinner {n : ℕ} {x y : Fock ℝ} (hx : Below (2 * n) x) (hy : Below (2 * n) y) :
    qinner (onRegister n x) (onRegister n y) = ((inner x y : ℝ) : ℂ) := register_inner hx hy

theorem below_of {norb : ℕ} {A : Dict ℝ} (hr : ∀ kv ∈ A, ∀ o ∈ kv.1, o.1 < 2 * norb) {x : Fock ℝ}
    (hx : Below (2 * norb) x) : Below (2 * norb) (sumOp A x) := by
  intro S' h p hp
  obtain ⟨kv, hk, S, h1, h2⟩ := sumOp_reach h
  by_contra hlt
  exact hlt (hx S h1 p ((strOp_outside (P := (· < 2 * norb)) kv.1 (hr kv hk) S S' h2 p hlt).1 hp))

theorem hermLin_register {norb : ℕ} {A : Dict ℝ} {obs : List (List Char × ℂ)}
    (ho : ∀ x, Below (2 * norb) x → obsOp (2 * norb) obs (onRegister norb x) = onRegister norb (sumOp A x))
    (hr : ∀ kv ∈ A, ∀ o ∈ kv.1, o.1 < 2 * norb) {x y : Fock ℝ} (hx : Below (2 * norb) x) (hy : Below (2 * norb) y) :
    (qinner (onRegister norb x) (hermLin (2 * norb) obs (onRegister norb y))).re
      = 1 / 2 * (inner x (sumOp A y) + inner y (sumOp A x)) := by
  rw [hermLin_half, ho x hx, ho y hy, register_qinner hx (below_of hr hy), register_qinner hy (below_of hr hx),
    Complex.conj_ofReal, ← Complex.ofReal_add, show (1 / 2 : ℂ) = ((1 / 2 : ℝ) : ℂ) by norm_num, Complex.re_ofReal_mul,
    Complex.ofReal_re]

theorem onRegister_add (n : ℕ) (x y : Fock ℝ) : onRegister n (x + y) = onRegister n x + onRegister n y := by
  funext b
  unfold onRegister
  rw [map_add, coeff_add, Complex.ofReal_add]
  rfl

theorem onRegister_sgl {n : ℕ} {d : List Char} (h : IsDet n d) (c : ℝ) :
    onRegister n (sgl (detSet d) c) = ((c * (-1) ^ (crossings d).card : ℝ) : ℂ) • basis (detBits n d) := by
  funext b
  unfold onRegister
  have hset : detSet d = (Finset.range (2 * n)).filter fun p => d[p]? = some '1' := by unfold detSet; rw [h.1]
  have hsign : getReorderingSign (occString (2 * n) (detSet d)) = (-1) ^ (crossings d).card := by
    rw [hset, ← det_occString h, sign_crossings h]
  have hocc : (detSet d).image (fun p => f2q p n) = occupied (detBits n d) := by
    ext q
    simp only [mem_image, occupied, mem_filter, mem_univ, true_and, detBits, decide_eq_true_eq, hset, mem_range]
    constructor
    · rintro ⟨p, ⟨hp, hd⟩, rfl⟩
      refine ⟨⟨f2q p n, f2q_bound hp⟩, ?_, rfl⟩
      have : modeOf n (f2q p n) = p := by unfold modeOf f2q; split_ifs <;> omega
      rw [this]; exact hd
    · rintro ⟨q, hd, rfl⟩
      refine ⟨modeOf n q, ⟨modeOf_lt q.2, hd⟩, ?_⟩
      have := q.2
      unfold modeOf f2q
      split_ifs <;> omega
  rw [toBlocked_sgl, hsign, hocc]
  have hb : coeff (sgl (occupied (detBits n d)) (c * (((-1) ^ (crossings d).card : ℤ) : ℝ)) : Fock ℝ) (occupied b)
      = if b = detBits n d then c * (-1) ^ (crossings d).card else 0 := by
    unfold coeff sgl
    by_cases hb : b = detBits n d
    · subst hb; simp
    · rw [if_neg hb]
      exact Finsupp.single_eq_of_ne fun e => hb (occupied_inj e)
  rw [hb]
  by_cases h : b = detBits n d <;> simp [basis, h]

theorem csfState_register {n : ℕ} {s : Csf} (h : ∀ d ∈ s.2, IsDet n d) :
    csfState n s.1 s.2 = onRegister n (csfFock s) := by
  unfold csfState csfFock
  have : ∀ l : List (ℝ × List Char), (∀ x ∈ l, IsDet n x.2) →
      (l.map fun cd => ((cd.1 * (-1) ^ (crossings cd.2).card : ℝ) : ℂ) • basis (detBits n cd.2)).sum
        = onRegister n (l.map fun cd => sgl (detSet cd.2) cd.1).sum := by
    intro l
    induction l with
    | nil =>
      intro _; funext b
      simp only [onRegister, List.map_nil, List.sum_nil, map_zero, coeff_zero, Complex.ofReal_zero, Pi.zero_apply]
    | cons x l ih =>
      intro hl
      rw [List.map_cons, List.sum_cons, List.map_cons, List.sum_cons, onRegister_add, ih fun y hy => hl y (by simp [hy]),
        onRegister_sgl (hl x (by simp))]
  exact this _ fun x hx => h _ (List.of_mem_zip (a := x.1) (b := x.2) hx).2

end SQ
