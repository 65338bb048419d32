import Verif.Spec.ProjStd
import Verif.Lemmas.QuantumStd
import Verif.Lemmas.RandomProducts
import Verif.Lemmas.ExtendedLoops

/-!
# Lemmas: standard deviations of the matrices of projected and all-projected linear response
-/

namespace SQ

open MeasureTheory ProbabilityTheory

section
variable {tiny big : ℝ → Bool} {W : RespWf}

/-! ### The operators of the entries -/

/-- The operators of `_G_exp` and `_HG_exp`. -/
def expOps (tiny : ℝ → Bool) (W : RespWf) (H0 G : Dict ℝ) : Res (Dict ℝ × Dict ℝ) := do
  let HG ← fmul tiny H0 G
  pure (W.fold G, W.fold HG)

/-- The two operators of an entry of the mixed blocks. -/
def projMixedOps (tiny : ℝ → Bool) (W : RespWf) (H1 qJ GI : Dict ℝ) : Res (Dict ℝ × Dict ℝ) := do
  let GId ← fdagger tiny GI
  let a ← mul3 tiny GId H1 qJ
  let qJd ← fdagger tiny qJ
  let b ← mul3 tiny GId qJd H1
  pure (W.fold a, W.fold b)

/-- The element at a position. -/
def elemAt {α : Type} (P : List α) (i : ℕ) : Res α :=
  match P[i]? with
  | some e => .ok e
  | none => .error .indexError

/-- The operators of an entry of the active-active blocks. -/
def projActOps (tiny : ℝ → Bool) (W : RespWf) (H0 : Dict ℝ) (P : List (Dict ℝ × Dict ℝ)) (GJ GI : Dict ℝ × ℕ) :
    Res (Dict ℝ × Dict ℝ × (Dict ℝ × Dict ℝ) × (Dict ℝ × Dict ℝ)) := do
  let GId ← fdagger tiny GI.1
  let a ← mul3 tiny GId H0 GJ.1
  let s ← fmul tiny GId GJ.1
  let pi ← elemAt P GI.2
  let pj ← elemAt P GJ.2
  pure (W.fold a, W.fold s, pi, pj)

/-- The operators of an entry of the orbital-orbital blocks of allprojected.py. -/
def allOrbOps (tiny : ℝ → Bool) (W : RespWf) (H2 qJ qI : Dict ℝ) : Res (Dict ℝ × Dict ℝ) := do
  let qId ← fdagger tiny qI
  let a ← mul3 tiny qId H2 qJ
  let s ← fmul tiny qId qJ
  pure (W.fold a, W.fold s)

/-- The operator of an entry of the mixed blocks of allprojected.py. -/
def allMixedOps (tiny : ℝ → Bool) (W : RespWf) (H1 qJ GI : Dict ℝ) : Res (Dict ℝ) := do
  let GId ← fdagger tiny GI
  let a ← mul3 tiny GId H1 qJ
  pure (W.fold a)

/-! ### The entries in terms of the operators -/

theorem qpExp_ops (f : Dict ℝ → ℝ) (e : ℝ) (H0 G : Dict ℝ) :
    qpExp tiny (fun A => .ok (f A)) (W.withEnergy e) H0 G = (do
      let o ← expOps tiny W H0 G
      pure (f o.1, f o.2)) := by
  unfold qpExp expOps qexp
  simp only [ok_bind, bind_assoc, pure_bind]
  rfl

theorem mapM_post {α β γ : Type} {ops : α → Res β} {g : β → γ} {l : List α} {P : List β} (h : l.mapM ops = .ok P) :
    l.mapM (fun x => do let o ← ops x; pure (g o)) = .ok (P.map g) := by
  induction l generalizing P with
  | nil =>
    obtain rfl : [] = P := Except.ok.inj h
    rfl
  | cons x l ih =>
    rw [List.mapM_cons] at h
    obtain ⟨o, ho, h⟩ := Res.of_bind h
    obtain ⟨P', hP, h⟩ := Res.of_bind h
    obtain rfl : o :: P' = P := Except.ok.inj h
    rw [List.mapM_cons, ho, ok_bind, pure_bind, ih hP]
    rfl

theorem exp_list (f : Dict ℝ → ℝ) (e : ℝ) {L : QLR} {P : List (Dict ℝ × Dict ℝ)}
    (h : L.G.mapM (expOps tiny W L.H0) = .ok P) :
    L.G.mapM (qpExp tiny (fun A => .ok (f A)) (W.withEnergy e) L.H0) = .ok (P.map fun p => (f p.1, f p.2)) := by
  rw [← mapM_post (g := fun p : Dict ℝ × Dict ℝ => (f p.1, f p.2)) h]
  congr 1
  funext G
  exact qpExp_ops f e L.H0 G

theorem qpAt_map (f : Dict ℝ → ℝ) (P : List (Dict ℝ × Dict ℝ)) (i : ℕ) :
    qpAt (P.map fun p => (f p.1, f p.2)) i = (do let p ← elemAt P i; pure (f p.1, f p.2)) := by
  unfold qpAt elemAt
  rw [List.getElem?_map]
  cases P[i]? <;> rfl

theorem qpMixed_ops (f : Dict ℝ → ℝ) (e : ℝ) (H1 qJ GI : Dict ℝ) :
    qpMixed tiny (fun A => .ok (f A)) (W.withEnergy e) H1 qJ GI = (do
      let o ← projMixedOps tiny W H1 qJ GI
      pure (f o.1, -1 / 2 * f o.2)) := by
  unfold qpMixed projMixedOps qexp
  simp only [ok_bind, bind_assoc, pure_bind]
  rfl

theorem stdProjMixed_ops (f : Dict ℝ → ℝ) (e : ℝ) (H1 qJ GI : Dict ℝ) :
    stdProjMixed tiny (fun A => .ok (f A)) (W.withEnergy e) H1 qJ GI = (do
      let o ← projMixedOps tiny W H1 qJ GI
      pure (√(f o.1), √(1 / 2 * f o.2))) := by
  unfold stdProjMixed projMixedOps qexp
  simp only [ok_bind, bind_assoc, pure_bind]
  rfl

/-- The entries of an active pair, from the estimates. -/
noncomputable def actEntry (f : Dict ℝ → ℝ) (e : ℝ) (o : Dict ℝ × Dict ℝ × (Dict ℝ × Dict ℝ) × (Dict ℝ × Dict ℝ)) :
    ℝ × ℝ × ℝ :=
  let gi := f o.2.2.1.1
  let hi := f o.2.2.1.2
  let gj := f o.2.2.2.1
  let hj := f o.2.2.2.2
  (f o.1 - f o.2.1 * e + gi * gj * e - 1 / 2 * gi * hj - 1 / 2 * gj * hi,
    1 / 2 * hi * gj + 1 / 2 * hj * gi - gi * gj * e, f o.2.1 - gi * gj)

/-- The deviations of an active pair, from the means and the variances. -/
noncomputable def actStd (m v : Dict ℝ → ℝ) (e ve : ℝ)
    (o : Dict ℝ × Dict ℝ × (Dict ℝ × Dict ℝ) × (Dict ℝ × Dict ℝ)) : ℝ × ℝ × ℝ :=
  let gi := o.2.2.1.1
  let hi := o.2.2.1.2
  let gj := o.2.2.2.1
  let hj := o.2.2.2.2
  let h := 1 / 2 * varProd (m gi) (v gi) (m hj) (v hj)
  let h' := 1 / 2 * varProd (m gj) (v gj) (m hi) (v hi)
  let t := (m gi ^ 2 + v gi) * (m gj ^ 2 + v gj) * (e ^ 2 + ve) - m gi ^ 2 * m gj ^ 2 * e ^ 2
  (√(v o.1 + varProd (m o.2.1) (v o.2.1) e ve + h + h' + t), √(h' + h + t),
    √(v o.2.1 + varProd (m gi) (v gi) (m gj) (v gj)))

theorem qpAct_ops (f : Dict ℝ → ℝ) (e : ℝ) (H0 : Dict ℝ) (P : List (Dict ℝ × Dict ℝ)) (GJ GI : Dict ℝ × ℕ) :
    qpAct tiny (fun A => .ok (f A)) (W.withEnergy e) H0 (P.map fun p => (f p.1, f p.2)) GJ GI = (do
      let o ← projActOps tiny W H0 P GJ GI
      pure (actEntry f e o)) := by
  unfold qpAct projActOps qexp
  simp only [ok_bind, bind_assoc, pure_bind, qpAt_map]
  rfl

theorem stdProjAct_ops (m v : Dict ℝ → ℝ) (e ve : ℝ) (H0 : Dict ℝ) (P : List (Dict ℝ × Dict ℝ)) (GJ GI : Dict ℝ × ℕ) :
    stdProjAct tiny (fun A => .ok (m A)) (fun A => .ok (v A)) (W.withEnergy e) H0 (P.map fun p => (m p.1, m p.2))
      (P.map fun p => (v p.1, v p.2)) ve GJ GI = (do
      let o ← projActOps tiny W H0 P GJ GI
      pure (actStd m v e ve o)) := by
  unfold stdProjAct projActOps qexp
  simp only [ok_bind, bind_assoc, pure_bind, qpAt_map]
  cases elemAt P GI.2 <;> cases elemAt P GJ.2 <;> rfl

theorem qaOrb_ops (f : Dict ℝ → ℝ) (e : ℝ) (H2 qJ qI : Dict ℝ) :
    qaOrb tiny (fun A => .ok (f A)) (W.withEnergy e) H2 qJ qI = (do
      let o ← allOrbOps tiny W H2 qJ qI
      pure (f o.1 - f o.2 * e, f o.2)) := by
  unfold qaOrb allOrbOps qexp
  simp only [ok_bind, bind_assoc, pure_bind]
  rfl

theorem qaMixed_ops (f : Dict ℝ → ℝ) (e : ℝ) (H1 qJ GI : Dict ℝ) :
    qaMixed tiny (fun A => .ok (f A)) (W.withEnergy e) H1 qJ GI = (do
      let o ← allMixedOps tiny W H1 qJ GI
      pure (f o)) := by
  unfold qaMixed allMixedOps qexp
  simp only [bind_assoc, pure_bind]
  rfl

theorem stdAllMixed_ops (f : Dict ℝ → ℝ) (e : ℝ) (H1 qJ GI : Dict ℝ) :
    stdAllMixed tiny (fun A => .ok (f A)) (W.withEnergy e) H1 qJ GI = (do
      let o ← allMixedOps tiny W H1 qJ GI
      pure √(f o)) := by
  unfold stdAllMixed allMixedOps qexp
  simp only [ok_bind, bind_assoc, pure_bind]
  rfl

theorem stdAllOrb_ops (m v : Dict ℝ → ℝ) (e ve : ℝ) {H2 qJ qI : Dict ℝ} (h : ∃ o, allOrbOps tiny W H2 qJ qI = .ok o) :
    stdAllOrb tiny (fun A => .ok (m A)) (fun A => .ok (v A)) (W.withEnergy e) ve H2 qJ qI = (do
      let o ← allOrbOps tiny W H2 qJ qI
      pure (√(v o.1 + varProd (m o.2) (v o.2) e ve), √(v o.2))) := by
  obtain ⟨o, h⟩ := h
  unfold allOrbOps at h
  obtain ⟨d, hd, h⟩ := Res.of_bind h
  obtain ⟨a, ha, h⟩ := Res.of_bind h
  obtain ⟨s, hs, h⟩ := Res.of_bind h
  unfold stdAllOrb allOrbOps qexp
  simp only [hd, ha, hs, ok_bind, pure_bind]
  rfl

theorem lrLoop_congr {α β κ ν : Type} {js : List (α × ℕ)} {is : ℕ → List (β × ℕ)} {pre : α → Res κ}
    {entry entry' : κ → α × ℕ → β × ℕ → Res ν} {put : LRMats → ℕ → ℕ → ν → LRMats} {M : LRMats}
    (h : ∀ k, ∀ x ∈ js, ∀ y ∈ is x.2, entry k x y = entry' k x y) :
    lrLoop js is pre entry put M = lrLoop js is pre entry' put M := by
  unfold lrLoop
  refine foldlM_congr_mem fun M x hx => ?_
  congr 1
  funext k
  refine foldlM_congr_mem fun M y hy => ?_
  rw [h k x hx y hy]

/-- A loop whose first entry is written beforehand. -/
theorem lrLoop_first {α β ν : Type} {x0 : α × ℕ} {js : List (α × ℕ)} {is : ℕ → List (β × ℕ)} {y0 : β × ℕ}
    {ys : List (β × ℕ)} {entry : α → α × ℕ → β × ℕ → Res ν} {put : LRMats → ℕ → ℕ → ν → LRMats} {M : LRMats} {v : ν}
    (h0 : is x0.2 = y0 :: ys) (hne : ∀ x ∈ js, x.2 ≠ x0.2) (hv : entry x0.1 x0 y0 = .ok v) :
    lrLoop (x0 :: js) is (fun x => pure x) entry put M =
      lrLoop (x0 :: js) (fun k => if k = x0.2 then ys else is k) (fun x => pure x) entry put (put M y0.2 x0.2 v) := by
  unfold lrLoop
  rw [List.foldlM_cons, List.foldlM_cons, pure_bind, pure_bind]
  simp only [if_true]
  rw [h0, List.foldlM_cons, hv, ok_bind, pure_bind]
  congr 1
  funext M
  refine foldlM_congr_mem fun M x hx => ?_
  simp only [if_neg (hne x hx)]

/-! ### What the constructor leaves -/

/-- The operators of an object are made of excitations within the orbital space. -/
structure Gens (W : RespWf) (H2 : Dict ℝ) (L : QLR) : Prop where
  q : ∀ q ∈ L.Q, GenOp W.ci q
  g : ∀ g ∈ L.G, GenOp W.ci g
  h0 : GenOp W.ci L.H0
  h1 : GenOp W.ci L.H1
  h2 : GenOp W.ci H2

theorem qlrInit_gens (ht : ExactTiny tiny) (hb : ExactBig big) (hW : W.Proper) (excitations : String) :
    ∃ L H2, qlrInit tiny big W excitations = .ok L ∧ L.M = LRMats.zero ∧ L.Q.length = W.kappa.length ∧
      L.G.length = (lrOps W (lettersOf excitations)).length ∧
      hamiltonian2i2a tiny big W.h W.g W.ci.nI W.ci.nA W.ci.nV = .ok H2 ∧ Gens W H2 L := by
  obtain ⟨G, hG, opsG, excG⟩ := lrG_ok ht hW excitations
  obtain ⟨Q, hQ, fQ⟩ := lrQ_ok ht hW
  obtain ⟨H1, h1, h1g, h1s⟩ := ham1_gen ht hb W.h W.g W.ci
  obtain ⟨H0, h0, h0g, h0s⟩ := ham0_gen ht hb W.h W.g W.ci
  obtain ⟨H2, h2, h2g, h2s⟩ := ham2_gen ht hb W.h W.g W.ci
  refine ⟨⟨H0, H1, G, Q, LRMats.zero⟩, H2, by unfold qlrInit; simp only [h0, h1, hG, hQ, ok_bind]; rfl, rfl,
    fQ.length_eq.symm, by rw [← List.length_map sumOp, opsG]; rfl, h2,
    ⟨?_, fun g hg => (excG g hg).1.gen, h0g, h1g, h2g⟩⟩
  intro q hq
  obtain ⟨i, hi⟩ := List.getElem?_of_mem hq
  have li := (List.getElem?_eq_some_iff.1 hi).1
  have hR := (List.forall₂_iff_get.1 fQ).2 i (by rw [fQ.length_eq]; exact li) li
  rw [List.get_eq_getElem, List.get_eq_getElem, (List.getElem?_eq_some_iff.1 hi).2] at hR
  exact hR.1

theorem Gens.exps (ht : ExactTiny tiny) {H2 : Dict ℝ} {L : QLR} (h : Gens W H2 L) :
    ∃ P, L.G.mapM (expOps tiny W L.H0) = .ok P ∧
      List.Forall₂ (fun G p => expOps tiny W L.H0 G = .ok p) L.G P :=
  mapM_ok_exists (f := expOps tiny W L.H0) (fun G p => expOps tiny W L.H0 G = .ok p) L.G (by
    intro g hg
    obtain ⟨a, a1, -⟩ := h.h0.mul ht (h.g g hg)
    exact ⟨(W.fold g, W.fold a), by unfold expOps; rw [a1]; rfl, by unfold expOps; rw [a1]; rfl⟩)

theorem Gens.grads (ht : ExactTiny tiny) {H2 : Dict ℝ} {L : QLR} (h : Gens W H2 L) (f : Dict ℝ → ℝ) (e : ℝ) :
    ∃ v, L.Q.mapM (qGradQ tiny (fun A => .ok (f A)) (W.withEnergy e) L.H1) = .ok v := by
  obtain ⟨v, hv, -⟩ := mapM_ok_exists (f := qGradQ tiny (fun A => .ok (f A)) (W.withEnergy e) L.H1)
    (fun _ _ => True) L.Q (by
      intro q hq
      obtain ⟨a, a1, -⟩ := h.h1.mul ht (h.q q hq)
      obtain ⟨d, d1, d2, -⟩ := (h.q q hq).dagger ht
      obtain ⟨b, b1, -⟩ := d2.mul ht h.h1
      exact ⟨_, by unfold qGradQ qexp; simp only [a1, d1, b1, ok_bind]; rfl, trivial⟩)
  exact ⟨v, hv⟩

theorem Gens.orb (ht : ExactTiny tiny) {H2 : Dict ℝ} {L : QLR} (h : Gens W H2 L) :
    ∀ x ∈ L.Q.zipIdx, ∀ y ∈ (L.Q.drop x.2).zipIdx x.2, ∃ o, orbOps tiny W H2 x.1 y.1 = .ok o := by
  intro x hx y hy
  exact orbOps_ok ht h.h2 (h.q _ (List.mem_of_getElem? (zipIdx_get hx)))
    (h.q _ (List.mem_of_getElem? (zipIdx_drop_get hy)))

theorem Gens.allOrb (ht : ExactTiny tiny) {H2 : Dict ℝ} {L : QLR} (h : Gens W H2 L) :
    ∀ x ∈ L.Q.zipIdx, ∀ y ∈ (L.Q.drop x.2).zipIdx x.2, ∃ o, allOrbOps tiny W H2 x.1 y.1 = .ok o := by
  intro x hx y hy
  have hJ := h.q _ (List.mem_of_getElem? (zipIdx_get hx))
  obtain ⟨d, d1, d2, -⟩ := (h.q _ (List.mem_of_getElem? (zipIdx_drop_get hy))).dagger ht
  obtain ⟨a, a1, -⟩ := d2.mul3 ht h.h2 hJ
  obtain ⟨s, s1, -⟩ := d2.mul ht hJ
  exact ⟨_, by unfold allOrbOps; simp only [d1, a1, s1, ok_bind]; rfl⟩

theorem Gens.mixed (ht : ExactTiny tiny) {H2 : Dict ℝ} {L : QLR} (h : Gens W H2 L) :
    ∀ x ∈ L.Q.zipIdx, ∀ y ∈ L.G.zipIdx, ∃ o, projMixedOps tiny W L.H1 x.1 y.1 = .ok o := by
  intro x hx y hy
  have hJ := h.q _ (List.mem_of_getElem? (zipIdx_get hx))
  obtain ⟨d, d1, d2, -⟩ := (h.g _ (List.mem_of_getElem? (zipIdx_get hy))).dagger ht
  obtain ⟨q, q1, q2, -⟩ := hJ.dagger ht
  obtain ⟨a, a1, -⟩ := d2.mul3 ht h.h1 hJ
  obtain ⟨s, s1, -⟩ := d2.mul3 ht q2 h.h1
  exact ⟨_, by unfold projMixedOps; simp only [d1, q1, a1, s1, ok_bind]; rfl⟩

theorem Gens.allMixed (ht : ExactTiny tiny) {H2 : Dict ℝ} {L : QLR} (h : Gens W H2 L) :
    ∀ x ∈ L.Q.zipIdx, ∀ y ∈ L.G.zipIdx, ∃ o, allMixedOps tiny W L.H1 x.1 y.1 = .ok o := by
  intro x hx y hy
  obtain ⟨d, d1, d2, -⟩ := (h.g _ (List.mem_of_getElem? (zipIdx_get hy))).dagger ht
  obtain ⟨a, a1, -⟩ := d2.mul3 ht h.h1 (h.q _ (List.mem_of_getElem? (zipIdx_get hx)))
  exact ⟨_, by unfold allMixedOps; simp only [d1, a1, ok_bind]; rfl⟩

theorem elemAt_lt {α : Type} {P : List α} {i : ℕ} (h : i < P.length) : elemAt P i = .ok P[i] := by
  unfold elemAt
  rw [List.getElem?_eq_getElem h]

theorem Gens.act (ht : ExactTiny tiny) {H2 : Dict ℝ} {L : QLR} (h : Gens W H2 L) {P : List (Dict ℝ × Dict ℝ)}
    (hP : L.G.length = P.length) :
    ∀ x ∈ L.G.zipIdx, ∀ y ∈ (L.G.drop x.2).zipIdx x.2, ∃ o, projActOps tiny W L.H0 P x y = .ok o := by
  intro x hx y hy
  have lx := idx_zipIdx hx
  have ly := idx_drop hy lx
  have hJ := h.g _ (List.mem_of_getElem? (zipIdx_get hx))
  obtain ⟨d, d1, d2, -⟩ := (h.g _ (List.mem_of_getElem? (zipIdx_drop_get hy))).dagger ht
  obtain ⟨a, a1, -⟩ := d2.mul3 ht h.h0 hJ
  obtain ⟨s, s1, -⟩ := d2.mul ht hJ
  exact ⟨_, by
    unfold projActOps
    simp only [d1, a1, s1, ok_bind, elemAt_lt (hP ▸ lx), elemAt_lt (hP ▸ ly)]
    rfl⟩

/-! ### Pairs of runs -/

/-- What `h` says of the positions `r`, `c` holds for the entry of the operators at `y` and `x` and its mirror. -/
def AtPair (d y x : ℕ) (h : ℕ → ℕ → Prop) : Prop := h (y + d) (x + d) ∧ h (x + d) (y + d)

section
variable {Ω : Type} {est : Ω → Dict ℝ → ℝ} {e : Ω → ℝ} {m v : Dict ℝ → ℝ} {e0 : ℝ} {H2 : Dict ℝ} {L : QLR}
variable (RA RB RS : ℕ → ℕ → (Ω → ℝ) → ℝ → Prop)

/-- A relation between the matrices of all outcomes and those of `run_std`. -/
def Related (M : Ω → LRMats) (S : LRMats) : Prop :=
  ∀ i j, RA i j (fun ω => (M ω).A i j) (S.A i j) ∧ RB i j (fun ω => (M ω).B i j) (S.B i j) ∧
    RS i j (fun ω => (M ω).Sigma i j) (S.Sigma i j)

/-- The loops over the active operators lead from the matrices `M`, `S` to `M'`, `S'`. -/
def ActRuns (tiny : ℝ → Bool) (W : RespWf) (L : QLR) (est : Ω → Dict ℝ → ℝ) (e : Ω → ℝ) (m v : Dict ℝ → ℝ) (e0 : ℝ)
    (P : List (Dict ℝ × Dict ℝ)) (M : Ω → LRMats) (S : LRMats) (M' : Ω → LRMats) (S' : LRMats) : Prop :=
  (∀ ω, qpActLoop tiny (fun A => .ok (est ω A)) (W.withEnergy (e ω)) L
      (P.map fun p => (est ω p.1, est ω p.2)) (M ω) = .ok (M' ω)) ∧
    stdProjActLoop tiny (fun A => .ok (m A)) (fun A => .ok (v A)) (W.withEnergy e0) L (P.map fun p => (m p.1, m p.2))
      (P.map fun p => (v p.1, v p.2)) (v (W.fold L.H0)) S = .ok S'

theorem act_pair (ht : ExactTiny tiny) (hg : Gens W H2 L) {P : List (Dict ℝ × Dict ℝ)} (hP : L.G.length = P.length)
    (h3 : ∀ x ∈ L.G.zipIdx, ∀ y ∈ (L.G.drop x.2).zipIdx x.2, ∀ o, projActOps tiny W L.H0 P x y = .ok o →
      AtPair L.Q.length y.2 x.2 fun r c =>
        RA r c (fun ω => (actEntry (est ω) (e ω) o).1) (actStd m v e0 (v (W.fold L.H0)) o).1 ∧
        RB r c (fun ω => (actEntry (est ω) (e ω) o).2.1) (actStd m v e0 (v (W.fold L.H0)) o).2.1 ∧
        RS r c (fun ω => (actEntry (est ω) (e ω) o).2.2) (actStd m v e0 (v (W.fold L.H0)) o).2.2)
    {M : Ω → LRMats} {S : LRMats} (h : Related RA RB RS M S) :
    ∃ M' S', ActRuns tiny W L est e m v e0 P M S M' S' ∧ Related RA RB RS M' S' := by
  unfold ActRuns qpActLoop stdProjActLoop
  simp only [and_assoc]
  exact lrLoop_pair (js := L.G.zipIdx) (is := fun j => (L.G.drop j).zipIdx j)
    (ops := fun x y => projActOps tiny W L.H0 P x y) (f := fun ω o => actEntry (est ω) (e ω) o)
    (s := fun o => actStd m v e0 (v (W.fold L.H0)) o)
    (put := fun M i j v => { M with
      A := setSym M.A (i + L.Q.length) (j + L.Q.length) v.1
      B := setSym M.B (i + L.Q.length) (j + L.Q.length) v.2.1
      Sigma := setSym M.Sigma (i + L.Q.length) (j + L.Q.length) v.2.2 })
    (put' := fun M i j v => { M with
      A := setSym M.A (i + L.Q.length) (j + L.Q.length) v.1
      B := setSym M.B (i + L.Q.length) (j + L.Q.length) v.2.1
      Sigma := setSym M.Sigma (i + L.Q.length) (j + L.Q.length) v.2.2 })
    (fun ω k x y => qpAct_ops (est ω) (e ω) L.H0 P x y)
    (fun k x y => stdProjAct_ops m v e0 (v (W.fold L.H0)) L.H0 P x y) (Related RA RB RS) (by
      intro x hx y hy o M S ho hR i j
      obtain ⟨u, w⟩ := h3 x hx y hy o ho
      exact ⟨setSym_pair (fun r c => (hR r c).1) u.1 w.1 i j,
        setSym_pair (fun r c => (hR r c).2.1) u.2.1 w.2.1 i j,
        setSym_pair (fun r c => (hR r c).2.2) u.2.2 w.2.2 i j⟩) (hg.act ht hP) h

/-- The entry of the metric for the first active operator. -/
theorem act_diag (ht : ExactTiny tiny) (hg : Gens W H2 L) {P : List (Dict ℝ × Dict ℝ)} (hP : L.G.length = P.length)
    {g0 : Dict ℝ} {rest : List (Dict ℝ)} (hG : L.G = g0 :: rest)
    {o : Dict ℝ × Dict ℝ × (Dict ℝ × Dict ℝ) × (Dict ℝ × Dict ℝ)}
    (ho : projActOps tiny W L.H0 P (g0, 0) (g0, 0) = .ok o) (D : (Ω → ℝ) → ℝ → Prop)
    (hD : D (fun ω => (actEntry (est ω) (e ω) o).2.2) (actStd m v e0 (v (W.fold L.H0)) o).2.2)
    (M : Ω → LRMats) (S : LRMats) :
    ∃ M' S', ActRuns tiny W L est e m v e0 P M S M' S' ∧
      D (fun ω => (M' ω).Sigma L.Q.length L.Q.length) (S'.Sigma L.Q.length L.Q.length) := by
  have z1 : L.G.zipIdx = (g0, 0) :: rest.zipIdx 1 := by rw [hG, List.zipIdx_cons]
  have z2 : (L.G.drop ((g0, 0) : Dict ℝ × ℕ).2).zipIdx ((g0, 0) : Dict ℝ × ℕ).2 = (g0, 0) :: rest.zipIdx 1 := by
    rw [List.drop_zero, z1]
  have hne : ∀ x ∈ rest.zipIdx 1, x.2 ≠ ((g0, 0) : Dict ℝ × ℕ).2 := by
    intro x hx
    have := (List.mem_zipIdx_iff_le_and_getElem?_sub.1 hx).1
    dsimp only
    omega
  have hok := hg.act ht hP
  rw [z1] at hok
  unfold ActRuns qpActLoop stdProjActLoop
  simp only [z1, and_assoc]
  have e1 := fun ω => lrLoop_first (js := rest.zipIdx 1) (is := fun j => (L.G.drop j).zipIdx j)
    (entry := fun _ x y => qpAct tiny (fun A => .ok (est ω A)) (W.withEnergy (e ω)) L.H0
      (P.map fun p => (est ω p.1, est ω p.2)) x y)
    (put := fun M i j v => { M with
      A := setSym M.A (i + L.Q.length) (j + L.Q.length) v.1
      B := setSym M.B (i + L.Q.length) (j + L.Q.length) v.2.1
      Sigma := setSym M.Sigma (i + L.Q.length) (j + L.Q.length) v.2.2 }) (M := M ω) z2 hne
    (by rw [qpAct_ops, ho]; rfl)
  have e2 := lrLoop_first (js := rest.zipIdx 1) (is := fun j => (L.G.drop j).zipIdx j)
    (entry := fun _ x y => stdProjAct tiny (fun A => .ok (m A)) (fun A => .ok (v A)) (W.withEnergy e0) L.H0
      (P.map fun p => (m p.1, m p.2)) (P.map fun p => (v p.1, v p.2)) (v (W.fold L.H0)) x y)
    (put := fun M i j v => { M with
      A := setSym M.A (i + L.Q.length) (j + L.Q.length) v.1
      B := setSym M.B (i + L.Q.length) (j + L.Q.length) v.2.1
      Sigma := setSym M.Sigma (i + L.Q.length) (j + L.Q.length) v.2.2 }) (M := S) z2 hne
    (by rw [stdProjAct_ops, ho]; rfl)
  simp only [e1, e2]
  refine lrLoop_pair
    (ops := fun x y => projActOps tiny W L.H0 P x y) (f := fun ω o => actEntry (est ω) (e ω) o)
    (s := fun o => actStd m v e0 (v (W.fold L.H0)) o)
    (put := fun M i j v => { M with
      A := setSym M.A (i + L.Q.length) (j + L.Q.length) v.1
      B := setSym M.B (i + L.Q.length) (j + L.Q.length) v.2.1
      Sigma := setSym M.Sigma (i + L.Q.length) (j + L.Q.length) v.2.2 })
    (put' := fun M i j v => { M with
      A := setSym M.A (i + L.Q.length) (j + L.Q.length) v.1
      B := setSym M.B (i + L.Q.length) (j + L.Q.length) v.2.1
      Sigma := setSym M.Sigma (i + L.Q.length) (j + L.Q.length) v.2.2 })
    (fun ω k x y => qpAct_ops (est ω) (e ω) L.H0 P x y)
    (fun k x y => stdProjAct_ops m v e0 (v (W.fold L.H0)) L.H0 P x y)
    (fun M S => D (fun ω => (M ω).Sigma L.Q.length L.Q.length) (S.Sigma L.Q.length L.Q.length)) ?_ ?_ ?_
  · intro x hx y hy o M S _ h
    have h1 : ¬(y.2 = 0 ∧ x.2 = 0) := by
      rintro ⟨hy0, hx0⟩
      rw [if_pos hx0] at hy
      exact hne y hy hy0
    dsimp only
    simp only [setSym_other (a := y.2 + L.Q.length) (b := x.2 + L.Q.length) (i := L.Q.length) (j := L.Q.length)
      (by omega) (by omega)]
    exact h
  · intro x hx y hy
    refine hok x hx y ?_
    by_cases hx0 : x.2 = 0
    · rw [if_pos hx0] at hy
      rw [hx0]
      exact z2 ▸ List.mem_cons_of_mem _ hy
    · rw [if_neg hx0] at hy
      exact hy
  · simpa [setSym, set2] using hD

/-- `run` and `run_std` of projected.py. -/
theorem proj_pair (ht : ExactTiny tiny) (hg : Gens W H2 L) (hM : L.M = LRMats.zero)
    (h2 : hamiltonian2i2a tiny big W.h W.g W.ci.nI W.ci.nA W.ci.nV = .ok H2) {P : List (Dict ℝ × Dict ℝ)}
    (hE : L.G.mapM (expOps tiny W L.H0) = .ok P) {R' : (Ω → LRMats) → LRMats → Prop}
    (r0 : ∀ i j, RA i j (fun _ => 0) 0 ∧ RB i j (fun _ => 0) 0 ∧ RS i j (fun _ => 0) 0)
    (r1 : ∀ i j (o : Dict ℝ × Dict ℝ × Dict ℝ), i < L.Q.length → j < L.Q.length →
      RA i j (fun ω => est ω o.1 - est ω o.2.1) (√(v o.1 + v o.2.1)) ∧ RB i j (fun ω => -est ω o.2.2) (√(v o.2.2)) ∧
      ∀ s, RS i j (fun ω => est ω s) (√(v s)))
    (r2 : ∀ i j (o : Dict ℝ × Dict ℝ), (i < L.Q.length ∧ L.Q.length ≤ j ∨ L.Q.length ≤ i ∧ j < L.Q.length) →
      RA i j (fun ω => est ω o.1) (√(v o.1)) ∧ RB i j (fun ω => -1 / 2 * est ω o.2) (√(1 / 2 * v o.2)))
    (r3 : ∀ M S, Related RA RB RS M S → ∃ M' S', ActRuns tiny W L est e m v e0 P M S M' S' ∧ R' M' S') :
    ∃ M S, (∀ ω dg, qpRun tiny big (fun A => .ok (est ω A)) (W.withEnergy (e ω)) false dg L =
        .ok (M ω, P.map fun p => (est ω p.1, est ω p.2))) ∧
      qpStd tiny big (fun A => .ok (m A)) (fun A => .ok (v A)) (W.withEnergy e0) [] L =
        .ok (S, P.map fun p => (m p.1, m p.2)) ∧ R' M S := by
  obtain ⟨M1, S1, a1, b1, c1⟩ := lrLoop_pair (js := L.Q.zipIdx) (is := fun j => (L.Q.drop j).zipIdx j)
    (f := fun ω o => (est ω o.1 - est ω o.2.1, -est ω o.2.2.1, est ω o.2.2.2))
    (s := fun o => (√(v o.1 + v o.2.1), √(v o.2.2.1), √(v o.2.2.2)))
    (ops := fun x y => orbOps tiny W H2 x.1 y.1)
    (put := fun M i j v => { M with
      A := setSym M.A i j v.1
      B := setSym M.B i j v.2.1
      Sigma := setSym M.Sigma i j v.2.2 })
    (put' := fun M i j v => { M with
      A := setSym M.A i j v.1
      B := setSym M.B i j v.2.1
      Sigma := setSym M.Sigma i j v.2.2 })
    (entry := fun ω _ x y => qOrb tiny (fun A => .ok (est ω A)) (W.withEnergy (e ω)) H2 x.1 y.1)
    (entry' := fun _ x y => stdOrb tiny (fun A => .ok (v A)) (W.withEnergy e0) H2 x.1 y.1)
    (fun ω k x y => qOrb_ops (W := W.withEnergy (e ω)) (est ω) H2 x.1 y.1)
    (fun k x y => stdOrb_ops (W := W.withEnergy e0) v H2 x.1 y.1) (Related RA RB RS) (by
      intro x hx y hy o M S _ hR
      have lx := idx_zipIdx hx
      have ly := idx_drop hy lx
      have u := r1 y.2 x.2 (o.1, o.2.1, o.2.2.1) ly lx
      have w := r1 x.2 y.2 (o.1, o.2.1, o.2.2.1) lx ly
      intro i j
      exact ⟨setSym_pair (fun r c => (hR r c).1) u.1 w.1 i j, setSym_pair (fun r c => (hR r c).2.1) u.2.1 w.2.1 i j,
        setSym_pair (fun r c => (hR r c).2.2) (u.2.2 _) (w.2.2 _) i j⟩) (hg.orb ht)
    (M := fun _ => LRMats.zero) (S := LRMats.zero) (fun i j => r0 i j)
  obtain ⟨M2, S2, a2, b2, c2⟩ := lrLoop_pair (js := L.Q.zipIdx) (is := fun _ => L.G.zipIdx)
    (f := fun ω o => (est ω o.1, -1 / 2 * est ω o.2)) (s := fun o => (√(v o.1), √(1 / 2 * v o.2)))
    (ops := fun x y => projMixedOps tiny W L.H1 x.1 y.1)
    (put := fun M i j v => { M with
      A := setSym M.A j (i + L.Q.length) v.1, B := setSym M.B j (i + L.Q.length) v.2 })
    (put' := fun M i j v => { M with
      A := setSym M.A j (i + L.Q.length) v.1, B := setSym M.B j (i + L.Q.length) v.2 })
    (entry := fun ω _ x y => qpMixed tiny (fun A => .ok (est ω A)) (W.withEnergy (e ω)) L.H1 x.1 y.1)
    (entry' := fun _ x y => stdProjMixed tiny (fun A => .ok (v A)) (W.withEnergy e0) L.H1 x.1 y.1)
    (fun ω k x y => qpMixed_ops (est ω) (e ω) L.H1 x.1 y.1)
    (fun k x y => stdProjMixed_ops v e0 L.H1 x.1 y.1) (Related RA RB RS) (by
      intro x hx y hy o M S _ hR
      have lx := idx_zipIdx hx
      have u := r2 (y.2 + L.Q.length) x.2 o (by omega)
      have w := r2 x.2 (y.2 + L.Q.length) o (by omega)
      intro i j
      exact ⟨setSym_pair (fun r c => (hR r c).1) w.1 u.1 i j, setSym_pair (fun r c => (hR r c).2.1) w.2 u.2 i j,
        (hR i j).2.2⟩) (hg.mixed ht) c1
  obtain ⟨M3, S3, ⟨a3, b3⟩, c3⟩ := r3 _ _ c2
  refine ⟨M3, S3, fun ω dg => ?_, ?_, c3⟩
  · have ho : qOrbBlocks tiny big (fun A => .ok (est ω A)) (W.withEnergy (e ω)) false L.Q L.M = .ok (M1 ω) := by
      rw [hM, ← a1 ω]
      unfold qOrbBlocks
      by_cases hQ : L.Q.length = 0
      · rw [if_neg (by simp [hQ]), List.eq_nil_of_length_eq_zero hQ]
        unfold lrOrbBlocks
        simp
        rfl
      · rw [if_pos ⟨hQ, rfl⟩]
        unfold qOrbLoop
        have h2' : hamiltonian2i2a tiny big (W.withEnergy (e ω)).h (W.withEnergy (e ω)).g (W.withEnergy (e ω)).ci.nI
          (W.withEnergy (e ω)).ci.nA (W.withEnergy (e ω)).ci.nV = .ok H2 := h2
        rw [h2', ok_bind]
    obtain ⟨g, hgr⟩ := hg.grads ht (est ω) (e ω)
    unfold qpRun
    rw [ho]
    by_cases c : L.Q.length ≠ 0 ∧ false = false ∧ dg = true
    · rw [if_pos c]
      simp only [hgr, ok_bind, exp_list (est ω) (e ω) hE, a2 ω, a3 ω, pure_bind]
      rfl
    · rw [if_neg c]
      simp only [ok_bind, exp_list (est ω) (e ω) hE, a2 ω, a3 ω, pure_bind]
      rfl
  · have h2' : hamiltonian2i2a tiny big (W.withEnergy e0).h (W.withEnergy e0).g (W.withEnergy e0).ci.nI
      (W.withEnergy e0).ci.nA (W.withEnergy e0).ci.nV = .ok H2 := h2
    have hq : qexp (fun A => .ok (v A)) (W.withEnergy e0).ci L.H0 = .ok (v (W.fold L.H0)) := rfl
    unfold qpStd stdExp
    rw [if_pos (show ([] : List (ℝ × ℝ)).length = 0 from rfl)]
    simp only [exp_list _ _ hE, ok_bind, h2', hq, b1, b2, b3]
    rfl

/-- `run` and `run_std` of allprojected.py. -/
theorem all_pair (ht : ExactTiny tiny) (hg : Gens W H2 L) (hM : L.M = LRMats.zero)
    (h2 : hamiltonian2i2a tiny big W.h W.g W.ci.nI W.ci.nA W.ci.nV = .ok H2) {P : List (Dict ℝ × Dict ℝ)}
    (hE : L.G.mapM (expOps tiny W L.H0) = .ok P) {R' : (Ω → LRMats) → LRMats → Prop}
    (r0 : ∀ i j, RA i j (fun _ => 0) 0 ∧ RB i j (fun _ => 0) 0 ∧ RS i j (fun _ => 0) 0)
    (r1 : ∀ x ∈ L.Q.zipIdx, ∀ y ∈ (L.Q.drop x.2).zipIdx x.2, ∀ o, allOrbOps tiny W H2 x.1 y.1 = .ok o →
      AtPair 0 y.2 x.2 fun r c =>
        RA r c (fun ω => est ω o.1 - est ω o.2 * e ω) (√(v o.1 + varProd (m o.2) (v o.2) e0 (v (W.fold L.H0)))) ∧
        RS r c (fun ω => est ω o.2) (√(v o.2)))
    (r2 : ∀ i j o, (i < L.Q.length ∧ L.Q.length ≤ j ∨ L.Q.length ≤ i ∧ j < L.Q.length) →
      RA i j (fun ω => est ω o) (√(v o)))
    (r3 : ∀ M S, Related RA RB RS M S → ∃ M' S', ActRuns tiny W L est e m v e0 P M S M' S' ∧ R' M' S') :
    ∃ M S, (∀ ω dg, qaRun tiny big (fun A => .ok (est ω A)) (W.withEnergy (e ω)) dg L =
        .ok (M ω, P.map fun p => (est ω p.1, est ω p.2))) ∧
      qaStd tiny big (fun A => .ok (m A)) (fun A => .ok (v A)) (W.withEnergy e0) [] L =
        .ok (S, P.map fun p => (m p.1, m p.2)) ∧ R' M S := by
  obtain ⟨M1, S1, a1, b1, c1⟩ := lrLoop_pair (js := L.Q.zipIdx) (is := fun j => (L.Q.drop j).zipIdx j)
    (f := fun ω o => (est ω o.1 - est ω o.2 * e ω, est ω o.2))
    (s := fun o => (√(v o.1 + varProd (m o.2) (v o.2) e0 (v (W.fold L.H0))), √(v o.2)))
    (ops := fun x y => allOrbOps tiny W H2 x.1 y.1)
    (put := fun M i j v => { M with A := setSym M.A i j v.1, Sigma := setSym M.Sigma i j v.2 })
    (put' := fun M i j v => { M with A := setSym M.A i j v.1, Sigma := setSym M.Sigma i j v.2 })
    (entry := fun ω _ x y => qaOrb tiny (fun A => .ok (est ω A)) (W.withEnergy (e ω)) H2 x.1 y.1)
    (entry' := fun _ x y => do
      let o ← allOrbOps tiny W H2 x.1 y.1
      pure (√(v o.1 + varProd (m o.2) (v o.2) e0 (v (W.fold L.H0))), √(v o.2)))
    (fun ω k x y => qaOrb_ops (est ω) (e ω) H2 x.1 y.1) (fun k x y => rfl) (Related RA RB RS) (by
      intro x hx y hy o M S ho hR
      obtain ⟨u, w⟩ := r1 x hx y hy o ho
      intro i j
      exact ⟨setSym_pair (fun r c => (hR r c).1) u.1 w.1 i j, (hR i j).2.1,
        setSym_pair (fun r c => (hR r c).2.2) u.2 w.2 i j⟩) (hg.allOrb ht)
    (M := fun _ => LRMats.zero) (S := LRMats.zero) (fun i j => r0 i j)
  rw [← lrLoop_congr (entry := fun _ x y => stdAllOrb tiny (fun A => .ok (m A)) (fun A => .ok (v A)) (W.withEnergy e0)
    (v (W.fold L.H0)) H2 x.1 y.1) (fun k x hx y hy => stdAllOrb_ops m v e0 _ (hg.allOrb ht x hx y hy))] at b1
  obtain ⟨M2, S2, a2, b2, c2⟩ := lrLoop_pair (js := L.Q.zipIdx) (is := fun _ => L.G.zipIdx)
    (f := fun ω o => est ω o) (s := fun o => √(v o))
    (ops := fun x y => allMixedOps tiny W L.H1 x.1 y.1)
    (put := fun M i j v => { M with A := setSym M.A j (i + L.Q.length) v })
    (put' := fun M i j v => { M with A := setSym M.A j (i + L.Q.length) v })
    (entry := fun ω _ x y => qaMixed tiny (fun A => .ok (est ω A)) (W.withEnergy (e ω)) L.H1 x.1 y.1)
    (entry' := fun _ x y => stdAllMixed tiny (fun A => .ok (v A)) (W.withEnergy e0) L.H1 x.1 y.1)
    (fun ω k x y => qaMixed_ops (est ω) (e ω) L.H1 x.1 y.1)
    (fun k x y => stdAllMixed_ops v e0 L.H1 x.1 y.1) (Related RA RB RS) (by
      intro x hx y hy o M S _ hR
      have lx := idx_zipIdx hx
      have u := r2 (y.2 + L.Q.length) x.2 o (by omega)
      have w := r2 x.2 (y.2 + L.Q.length) o (by omega)
      intro i j
      exact ⟨setSym_pair (fun r c => (hR r c).1) w u i j, (hR i j).2.1, (hR i j).2.2⟩) (hg.allMixed ht) c1
  obtain ⟨M3, S3, ⟨a3, b3⟩, c3⟩ := r3 _ _ c2
  refine ⟨M3, S3, fun ω dg => ?_, ?_, c3⟩
  · obtain ⟨g, hgr⟩ := hg.grads ht (est ω) (e ω)
    have a1' := a1 ω
    have h0 : L.Q.length = 0 → qaH2 tiny big (W.withEnergy (e ω)) L.Q = .ok [] := fun h => by
      unfold qaH2
      rw [if_neg (not_not.2 h)]
      rfl
    have h1 : L.Q.length ≠ 0 → qaH2 tiny big (W.withEnergy (e ω)) L.Q = .ok H2 := fun h => by
      unfold qaH2
      rw [if_pos h]
      exact h2
    have hx : ∃ X, qaH2 tiny big (W.withEnergy (e ω)) L.Q = .ok X ∧
        lrLoop L.Q.zipIdx (fun j => (L.Q.drop j).zipIdx j) (fun qJ => pure qJ)
          (fun _ x y => qaOrb tiny (fun A => .ok (est ω A)) (W.withEnergy (e ω)) X x.1 y.1)
          (fun M i j v => { M with A := setSym M.A i j v.1, Sigma := setSym M.Sigma i j v.2 }) L.M = .ok (M1 ω) := by
      by_cases hQ : L.Q.length = 0
      · refine ⟨[], h0 hQ, ?_⟩
        rw [hM, ← a1', List.eq_nil_of_length_eq_zero hQ]
        rfl
      · exact ⟨H2, h1 hQ, by rw [hM, ← a1']⟩
    obtain ⟨X, x1, x2⟩ := hx
    unfold qaRun
    cases dg
    · simp only [x1, ok_bind, exp_list (est ω) (e ω) hE, x2, a2 ω, a3 ω, pure_bind]
      rfl
    · simp only [x1, ok_bind, exp_list (est ω) (e ω) hE, hgr, x2, a2 ω, a3 ω, pure_bind]
      rfl
  · have h2' : hamiltonian2i2a tiny big (W.withEnergy e0).h (W.withEnergy e0).g (W.withEnergy e0).ci.nI
      (W.withEnergy e0).ci.nA (W.withEnergy e0).ci.nV = .ok H2 := h2
    have hq : qexp (fun A => .ok (v A)) (W.withEnergy e0).ci L.H0 = .ok (v (W.fold L.H0)) := rfl
    unfold qaStd stdExp
    rw [if_pos (show ([] : List (ℝ × ℝ)).length = 0 from rfl)]
    simp only [exp_list _ _ hE, ok_bind, h2', hq, b1, b2, b3]
    rfl

end

end

end SQ
