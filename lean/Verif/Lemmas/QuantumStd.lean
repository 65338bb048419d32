import Verif.Lemmas.RandomMats
import Verif.Lemmas.ResponseBlocks

/-!
# Lemmas: standard deviations of the matrices of naive linear response
-/

namespace SQ

open MeasureTheory ProbabilityTheory

section
variable {tiny big : ℝ → Bool} {W : RespWf}

/-! ### The operators of the entries -/

/-- The four operators of an entry of the orbital-orbital blocks. -/
def orbOps (tiny : ℝ → Bool) (W : RespWf) (H2 qJ qI : Dict ℝ) : Res (Dict ℝ × Dict ℝ × Dict ℝ × Dict ℝ) := do
  let qId ← fdagger tiny qI
  let a ← mul3 tiny qId H2 qJ
  let b ← mul3 tiny qId qJ H2
  let qJd ← fdagger tiny qJ
  let c ← mul3 tiny qId qJd H2
  let d ← fmul tiny qId qJ
  let fold := getFolded W.ci.nI W.ci.nA W.ci.nV
  pure (fold a, fold b, fold c, fold d)

/-- The six operators of an entry of the mixed blocks. -/
def mixedOps (tiny : ℝ → Bool) (W : RespWf) (H1 qJ GI : Dict ℝ) :
    Res ((Dict ℝ × Dict ℝ × Dict ℝ) × Dict ℝ × Dict ℝ × Dict ℝ) := do
  let GId ← fdagger tiny GI
  let a1 ← mul3 tiny GId H1 qJ
  let a2 ← mul3 tiny H1 qJ GId
  let a3 ← mul3 tiny H1 GId qJ
  let qJd ← fdagger tiny qJ
  let b1 ← mul3 tiny qJd H1 GId
  let b2 ← mul3 tiny GId qJd H1
  let b3 ← mul3 tiny qJd GId H1
  let fold := getFolded W.ci.nI W.ci.nA W.ci.nV
  pure ((fold a1, fold a2, fold a3), fold b1, fold b2, fold b3)

/-- The three operators of an entry of the active-active blocks. -/
noncomputable def actOps (tiny : ℝ → Bool) (W : RespWf) (H0 GJ GI : Dict ℝ) :
    Res (Dict ℝ × Dict ℝ × Dict ℝ) := do
  let GId ← fdagger tiny GI
  let a ← doubleCommutatorSym tiny GId H0 GJ
  let GJd ← fdagger tiny GJ
  let b ← doubleCommutator tiny GId H0 GJd
  let c ← commutatorOp tiny GId GJ
  let fold := getFolded W.ci.nI W.ci.nA W.ci.nV
  pure (fold a, fold b, fold c)

theorem orbOps_ok (ht : ExactTiny tiny) {H2 qJ qI : Dict ℝ} (h2 : GenOp W.ci H2) (hJ : GenOp W.ci qJ)
    (hI : GenOp W.ci qI) : ∃ o, orbOps tiny W H2 qJ qI = .ok o := by
  obtain ⟨Id, i1, i2, -⟩ := hI.dagger ht
  obtain ⟨Jd, j1, j2, -⟩ := hJ.dagger ht
  obtain ⟨a, a1, -⟩ := i2.mul3 ht h2 hJ
  obtain ⟨b, b1, -⟩ := i2.mul3 ht hJ h2
  obtain ⟨c, c1, -⟩ := i2.mul3 ht j2 h2
  obtain ⟨d, d1, -⟩ := i2.mul ht hJ
  exact ⟨_, by unfold orbOps; simp only [i1, j1, a1, b1, c1, d1, ok_bind]; rfl⟩

theorem mixedOps_ok (ht : ExactTiny tiny) {H1 qJ GI : Dict ℝ} (h1 : GenOp W.ci H1) (hJ : GenOp W.ci qJ)
    (hI : GenOp W.ci GI) : ∃ o, mixedOps tiny W H1 qJ GI = .ok o := by
  obtain ⟨Id, i1, i2, -⟩ := hI.dagger ht
  obtain ⟨Jd, j1, j2, -⟩ := hJ.dagger ht
  obtain ⟨a, a1, -⟩ := i2.mul3 ht h1 hJ
  obtain ⟨b, b1, -⟩ := h1.mul3 ht hJ i2
  obtain ⟨c, c1, -⟩ := h1.mul3 ht i2 hJ
  obtain ⟨d, d1, -⟩ := j2.mul3 ht h1 i2
  obtain ⟨e, e1, -⟩ := i2.mul3 ht j2 h1
  obtain ⟨f, f1, -⟩ := j2.mul3 ht i2 h1
  exact ⟨_, by unfold mixedOps; simp only [i1, j1, a1, b1, c1, d1, e1, f1, ok_bind]; rfl⟩

theorem actOps_ok (ht : ExactTiny tiny) {H0 GJ GI : Dict ℝ} (h0 : GenOp W.ci H0) (hJ : GenOp W.ci GJ)
    (hI : GenOp W.ci GI) : ∃ o, actOps tiny W H0 GJ GI = .ok o := by
  obtain ⟨Id, i1, i2, -⟩ := hI.dagger ht
  obtain ⟨Jd, j1, j2, -⟩ := hJ.dagger ht
  obtain ⟨a, a1, -⟩ := i2.doubleCommSym ht h0 hJ
  obtain ⟨b, b1, -⟩ := i2.doubleComm ht h0 j2
  obtain ⟨c, c1, -⟩ := i2.commutator ht hJ
  exact ⟨_, by unfold actOps; simp only [i1, j1, a1, b1, c1, ok_bind]; rfl⟩

/-! ### The entries in terms of the operators -/

theorem qOrb_ops (f : Dict ℝ → ℝ) (H2 qJ qI : Dict ℝ) :
    qOrb tiny (fun A => .ok (f A)) W H2 qJ qI = (do
      let o ← orbOps tiny W H2 qJ qI
      pure (f o.1 - f o.2.1, -f o.2.2.1, f o.2.2.2)) := by
  unfold qOrb orbOps qexp
  simp only [ok_bind, bind_assoc, pure_bind]

theorem stdOrb_ops (f : Dict ℝ → ℝ) (H2 qJ qI : Dict ℝ) :
    stdOrb tiny (fun A => .ok (f A)) W H2 qJ qI = (do
      let o ← orbOps tiny W H2 qJ qI
      pure (√(f o.1 + f o.2.1), √(f o.2.2.1), √(f o.2.2.2))) := by
  unfold stdOrb orbOps qexp
  simp only [ok_bind, bind_assoc, pure_bind]

theorem qnMixed_ops (f : Dict ℝ → ℝ) (H1 qJ GI : Dict ℝ) :
    qnMixed tiny (fun A => .ok (f A)) W H1 qJ GI = (do
      let o ← mixedOps tiny W H1 qJ GI
      pure (f o.1.1 - 1 / 2 * f o.1.2.1 - 1 / 2 * f o.1.2.2, f o.2.1 - 1 / 2 * f o.2.2.1 - 1 / 2 * f o.2.2.2)) := by
  unfold qnMixed mixedOps qexp
  simp only [ok_bind, bind_assoc, pure_bind]

theorem stdMixed_ops (f : Dict ℝ → ℝ) (H1 qJ GI : Dict ℝ) :
    stdMixed tiny (fun A => .ok (f A)) W H1 qJ GI = (do
      let o ← mixedOps tiny W H1 qJ GI
      pure (√(f o.1.1 + 1 / 2 * f o.1.2.1 + 1 / 2 * f o.1.2.2),
        √(f o.2.1 + 1 / 2 * f o.2.2.1 + 1 / 2 * f o.2.2.2))) := by
  unfold stdMixed mixedOps qexp
  simp only [ok_bind, bind_assoc, pure_bind]

theorem qnAct_ops (f : Dict ℝ → ℝ) (H0 GJ GI : Dict ℝ) :
    qnAct tiny (fun A => .ok (f A)) W H0 GJ GI = (do
      let o ← actOps tiny W H0 GJ GI
      pure (f o.1, f o.2.1, f o.2.2)) := by
  unfold qnAct actOps qexp
  simp only [ok_bind, bind_assoc, pure_bind]

theorem stdAct_ops (f : Dict ℝ → ℝ) (H0 GJ GI : Dict ℝ) :
    stdAct tiny (fun A => .ok (f A)) W H0 GJ GI = (do
      let o ← actOps tiny W H0 GJ GI
      pure (√(f o.1), √(f o.2.1), √(f o.2.2))) := by
  unfold stdAct actOps qexp
  simp only [ok_bind, bind_assoc, pure_bind]

/-! ### The three loops -/

/-- The three loops with entries `e1`, `e2`, `e3` computed from operators. -/
noncomputable def opsRun (tiny : ℝ → Bool) (W : RespWf) (H2 : Dict ℝ) (L : QLR)
    (e1 : Dict ℝ × Dict ℝ × Dict ℝ × Dict ℝ → ℝ × ℝ × ℝ)
    (e2 : (Dict ℝ × Dict ℝ × Dict ℝ) × Dict ℝ × Dict ℝ × Dict ℝ → ℝ × ℝ) (e3 : Dict ℝ × Dict ℝ × Dict ℝ → ℝ × ℝ × ℝ)
    (M : LRMats) : Res LRMats := do
  let sh := L.Q.length
  let M ← lrLoop L.Q.zipIdx (fun j => (L.Q.drop j).zipIdx j) (fun qJ => pure qJ)
    (fun _ x y => do let o ← orbOps tiny W H2 x.1 y.1; pure (e1 o))
    (fun M i j v => { M with
      A := setSym M.A i j v.1
      B := setSym M.B i j v.2.1
      Sigma := setSym M.Sigma i j v.2.2 }) M
  let M ← lrLoop L.Q.zipIdx (fun _ => L.G.zipIdx) (fun qJ => pure qJ)
    (fun _ x y => do let o ← mixedOps tiny W L.H1 x.1 y.1; pure (e2 o))
    (fun M i j v => { M with A := setSym M.A (i + sh) j v.1, B := setSym M.B (i + sh) j v.2 }) M
  lrLoop L.G.zipIdx (fun j => (L.G.drop j).zipIdx j) (fun GJ => pure GJ)
    (fun _ x y => do let o ← actOps tiny W L.H0 x.1 y.1; pure (e3 o))
    (fun M i j v => { M with
      A := setSym M.A (i + sh) (j + sh) v.1
      B := setSym M.B (i + sh) (j + sh) v.2.1
      Sigma := setSym M.Sigma (i + sh) (j + sh) v.2.2 }) M

theorem qnStd_ops (f : Dict ℝ → ℝ) {L : QLR} {H2 : Dict ℝ}
    (h2 : hamiltonian2i2a tiny big W.h W.g W.ci.nI W.ci.nA W.ci.nV = .ok H2) :
    qnStd tiny big (fun A => .ok (f A)) W L = opsRun tiny W H2 L
      (fun o => (√(f o.1 + f o.2.1), √(f o.2.2.1), √(f o.2.2.2)))
      (fun o => (√(f o.1.1 + 1 / 2 * f o.1.2.1 + 1 / 2 * f o.1.2.2),
        √(f o.2.1 + 1 / 2 * f o.2.2.1 + 1 / 2 * f o.2.2.2)))
      (fun o => (√(f o.1), √(f o.2.1), √(f o.2.2))) LRMats.zero := by
  unfold qnStd opsRun
  simp only [h2, ok_bind, stdOrb_ops, stdMixed_ops, stdAct_ops]

theorem qnRun_ops (f : Dict ℝ → ℝ) {L : QLR} {H2 : Dict ℝ} (doGradients : Bool)
    (h2 : hamiltonian2i2a tiny big W.h W.g W.ci.nI W.ci.nA W.ci.nV = .ok H2)
    (g1 : ∃ v, L.Q.mapM (qGradQ tiny (fun A => .ok (f A)) W L.H1) = .ok v)
    (g2 : ∃ v, L.G.mapM (qGradG tiny (fun A => .ok (f A)) W L.H0) = .ok v) :
    qnRun tiny big (fun A => .ok (f A)) W false doGradients L = opsRun tiny W H2 L
      (fun o => (f o.1 - f o.2.1, -f o.2.2.1, f o.2.2.2))
      (fun o => (f o.1.1 - 1 / 2 * f o.1.2.1 - 1 / 2 * f o.1.2.2, f o.2.1 - 1 / 2 * f o.2.2.1 - 1 / 2 * f o.2.2.2))
      (fun o => (f o.1, f o.2.1, f o.2.2)) L.M := by
  obtain ⟨v1, g1⟩ := g1
  obtain ⟨v2, g2⟩ := g2
  have ho : qOrbBlocks tiny big (fun A => .ok (f A)) W false L.Q L.M =
      lrLoop L.Q.zipIdx (fun j => (L.Q.drop j).zipIdx j) (fun qJ => pure qJ)
        (fun _ x y => do
          let o ← orbOps tiny W H2 x.1 y.1
          pure (f o.1 - f o.2.1, -f o.2.2.1, f o.2.2.2))
        (fun M i j v => { M with
          A := setSym M.A i j v.1
          B := setSym M.B i j v.2.1
          Sigma := setSym M.Sigma i j v.2.2 }) L.M := by
    unfold qOrbBlocks
    by_cases hQ : L.Q.length = 0
    · rw [if_neg (by simp [hQ]), List.eq_nil_of_length_eq_zero hQ]
      unfold lrOrbBlocks
      simp
      rfl
    · rw [if_pos ⟨hQ, rfl⟩]
      unfold qOrbLoop
      simp only [h2, ok_bind, qOrb_ops]
  unfold qnRun opsRun
  rw [ho]
  by_cases c1 : L.Q.length ≠ 0 <;> by_cases c2 : doGradients = true
  all_goals simp only [g1, g2, ok_bind, qnMixed_ops, qnAct_ops]
  all_goals simp [*]

/-- The operators of all entries can be computed. -/
structure OpsOK (tiny : ℝ → Bool) (W : RespWf) (H2 : Dict ℝ) (L : QLR) : Prop where
  orb : ∀ x ∈ L.Q.zipIdx, ∀ y ∈ (L.Q.drop x.2).zipIdx x.2, ∃ o, orbOps tiny W H2 x.1 y.1 = .ok o
  mixed : ∀ x ∈ L.Q.zipIdx, ∀ y ∈ L.G.zipIdx, ∃ o, mixedOps tiny W L.H1 x.1 y.1 = .ok o
  act : ∀ x ∈ L.G.zipIdx, ∀ y ∈ (L.G.drop x.2).zipIdx x.2, ∃ o, actOps tiny W L.H0 x.1 y.1 = .ok o

/-- The relations between two runs of the loops that hold entry by entry. -/
theorem opsRun_pair {Ω : Type} {H2 : Dict ℝ} {L : QLR} (hok : OpsOK tiny W H2 L)
    {e1 : Ω → Dict ℝ × Dict ℝ × Dict ℝ × Dict ℝ → ℝ × ℝ × ℝ}
    {e2 : Ω → (Dict ℝ × Dict ℝ × Dict ℝ) × Dict ℝ × Dict ℝ × Dict ℝ → ℝ × ℝ}
    {e3 : Ω → Dict ℝ × Dict ℝ × Dict ℝ → ℝ × ℝ × ℝ}
    {s1 : Dict ℝ × Dict ℝ × Dict ℝ × Dict ℝ → ℝ × ℝ × ℝ}
    {s2 : (Dict ℝ × Dict ℝ × Dict ℝ) × Dict ℝ × Dict ℝ × Dict ℝ → ℝ × ℝ} {s3 : Dict ℝ × Dict ℝ × Dict ℝ → ℝ × ℝ × ℝ}
    (RA RB RS : ℕ → ℕ → (Ω → ℝ) → ℝ → Prop)
    (h0 : ∀ i j, RA i j (fun _ => 0) 0 ∧ RB i j (fun _ => 0) 0 ∧ RS i j (fun _ => 0) 0)
    (h1 : ∀ i j o, i < L.Q.length → j < L.Q.length → RA i j (fun ω => (e1 ω o).1) (s1 o).1 ∧
      RB i j (fun ω => (e1 ω o).2.1) (s1 o).2.1 ∧ RS i j (fun ω => (e1 ω o).2.2) (s1 o).2.2)
    (h2 : ∀ i j o, (i < L.Q.length ∧ L.Q.length ≤ j ∨ L.Q.length ≤ i ∧ j < L.Q.length) →
      RA i j (fun ω => (e2 ω o).1) (s2 o).1 ∧ RB i j (fun ω => (e2 ω o).2) (s2 o).2)
    (h3 : ∀ i j o, L.Q.length ≤ i → L.Q.length ≤ j → RA i j (fun ω => (e3 ω o).1) (s3 o).1 ∧
      RB i j (fun ω => (e3 ω o).2.1) (s3 o).2.1 ∧ RS i j (fun ω => (e3 ω o).2.2) (s3 o).2.2) :
    ∃ (M : Ω → LRMats) (S : LRMats), (∀ ω, opsRun tiny W H2 L (e1 ω) (e2 ω) (e3 ω) LRMats.zero = .ok (M ω)) ∧
      opsRun tiny W H2 L s1 s2 s3 LRMats.zero = .ok S ∧
      ∀ i j, RA i j (fun ω => (M ω).A i j) (S.A i j) ∧ RB i j (fun ω => (M ω).B i j) (S.B i j) ∧
        RS i j (fun ω => (M ω).Sigma i j) (S.Sigma i j) := by
  let P : (Ω → LRMats) → LRMats → Prop := fun M S =>
    ∀ i j, RA i j (fun ω => (M ω).A i j) (S.A i j) ∧ RB i j (fun ω => (M ω).B i j) (S.B i j) ∧
      RS i j (fun ω => (M ω).Sigma i j) (S.Sigma i j)
  have p0 : P (fun _ => LRMats.zero) LRMats.zero := fun i j => h0 i j
  obtain ⟨M1, S1, a1, b1, c1⟩ := lrLoop_pair (js := L.Q.zipIdx) (is := fun j => (L.Q.drop j).zipIdx j) (f := e1) (s := s1)
    (ops := fun x y => orbOps tiny W H2 x.1 y.1)
    (put := fun M i j v => { M with
      A := setSym M.A i j v.1
      B := setSym M.B i j v.2.1
      Sigma := setSym M.Sigma i j v.2.2 })
    (put' := fun M i j v => { M with
      A := setSym M.A i j v.1
      B := setSym M.B i j v.2.1
      Sigma := setSym M.Sigma i j v.2.2 })
    (fun ω k x y => rfl) (fun k x y => rfl) P (by
      intro x hx y hy o M S _ hP
      have lx := idx_zipIdx hx
      have ly := idx_drop hy lx
      have u := h1 y.2 x.2 o ly lx
      have v := h1 x.2 y.2 o lx ly
      intro i j
      exact ⟨setSym_pair (fun r c => (hP r c).1) u.1 v.1 i j, setSym_pair (fun r c => (hP r c).2.1) u.2.1 v.2.1 i j,
        setSym_pair (fun r c => (hP r c).2.2) u.2.2 v.2.2 i j⟩) hok.orb p0
  obtain ⟨M2, S2, a2, b2, c2⟩ := lrLoop_pair (js := L.Q.zipIdx) (is := fun _ => L.G.zipIdx) (f := e2) (s := s2)
    (ops := fun x y => mixedOps tiny W L.H1 x.1 y.1)
    (put := fun M i j v => { M with
      A := setSym M.A (i + L.Q.length) j v.1, B := setSym M.B (i + L.Q.length) j v.2 })
    (put' := fun M i j v => { M with
      A := setSym M.A (i + L.Q.length) j v.1, B := setSym M.B (i + L.Q.length) j v.2 })
    (fun ω k x y => rfl) (fun k x y => rfl) P (by
      intro x hx y hy o M S _ hP
      have lx := idx_zipIdx hx
      have u := h2 (y.2 + L.Q.length) x.2 o (by omega)
      have v := h2 x.2 (y.2 + L.Q.length) o (by omega)
      intro i j
      exact ⟨setSym_pair (fun r c => (hP r c).1) u.1 v.1 i j, setSym_pair (fun r c => (hP r c).2.1) u.2 v.2 i j,
        (hP i j).2.2⟩) hok.mixed c1
  obtain ⟨M3, S3, a3, b3, c3⟩ := lrLoop_pair (js := L.G.zipIdx) (is := fun j => (L.G.drop j).zipIdx j) (f := e3) (s := s3)
    (ops := fun x y => actOps tiny W L.H0 x.1 y.1)
    (put := fun M i j v => { M with
      A := setSym M.A (i + L.Q.length) (j + L.Q.length) v.1
      B := setSym M.B (i + L.Q.length) (j + L.Q.length) v.2.1
      Sigma := setSym M.Sigma (i + L.Q.length) (j + L.Q.length) v.2.2 })
    (put' := fun M i j v => { M with
      A := setSym M.A (i + L.Q.length) (j + L.Q.length) v.1
      B := setSym M.B (i + L.Q.length) (j + L.Q.length) v.2.1
      Sigma := setSym M.Sigma (i + L.Q.length) (j + L.Q.length) v.2.2 })
    (fun ω k x y => rfl) (fun k x y => rfl) P (by
      intro x hx y hy o M S _ hP
      have u := h3 (y.2 + L.Q.length) (x.2 + L.Q.length) o (by omega) (by omega)
      have v := h3 (x.2 + L.Q.length) (y.2 + L.Q.length) o (by omega) (by omega)
      intro i j
      exact ⟨setSym_pair (fun r c => (hP r c).1) u.1 v.1 i j, setSym_pair (fun r c => (hP r c).2.1) u.2.1 v.2.1 i j,
        setSym_pair (fun r c => (hP r c).2.2) u.2.2 v.2.2 i j⟩) hok.act c2
  refine ⟨M3, S3, fun ω => ?_, ?_, c3⟩
  · unfold opsRun
    simp only [a1 ω, ok_bind]
    simp only [a2 ω, ok_bind]
    exact a3 ω
  · unfold opsRun
    simp only [b1, ok_bind]
    simp only [b2, ok_bind]
    exact b3

/-- What the constructor leaves. -/
theorem qlrInit_std (ht : ExactTiny tiny) (hb : ExactBig big) (hW : W.Proper) (excitations : String) :
    ∃ L H2, qlrInit tiny big W excitations = .ok L ∧ L.M = LRMats.zero ∧ L.Q.length = W.kappa.length ∧
      hamiltonian2i2a tiny big W.h W.g W.ci.nI W.ci.nA W.ci.nV = .ok H2 ∧ OpsOK tiny W H2 L ∧
      ∀ f : Dict ℝ → ℝ, (∃ v, L.Q.mapM (qGradQ tiny (fun A => .ok (f A)) W L.H1) = .ok v) ∧
        ∃ v, L.G.mapM (qGradG tiny (fun A => .ok (f A)) W L.H0) = .ok v := by
  obtain ⟨G, hG, opsG, excG⟩ := lrG_ok ht hW excitations
  obtain ⟨Q, hQ, fQ⟩ := lrQ_ok ht hW
  obtain ⟨H1, h1, h1g, h1s⟩ := ham1_gen ht hb W.h W.g W.ci
  obtain ⟨H0, h0, h0g, h0s⟩ := ham0_gen ht hb W.h W.g W.ci
  obtain ⟨H2, h2, h2g, h2s⟩ := ham2_gen ht hb W.h W.g W.ci
  have gQ : ∀ q ∈ Q, GenOp W.ci q := by
    intro q hq
    obtain ⟨i, hi⟩ := List.getElem?_of_mem hq
    have li := (List.getElem?_eq_some_iff.1 hi).1
    have hR := (List.forall₂_iff_get.1 fQ).2 i (by rw [fQ.length_eq]; exact li) li
    rw [List.get_eq_getElem, List.get_eq_getElem, (List.getElem?_eq_some_iff.1 hi).2] at hR
    exact hR.1
  have gG : ∀ g ∈ G, GenOp W.ci g := fun g hg => (excG g hg).1.gen
  refine ⟨⟨H0, H1, G, Q, LRMats.zero⟩, H2, by unfold qlrInit; simp only [h0, h1, hG, hQ, ok_bind]; rfl, rfl,
    fQ.length_eq.symm, h2, ⟨?_, ?_, ?_⟩, fun f => ⟨?_, ?_⟩⟩
  · intro x hx y hy
    exact orbOps_ok ht h2g (gQ _ (List.mem_of_getElem? (zipIdx_get hx)))
      (gQ _ (List.mem_of_getElem? (zipIdx_drop_get hy)))
  · intro x hx y hy
    exact mixedOps_ok ht h1g (gQ _ (List.mem_of_getElem? (zipIdx_get hx)))
      (gG _ (List.mem_of_getElem? (zipIdx_get hy)))
  · intro x hx y hy
    exact actOps_ok ht h0g (gG _ (List.mem_of_getElem? (zipIdx_get hx)))
      (gG _ (List.mem_of_getElem? (zipIdx_drop_get hy)))
  · obtain ⟨v, hv, -⟩ := mapM_ok_exists (f := qGradQ tiny (fun A => .ok (f A)) W H1) (fun _ _ => True) Q (by
      intro q hq
      obtain ⟨a, a1, -⟩ := h1g.mul ht (gQ q hq)
      obtain ⟨d, d1, d2, -⟩ := (gQ q hq).dagger ht
      obtain ⟨b, b1, -⟩ := d2.mul ht h1g
      exact ⟨_, by unfold qGradQ qexp; simp only [a1, d1, b1, ok_bind]; rfl, trivial⟩)
    exact ⟨v, hv⟩
  · obtain ⟨v, hv, -⟩ := mapM_ok_exists (f := qGradG tiny (fun A => .ok (f A)) W H0) (fun _ _ => True) G (by
      intro q hq
      obtain ⟨a, a1, -⟩ := h0g.commutator ht (gG q hq)
      obtain ⟨d, d1, d2, -⟩ := (gG q hq).dagger ht
      obtain ⟨b, b1, -⟩ := d2.commutator ht h0g
      exact ⟨_, by unfold qGradG qexp; simp only [a1, d1, b1, ok_bind]; rfl, trivial⟩)
    exact ⟨v, hv⟩

end

end SQ
