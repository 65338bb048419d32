import Verif.Spec.QubitMap
import Verif.Lemmas.PauliBasis
import Verif.Lemmas.ProjStd
import Verif.Lemmas.ReadOutRun

/-!
# Lemmas: the labels listed for the matrices of linear response
-/

namespace SQ

/-! ### Numbers that depend on few labels -/

/-- `X` only depends on the values of the labels `l`. -/
def Fix (X : (List Char → ℝ) → ℝ) (l : List (List Char)) : Prop := ∀ v v', (∀ p ∈ l, v p = v' p) → X v = X v'

theorem Fix.mono {X : (List Char → ℝ) → ℝ} {l m : List (List Char)} (h : Fix X l) (hs : ∀ p ∈ l, p ∈ m) : Fix X m :=
  fun v v' e => h v v' fun p hp => e p (hs p hp)

theorem Fix.const (x : ℝ) (l : List (List Char)) : Fix (fun _ => x) l := fun _ _ _ => rfl

theorem Fix.both {X Y : (List Char → ℝ) → ℝ} {l m k : List (List Char)} (hX : Fix X l) (hY : Fix Y m) (hl : ∀ p ∈ l, p ∈ k)
    (hm : ∀ p ∈ m, p ∈ k) (f : ℝ → ℝ → ℝ) : Fix (fun v => f (X v) (Y v)) k := fun v v' e => by
  dsimp only
  rw [hX.mono hl v v' e, hY.mono hm v v' e]

/-- Labels that can be handed to `Clique.add_paulis`. -/
def LabsOK (n : ℕ) (l : List (List Char)) : Prop := l ≠ [] ∧ ∀ p ∈ l, p.length = n

theorem LabsOK.append {n : ℕ} {l m : List (List Char)} (hl : LabsOK n l) (hm : ∀ p ∈ m, p.length = n) : LabsOK n (l ++ m) :=
  ⟨by simp [hl.1], fun p hp => (List.mem_append.1 hp).elim (hl.2 p) (hm p)⟩

/-- The labels `l` are usable and fix `X`. -/
def Pins (n : ℕ) (X : (List Char → ℝ) → ℝ) (l : List (List Char)) : Prop := LabsOK n l ∧ Fix X l

section
variable {tiny big : ℝ → Bool} {map : SDict ℝ → Res (List (List Char × ℂ))} {W : RespWf}
  {qev : (List Char → ℝ) → Dict ℝ → Res ℝ} {e : (List Char → ℝ) → ℝ}

theorem fold_below {A : Dict ℝ} (hA : GenOp W.ci A) :
    WF (W.fold A) ∧ ∀ kv ∈ W.fold A, ∀ o ∈ kv.1, o.1 < 2 * W.ci.nA := by
  obtain ⟨f1, f2⟩ := getFolded_inv hA.1 hA.2
  exact ⟨f1.wf, fun kv hk o ho => (f2 kv hk).1 o ho⟩

theorem opToQbit_labels {norb : ℕ} (hM : JWMapper (2 * norb) map) {op : Dict ℝ} {obs : List (List Char × ℂ)}
    (ho : opToQbit map norb op = .ok obs) : obs ≠ [] ∧ ∀ pc ∈ obs, PauliLabel (2 * norb) pc.1 := by
  unfold opToQbit at ho
  cases ef : getQiskitForm norb op with
  | error e => rw [ef] at ho; cases ho
  | ok form => rw [ef] at ho; exact hM.labels _ _ ho

theorem fix_valueWith (obs : List (List Char × ℂ)) : Fix (fun v => valueWith v obs) (obs.map Prod.fst) :=
  fun _ _ h => valueWith_same (o2 := obs) (fun _ => rfl) h

theorem qlab_of {A : Dict ℝ} {obs : List (List Char × ℂ)} (h : opToQbit map W.ci.nA (W.fold A) = .ok obs) :
    qlab map W.ci A = .ok (obs.map Prod.fst) := by
  unfold RespWf.fold at h
  unfold qlab
  rw [h]
  rfl

/-- An operator that is measured: its value is fixed by its labels. -/
theorem read_ok (hM : JWMapper (2 * W.ci.nA) map) (hr : ∀ v, ReadsValues map W.ci.nA v (qev v)) {A : Dict ℝ}
    (hA : GenOp W.ci A) : ∃ X l, (∀ v, qexp (qev v) W.ci A = .ok (X v)) ∧ qlab map W.ci A = .ok l ∧
      Pins (2 * W.ci.nA) X l := by
  obtain ⟨f1, f2⟩ := fold_below hA
  obtain ⟨obs, o1, -⟩ := opToQbit_ok hM f1 f2
  obtain ⟨p1, p2⟩ := opToQbit_labels hM o1
  refine ⟨fun v => valueWith v obs, obs.map Prod.fst, fun v => hr v _ obs o1, qlab_of o1,
    ⟨by simpa using p1, fun p hp => ?_⟩, fix_valueWith obs⟩
  obtain ⟨pc, h1, rfl⟩ := List.mem_map.1 hp
  exact (p2 pc h1).1

/-- Two operators with the same action on the active orbitals: the labels of one fix the value of the other. -/
theorem read_same (hM : JWMapper (2 * W.ci.nA) map) (hr : ∀ v, ReadsValues map W.ci.nA v (qev v)) {A B : Dict ℝ}
    (hA : GenOp W.ci A) (hB : GenOp W.ci B)
    (hs : ∀ x y, ActiveState W.ci.nI W.ci.nA x → ActiveState W.ci.nI W.ci.nA y → inner x (sumOp A y) = inner x (sumOp B y)) :
    ∃ X l, (∀ v, qexp (qev v) W.ci A = .ok (X v)) ∧ qlab map W.ci B = .ok l ∧ Pins (2 * W.ci.nA) X l := by
  obtain ⟨f1, f2⟩ := fold_below hA
  obtain ⟨g1, g2⟩ := fold_below hB
  obtain ⟨obs, o1, o2⟩ := opToQbit_ok hM f1 f2
  obtain ⟨obs', q1, q2⟩ := opToQbit_ok hM g1 g2
  obtain ⟨-, p2⟩ := opToQbit_labels hM o1
  obtain ⟨r1, r2⟩ := opToQbit_labels hM q1
  have same : ∀ x, Below (2 * W.ci.nA) x → sumOp (W.fold A) x = sumOp (W.fold B) x := by
    intro x hx
    refine eq_of_inner (below_of f2 hx) (below_of g2 hx) fun z hz => ?_
    unfold RespWf.fold
    rw [getFolded_sem _ _ _ A hA.1.ord hA.1.bal (fun kv hk o ho => (hA.2 kv hk).1 o ho) hz hx,
      getFolded_sem _ _ _ B hB.1.ord hB.1.bal (fun kv hk o ho => (hB.2 kv hk).1 o ho) hz hx]
    exact hs _ _ (activeState_core hz) (activeState_core hx)
  have coeffs := labelCoeff_unique p2 r2 (by
    intro b
    let d : List Char := List.ofFn fun p : Fin (2 * W.ci.nA) =>
      if b ⟨f2q p W.ci.nA, f2q_bound p.2⟩ = true then '1' else '0'
    have hd : IsDet W.ci.nA d := by
      refine ⟨by simp [d], fun c hc => ?_⟩
      obtain ⟨i, rfl⟩ := (List.mem_ofFn' _ _).1 hc
      dsimp only
      split_ifs <;> simp
    have hb : detBits W.ci.nA d = b := by
      funext q
      unfold detBits
      have e : d[modeOf W.ci.nA q]? = some (if b q = true then '1' else '0') := by
        rw [List.getElem?_eq_getElem (by rw [hd.1]; exact modeOf_lt q.2), List.getElem_ofFn]
        simp only [f2q_modeOf q.2]
      rw [e]
      cases b q <;> simp
    have hx : Below (2 * W.ci.nA) (sgl (detSet d) ((-1) ^ (crossings d).card) : Fock ℝ) := by
      refine below_sgl (fun q hq => ?_) _
      have := (Finset.mem_filter.1 hq).1
      rw [Finset.mem_range, hd.1] at this
      exact this
    have hreg : basis b = onRegister W.ci.nA (sgl (detSet d) ((-1) ^ (crossings d).card)) := by
      rw [onRegister_sgl hd, hb, ← mul_pow]
      norm_num
    rw [hreg, o2 _ hx, q2 _ hx, same _ hx])
  refine ⟨fun v => valueWith v obs, obs'.map Prod.fst, fun v => hr v _ obs o1, qlab_of q1,
    ⟨by simpa using r1, fun p hp => ?_⟩, fun _ _ h => valueWith_same coeffs h⟩
  obtain ⟨pc, h1, rfl⟩ := List.mem_map.1 hp
  exact (r2 pc h1).1

/-! ### Operators that agree between active states -/

/-- The operators agree between active states. -/
def Same (ci : CIInfo) (P Q : Module.End ℝ (Fock ℝ)) : Prop :=
  ∀ x y, ActiveState ci.nI ci.nA x → ActiveState ci.nI ci.nA y → inner x (P y) = inner x (Q y)

theorem Same.left {ci : CIInfo} (ht : ExactTiny tiny) {P Q : Module.End ℝ (Fock ℝ)} (h : Same ci P Q) {T : Dict ℝ}
    (hT : ActOp ci T) : Same ci (sumOp T * P) (sumOp T * Q) := by
  intro x y hx hy
  obtain ⟨d, -, d2, d3⟩ := hT.dagger ht
  rw [Module.End.mul_apply, Module.End.mul_apply, ← d3.symm, ← d3.symm]
  exact h _ _ (active_sumOp d2.2 hx) hy

theorem Same.right {ci : CIInfo} {P Q : Module.End ℝ (Fock ℝ)} (h : Same ci P Q) {T : Dict ℝ} (hT : ActOp ci T) :
    Same ci (P * sumOp T) (Q * sumOp T) := fun x y hx hy => by
  rw [Module.End.mul_apply, Module.End.mul_apply]
  exact h _ _ hx (active_sumOp hT.2 hy)

theorem Same.sub {ci : CIInfo} {P Q P' Q' : Module.End ℝ (Fock ℝ)} (h : Same ci P Q) (h' : Same ci P' Q') :
    Same ci (P - P') (Q - Q') := fun x y hx hy => by
  rw [LinearMap.sub_apply, LinearMap.sub_apply, inner_sub_right, inner_sub_right, h x y hx hy, h' x y hx hy]

theorem Same.add {ci : CIInfo} {P Q P' Q' : Module.End ℝ (Fock ℝ)} (h : Same ci P Q) (h' : Same ci P' Q') :
    Same ci (P + P') (Q + Q') := fun x y hx hy => by
  rw [LinearMap.add_apply, LinearMap.add_apply, inner_add_right, inner_add_right, h x y hx hy, h' x y hx hy]

theorem Same.smul {ci : CIInfo} {P Q : Module.End ℝ (Fock ℝ)} (h : Same ci P Q) (c : ℝ) : Same ci (c • P) (c • Q) :=
  fun x y hx hy => by
  rw [LinearMap.smul_apply, LinearMap.smul_apply, inner_smul_right, inner_smul_right, h x y hx hy]

theorem Same.commL {ci : CIInfo} (ht : ExactTiny tiny) {P Q : Module.End ℝ (Fock ℝ)} (h : Same ci P Q) {T : Dict ℝ}
    (hT : ActOp ci T) : Same ci (comm (sumOp T) P) (comm (sumOp T) Q) := (h.left ht hT).sub (h.right hT)

theorem Same.commR {ci : CIInfo} (ht : ExactTiny tiny) {P Q : Module.End ℝ (Fock ℝ)} (h : Same ci P Q) {T : Dict ℝ}
    (hT : ActOp ci T) : Same ci (comm P (sumOp T)) (comm Q (sumOp T)) := (h.right hT).sub (h.left ht hT)

/-! ### The entries -/

@[simp] theorem withEnergy_ci (x : ℝ) : (W.withEnergy x).ci = W.ci := rfl

theorem fix3 {X Y Z : (List Char → ℝ) → ℝ} {l m k : List (List Char)} (hX : Fix X l) (hY : Fix Y m) (hZ : Fix Z k)
    (f : ℝ → ℝ → ℝ → ℝ) : Fix (fun v => f (X v) (Y v) (Z v)) (l ++ m ++ k) := fun v v' h => by
  dsimp only
  rw [hX v v' fun p hp => h p (by simp [hp]), hY v v' fun p hp => h p (by simp [hp]), hZ v v' fun p hp => h p (by simp [hp])]

theorem orbEntry (ht : ExactTiny tiny) (hM : JWMapper (2 * W.ci.nA) map) (hr : ∀ v, ReadsValues map W.ci.nA v (qev v))
    {H2 qJ qI : Dict ℝ} (h2 : GenOp W.ci H2) (hJ : GenOp W.ci qJ) (hI : GenOp W.ci qI) :
    ∃ (f : (List Char → ℝ) → ℝ × ℝ × ℝ) (s : List (List Char) × List (List Char) × List (List Char)), (∀ v, qOrb tiny (qev v) (W.withEnergy (e v)) H2 qJ qI = .ok (f v)) ∧ mapOrb tiny map W H2 qJ qI = .ok s ∧
      Pins (2 * W.ci.nA) (fun v => (f v).1) s.1 ∧ Pins (2 * W.ci.nA) (fun v => (f v).2.1) s.2.1 ∧
      Pins (2 * W.ci.nA) (fun v => (f v).2.2) s.2.2 := by
  obtain ⟨qId, a1, a2, -⟩ := hI.dagger ht
  obtain ⟨qJd, b1, b2, -⟩ := hJ.dagger ht
  obtain ⟨c, c1, c2, -⟩ := a2.mul3 ht h2 hJ
  obtain ⟨d, d1, d2, -⟩ := a2.mul3 ht hJ h2
  obtain ⟨g, g1, g2, -⟩ := a2.mul3 ht b2 h2
  obtain ⟨s, s1, s2, -⟩ := a2.mul ht hJ
  obtain ⟨X1, l1, x1, y1, z1⟩ := read_ok hM hr c2
  obtain ⟨X2, l2, x2, y2, z2⟩ := read_ok hM hr d2
  obtain ⟨X3, l3, x3, y3, z3⟩ := read_ok hM hr g2
  obtain ⟨X4, l4, x4, y4, z4⟩ := read_ok hM hr s2
  refine ⟨fun v => (X1 v - X2 v, -X3 v, X4 v), (l1 ++ l2, l3, l4), fun v => ?_, ?_, ⟨z1.1.append z2.1.2, ?_⟩, ⟨z3.1, ?_⟩, z4⟩
  · unfold qOrb
    simp only [a1, b1, c1, d1, g1, s1, ok_bind, withEnergy_ci, x1, x2, x3, x4]
    rfl
  · unfold mapOrb
    simp only [a1, b1, c1, d1, g1, s1, ok_bind, y1, y2, y3, y4]
    rfl
  · exact z1.2.both z2.2 (by simp +contextual) (by simp +contextual) fun a b => a - b
  · exact z3.2.both z3.2 (fun _ h => h) (fun _ h => h) fun a _ => -a

theorem nMixedEntry (ht : ExactTiny tiny) (hM : JWMapper (2 * W.ci.nA) map) (hr : ∀ v, ReadsValues map W.ci.nA v (qev v))
    {H1 qJ GI : Dict ℝ} (h1 : GenOp W.ci H1) (hJ : GenOp W.ci qJ) (hI : GenOp W.ci GI) :
    ∃ (f : (List Char → ℝ) → ℝ × ℝ) (s : List (List Char) × List (List Char)), (∀ v, qnMixed tiny (qev v) (W.withEnergy (e v)) H1 qJ GI = .ok (f v)) ∧ mapMixed tiny map W H1 qJ GI = .ok s ∧
      Pins (2 * W.ci.nA) (fun v => (f v).1) s.1 ∧ Pins (2 * W.ci.nA) (fun v => (f v).2) s.2 := by
  obtain ⟨Id, i1, i2, -⟩ := hI.dagger ht
  obtain ⟨qd, c1, c2, -⟩ := hJ.dagger ht
  obtain ⟨a, a1, a2, -⟩ := i2.mul3 ht h1 hJ
  obtain ⟨b, b1, b2, -⟩ := h1.mul3 ht hJ i2
  obtain ⟨c, d1, d2, -⟩ := h1.mul3 ht i2 hJ
  obtain ⟨d, e1, e2, -⟩ := c2.mul3 ht h1 i2
  obtain ⟨g, g1, g2, -⟩ := i2.mul3 ht c2 h1
  obtain ⟨k, k1, k2, -⟩ := c2.mul3 ht i2 h1
  obtain ⟨X1, l1, x1, y1, z1⟩ := read_ok hM hr a2
  obtain ⟨X2, l2, x2, y2, z2⟩ := read_ok hM hr b2
  obtain ⟨X3, l3, x3, y3, z3⟩ := read_ok hM hr d2
  obtain ⟨X4, l4, x4, y4, z4⟩ := read_ok hM hr e2
  obtain ⟨X5, l5, x5, y5, z5⟩ := read_ok hM hr g2
  obtain ⟨X6, l6, x6, y6, z6⟩ := read_ok hM hr k2
  refine ⟨fun v => (X1 v - 1 / 2 * X2 v - 1 / 2 * X3 v, X4 v - 1 / 2 * X5 v - 1 / 2 * X6 v), (l1 ++ l2 ++ l3, l4 ++ l5 ++ l6),
    fun v => ?_, ?_, ⟨(z1.1.append z2.1.2).append z3.1.2, ?_⟩, ⟨(z4.1.append z5.1.2).append z6.1.2, ?_⟩⟩
  · unfold qnMixed
    simp only [i1, c1, a1, b1, d1, e1, g1, k1, ok_bind, withEnergy_ci, x1, x2, x3, x4, x5, x6]
    rfl
  · unfold mapMixed
    simp only [i1, c1, a1, b1, d1, e1, g1, k1, ok_bind, y1, y2, y3, y4, y5, y6]
    rfl
  · exact fix3 z1.2 z2.2 z3.2 fun a b c => a - 1 / 2 * b - 1 / 2 * c
  · exact fix3 z4.2 z5.2 z6.2 fun a b c => a - 1 / 2 * b - 1 / 2 * c

theorem nActEntry (ht : ExactTiny tiny) (hM : JWMapper (2 * W.ci.nA) map) (hr : ∀ v, ReadsValues map W.ci.nA v (qev v))
    {H0 H1 GJ GI : Dict ℝ} (h0 : GenOp W.ci H0) (h1 : GenOp W.ci H1) (hs : Same W.ci (sumOp H0) (sumOp H1))
    (hJ : ActOp W.ci GJ) (hI : ActOp W.ci GI) :
    ∃ (f : (List Char → ℝ) → ℝ × ℝ × ℝ) (s : List (List Char) × List (List Char) × List (List Char)), (∀ v, qnAct tiny (qev v) (W.withEnergy (e v)) H0 GJ GI = .ok (f v)) ∧ mapAct tiny map W H1 GJ GI = .ok s ∧
      Pins (2 * W.ci.nA) (fun v => (f v).1) s.1 ∧ Pins (2 * W.ci.nA) (fun v => (f v).2.1) s.2.1 ∧
      Pins (2 * W.ci.nA) (fun v => (f v).2.2) s.2.2 := by
  obtain ⟨Id, i1, i2, -⟩ := hI.dagger ht
  obtain ⟨Jd, j1, j2, -⟩ := hJ.dagger ht
  obtain ⟨a, a1, a2, a3⟩ := i2.gen.doubleCommSym ht h0 hJ.gen
  obtain ⟨b, b1, b2, b3⟩ := i2.gen.doubleComm ht h0 j2.gen
  obtain ⟨a', a1', a2', a3'⟩ := i2.gen.doubleCommSym ht h1 hJ.gen
  obtain ⟨b', b1', b2', b3'⟩ := i2.gen.doubleComm ht h1 j2.gen
  obtain ⟨s, s1, s2, -⟩ := i2.gen.commutator ht hJ.gen
  obtain ⟨X1, l1, x1, y1, z1⟩ := read_same hM hr a2 a2' (by
    rw [a3, a3']
    unfold dcomm
    exact (((hs.commR ht hJ).commL ht i2).add ((hs.commL ht i2).commR ht hJ)).smul _)
  obtain ⟨X2, l2, x2, y2, z2⟩ := read_same hM hr b2 b2' (by
    rw [b3, b3']
    exact (hs.commR ht j2).commL ht i2)
  obtain ⟨X3, l3, x3, y3, z3⟩ := read_ok hM hr s2
  refine ⟨fun v => (X1 v, X2 v, X3 v), (l1, l2, l3), fun v => ?_, ?_, z1, z2, z3⟩
  · unfold qnAct
    simp only [i1, j1, a1, b1, s1, ok_bind, withEnergy_ci, x1, x2, x3]
    rfl
  · unfold mapAct
    simp only [i1, j1, a1', b1', s1, ok_bind, y1, y2, y3]
    rfl

theorem pMixedEntry (ht : ExactTiny tiny) (hM : JWMapper (2 * W.ci.nA) map) (hr : ∀ v, ReadsValues map W.ci.nA v (qev v))
    {H1 qJ GI : Dict ℝ} (h1 : GenOp W.ci H1) (hJ : GenOp W.ci qJ) (hI : GenOp W.ci GI) :
    (∃ (f : (List Char → ℝ) → ℝ × ℝ) (s : List (List Char) × List (List Char)), (∀ v, qpMixed tiny (qev v) (W.withEnergy (e v)) H1 qJ GI = .ok (f v)) ∧ mapProjMixed tiny map W H1 qJ GI = .ok s ∧
      Pins (2 * W.ci.nA) (fun v => (f v).1) s.1 ∧ Pins (2 * W.ci.nA) (fun v => (f v).2) s.2) ∧
    ∃ (f : (List Char → ℝ) → ℝ) (s : List (List Char)), (∀ v, qaMixed tiny (qev v) (W.withEnergy (e v)) H1 qJ GI = .ok (f v)) ∧ mapAllMixed tiny map W H1 qJ GI = .ok s ∧
      Pins (2 * W.ci.nA) f s := by
  obtain ⟨Id, i1, i2, -⟩ := hI.dagger ht
  obtain ⟨qd, c1, c2, -⟩ := hJ.dagger ht
  obtain ⟨a, a1, a2, -⟩ := i2.mul3 ht h1 hJ
  obtain ⟨g, g1, g2, -⟩ := i2.mul3 ht c2 h1
  obtain ⟨X1, l1, x1, y1, z1⟩ := read_ok hM hr a2
  obtain ⟨X2, l2, x2, y2, z2⟩ := read_ok hM hr g2
  refine ⟨⟨fun v => (X1 v, -1 / 2 * X2 v), (l1, l2), fun v => ?_, ?_, z1, z2.1, ?_⟩, X1, l1, fun v => ?_, ?_, z1⟩
  · unfold qpMixed
    simp only [i1, c1, a1, g1, ok_bind, withEnergy_ci, x1, x2]
    rfl
  · unfold mapProjMixed
    simp only [i1, c1, a1, g1, ok_bind, y1, y2]
    rfl
  · exact z2.2.both z2.2 (fun _ h => h) (fun _ h => h) fun a _ => -1 / 2 * a
  · unfold qaMixed
    simp only [i1, a1, ok_bind, withEnergy_ci, x1]
  · unfold mapAllMixed
    simp only [i1, a1, ok_bind, y1]

theorem allOrbEntry (ht : ExactTiny tiny) (hM : JWMapper (2 * W.ci.nA) map) (hr : ∀ v, ReadsValues map W.ci.nA v (qev v))
    {H2 qJ qI : Dict ℝ} (h2 : GenOp W.ci H2) (hJ : GenOp W.ci qJ) (hI : GenOp W.ci qI) {energy : List (List Char)}
    (hE : Pins (2 * W.ci.nA) e energy) :
    ∃ (f : (List Char → ℝ) → ℝ × ℝ) (s : List (List Char) × List (List Char)), (∀ v, qaOrb tiny (qev v) (W.withEnergy (e v)) H2 qJ qI = .ok (f v)) ∧
      mapAllOrb tiny map W (some H2) energy qJ qI = .ok s ∧
      Pins (2 * W.ci.nA) (fun v => (f v).1) s.1 ∧ Pins (2 * W.ci.nA) (fun v => (f v).2) s.2 := by
  obtain ⟨qId, a1, a2, -⟩ := hI.dagger ht
  obtain ⟨c, c1, c2, -⟩ := a2.mul3 ht h2 hJ
  obtain ⟨s, s1, s2, -⟩ := a2.mul ht hJ
  obtain ⟨X1, l1, x1, y1, z1⟩ := read_ok hM hr c2
  obtain ⟨X2, l2, x2, y2, z2⟩ := read_ok hM hr s2
  refine ⟨fun v => (X1 v - X2 v * e v, X2 v), (l1 ++ (l2 ++ energy), l2), fun v => ?_, ?_, ⟨z1.1.append (z2.1.append hE.1.2).2, ?_⟩, z2⟩
  · unfold qaOrb
    simp only [a1, c1, s1, ok_bind, withEnergy_ci, x1, x2]
    rfl
  · unfold mapAllOrb
    simp only [a1, c1, s1, ok_bind, y1, y2]
    rfl
  · have := fix3 z1.2 z2.2 hE.2 fun a b c => a - b * c
    rwa [List.append_assoc] at this

/-- `_G_exp` and `_HG_exp`, and their labels. -/
theorem expEntries (ht : ExactTiny tiny) (hM : JWMapper (2 * W.ci.nA) map) (hr : ∀ v, ReadsValues map W.ci.nA v (qev v))
    {H0 : Dict ℝ} (h0 : GenOp W.ci H0) (G : List (Dict ℝ)) (hG : ∀ g ∈ G, GenOp W.ci g) :
    ∃ (X : List (((List Char → ℝ) → ℝ) × ((List Char → ℝ) → ℝ))) (E : List (List (List Char) × List (List Char))),
      (∀ v, G.mapM (qpExp tiny (qev v) (W.withEnergy (e v)) H0) = .ok (X.map fun x => (x.1 v, x.2 v))) ∧
      G.mapM (mapExp tiny map W H0) = .ok E ∧ X.length = G.length ∧
      List.Forall₂ (fun x l => Pins (2 * W.ci.nA) x.1 l.1 ∧ Pins (2 * W.ci.nA) x.2 l.2) X E := by
  induction G with
  | nil => exact ⟨[], [], fun _ => rfl, rfl, rfl, .nil⟩
  | cons g G ih =>
    obtain ⟨X, E, h1, h2, h3, h4⟩ := ih fun x hx => hG x (by simp [hx])
    have hg := hG g (by simp)
    obtain ⟨a, a1, a2, -⟩ := h0.mul ht hg
    obtain ⟨X1, l1, x1, y1, z1⟩ := read_ok hM hr hg
    obtain ⟨X2, l2, x2, y2, z2⟩ := read_ok hM hr a2
    refine ⟨(X1, X2) :: X, (l1, l2) :: E, fun v => ?_, ?_, by simp [h3], .cons ⟨z1, z2⟩ h4⟩
    · rw [List.mapM_cons, h1]
      unfold qpExp
      simp only [a1, ok_bind, withEnergy_ci, x1, x2]
      rfl
    · rw [List.mapM_cons, h2]
      unfold mapExp
      simp only [a1, ok_bind, y1, y2]
      rfl

theorem pActEntry (ht : ExactTiny tiny) (hM : JWMapper (2 * W.ci.nA) map) (hr : ∀ v, ReadsValues map W.ci.nA v (qev v))
    {H0 : Dict ℝ} (h0 : GenOp W.ci H0) {GJ GI : Dict ℝ × ℕ} (hJ : GenOp W.ci GJ.1) (hI : GenOp W.ci GI.1)
    {energy : List (List Char)} (hE : Pins (2 * W.ci.nA) e energy)
    {X : List (((List Char → ℝ) → ℝ) × ((List Char → ℝ) → ℝ))} {E : List (List (List Char) × List (List Char))}
    (hX : List.Forall₂ (fun x l => Pins (2 * W.ci.nA) x.1 l.1 ∧ Pins (2 * W.ci.nA) x.2 l.2) X E)
    (lJ : GJ.2 < X.length) (lI : GI.2 < X.length) (lost : Bool) :
    ∃ (f : (List Char → ℝ) → ℝ × ℝ × ℝ) (s : List (List Char) × List (List Char) × List (List Char)), (∀ v, qpAct tiny (qev v) (W.withEnergy (e v)) H0 (X.map fun x => (x.1 v, x.2 v)) GJ GI = .ok (f v)) ∧
      mapProjAct tiny map lost W H0 energy E GJ GI = .ok s ∧
      Pins (2 * W.ci.nA) (fun v => (f v).1) s.1 ∧
      (LabsOK (2 * W.ci.nA) s.2.1 ∧ (lost = false ∨ GJ.2 = GI.2 → Fix (fun v => (f v).2.1) s.2.1)) ∧
      Pins (2 * W.ci.nA) (fun v => (f v).2.2) s.2.2 := by
  obtain ⟨Id, i1, i2, -⟩ := hI.dagger ht
  obtain ⟨a, a1, a2, -⟩ := i2.mul3 ht h0 hJ
  obtain ⟨s, s1, s2, -⟩ := i2.mul ht hJ
  obtain ⟨X1, l1, x1, y1, z1⟩ := read_ok hM hr a2
  obtain ⟨X2, l2, x2, y2, z2⟩ := read_ok hM hr s2
  have lE := hX.length_eq
  have pJ := (List.forall₂_iff_get.1 hX).2 GJ.2 lJ (lE ▸ lJ)
  have pI := (List.forall₂_iff_get.1 hX).2 GI.2 lI (lE ▸ lI)
  rw [List.get_eq_getElem, List.get_eq_getElem] at pJ pI
  have qJ : ∀ v, qpAt (X.map fun x => (x.1 v, x.2 v)) GJ.2 = .ok (X[GJ.2].1 v, X[GJ.2].2 v) := fun v => by
    unfold qpAt
    rw [List.getElem?_map, List.getElem?_eq_getElem lJ]
    rfl
  have qI : ∀ v, qpAt (X.map fun x => (x.1 v, x.2 v)) GI.2 = .ok (X[GI.2].1 v, X[GI.2].2 v) := fun v => by
    unfold qpAt
    rw [List.getElem?_map, List.getElem?_eq_getElem lI]
    rfl
  have mJ : mapAt E GJ.2 = .ok E[GJ.2] := by unfold mapAt; rw [List.getElem?_eq_getElem (lE ▸ lJ)]
  have mI : mapAt E GI.2 = .ok E[GI.2] := by unfold mapAt; rw [List.getElem?_eq_getElem (lE ▸ lI)]
  have hij : GJ.2 = GI.2 → X[GJ.2] = X[GI.2] ∧ E[GJ.2] = E[GI.2] := fun h => by
    constructor <;> congr 1
  generalize X[GJ.2] = xj at *
  generalize X[GI.2] = xi at *
  generalize E[GJ.2] = ej at *
  generalize E[GI.2] = ei at *
  obtain ⟨⟨gj, hj⟩, kj, hj'⟩ := pJ
  obtain ⟨⟨gi, hi⟩, ki, hi'⟩ := pI
  refine ⟨_, _, fun v => by
    unfold qpAct
    simp only [i1, a1, s1, ok_bind, withEnergy_ci, x1, x2, qJ, qI]
    rfl, by
    unfold mapProjAct
    simp only [i1, a1, s1, ok_bind, y1, y2, mJ, mI]
    rfl, ⟨?_, ?_⟩, ⟨?_, ?_⟩, ⟨?_, ?_⟩⟩
  · exact (((z1.1.append (z2.1.append hE.1.2).2).append (gi.append kj.2).2).append (gj.append ki.2).2).append
      ((gi.append gj.2).append hE.1.2).2
  · intro v v' h
    dsimp only [RespWf.withEnergy]
    rw [z1.2 v v' fun p hp => h p (by simp [hp]), z2.2 v v' fun p hp => h p (by simp [hp]),
      hE.2 v v' fun p hp => h p (by simp [hp]), hi v v' fun p hp => h p (by simp [hp]),
      hj v v' fun p hp => h p (by simp [hp]), hi' v v' fun p hp => h p (by simp [hp]),
      hj' v v' fun p hp => h p (by simp [hp])]
  · have base : LabsOK (2 * W.ci.nA) ((ej.2 ++ ei.1) ++ (ei.1 ++ ej.1 ++ energy)) :=
      (kj.append gi.2).append ((gi.append gj.2).append hE.1.2).2
    cases lost
    · exact ((ki.append gj.2).append (kj.append gi.2).2).append ((gi.append gj.2).append hE.1.2).2
    · exact base
  · rintro (rfl | hl) v v' h
    · simp only [Bool.false_eq_true, if_false] at h
      dsimp only [RespWf.withEnergy]
      rw [hE.2 v v' fun p hp => h p (by simp [hp]), hi v v' fun p hp => h p (by simp [hp]),
        hj v v' fun p hp => h p (by simp [hp]), hi' v v' fun p hp => h p (by simp [hp]),
        hj' v v' fun p hp => h p (by simp [hp])]
    · obtain ⟨rfl, rfl⟩ := hij hl
      dsimp only [RespWf.withEnergy]
      rw [hE.2 v v' fun p hp => h p (by simp [hp]), hj v v' fun p hp => h p (by simp [hp]),
        hj' v v' fun p hp => h p (by simp [hp])]
  · exact (z2.1.append gi.2).append gj.2
  · exact fix3 z2.2 hi hj fun a b c => a - b * c

end

end SQ
