import Verif.Lemmas.QubitMap

/-!
# Lemmas: the arrays of labels beside the matrices of a run
-/

namespace SQ

/-! ### Two loops over the same positions -/

theorem loops_pair {Ω α β ν ν' : Type} {js : List (α × ℕ)} {is : ℕ → List (β × ℕ)} {entry : Ω → α → α × ℕ → β × ℕ → Res ν}
    {entry' : α × ℕ → β × ℕ → Res ν'} {put : LRMats → ℕ → ℕ → ν → LRMats} {put' : LabMats → ℕ → ℕ → ν' → LabMats}
    (P : (Ω → LRMats) → LabMats → Prop)
    (h : ∀ x ∈ js, ∀ y ∈ is x.2, ∃ (f : Ω → ν) (s : ν'), (∀ ω, entry ω x.1 x y = .ok (f ω)) ∧ entry' x y = .ok s ∧
      ∀ M S, P M S → P (fun ω => put (M ω) y.2 x.2 (f ω)) (put' S y.2 x.2 s)) {M : Ω → LRMats} {S : LabMats} (h0 : P M S) :
    ∃ M' S', (∀ ω, lrLoop js is (fun x => pure x) (entry ω) put (M ω) = .ok (M' ω)) ∧ labLoop js is entry' put' S = .ok S' ∧
      P M' S' := by
  have inner : ∀ (x : α × ℕ) (l : List (β × ℕ)), (∀ y ∈ l, ∃ (f : Ω → ν) (s : ν'), (∀ ω, entry ω x.1 x y = .ok (f ω)) ∧ entry' x y = .ok s ∧
      ∀ M S, P M S → P (fun ω => put (M ω) y.2 x.2 (f ω)) (put' S y.2 x.2 s)) → ∀ (M : Ω → LRMats) (S : LabMats), P M S →
      ∃ M' S', (∀ ω, l.foldlM (fun M y => do let v ← entry ω x.1 x y; pure (put M y.2 x.2 v)) (M ω) = .ok (M' ω)) ∧
        l.foldlM (fun S y => do let v ← entry' x y; pure (put' S y.2 x.2 v)) S = .ok S' ∧ P M' S' := by
    intro x l
    induction l with
    | nil => exact fun _ M S h0 => ⟨M, S, fun _ => rfl, rfl, h0⟩
    | cons y l ih =>
      intro hl M S h0
      obtain ⟨f, s, a1, a2, a3⟩ := hl y (by simp)
      obtain ⟨M', S', b1, b2, b3⟩ := ih (fun z hz => hl z (by simp [hz])) _ _ (a3 M S h0)
      refine ⟨M', S', fun ω => ?_, ?_, b3⟩
      · rw [List.foldlM_cons, a1]; exact b1 ω
      · rw [List.foldlM_cons, a2]; exact b2
  induction js generalizing M S with
  | nil => exact ⟨M, S, fun _ => rfl, rfl, h0⟩
  | cons x js ih =>
    obtain ⟨M1, S1, a1, a2, a3⟩ := inner x (is x.2) (h x (by simp)) M S h0
    obtain ⟨M', S', b1, b2, b3⟩ := ih (fun y hy => h y (by simp [hy])) a3
    refine ⟨M', S', fun ω => ?_, ?_, b3⟩
    · unfold lrLoop at b1 ⊢
      rw [List.foldlM_cons, pure_bind, a1]
      exact b1 ω
    · unfold labLoop at b2 ⊢
      rw [List.foldlM_cons, a2]
      exact b2

/-! ### What is tracked -/

/-- A written entry has usable labels. -/
def LabO (n : ℕ) (o : Option (List (List Char))) : Prop := ∀ l, o = some l → LabsOK n l

/-- An entry with the labels beside it; `g` tells whether they fix the entry. -/
def Track (n : ℕ) (g : Prop) (X : (List Char → ℝ) → ℝ) (o : Option (List (List Char))) : Prop :=
  LabO n o ∧ (g → Fix X (o.getD []))

theorem Pins.track {n : ℕ} {g : Prop} {X : (List Char → ℝ) → ℝ} {l : List (List Char)} (h : Pins n X l) :
    Track n g X (some l) := ⟨fun l' e => by cases e; exact h.1, fun _ => h.2⟩

theorem sym_pair {n : ℕ} {g : ℕ → ℕ → Prop} {X : (List Char → ℝ) → Mat ℝ} {Y : ℕ → ℕ → Option (List (List Char))} {i j : ℕ}
    {f : (List Char → ℝ) → ℝ} {s : List (List Char)} (h : ∀ r c, Track n (g r c) (fun v => X v r c) (Y r c))
    (h1 : Track n (g i j) f (some s)) (h2 : Track n (g j i) f (some s)) (r c : ℕ) :
    Track n (g r c) (fun v => setSym (X v) i j (f v) r c) (labSym Y i j s r c) := by
  unfold setSym set2 labSym
  by_cases a : r = j ∧ c = i
  · obtain ⟨rfl, rfl⟩ := a
    simpa using h2
  · by_cases b : r = i ∧ c = j
    · obtain ⟨rfl, rfl⟩ := b
      simp only [a, if_false, and_self, if_true, true_or]
      simpa using h1
    · simpa only [a, b, if_false, or_self] using h r c

/-- All entries of the matrices. -/
def Tracks (n : ℕ) (gB : ℕ → ℕ → Prop) (M : (List Char → ℝ) → LRMats) (S : LabMats) : Prop :=
  (∀ r c, Track n True (fun v => (M v).A r c) (S.A r c)) ∧ (∀ r c, Track n (gB r c) (fun v => (M v).B r c) (S.B r c)) ∧
    ∀ r c, Track n True (fun v => (M v).Sigma r c) (S.Sigma r c)

theorem tracks_const {n : ℕ} {gB : ℕ → ℕ → Prop} (M : LRMats) : Tracks n gB (fun _ => M) LabMats.blank :=
  ⟨fun _ _ => ⟨fun _ e => (by cases e), fun _ => Fix.const _ _⟩,
    fun _ _ => ⟨fun _ e => (by cases e), fun _ => Fix.const _ _⟩,
    fun _ _ => ⟨fun _ e => (by cases e), fun _ => Fix.const _ _⟩⟩

/-! ### The end -/

/-- Whatever is measured with the labels of the first entry is known from those of the second. -/
def Keep (cliques : Bool) (o o' : Option (List (List Char))) : Prop := ∀ p ∈ o.getD [], Known cliques o' p

theorem labHeads_ok {n : ℕ} {o : Option (List (List Char))} (h : LabO n o) :
    ∃ o', labHeads o = .ok o' ∧ Keep true o o' := by
  cases o with
  | none => exact ⟨none, rfl, fun p hp => by simp at hp⟩
  | some l =>
    obtain ⟨hl, hn⟩ := h l rfl
    have h0 : HeadsInv n [] (headsOf []) := ⟨by simp [headsOf], by simp [headsOf], by simp⟩
    obtain ⟨i1, i2⟩ := addPaulis_inv hn h0
    have e := addPaulis_eq [] l (fun hh => hl hh.2)
    obtain ⟨hs, e1⟩ := newHeads_total (cs := (addPaulis [] l).2) (by
      intro c hc
      rcases i2 c hc with h | h
      · simp at h
      · exact ⟨true, by rw [h]; rfl⟩)
    have e2 : (addPaulis [] l).1 = .ok hs := by
      rw [e] at e1 ⊢
      exact e1
    refine ⟨some ((addPaulis [] l).2.map fun c => c.head), ?_, fun p hp => ?_⟩
    · obtain ⟨r, cs, hrc⟩ : ∃ r cs, addPaulis [] l = (r, cs) := ⟨_, _, rfl⟩
      rw [hrc] at e2 ⊢
      obtain rfl : r = .ok hs := e2
      unfold labHeads
      simp only [hrc]
    · obtain ⟨a, hh, r, f1, f2, -⟩ := i1.found p (by simpa using hp)
      refine ⟨hh, ?_, by simpa using f2⟩
      show hh ∈ headsOf (addPaulis [] l).2
      rw [f1]; simp

theorem labCliques_list {S : LabMats} (l : List (ℕ × ℕ)) (h : ∀ ij ∈ l, (∃ o, labHeads (S.A ij.1 ij.2) = .ok o) ∧
      (∃ o, labHeads (S.B ij.1 ij.2) = .ok o) ∧ ∃ o, labHeads (S.Sigma ij.1 ij.2) = .ok o) (T : LabMats) :
    ∃ T', l.foldlM (fun T ij => do
        let a ← labHeads (S.A ij.1 ij.2)
        let b ← labHeads (S.B ij.1 ij.2)
        let s ← labHeads (S.Sigma ij.1 ij.2)
        pure (⟨fun r c => if (r, c) = ij then a else T.A r c, fun r c => if (r, c) = ij then b else T.B r c,
          fun r c => if (r, c) = ij then s else T.Sigma r c⟩ : LabMats)) T = (.ok T' : Res LabMats) ∧
      (∀ r c, (r, c) ∈ l → labHeads (S.A r c) = .ok (T'.A r c) ∧ labHeads (S.B r c) = .ok (T'.B r c) ∧
        labHeads (S.Sigma r c) = .ok (T'.Sigma r c)) ∧
      ∀ r c, (r, c) ∉ l → T'.A r c = T.A r c ∧ T'.B r c = T.B r c ∧ T'.Sigma r c = T.Sigma r c := by
  induction l generalizing T with
  | nil => exact ⟨T, rfl, fun r c h => by simp at h, fun _ _ _ => ⟨rfl, rfl, rfl⟩⟩
  | cons ij l ih =>
    obtain ⟨⟨a, ha⟩, ⟨b, hb⟩, s, hs⟩ := h ij (by simp)
    obtain ⟨T', t1, t2, t3⟩ := ih (fun x hx => h x (by simp [hx]))
      ⟨fun r c => if (r, c) = ij then a else T.A r c, fun r c => if (r, c) = ij then b else T.B r c,
        fun r c => if (r, c) = ij then s else T.Sigma r c⟩
    refine ⟨T', ?_, fun r c hrc => ?_, fun r c hrc => ?_⟩
    · rw [List.foldlM_cons, ha, hb, hs]; exact t1
    · by_cases hm : (r, c) ∈ l
      · exact t2 r c hm
      · have e : (r, c) = ij := (List.mem_cons.1 hrc).resolve_right hm
        obtain ⟨u1, u2, u3⟩ := t3 r c hm
        simp only [if_pos e] at u1 u2 u3
        rw [u1, u2, u3]
        subst e
        exact ⟨ha, hb, hs⟩
    · have hne : ¬ (r, c) = ij := fun e => hrc (by simp [e])
      obtain ⟨u1, u2, u3⟩ := t3 r c fun hm => hrc (by simp [hm])
      simp only [if_neg hne] at u1 u2 u3
      exact ⟨u1, u2, u3⟩

theorem labCliques_ok {n N : ℕ} {S : LabMats} (hS : ∀ r c, LabO n (S.A r c) ∧ LabO n (S.B r c) ∧ LabO n (S.Sigma r c)) :
    ∃ S', labCliques N S = .ok S' ∧ ∀ r c, r < N → c < N → Keep true (S.A r c) (S'.A r c) ∧ Keep true (S.B r c) (S'.B r c) ∧
      Keep true (S.Sigma r c) (S'.Sigma r c) := by
  have keep : ∀ {o o' : Option (List (List Char))}, LabO n o → labHeads o = .ok o' → Keep true o o' := by
    intro o o' h e
    obtain ⟨o2, e2, k⟩ := labHeads_ok h
    rw [e] at e2
    cases e2
    exact k
  have ex : ∀ {o : Option (List (List Char))}, LabO n o → ∃ o', labHeads o = .ok o' := fun h =>
    let ⟨o', e, _⟩ := labHeads_ok h
    ⟨o', e⟩
  obtain ⟨T', t1, t2, -⟩ := labCliques_list (S := S) ((List.range N).product (List.range N))
    (fun ij _ => ⟨ex (hS _ _).1, ex (hS _ _).2.1, ex (hS _ _).2.2⟩) S
  refine ⟨T', t1, fun r c hr hc => ?_⟩
  obtain ⟨a, b, s⟩ := t2 r c (List.mem_product.2 ⟨List.mem_range.2 hr, List.mem_range.2 hc⟩)
  exact ⟨keep (hS r c).1 a, keep (hS r c).2.1 b, keep (hS r c).2.2 s⟩

theorem labFinish_eq (cliques : Bool) (n : ℕ) (S : LabMats) :
    labFinish cliques n S = ((if cliques = true then labCliques n S else pure S) >>= fun S => do
      let _ ← numNonCBS n S.A
      let _ ← numNonCBS n S.B
      let _ ← numNonCBS n S.Sigma
      let _ ← numCBSElements n S.A
      let _ ← numCBSElements n S.B
      let _ ← numCBSElements n S.Sigma
      pure S) := by
  unfold labFinish
  cases cliques <;> rfl

theorem labFinish_ok {n N : ℕ} {S : LabMats} (hS : ∀ r c, LabO n (S.A r c) ∧ LabO n (S.B r c) ∧ LabO n (S.Sigma r c))
    (cliques : Bool) :
    (N = 0 → labFinish cliques N S = .error .indexError) ∧
    (N ≠ 0 → ∃ S', labFinish cliques N S = .ok S' ∧ ∀ r c, r < N → c < N → Keep cliques (S.A r c) (S'.A r c) ∧
      Keep cliques (S.B r c) (S'.B r c) ∧ Keep cliques (S.Sigma r c) (S'.Sigma r c)) := by
  obtain ⟨S', h1, h2⟩ : ∃ S', (if cliques = true then labCliques N S else pure S) = .ok S' ∧ ∀ r c, r < N → c < N →
      Keep cliques (S.A r c) (S'.A r c) ∧ Keep cliques (S.B r c) (S'.B r c) ∧ Keep cliques (S.Sigma r c) (S'.Sigma r c) := by
    cases cliques
    · have k : ∀ o, Keep false o o := fun o p hp => ⟨p, hp, by simp⟩
      exact ⟨S, rfl, fun r c _ _ => ⟨k _, k _, k _⟩⟩
    · obtain ⟨S', a, b⟩ := labCliques_ok (N := N) hS
      exact ⟨S', by rw [if_pos rfl]; exact a, b⟩
  refine ⟨fun h0 => ?_, fun h0 => ⟨S', ?_, h2⟩⟩
  · rw [labFinish_eq, h1, ok_bind]
    unfold numNonCBS
    rw [if_pos h0]
    rfl
  · rw [labFinish_eq, h1, ok_bind]
    unfold numNonCBS numCBSElements
    simp only [if_neg h0]
    rfl

/-- The arrays after the loops and after the end. -/
theorem Tracks.finish {n N : ℕ} {gB : ℕ → ℕ → Prop} {M : (List Char → ℝ) → LRMats} {S : LabMats} (h : Tracks n gB M S)
    (cliques : Bool) :
    (N = 0 → labFinish cliques N S = .error .indexError) ∧
    (N ≠ 0 → ∃ S', labFinish cliques N S = .ok S' ∧ ∀ r c, r < N → c < N → FixedBy cliques (fun v => (M v).A r c) (S'.A r c) ∧
      (gB r c → FixedBy cliques (fun v => (M v).B r c) (S'.B r c)) ∧ FixedBy cliques (fun v => (M v).Sigma r c) (S'.Sigma r c)) := by
  obtain ⟨h1, h2, h3⟩ := h
  obtain ⟨f1, f2⟩ := labFinish_ok (N := N) (fun r c => ⟨(h1 r c).1, (h2 r c).1, (h3 r c).1⟩) cliques
  refine ⟨f1, fun h0 => ?_⟩
  obtain ⟨S', e, k⟩ := f2 h0
  have use : ∀ {X : (List Char → ℝ) → ℝ} {o o' : Option (List (List Char))}, Fix X (o.getD []) → Keep cliques o o' →
      FixedBy cliques X o' := fun hX hk v v' hv => hX v v' fun p hp => hv p (hk p hp)
  refine ⟨S', e, fun r c hr hc => ?_⟩
  obtain ⟨k1, k2, k3⟩ := k r c hr hc
  exact ⟨use ((h1 r c).2 trivial) k1, fun hg => use ((h2 r c).2 hg) k2, use ((h3 r c).2 trivial) k3⟩

/-! ### The parts of a run -/

section
variable {tiny big : ℝ → Bool} {map : SDict ℝ → Res (List (List Char × ℂ))} {W : RespWf}
  {qev : (List Char → ℝ) → Dict ℝ → Res ℝ} {e : (List Char → ℝ) → ℝ} {H2 : Dict ℝ} {L : QLR} {gB : ℕ → ℕ → Prop}

/-- The operators of a response object. -/
structure MapGens (W : RespWf) (H2 : Dict ℝ) (L : QLR) : Prop extends Gens W H2 L where
  act : ∀ g ∈ L.G, ActOp W.ci g
  same : Same W.ci (sumOp L.H0) (sumOp L.H1)

theorem qlrInit_mapGens (ht : ExactTiny tiny) (hb : ExactBig big) (hW : W.Proper) (excitations : String) :
    ∃ L H2, qlrInit tiny big W excitations = .ok L ∧ L.M = LRMats.zero ∧ L.Q.length = W.kappa.length ∧
      L.G.length = (lrOps W (lettersOf excitations)).length ∧
      hamiltonian2i2a tiny big W.h W.g W.ci.nI W.ci.nA W.ci.nV = .ok H2 ∧ MapGens W H2 L ∧
      hamiltonian0i0a tiny big W.h W.g W.ci.nI W.ci.nA = .ok L.H0 := by
  obtain ⟨G, hG, opsG, excG⟩ := lrG_ok ht hW excitations
  obtain ⟨L, H2, l1, l2, l3, l4, l5, l6⟩ := qlrInit_gens ht hb hW excitations
  obtain ⟨H1, h1, h1g, h1s⟩ := ham1_gen ht hb W.h W.g W.ci
  obtain ⟨H0, h0, h0g, h0s⟩ := ham0_gen ht hb W.h W.g W.ci
  obtain ⟨Q, hQ, -⟩ := lrQ_ok ht hW
  have el : qlrInit tiny big W excitations = .ok ⟨H0, H1, G, Q, LRMats.zero⟩ := by
    unfold qlrInit; simp only [h0, h1, hG, hQ, ok_bind]; rfl
  rw [l1] at el
  obtain rfl := Except.ok.inj el
  refine ⟨_, H2, l1, l2, l3, l4, l5, ⟨l6, fun g hg => (excG g hg).1, fun x y hx hy => ?_⟩, h0⟩
  rw [h0s x y hx hy, (h1s x y hx hy.near).1]

theorem gradQ_ok (ht : ExactTiny tiny) (hM : JWMapper (2 * W.ci.nA) map) (hr : ∀ v, ReadsValues map W.ci.nA v (qev v))
    (h : MapGens W H2 L) (v : List Char → ℝ) (x : ℝ) : ∃ r, L.Q.mapM (qGradQ tiny (qev v) (W.withEnergy x) L.H1) = .ok r := by
  obtain ⟨r, hr, -⟩ := mapM_ok_exists (f := qGradQ tiny (qev v) (W.withEnergy x) L.H1) (fun _ _ => True) L.Q (by
    intro q hq
    obtain ⟨a, a1, a2, -⟩ := h.h1.mul ht (h.q q hq)
    obtain ⟨d, d1, d2, -⟩ := (h.q q hq).dagger ht
    obtain ⟨b, b1, b2, -⟩ := d2.mul ht h.h1
    obtain ⟨X1, -, x1, -⟩ := read_ok hM hr a2
    obtain ⟨X2, -, x2, -⟩ := read_ok hM hr b2
    exact ⟨_, by unfold qGradQ; simp only [a1, d1, b1, ok_bind, withEnergy_ci, x1, x2]; rfl, trivial⟩)
  exact ⟨r, hr⟩

theorem gradG_ok (ht : ExactTiny tiny) (hM : JWMapper (2 * W.ci.nA) map) (hr : ∀ v, ReadsValues map W.ci.nA v (qev v))
    (h : MapGens W H2 L) (v : List Char → ℝ) (x : ℝ) : ∃ r, L.G.mapM (qGradG tiny (qev v) (W.withEnergy x) L.H0) = .ok r := by
  obtain ⟨r, hr, -⟩ := mapM_ok_exists (f := qGradG tiny (qev v) (W.withEnergy x) L.H0) (fun _ _ => True) L.G (by
    intro q hq
    obtain ⟨a, a1, a2, -⟩ := h.h0.commutator ht (h.g q hq)
    obtain ⟨d, d1, d2, -⟩ := (h.g q hq).dagger ht
    obtain ⟨b, b1, b2, -⟩ := d2.commutator ht h.h0
    obtain ⟨X1, -, x1, -⟩ := read_ok hM hr a2
    obtain ⟨X2, -, x2, -⟩ := read_ok hM hr b2
    exact ⟨_, by unfold qGradG; simp only [a1, d1, b1, ok_bind, withEnergy_ci, x1, x2]; rfl, trivial⟩)
  exact ⟨r, hr⟩

/-- The orbital-orbital blocks. -/
theorem orbBlocks_tracks (ht : ExactTiny tiny) (hM : JWMapper (2 * W.ci.nA) map) (hr : ∀ v, ReadsValues map W.ci.nA v (qev v))
    (h : MapGens W H2 L) (h2 : hamiltonian2i2a tiny big W.h W.g W.ci.nI W.ci.nA W.ci.nV = .ok H2) (doRdm : Bool) :
    ∃ M S, (∀ v, qOrbBlocks tiny big (qev v) (W.withEnergy (e v)) doRdm L.Q L.M = .ok (M v)) ∧
      mapOrbLoop tiny big map W doRdm L.Q LabMats.blank = .ok S ∧ Tracks (2 * W.ci.nA) gB M S := by
  cases doRdm with
  | true =>
    refine ⟨fun _ => lrOrbBlocks W L.Q.length L.M, LabMats.blank, fun v => ?_, ?_, tracks_const _⟩
    · unfold qOrbBlocks
      rw [if_neg (by simp)]
      rfl
    · unfold mapOrbLoop
      rw [if_neg (by simp)]
      rfl
  | false =>
    obtain ⟨M, S, a1, a2, a3⟩ := loops_pair (js := L.Q.zipIdx) (is := fun j => (L.Q.drop j).zipIdx j)
      (entry := fun (v : List Char → ℝ) _ x y => qOrb tiny (qev v) (W.withEnergy (e v)) H2 x.1 y.1)
      (entry' := fun x y => mapOrb tiny map W H2 x.1 y.1)
      (put := fun M i j v => { M with
        A := setSym M.A i j v.1
        B := setSym M.B i j v.2.1
        Sigma := setSym M.Sigma i j v.2.2 })
      (put' := fun S i j v => { S with
        A := labSym S.A i j v.1
        B := labSym S.B i j v.2.1
        Sigma := labSym S.Sigma i j v.2.2 }) (Tracks (2 * W.ci.nA) gB) (by
      intro x hx y hy
      obtain ⟨f, s, f1, f2, pA, pB, pS⟩ := orbEntry (e := e) ht hM hr h.h2 (h.q _ (List.mem_of_getElem? (zipIdx_get hx)))
        (h.q _ (List.mem_of_getElem? (zipIdx_drop_get hy)))
      exact ⟨f, s, f1, f2, fun M S hP => ⟨sym_pair (g := fun _ _ => True) hP.1 pA.track pA.track,
        sym_pair (g := gB) hP.2.1 pB.track pB.track, sym_pair (g := fun _ _ => True) hP.2.2 pS.track pS.track⟩⟩)
      (tracks_const L.M)
    refine ⟨M, S, fun v => ?_, ?_, a3⟩
    · unfold qOrbBlocks
      by_cases hQ : L.Q.length = 0
      · have hnil : L.Q = [] := List.length_eq_zero_iff.1 hQ
        rw [if_neg (by simp [hQ])]
        have := a1 v
        rw [hnil] at this
        have e : L.M = M v := Except.ok.inj this
        rw [← e]
        unfold lrOrbBlocks
        rw [hQ]
        simp only [ne_eq, not_true_eq_false, if_false]
        rfl
      · rw [if_pos ⟨hQ, rfl⟩]
        unfold qOrbLoop
        rw [show hamiltonian2i2a tiny big (W.withEnergy (e v)).h (W.withEnergy (e v)).g (W.withEnergy (e v)).ci.nI
          (W.withEnergy (e v)).ci.nA (W.withEnergy (e v)).ci.nV = .ok H2 from h2, ok_bind]
        exact a1 v
    · unfold mapOrbLoop
      rw [if_pos rfl, h2, ok_bind]
      exact a2

/-- `run` and `_get_qbitmap` of naive.py. -/
theorem naive_tracks (ht : ExactTiny tiny) (hM : JWMapper (2 * W.ci.nA) map) (hr : ∀ v, ReadsValues map W.ci.nA v (qev v))
    (h : MapGens W H2 L) (h2 : hamiltonian2i2a tiny big W.h W.g W.ci.nI W.ci.nA W.ci.nV = .ok H2)
    (doRdm doGradients : Bool) :
    ∃ M S, (∀ v, qnRun tiny big (qev v) (W.withEnergy (e v)) doRdm doGradients L = .ok (M v)) ∧
      (∀ cliques, qnMap tiny big map W cliques doRdm L = labFinish cliques (L.Q.length + L.G.length) S) ∧
      Tracks (2 * W.ci.nA) (fun _ _ => True) M S := by
  obtain ⟨M1, S1, a1, a2, a3⟩ := orbBlocks_tracks (e := e) (gB := fun _ _ => True) ht hM hr h h2 doRdm
  obtain ⟨M2, S2, b1, b2, b3⟩ := loops_pair (js := L.Q.zipIdx) (is := fun _ => L.G.zipIdx)
    (entry := fun (v : List Char → ℝ) _ x y => qnMixed tiny (qev v) (W.withEnergy (e v)) L.H1 x.1 y.1)
    (entry' := fun x y => mapMixed tiny map W L.H1 x.1 y.1)
    (put := fun M i j v => { M with
      A := setSym M.A (i + L.Q.length) j v.1
      B := setSym M.B (i + L.Q.length) j v.2 })
    (put' := fun S i j v => { S with
      A := labSym S.A (i + L.Q.length) j v.1
      B := labSym S.B (i + L.Q.length) j v.2 }) (Tracks (2 * W.ci.nA) fun _ _ => True) (by
    intro x hx y hy
    obtain ⟨f, s, f1, f2, pA, pB⟩ := nMixedEntry (e := e) ht hM hr h.h1 (h.q _ (List.mem_of_getElem? (zipIdx_get hx)))
      (h.g _ (List.mem_of_getElem? (zipIdx_get hy)))
    exact ⟨f, s, f1, f2, fun M S hP => ⟨sym_pair (g := fun _ _ => True) hP.1 pA.track pA.track,
      sym_pair (g := fun _ _ => True) hP.2.1 pB.track pB.track, hP.2.2⟩⟩) a3
  obtain ⟨M3, S3, c1, c2, c3⟩ := loops_pair (js := L.G.zipIdx) (is := fun j => (L.G.drop j).zipIdx j)
    (entry := fun (v : List Char → ℝ) _ x y => qnAct tiny (qev v) (W.withEnergy (e v)) L.H0 x.1 y.1)
    (entry' := fun x y => mapAct tiny map W L.H1 x.1 y.1)
    (put := fun M i j v => { M with
      A := setSym M.A (i + L.Q.length) (j + L.Q.length) v.1
      B := setSym M.B (i + L.Q.length) (j + L.Q.length) v.2.1
      Sigma := setSym M.Sigma (i + L.Q.length) (j + L.Q.length) v.2.2 })
    (put' := fun S i j v => { S with
      A := labSym S.A (i + L.Q.length) (j + L.Q.length) v.1
      B := labSym S.B (i + L.Q.length) (j + L.Q.length) v.2.1
      Sigma := labSym S.Sigma (i + L.Q.length) (j + L.Q.length) v.2.2 }) (Tracks (2 * W.ci.nA) fun _ _ => True) (by
    intro x hx y hy
    obtain ⟨f, s, f1, f2, pA, pB, pS⟩ := nActEntry (e := e) ht hM hr h.h0 h.h1 h.same
      (h.act _ (List.mem_of_getElem? (zipIdx_get hx))) (h.act _ (List.mem_of_getElem? (zipIdx_drop_get hy)))
    exact ⟨f, s, f1, f2, fun M S hP => ⟨sym_pair (g := fun _ _ => True) hP.1 pA.track pA.track,
      sym_pair (g := fun _ _ => True) hP.2.1 pB.track pB.track, sym_pair (g := fun _ _ => True) hP.2.2 pS.track pS.track⟩⟩) b3
  refine ⟨M3, S3, fun v => ?_, fun cliques => ?_, c3⟩
  · obtain ⟨gQ, hgQ⟩ := gradQ_ok ht hM hr h v (e v)
    obtain ⟨gG, hgG⟩ := gradG_ok ht hM hr h v (e v)
    unfold qnRun
    simp only [hgQ, hgG, ok_bind, a1]
    have key := (congrArg (fun r : Res LRMats => r >>= fun M => lrLoop L.G.zipIdx (fun j => (L.G.drop j).zipIdx j)
      (fun GJ => pure GJ) (fun _ x y => qnAct tiny (qev v) (W.withEnergy (e v)) L.H0 x.1 y.1)
      (fun M i j v => { M with
        A := setSym M.A (i + L.Q.length) (j + L.Q.length) v.1
        B := setSym M.B (i + L.Q.length) (j + L.Q.length) v.2.1
        Sigma := setSym M.Sigma (i + L.Q.length) (j + L.Q.length) v.2.2 }) M) (b1 v)).trans (c1 v)
    split_ifs <;> exact key
  · unfold qnMap
    simp only [a2, ok_bind]
    rw [b2, ok_bind, c2, ok_bind]

/-- The loop over the active operators of projected.py and allprojected.py. -/
theorem projAct_tracks (ht : ExactTiny tiny) (hM : JWMapper (2 * W.ci.nA) map) (hr : ∀ v, ReadsValues map W.ci.nA v (qev v))
    (h : MapGens W H2 L) {energy : List (List Char)} (hE : Pins (2 * W.ci.nA) e energy)
    {X : List (((List Char → ℝ) → ℝ) × ((List Char → ℝ) → ℝ))} {E : List (List (List Char) × List (List Char))}
    (hX : List.Forall₂ (fun x l => Pins (2 * W.ci.nA) x.1 l.1 ∧ Pins (2 * W.ci.nA) x.2 l.2) X E)
    (lX : X.length = L.G.length) (lost : Bool)
    (hg : ∀ i j, gB (i + L.Q.length) (j + L.Q.length) → lost = false ∨ i = j) {M : (List Char → ℝ) → LRMats} {S : LabMats}
    (h0 : Tracks (2 * W.ci.nA) gB M S) :
    ∃ M' S', (∀ v, qpActLoop tiny (qev v) (W.withEnergy (e v)) L (X.map fun x => (x.1 v, x.2 v)) (M v) = .ok (M' v)) ∧
      mapProjActLoop tiny map lost W L energy E S = .ok S' ∧ Tracks (2 * W.ci.nA) gB M' S' := by
  unfold qpActLoop mapProjActLoop
  refine loops_pair (Tracks (2 * W.ci.nA) gB) (fun x hx y hy => ?_) h0
  obtain ⟨f, s, f1, f2, pA, pB, pS⟩ := pActEntry (e := e) ht hM hr h.h0 (h.g _ (List.mem_of_getElem? (zipIdx_get hx)))
    (h.g _ (List.mem_of_getElem? (zipIdx_drop_get hy))) hE hX (lX ▸ idx_zipIdx hx) (lX ▸ idx_drop hy (idx_zipIdx hx)) lost
  have tB : ∀ {i j : ℕ}, (i = y.2 ∧ j = x.2 ∨ i = x.2 ∧ j = y.2) →
      Track (2 * W.ci.nA) (gB (i + L.Q.length) (j + L.Q.length)) (fun v => (f v).2.1) (some s.2.1) := by
    intro i j hij
    refine ⟨fun l e => by cases e; exact pB.1, fun hh => pB.2 ?_⟩
    rcases hg _ _ hh with h | h
    · exact Or.inl h
    · rcases hij with ⟨rfl, rfl⟩ | ⟨rfl, rfl⟩
      · exact Or.inr h.symm
      · exact Or.inr h
  exact ⟨f, s, f1, f2, fun M S hP => ⟨sym_pair (g := fun _ _ => True) hP.1 pA.track pA.track,
    sym_pair (g := gB) hP.2.1 (tB (Or.inl ⟨rfl, rfl⟩)) (tB (Or.inr ⟨rfl, rfl⟩)),
    sym_pair (g := fun _ _ => True) hP.2.2 pS.track pS.track⟩⟩

theorem energy_ok (hM : JWMapper (2 * W.ci.nA) map) (hr : ∀ v, ReadsValues map W.ci.nA v (qev v)) (h : MapGens W H2 L)
    (he : ∀ v, qexp (qev v) W.ci L.H0 = .ok (e v)) : ∃ energy, qlab map W.ci L.H0 = .ok energy ∧ Pins (2 * W.ci.nA) e energy := by
  obtain ⟨X, l, x, y, z⟩ := read_ok hM hr h.h0
  obtain rfl : X = e := funext fun v => Except.ok.inj ((x v).symm.trans (he v))
  exact ⟨l, y, z⟩

/-- `run` and `_get_qbitmap` of projected.py. -/
theorem projected_tracks (ht : ExactTiny tiny) (hM : JWMapper (2 * W.ci.nA) map)
    (hr : ∀ v, ReadsValues map W.ci.nA v (qev v)) (h : MapGens W H2 L) (he : ∀ v, qexp (qev v) W.ci L.H0 = .ok (e v))
    (h2 : hamiltonian2i2a tiny big W.h W.g W.ci.nI W.ci.nA W.ci.nV = .ok H2) (doRdm doGradients : Bool) :
    ∃ M S, (∀ v, ∃ E, qpRun tiny big (qev v) (W.withEnergy (e v)) doRdm doGradients L = .ok (M v, E)) ∧
      (∀ cliques, qpMap tiny big map W cliques doRdm L = labFinish cliques (L.Q.length + L.G.length) S) ∧
      Tracks (2 * W.ci.nA) (fun _ _ => True) M S := by
  obtain ⟨energy, q1, q2⟩ := energy_ok hM hr h he
  obtain ⟨X, E, x1, x2, x3, x4⟩ := expEntries (e := e) ht hM hr h.h0 L.G h.g
  obtain ⟨M1, S1, a1, a2, a3⟩ := orbBlocks_tracks (e := e) (gB := fun _ _ => True) ht hM hr h h2 doRdm
  obtain ⟨M2, S2, b1, b2, b3⟩ := loops_pair (js := L.Q.zipIdx) (is := fun _ => L.G.zipIdx)
    (entry := fun (v : List Char → ℝ) _ x y => qpMixed tiny (qev v) (W.withEnergy (e v)) L.H1 x.1 y.1)
    (entry' := fun x y => mapProjMixed tiny map W L.H1 x.1 y.1)
    (put := fun M i j v => { M with
      A := setSym M.A j (i + L.Q.length) v.1
      B := setSym M.B j (i + L.Q.length) v.2 })
    (put' := fun S i j v => { S with
      A := labSym S.A j (i + L.Q.length) v.1
      B := labSym S.B j (i + L.Q.length) v.2 }) (Tracks (2 * W.ci.nA) fun _ _ => True) (by
    intro x hx y hy
    obtain ⟨⟨f, s, f1, f2, pA, pB⟩, -⟩ := pMixedEntry (e := e) ht hM hr h.h1
      (h.q _ (List.mem_of_getElem? (zipIdx_get hx))) (h.g _ (List.mem_of_getElem? (zipIdx_get hy)))
    exact ⟨f, s, f1, f2, fun M S hP => ⟨sym_pair (g := fun _ _ => True) hP.1 pA.track pA.track,
      sym_pair (g := fun _ _ => True) hP.2.1 pB.track pB.track, hP.2.2⟩⟩) a3
  obtain ⟨M3, S3, c1, c2, c3⟩ := projAct_tracks ht hM hr h q2 x4 x3 false (fun _ _ _ => Or.inl rfl) b3
  refine ⟨M3, S3, fun v => ⟨X.map fun x => (x.1 v, x.2 v), ?_⟩, fun cliques => ?_, c3⟩
  · obtain ⟨gQ, hgQ⟩ := gradQ_ok ht hM hr h v (e v)
    unfold qpRun
    simp only [hgQ, ok_bind, x1, a1]
    have key := congrArg (fun r : Res LRMats => r >>= fun M => do
      let M ← qpActLoop tiny (qev v) (W.withEnergy (e v)) L (X.map fun x => (x.1 v, x.2 v)) M
      pure (M, X.map fun x => (x.1 v, x.2 v))) (b1 v)
    simp only [ok_bind, c1] at key
    split_ifs <;> exact key
  · unfold qpMap
    simp only [x2, q1, a2, ok_bind]
    rw [b2, ok_bind, c2, ok_bind]

/-- `run` and `_get_qbitmap` of allprojected.py. -/
theorem allProjected_tracks (ht : ExactTiny tiny) (hM : JWMapper (2 * W.ci.nA) map)
    (hr : ∀ v, ReadsValues map W.ci.nA v (qev v)) (h : MapGens W H2 L) (he : ∀ v, qexp (qev v) W.ci L.H0 = .ok (e v))
    (h2 : hamiltonian2i2a tiny big W.h W.g W.ci.nI W.ci.nA W.ci.nV = .ok H2) (doGradients : Bool) :
    ∃ M S, (∀ v, ∃ E, qaRun tiny big (qev v) (W.withEnergy (e v)) doGradients L = .ok (M v, E)) ∧
      (∀ (h2' : Option (Dict ℝ)) (cliques : Bool), (L.Q ≠ [] → h2' = some H2) →
        qaMap tiny map W h2' cliques L = labFinish cliques (L.Q.length + L.G.length) S) ∧
      Tracks (2 * W.ci.nA) (fun r c => r < L.Q.length ∨ c < L.Q.length ∨ r = c) M S := by
  obtain ⟨energy, q1, q2⟩ := energy_ok hM hr h he
  obtain ⟨X, E, x1, x2, x3, x4⟩ := expEntries (e := e) ht hM hr h.h0 L.G h.g
  let gB : ℕ → ℕ → Prop := fun r c => r < L.Q.length ∨ c < L.Q.length ∨ r = c
  obtain ⟨M1, S1, a1, a2, a3⟩ := loops_pair (js := L.Q.zipIdx) (is := fun j => (L.Q.drop j).zipIdx j)
    (entry := fun (v : List Char → ℝ) _ x y => qaOrb tiny (qev v) (W.withEnergy (e v)) H2 x.1 y.1)
    (entry' := fun x y => mapAllOrb tiny map W (some H2) energy x.1 y.1)
    (put := fun M i j v => { M with
      A := setSym M.A i j v.1
      Sigma := setSym M.Sigma i j v.2 })
    (put' := fun S i j v => { S with
      A := labSym S.A i j v.1
      Sigma := labSym S.Sigma i j v.2 }) (Tracks (2 * W.ci.nA) gB) (by
    intro x hx y hy
    obtain ⟨f, s, f1, f2, pA, pS⟩ := allOrbEntry (e := e) ht hM hr h.h2 (h.q _ (List.mem_of_getElem? (zipIdx_get hx)))
      (h.q _ (List.mem_of_getElem? (zipIdx_drop_get hy))) q2
    exact ⟨f, s, f1, f2, fun M S hP => ⟨sym_pair (g := fun _ _ => True) hP.1 pA.track pA.track, hP.2.1,
      sym_pair (g := fun _ _ => True) hP.2.2 pS.track pS.track⟩⟩) (tracks_const L.M)
  obtain ⟨M2, S2, b1, b2, b3⟩ := loops_pair (js := L.Q.zipIdx) (is := fun _ => L.G.zipIdx)
    (entry := fun (v : List Char → ℝ) _ x y => qaMixed tiny (qev v) (W.withEnergy (e v)) L.H1 x.1 y.1)
    (entry' := fun x y => mapAllMixed tiny map W L.H1 x.1 y.1)
    (put := fun M i j v => { M with A := setSym M.A j (i + L.Q.length) v })
    (put' := fun S i j v => { S with A := labSym S.A j (i + L.Q.length) v }) (Tracks (2 * W.ci.nA) gB) (by
    intro x hx y hy
    obtain ⟨-, f, s, f1, f2, pA⟩ := pMixedEntry (e := e) ht hM hr h.h1
      (h.q _ (List.mem_of_getElem? (zipIdx_get hx))) (h.g _ (List.mem_of_getElem? (zipIdx_get hy)))
    exact ⟨f, s, f1, f2, fun M S hP => ⟨sym_pair (g := fun _ _ => True) hP.1 pA.track pA.track, hP.2.1, hP.2.2⟩⟩) a3
  obtain ⟨M3, S3, c1, c2, c3⟩ := projAct_tracks (gB := gB) ht hM hr h q2 x4 x3 true (fun i j hij => by
    rcases hij with hij | hij | hij
    · omega
    · omega
    · exact Or.inr (by omega)) b3
  refine ⟨M3, S3, fun v => ⟨X.map fun x => (x.1 v, x.2 v), ?_⟩, fun h2' cliques hh => ?_, c3⟩
  · obtain ⟨gQ, hgQ⟩ := gradQ_ok ht hM hr h v (e v)
    have key : ∀ H, (L.Q ≠ [] → H = H2) → (do
        let M ← lrLoop L.Q.zipIdx (fun j => (L.Q.drop j).zipIdx j) (fun qJ => pure qJ)
          (fun _ x y => qaOrb tiny (qev v) (W.withEnergy (e v)) H x.1 y.1)
          (fun M i j v => { M with A := setSym M.A i j v.1, Sigma := setSym M.Sigma i j v.2 }) L.M
        let M ← lrLoop L.Q.zipIdx (fun _ => L.G.zipIdx) (fun qJ => pure qJ)
          (fun _ x y => qaMixed tiny (qev v) (W.withEnergy (e v)) L.H1 x.1 y.1)
          (fun M i j v => { M with A := setSym M.A j (i + L.Q.length) v }) M
        let M ← qpActLoop tiny (qev v) (W.withEnergy (e v)) L (X.map fun x => (x.1 v, x.2 v)) M
        pure (M, X.map fun x => (x.1 v, x.2 v))) = (.ok (M3 v, X.map fun x => (x.1 v, x.2 v)) : Res _) := by
      intro H hH
      have e1 : lrLoop L.Q.zipIdx (fun j => (L.Q.drop j).zipIdx j) (fun qJ => pure qJ)
          (fun _ x y => qaOrb tiny (qev v) (W.withEnergy (e v)) H x.1 y.1)
          (fun M i j v => { M with A := setSym M.A i j v.1, Sigma := setSym M.Sigma i j v.2 }) L.M = .ok (M1 v) := by
        by_cases hQ : L.Q = []
        · have := a1 v
          rw [hQ] at this ⊢
          exact this
        · rw [hH hQ]
          exact a1 v
      rw [e1, ok_bind, b1 v, ok_bind, c1 v]
      rfl
    unfold qaRun qaH2
    by_cases hQ : L.Q = []
    · rw [if_neg (by simp [hQ])]
      simp only [pure_bind, x1, hgQ, ok_bind]
      split_ifs <;> exact key [] fun hn => absurd hQ hn
    · rw [if_pos (by simpa using hQ)]
      rw [show hamiltonian2i2a tiny big (W.withEnergy (e v)).h (W.withEnergy (e v)).g (W.withEnergy (e v)).ci.nI
          (W.withEnergy (e v)).ci.nA (W.withEnergy (e v)).ci.nV = .ok H2 from h2]
      simp only [ok_bind, x1, hgQ]
      split_ifs <;> exact key H2 fun _ => rfl
  · unfold qaMap
    have e1 : labLoop L.Q.zipIdx (fun j => (L.Q.drop j).zipIdx j) (fun x y => mapAllOrb tiny map W h2' energy x.1 y.1)
        (fun S i j v => { S with A := labSym S.A i j v.1, Sigma := labSym S.Sigma i j v.2 }) LabMats.blank = .ok S1 := by
      by_cases hQ : L.Q = []
      · have := a2
        rw [hQ] at this ⊢
        exact this
      · rw [hh hQ]
        exact a2
    simp only [x2, q1, ok_bind]
    rw [e1, ok_bind, b2, ok_bind, c2, ok_bind]

end

end SQ
