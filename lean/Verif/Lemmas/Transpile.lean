import Verif.Spec.Transpile
import Verif.Lemmas.OperatorsSem
import Verif.Lemmas.ResponseBlocks
import Mathlib.Tactic.Ring
import Mathlib.Tactic.Linarith

/-!
# Lemmas: circuits on other qubits
-/

namespace SQ

/-! ### Placed gates -/

section place
variable {m n : ℕ}

theorem runGates_append (gs hs : List (CGate n)) (ψ : QState n) :
    runGates (gs ++ hs) ψ = runGates hs (runGates gs ψ) := by simp [runGates]

theorem onQubit_smul' (i : Fin n) (M : Matrix Bool Bool ℂ) (s : ℂ) (ψ : QState n) :
    onQubit i M (s • ψ) = s • onQubit i M ψ := by
  funext b
  simp only [onQubit, Pi.smul_apply, smul_eq_mul, Finset.mul_sum]
  exact Finset.sum_congr rfl fun c _ => by ring

theorem CGate.act_smul (g : CGate n) (s : ℂ) (ψ : QState n) : g.act (s • ψ) = s • g.act ψ := by
  rcases g with g | g <;> cases g <;>
    simp only [CGate.act, Gate.act, PGate.act, onQubit_smul'] <;> funext b <;>
    simp only [Pi.smul_apply, smul_eq_mul] <;> split_ifs <;> ring

theorem runGates_smul (gs : List (CGate n)) (s : ℂ) (ψ : QState n) : runGates gs (s • ψ) = s • runGates gs ψ := by
  induction gs generalizing ψ with
  | nil => rfl
  | cons g gs ih =>
    change runGates gs (g.act (s • ψ)) = s • runGates gs (g.act ψ)
    rw [CGate.act_smul, ih]

theorem comp_update_inj {f : Fin m → Fin n} (hf : Function.Injective f) (c : Fin n → Bool) (q : Fin m) (v : Bool) :
    (fun i => Function.update c (f q) v (f i)) = Function.update (fun i => c (f i)) q v := by
  funext i
  by_cases h : i = q
  · subst h; simp
  · simp [h, hf.ne h]

theorem offRange_update (f : Fin m → Fin n) (c : Fin n → Bool) (q : Fin m) (v : Bool) :
    (∀ k, (∀ i, f i ≠ k) → Function.update c (f q) v k = false) ↔ ∀ k, (∀ i, f i ≠ k) → c k = false :=
  forall_congr' fun k => forall_congr' fun hk => by rw [Function.update_of_ne (hk q).symm]

theorem onQubit_place {f : Fin m → Fin n} (hf : Function.Injective f) (q : Fin m) (M : Matrix Bool Bool ℂ) (ψ : QState m) :
    onQubit (f q) M (onQubits f ψ) = onQubits f (onQubit q M ψ) := by
  funext c
  simp only [onQubit, onQubits, offRange_update, comp_update_inj hf]
  by_cases h : ∀ k, (∀ i, f i ≠ k) → c k = false
  · simp only [if_pos h]
  · simp only [if_neg h, mul_zero, Finset.sum_const_zero]

theorem cx_place {f : Fin m → Fin n} (hf : Function.Injective f) (a t : Fin m) (ψ : QState m) :
    (fun c => if c (f a) = true then onQubits f ψ (Function.update c (f t) (!c (f t))) else onQubits f ψ c)
      = onQubits f fun b => if b a = true then ψ (Function.update b t (!b t)) else ψ b := by
  funext c
  simp only [onQubits, offRange_update, comp_update_inj hf]
  by_cases h : ∀ k, (∀ i, f i ≠ k) → c k = false
  · simp only [if_pos h]
  · simp only [if_neg h, ite_self]

theorem swap_inj {f : Fin m → Fin n} (hf : Function.Injective f) (a b i : Fin m) :
    Equiv.swap (f a) (f b) (f i) = f (Equiv.swap a b i) := by
  simp only [Equiv.swap_apply_def, hf.eq_iff]
  split_ifs <;> rfl

theorem CGate.act_place {f : Fin m → Fin n} (hf : Function.Injective f) (g : CGate m) (ψ : QState m) :
    (g.place f).act (onQubits f ψ) = onQubits f (g.act ψ) := by
  rcases g with g | g
  · cases g with
    | x q => exact onQubit_place hf q _ ψ
    | h q => exact onQubit_place hf q _ ψ
    | sdg q => exact onQubit_place hf q _ ψ
    | cx a t => exact cx_place hf a t ψ
    | swap a b =>
      funext c
      simp only [CGate.place, Gate.place, CGate.act, Gate.act, onQubits, swap_inj hf]
      have : (∀ k, (∀ i, f i ≠ k) → c (Equiv.swap (f a) (f b) k) = false) ↔ ∀ k, (∀ i, f i ≠ k) → c k = false :=
        forall_congr' fun k => forall_congr' fun hk => by
          rw [Equiv.swap_apply_of_ne_of_ne (hk a).symm (hk b).symm]
      simp only [this]
  · cases g with
    | rx θ q => exact onQubit_place hf q _ ψ
    | ry θ q => exact onQubit_place hf q _ ψ
    | rz θ q => exact onQubit_place hf q _ ψ
    | x q => exact onQubit_place hf q _ ψ
    | h q => exact onQubit_place hf q _ ψ
    | cx a t => exact cx_place hf a t ψ
    | cz a t =>
      funext c
      simp only [CGate.place, PGate.place, CGate.act, PGate.act, onQubits]
      by_cases h : ∀ k, (∀ i, f i ≠ k) → c k = false
      · simp only [if_pos h]
      · simp only [if_neg h, neg_zero, ite_self]

theorem runGates_place {f : Fin m → Fin n} (hf : Function.Injective f) (gs : List (CGate m)) (ψ : QState m) :
    runGates (gs.map (CGate.place f)) (onQubits f ψ) = onQubits f (runGates gs ψ) := by
  induction gs generalizing ψ with
  | nil => rfl
  | cons g gs ih =>
    change runGates (gs.map (CGate.place f)) ((g.place f).act (onQubits f ψ)) = onQubits f (runGates gs (g.act ψ))
    rw [CGate.act_place hf, ih]

theorem onQubits_smul (f : Fin m → Fin n) (s : ℂ) (ψ : QState m) : onQubits f (s • ψ) = s • onQubits f ψ := by
  funext c
  simp only [onQubits, Pi.smul_apply, smul_eq_mul]
  split_ifs <;> simp

theorem onQubits_allZero (f : Fin m → Fin n) : onQubits f (allZero m) = allZero n := by
  funext c
  simp only [onQubits, allZero, basis]
  by_cases h : c = fun _ => false
  · subst h; simp
  · rw [if_neg h]
    split_ifs with h1 h2
    · exfalso
      apply h
      funext k
      by_cases hk : ∃ i, f i = k
      · obtain ⟨i, rfl⟩ := hk
        exact congrFun h2 i
      · exact h1 k fun i hi => hk ⟨i, hi⟩
    · rfl
    · rfl

theorem onQubits_id (f : Fin n → Fin n) (h : ∀ i, f i = i) (ψ : QState n) : onQubits f ψ = ψ := by
  funext c
  simp only [onQubits, h]
  rw [if_pos fun k hk => absurd rfl (hk k)]

end place

/-! ### Measured probabilities -/

theorem DistinctQubits.at_inj {m n : ℕ} {qs : List ℕ} (h : DistinctQubits m n qs) : Function.Injective h.at := by
  intro i j hij
  have := congrArg Fin.val hij
  simp only [DistinctQubits.at] at this
  exact Fin.ext ((h.2.1.getElem_inj_iff).1 this)

theorem distinct_range (n : ℕ) : DistinctQubits n n (List.range n) :=
  ⟨List.length_range, List.nodup_range, fun _ h => List.mem_range.1 h⟩

theorem distinct_range_at {n : ℕ} (h : DistinctQubits n n (List.range n)) (i : Fin n) : h.at i = i := by
  ext; simp [DistinctQubits.at]

theorem composeAt_ok {m n : ℕ} {qs : List ℕ} (h : DistinctQubits m n qs) (gs : List (CGate m)) :
    composeAt n qs gs = .ok (gs.map (CGate.place h.at)) := by
  exact dif_pos h

theorem composeAt_eq {m n : ℕ} {qs : List ℕ} {gs : List (CGate m)} {r : List (CGate n)}
    (e : composeAt n qs gs = .ok r) : ∃ h : DistinctQubits m n qs, r = gs.map (CGate.place h.at) := by
  by_cases h : DistinctQubits m n qs
  · rw [composeAt_ok h] at e
    exact ⟨h, (Except.ok.inj e).symm⟩
  · have h' : composeAt n qs gs = .error .runtimeError := dif_neg h
    rw [h'] at e
    cases e

/-- Reading the qubits that carry a state. -/
theorem prob_onQubits {m : ℕ} (r : RunCirc) (h : DistinctQubits m r.n r.read) (t : ℂ) (ht : ‖t‖ = 1) (χ : QState m)
    (e : runGates r.gates (allZero r.n) = t • onQubits h.at χ) (b : ℕ) : r.prob b = prob χ b := by
  classical
  unfold RunCirc.prob
  rw [e]
  have key : ∀ c : Fin r.n → Bool, (∀ i q, r.read[i]? = some q → ∀ hq : q < r.n, c ⟨q, hq⟩ = b.testBit i) ↔
      ∀ i : Fin m, c (h.at i) = b.testBit i := by
    intro c
    constructor
    · intro hc i
      have hi : (i : ℕ) < r.read.length := by rw [h.1]; exact i.2
      exact hc i r.read[(i : ℕ)] (List.getElem?_eq_getElem hi) (h.2.2 _ (List.getElem_mem _))
    · intro hc i q hq hlt
      obtain ⟨hi, rfl⟩ := List.getElem?_eq_some_iff.1 hq
      exact hc ⟨i, by rw [← h.1]; exact hi⟩
  let c0 : Fin r.n → Bool := fun k => if hk : ∃ i, h.at i = k then b.testBit (hk.choose : Fin m) else false
  have hc0 : ∀ i : Fin m, c0 (h.at i) = b.testBit i := by
    intro i
    have hk : ∃ j, h.at j = h.at i := ⟨i, rfl⟩
    have h1 : c0 (h.at i) = b.testBit (hk.choose : Fin m) := dif_pos hk
    rw [h1, h.at_inj hk.choose_spec]
  have hc0' : ∀ k, (∀ i, h.at i ≠ k) → c0 k = false := fun k hk => dif_neg fun ⟨i, hi⟩ => hk i hi
  rw [Finset.sum_eq_single c0]
  · have h1 : onQubits h.at χ c0 = χ (qubitBits m b) := by
      unfold onQubits
      rw [if_pos hc0']
      congr 1
      funext i
      exact hc0 i
    rw [Pi.smul_apply, smul_eq_mul, Complex.normSq_mul, h1, Complex.normSq_eq_norm_sq t, ht]
    simp [prob]
  · intro c hc hne
    have hc := (key c).1 (Finset.mem_filter.1 hc).2
    have : onQubits h.at χ c = 0 := by
      unfold onQubits
      rw [if_neg]
      intro hz
      apply hne
      funext k
      by_cases hk : ∃ i, h.at i = k
      · obtain ⟨i, rfl⟩ := hk
        rw [hc i, hc0 i]
      · have hk' : ∀ i, h.at i ≠ k := fun i hi => hk ⟨i, hi⟩
        rw [hz k hk', hc0' k hk']
    rw [Pi.smul_apply, this, smul_zero, map_zero]
  · intro hn
    exact absurd (Finset.mem_filter.2 ⟨Finset.mem_univ _, (key c0).2 hc0⟩) hn

/-! ### Transpiled measurements -/

/-- The part of a state that belongs to one qubit. -/
def sliceAt {n : ℕ} (i : Fin n) (c : Fin n → Bool) (ψ : QState n) : QState 1 := fun b => ψ (Function.update c i (b 0))

theorem sliceAt_onQubit {n : ℕ} (i : Fin n) (c : Fin n → Bool) (M : Matrix Bool Bool ℂ) (q : Fin 1) (ψ : QState n) :
    sliceAt i c (onQubit i M ψ) = onQubit q M (sliceAt i c ψ) := by
  funext b
  have : q = 0 := Subsingleton.elim _ _
  subst this
  simp [sliceAt, onQubit]

theorem sliceAt_act {n : ℕ} (i : Fin n) (c : Fin n → Bool) (g : CGate 1) (ψ : QState n) :
    sliceAt i c ((g.place fun _ => i).act ψ) = g.act (sliceAt i c ψ) := by
  have one : ∀ q : Fin 1, q = 0 := fun q => Subsingleton.elim _ _
  rcases g with g | g
  · cases g with
    | x q => exact sliceAt_onQubit i c _ q ψ
    | h q => exact sliceAt_onQubit i c _ q ψ
    | sdg q => exact sliceAt_onQubit i c _ q ψ
    | cx a t =>
      funext b
      rw [one a, one t]
      simp [sliceAt, CGate.place, Gate.place, CGate.act, Gate.act]
    | swap a t =>
      funext b
      rw [one a, one t]
      have h1 : ∀ k, Equiv.swap i i k = k := fun k => by rw [Equiv.swap_self]; rfl
      have h2 : ∀ k : Fin 1, Equiv.swap (0 : Fin 1) 0 k = k := fun k => Subsingleton.elim _ _
      simp only [sliceAt, CGate.place, Gate.place, CGate.act, Gate.act, h1, h2]
  · cases g with
    | rx θ q => exact sliceAt_onQubit i c _ q ψ
    | ry θ q => exact sliceAt_onQubit i c _ q ψ
    | rz θ q => exact sliceAt_onQubit i c _ q ψ
    | x q => exact sliceAt_onQubit i c _ q ψ
    | h q => exact sliceAt_onQubit i c _ q ψ
    | cx a t =>
      funext b
      rw [one a, one t]
      simp [sliceAt, CGate.place, PGate.place, CGate.act, PGate.act]
    | cz a t =>
      funext b
      rw [one a, one t]
      simp [sliceAt, CGate.place, PGate.place, CGate.act, PGate.act]

theorem sliceAt_run {n : ℕ} (i : Fin n) (c : Fin n → Bool) (gs : List (CGate 1)) (ψ : QState n) :
    sliceAt i c (runGates (gs.map (CGate.place fun _ => i)) ψ) = runGates gs (sliceAt i c ψ) := by
  induction gs generalizing ψ with
  | nil => rfl
  | cons g gs ih =>
    change sliceAt i c (runGates (gs.map (CGate.place fun _ => i)) ((g.place fun _ => i).act ψ))
      = runGates gs (g.act (sliceAt i c ψ))
    rw [ih, sliceAt_act]

theorem sliceAt_self {n : ℕ} (i : Fin n) (c : Fin n → Bool) (ψ : QState n) : sliceAt i c ψ (fun _ => c i) = ψ c := by
  simp [sliceAt]

/-- A one-qubit circuit that acts as gates does so on every qubit. -/
theorem runGates_oneQubit {n : ℕ} (gs hs : List (CGate 1)) (s : ℂ) (h : ∀ ψ : QState 1, runGates gs ψ = s • runGates hs ψ)
    (i : Fin n) (ψ : QState n) :
    runGates (gs.map (CGate.place fun _ => i)) ψ = s • runGates (hs.map (CGate.place fun _ => i)) ψ := by
  funext c
  rw [← sliceAt_self i c (runGates (gs.map _) ψ), sliceAt_run, h, Pi.smul_apply, ← sliceAt_run, sliceAt_self,
    Pi.smul_apply]

theorem runGates_c {n : ℕ} (gs : List (Gate n)) (ψ : QState n) : runGates (gs.map CGate.c) ψ = runCircuit gs ψ := by
  induction gs generalizing ψ with
  | nil => rfl
  | cons g gs ih => exact ih (g.act ψ)

theorem runCircuit_append' {n : ℕ} (gs hs : List (Gate n)) (ψ : QState n) :
    runCircuit (gs ++ hs) ψ = runCircuit hs (runCircuit gs ψ) := by simp [runCircuit]

theorem runCircuit_smul' {n : ℕ} (gs : List (Gate n)) (s : ℂ) (ψ : QState n) :
    runCircuit gs (s • ψ) = s • runCircuit gs ψ := by
  rw [← runGates_c, ← runGates_c, runGates_smul]

section
variable {V : Type} {P : PassManagers V} {A : Ansatz0}

theorem cbsWith_run (F : FaithfulManagers P A) (pm : String → Option V) (op : List Char) (ψ : QState A.n) :
    ∃ s : ℂ, ‖s‖ = 1 ∧ runGates (cbsWith A.n (P.xMeas pm, P.yMeas pm) op) ψ = s • runCircuit (toCBS A.n op) ψ := by
  obtain ⟨sx, hx, ex⟩ := F.xMeas pm
  obtain ⟨sy, hy, ey⟩ := F.yMeas pm
  unfold cbsWith toCBS
  generalize List.finRange A.n = l
  induction l generalizing ψ with
  | nil => exact ⟨1, norm_one, by simp [runGates, runCircuit]⟩
  | cons i l ih =>
    simp only [List.flatMap_cons, runGates_append, runCircuit_append']
    by_cases h1 : op.reverse[(i : ℕ)]? = some 'X'
    · simp only [if_pos h1]
      have e := runGates_oneQubit (P.xMeas pm) [.c (.h 0)] sx (fun ψ => by rw [ex]; rfl) i ψ
      rw [e]
      obtain ⟨s, hs, es⟩ := ih (runCircuit [Gate.h i] ψ)
      refine ⟨sx * s, by rw [norm_mul, hx, hs, one_mul], ?_⟩
      change runGates _ (sx • runCircuit [Gate.h i] ψ) = _
      rw [runGates_smul, es, smul_smul]
    · simp only [if_neg h1]
      by_cases h2 : op.reverse[(i : ℕ)]? = some 'Y'
      · simp only [if_pos h2]
        have e := runGates_oneQubit (P.yMeas pm) [.c (.sdg 0), .c (.h 0)] sy (fun ψ => by rw [ey]; rfl) i ψ
        rw [e]
        obtain ⟨s, hs, es⟩ := ih (runCircuit [Gate.sdg i, Gate.h i] ψ)
        refine ⟨sy * s, by rw [norm_mul, hy, hs, one_mul], ?_⟩
        change runGates _ (sy • runCircuit [Gate.sdg i, Gate.h i] ψ) = _
        rw [runGates_smul, es, smul_smul]
      · simp only [if_neg h2]
        exact ih ψ

/-! ### Circuits that are right -/

/-- The circuit without transpilation. -/
def rawCirc (A : Ansatz0) : TCirc := ⟨A.n, fun p => A.state ++ A.raw p, none⟩

/-- The circuit, started at 0, leaves the state of the ansatz on its final qubits. -/
def RightCirc (A : Ansatz0) (c : TCirc) : Prop :=
  ∃ h : DistinctQubits A.n c.n (c.finals A), ∀ p, ∃ s : ℂ, ‖s‖ = 1 ∧
    runGates (c.gates p) (allZero c.n) = s • onQubits h.at (runGates (A.state ++ A.raw p) (allZero A.n))

theorem rawCirc_right : RightCirc A (rawCirc A) := by
  refine ⟨distinct_range A.n, fun p => ⟨1, norm_one, ?_⟩⟩
  rw [one_smul]
  exact (onQubits_id _ (distinct_range_at (distinct_range A.n)) _).symm

theorem builtCirc_right (F : FaithfulManagers P A) {pm : String → Option V} {c : TCirc} (h : BuiltCirc P A pm c) :
    RightCirc A c := by
  have hF := F.ansatz pm
  obtain ⟨s, hs, rfl⟩ := h
  revert hs hF s
  generalize P.run pm A.raw = out
  rcases out with ⟨N, gates, _ | ⟨ini, fin⟩⟩
  · rintro ⟨rfl, hF⟩ s hs
    have hs : composeAt A.n (List.range A.n) A.state = .ok s := hs
    rw [composeAt_ok (distinct_range A.n)] at hs
    obtain rfl := Except.ok.inj hs
    refine ⟨distinct_range A.n, fun p => ?_⟩
    obtain ⟨t, ht, e⟩ := hF p (runGates A.state (allZero A.n))
    refine ⟨t, ht, ?_⟩
    have h0 := runGates_place (distinct_range A.n).at_inj A.state (allZero A.n)
    rw [onQubits_id _ (distinct_range_at _), onQubits_id _ (distinct_range_at _)] at h0
    have h1 := onQubits_id _ (distinct_range_at (distinct_range A.n)) (runGates (A.state ++ A.raw p) (allZero A.n))
    refine Eq.trans ?_ (congrArg (t • ·) h1.symm)
    dsimp only
    rw [runGates_append, runGates_append, h0]
    exact e
  · rintro ⟨hi, hf, hF⟩ s hs
    obtain ⟨hi', rfl⟩ := composeAt_eq hs
    refine ⟨hf, fun p => ?_⟩
    obtain ⟨t, ht, e⟩ := hF p (runGates A.state (allZero A.n))
    refine ⟨t, ht, ?_⟩
    dsimp only
    rw [runGates_append, runGates_append]
    refine Eq.trans ?_ e
    have h0 := runGates_place hi.at_inj A.state (allZero A.n)
    rw [onQubits_allZero] at h0
    rw [← h0]
    rfl

theorem builtCirc_exists (F : FaithfulManagers P A) (pm : String → Option V) : ∃ c, BuiltCirc P A pm c := by
  have hF := F.ansatz pm
  unfold BuiltCirc
  revert hF
  generalize P.run pm A.raw = out
  rcases out with ⟨N, gates, _ | ⟨ini, fin⟩⟩
  · rintro ⟨rfl, -⟩
    exact ⟨_, _, composeAt_ok (distinct_range A.n) _, rfl⟩
  · rintro ⟨hi, -, -⟩
    exact ⟨_, _, composeAt_ok hi _, rfl⟩


/-! ### What the calls do -/

theorem manager_known {o : PassOpts V} (h : KnownOptions o) (q : TQI V) (e : q.opts = o) :
    q.makeManager = (.ok (), { q with pm := some o.manager }) := by
  unfold TQI.makeManager
  rw [if_neg, e]
  rintro ⟨k, h1, h2⟩
  rw [e, h k h2] at h1
  cases h1

theorem manager_cases (q : TQI V) :
    q.makeManager = (.error .valueError, q) ∨ q.makeManager = (.ok (), { q with pm := some q.opts.manager }) := by
  unfold TQI.makeManager
  split_ifs
  · exact Or.inl rfl
  · exact Or.inr rfl

/-- The options of the pass manager with a fixed layout. -/
def fixedOptions (P : PassManagers V) (o : PassOpts V) (pm : String → Option V) (out : TCirc) : String → Option V :=
  match out.layout with
  | some l => fun k => if k = "initial_layout" then some (P.layoutValue l.1) else o.manager k
  | none => pm

/-- The interface after transpiling, before the state circuit is added. -/
def afterTranspile (P : PassManagers V) (A : Ansatz0) (q : TQI V) (pm : String → Option V) : TQI V :=
  { q with
    hasRaw := true, ansatz := some (P.run pm A.raw)
    initIdx := (P.run pm A.raw).layout.elim (List.range (P.run pm A.raw).n) Prod.fst
    finalIdx := (P.run pm A.raw).layout.elim (List.range (P.run pm A.raw).n) Prod.snd
    fixed := some (fixedOptions P q.opts pm (P.run pm A.raw)), xy := some (P.xMeas pm, P.yMeas pm) }

/-- What transpiling changes. -/
theorem transpile_cases (q : TQI V) (pm : String → Option V) :
    ((∃ e, q.transpile P A pm = (.error e, afterTranspile P A q pm)) ∧ ¬ ∃ c, BuiltCirc P A pm c) ∨
    ∃ c, BuiltCirc P A pm c ∧ q.transpile P A pm = (.ok (), { afterTranspile P A q pm with circuit := some c }) := by
  unfold TQI.transpile BuiltCirc afterTranspile fixedOptions
  generalize P.run pm A.raw = out
  rcases out with ⟨N, gates, _ | l⟩
  · cases h : composeAt N (List.range N) A.state with
    | error e =>
      refine Or.inl ⟨⟨e, by simp only [h]; rfl⟩, ?_⟩
      rintro ⟨c, s, hs, -⟩
      exact absurd (h.symm.trans hs) (by simp)
    | ok s => exact Or.inr ⟨_, ⟨s, h, rfl⟩, by simp only [h]; rfl⟩
  · cases h : composeAt N l.1 A.state with
    | error e =>
      refine Or.inl ⟨⟨e, by simp only [h]; rfl⟩, ?_⟩
      rintro ⟨c, s, hs, -⟩
      exact absurd (h.symm.trans hs) (by simp)
    | ok s => exact Or.inr ⟨_, ⟨s, h, rfl⟩, by simp only [h]; rfl⟩

/-! ### Safety: whatever happens, the circuit that is there is right -/

/-- The circuit, if there is one, is that of the ansatz or a transpiled one, the latter only with `ISA`; the gates for
measurements are of some pass manager. -/
structure SafeTQI (P : PassManagers V) (A : Ansatz0) (q : TQI V) : Prop where
  circ : ∀ c, q.circuit = some c → c = rawCirc A ∨ (∃ pm, BuiltCirc P A pm c) ∧ q.isa = true
  xy : ∀ xy, q.xy = some xy → ∃ pm, xy = (P.xMeas pm, P.yMeas pm)

theorem SafeTQI.of_eq {q q' : TQI V} (h : SafeTQI P A q) (h1 : q'.circuit = q.circuit) (h2 : q'.xy = q.xy)
    (h3 : q.isa = true → q'.isa = true) : SafeTQI P A q' where
  circ c hc := by
    rcases h.circ c (h1 ▸ hc) with h | ⟨h, hi⟩
    · exact Or.inl h
    · exact Or.inr ⟨h, h3 hi⟩
  xy xy hx := h.xy xy (h2 ▸ hx)

theorem SafeTQI.transpile {q : TQI V} (h : SafeTQI P A q) (hi : q.isa = true) (pm : String → Option V) :
    SafeTQI P A (q.transpile P A pm).2 ∧ (q.transpile P A pm).2.isa = true := by
  rcases transpile_cases (P := P) (A := A) q pm with ⟨⟨e, he⟩, -⟩ | ⟨c, hc, he⟩
  · rw [he]
    exact ⟨⟨h.circ, fun xy hx => ⟨pm, (Option.some.inj hx).symm⟩⟩, hi⟩
  · rw [he]
    exact ⟨⟨fun c' hc' => Or.inr ⟨⟨pm, Option.some.inj hc' ▸ hc⟩, hi⟩, fun xy hx => ⟨pm, (Option.some.inj hx).symm⟩⟩, hi⟩

theorem SafeTQI.makeManager {q : TQI V} (h : SafeTQI P A q) : SafeTQI P A q.makeManager.2 ∧ q.makeManager.2.isa = q.isa := by
  rcases manager_cases q with e | e <;> rw [e]
  · exact ⟨h, rfl⟩
  · exact ⟨h.of_eq rfl rfl id, rfl⟩

theorem SafeTQI.setCircuit {q : TQI V} (h : SafeTQI P A q) :
    SafeTQI P A (q.setCircuit P A).2 ∧ (q.setCircuit P A).2.isa = q.isa := by
  unfold TQI.setCircuit
  cases hi : q.isa with
  | false => exact ⟨⟨fun c hc => Or.inl (Option.some.inj hc).symm, h.xy⟩, rfl⟩
  | true =>
    rw [if_pos rfl]
    cases hp : q.pm with
    | some pm => exact h.transpile hi pm
    | none =>
      obtain ⟨h1, h2⟩ := h.makeManager
      rcases hm : q.makeManager with ⟨_ | u, q'⟩ <;> rw [hm] at h1 h2
      · exact ⟨h1, h2.trans hi⟩
      · exact h1.transpile (h2.trans hi) _

theorem SafeTQI.construct {q : TQI V} (h : SafeTQI P A q) :
    SafeTQI P A (q.construct P A).2 ∧ (q.construct P A).2.isa = q.isa := by
  obtain ⟨h1, h2⟩ := h.setCircuit
  unfold TQI.construct
  rcases hm : q.setCircuit P A with ⟨_ | u, q'⟩ <;> rw [hm] at h1 h2
  · exact ⟨h1, h2⟩
  · exact ⟨h1.of_eq rfl rfl id, h2⟩

theorem SafeTQI.redo {q : TQI V} (h : SafeTQI P A q) : SafeTQI P A (q.redo P A).2 ∧ (q.redo P A).2.isa = q.isa := by
  obtain ⟨h1, h2⟩ := h.makeManager
  unfold TQI.redo
  rcases hm : q.makeManager with ⟨_ | u, q'⟩ <;> rw [hm] at h1 h2
  · exact ⟨h1, h2⟩
  · exact ⟨h1.construct.1, h1.construct.2.trans h2⟩

theorem defaults_same (q : TQI V) : (q.defaults P).circuit = q.circuit ∧ (q.defaults P).xy = q.xy ∧
    (q.defaults P).isa = q.isa ∧ (q.defaults P).v2 = q.v2 ∧ (q.defaults P).params = q.params ∧
    (q.defaults P).pm = q.pm ∧ (q.defaults P).minv = q.minv ∧ (q.defaults P).finalIdx = q.finalIdx :=
  ⟨rfl, rfl, rfl, rfl, rfl, rfl, rfl, rfl⟩

/-- Switching `ISA` on, or setting it as it is. -/
theorem SafeTQI.setIsa {q : TQI V} (h : SafeTQI P A q) (b : Bool) (hb : q.isa = true → q.v2 = true ∨ b = true) :
    SafeTQI P A (q.setIsa P A b).2 ∧ (q.setIsa P A b).2.isa = (q.v2 || b) := by
  unfold TQI.setIsa
  have h0 : SafeTQI P A { q with isa := q.v2 || b } := h.of_eq rfl rfl fun hi => by
    rcases hb hi with h | h <;> simp [h]
  cases hi : (q.v2 || b) with
  | false => rw [hi] at h0; exact ⟨h0, rfl⟩
  | true =>
    rw [hi] at h0
    have h1 : SafeTQI P A (TQI.defaults P { q with isa := true }) := h0.of_eq rfl rfl id
    dsimp only
    rw [if_pos rfl]
    split_ifs
    · exact h1.redo
    · exact ⟨h1, rfl⟩

theorem SafeTQI.updateManager {q : TQI V} (h : SafeTQI P A q) (new : Option (PassOpts V)) :
    SafeTQI P A (q.updateManager P A new).2 := by
  have h0 : SafeTQI P A (q.addOptions new) := by
    cases new
    · exact h
    · exact h.of_eq rfl rfl id
  unfold TQI.updateManager TQI.newManager
  generalize q.addOptions new = q0 at h0 ⊢
  obtain ⟨h1, h2⟩ := h0.makeManager
  rcases hm : q0.makeManager with ⟨_ | u, q'⟩ <;> rw [hm] at h1 h2
  · exact h1
  · dsimp only
    split_ifs with hi hn
    · exact h1.construct.1
    · exact h1
    · have h3 := (h0.setIsa true fun _ => Or.inr rfl).1
      rcases hs : q0.setIsa P A true with ⟨_ | u, q''⟩ <;> rw [hs] at h3
      · exact h3
      · exact h3.of_eq rfl rfl id

theorem SafeTQI.changePrimitive {q : TQI V} (h : SafeTQI P A q) (v2 : Bool) (backend : Option V) :
    SafeTQI P A (q.changePrimitive P A v2 backend).2 := by
  unfold TQI.changePrimitive
  have h0 : SafeTQI P A { q with v2 := v2, backend := backend } := h.of_eq rfl rfl id
  obtain ⟨h1, h2⟩ := h0.construct
  dsimp only
  rcases hm : TQI.construct P A { q with v2 := v2, backend := backend } with ⟨_ | u, q'⟩ <;> rw [hm] at h1 h2
  · exact h1
  · have h3 := (h1.setIsa q'.isa fun h => Or.inr h).1
    dsimp only at h3 ⊢
    rcases hs : q'.setIsa P A q'.isa with ⟨_ | u, q''⟩ <;> rw [hs] at h3
    · exact h3
    · exact h3.of_eq rfl rfl id

theorem SafeTQI.call {q : TQI V} (h : SafeTQI P A q) (c : TCall V) (hc : c ≠ .isa false) : SafeTQI P A (q.call P A c).2 := by
  cases c with
  | isa b =>
    cases b with
    | false => exact absurd rfl hc
    | true => exact (h.setIsa true fun _ => Or.inr rfl).1
  | options new => exact h.updateManager new
  | primitive v2 backend => exact h.changePrimitive v2 backend
  | params p =>
    change SafeTQI P A (q.setParams A p).2
    unfold TQI.setParams
    split_ifs
    · exact h
    · exact h
    · exact h.of_eq rfl rfl id
  | shots => exact h.of_eq rfl rfl id
  | redoMatrix => exact h.of_eq rfl rfl id
  | mitigate =>
    change SafeTQI P A (q.mitigate A).2
    unfold TQI.mitigate
    split
    · exact h
    · dsimp only
      split
      · exact h.of_eq rfl rfl id
      · exact h.of_eq rfl rfl id

theorem SafeTQI.calls {q : TQI V} (h : SafeTQI P A q) (cs : List (TCall V)) (hc : TCall.isa false ∉ cs) :
    SafeTQI P A (q.calls P A cs) := by
  induction cs generalizing q with
  | nil => exact h
  | cons c cs ih =>
    simp only [List.mem_cons, not_or] at hc
    exact ih (h.call c (Ne.symm hc.1)) hc.2

theorem SafeTQI.start (v2 : Bool) (backend : Option V) (opts : PassOpts V) (isa : Bool) :
    SafeTQI P A (TQI.start P A v2 backend opts isa) :=
  (SafeTQI.construct (SafeTQI.setIsa (P := P) (A := A)
    ⟨fun _ h => (by cases h), fun _ h => (by cases h)⟩ isa (fun h => by cases h)).1).1

theorem SafeTQI.prob (F : FaithfulManagers P A) {q : TQI V} (h : SafeTQI P A q) (p : List ℝ) (op : List Char) {r : RunCirc}
    (e : q.runCirc A p op = .ok r) (b : ℕ) : r.prob b = A.prob p op b := by
  unfold TQI.runCirc at e
  cases hc : q.circuit with
  | none => rw [hc] at e; cases e
  | some c =>
    rw [hc] at e
    have hr : RightCirc A c := by
      rcases h.circ c hc with rfl | ⟨⟨pm, hp⟩, -⟩
      · exact rawCirc_right
      · exact builtCirc_right F hp
    dsimp only at e
    unfold TQI.measure at e
    split_ifs at e with hi
    · cases hx : q.xy with
      | none => rw [hx] at e; cases e
      | some xy =>
        rw [hx] at e
        obtain ⟨pm, rfl⟩ := h.xy xy hx
        obtain ⟨m, hm, e⟩ := Res.of_bind e
        obtain rfl := Except.ok.inj e
        obtain ⟨hd, hrun⟩ := hr
        obtain ⟨hd', rfl⟩ := composeAt_eq hm
        obtain ⟨s, hs, es⟩ := hrun p
        obtain ⟨t, ht, et⟩ := cbsWith_run F pm op (runGates (A.state ++ A.raw p) (allZero A.n))
        refine prob_onQubits ⟨c.n, _, _⟩ hd (s * t) (by rw [norm_mul, hs, ht, one_mul])
          (runCircuit (toCBS A.n op) (runGates (A.state ++ A.raw p) (allZero A.n))) ?_ b
        dsimp only
        rw [runGates_append, es, runGates_smul, mul_smul]
        congr 1
        have := runGates_place hd.at_inj (cbsWith A.n (P.xMeas pm, P.yMeas pm) op)
          (runGates (A.state ++ A.raw p) (allZero A.n))
        rw [et, onQubits_smul] at this
        exact this
    · have hr : c = rawCirc A := by
        rcases h.circ c hc with h | ⟨-, h⟩
        · exact h
        · simp [h] at hi
      subst hr
      obtain ⟨m, hm, e⟩ := Res.of_bind e
      obtain rfl := Except.ok.inj e
      have hm : composeAt A.n (List.range A.n) ((toCBS A.n op).map CGate.c) = .ok m := hm
      rw [composeAt_ok (distinct_range A.n)] at hm
      obtain rfl := Except.ok.inj hm
      refine prob_onQubits ⟨A.n, _, _⟩ (distinct_range A.n) 1 norm_one
        (runCircuit (toCBS A.n op) (runGates (A.state ++ A.raw p) (allZero A.n))) ?_ b
      rw [one_smul]
      have := runGates_place (distinct_range A.n).at_inj ((toCBS A.n op).map CGate.c)
        (runGates (A.state ++ A.raw p) (allZero A.n))
      rw [onQubits_id _ (distinct_range_at _), runGates_c] at this
      exact (runGates_append _ _ _).trans this

/-! ### Progress: proper calls succeed and give the circuit of the current settings -/

/-- What the transpilation with the current settings leaves. -/
def SettledTQI (P : PassManagers V) (A : Ansatz0) (q : TQI V) : Prop :=
  q.hasRaw = true ∧ q.ansatz = some (P.run q.opts.manager A.raw) ∧
    q.initIdx = (P.run q.opts.manager A.raw).layout.elim (List.range (P.run q.opts.manager A.raw).n) Prod.fst ∧
    q.finalIdx = (P.run q.opts.manager A.raw).layout.elim (List.range (P.run q.opts.manager A.raw).n) Prod.snd ∧
    q.fixed = some (fixedOptions P q.opts q.opts.manager (P.run q.opts.manager A.raw))

/-- The circuit is what the settings ask for. -/
structure GoodTQI (P : PassManagers V) (A : Ansatz0) (q : TQI V) : Prop where
  known : KnownOptions q.opts
  params : ∃ p, q.params = some p ∧ p.length = A.numParams
  off : q.isa = false → q.circuit = some (rawCirc A)
  on : q.isa = true → q.pm = some q.opts.manager ∧ q.xy = some (P.xMeas q.opts.manager, P.yMeas q.opts.manager) ∧
    ∃ c, q.circuit = some c ∧ BuiltCirc P A q.opts.manager c ∧ q.finalIdx = c.layout.elim (List.range c.n) Prod.snd
  rawOff : q.isa = false → q.ansatz = some ⟨A.n, A.raw, none⟩
  settled : q.isa = true → SettledTQI P A q

theorem construct_good (F : FaithfulManagers P A) (q : TQI V) (hk : KnownOptions q.opts)
    (hpm : q.isa = true → q.pm = none ∨ q.pm = some q.opts.manager) (hp : ∀ p, q.params = some p → p.length = A.numParams) :
    ∃ q', q.construct P A = (.ok (), q') ∧ GoodTQI P A q' ∧ q'.isa = q.isa ∧ q'.v2 = q.v2 ∧ q'.opts = q.opts ∧
      q'.minv = q.minv ∧ q'.params = some (q.params.getD (List.replicate A.numParams 0)) := by
  have hlen : (q.params.getD (List.replicate A.numParams 0)).length = A.numParams := by
    cases h : q.params with
    | none => simp
    | some p => exact hp p h
  cases hi : q.isa with
  | false =>
    refine ⟨{ q with ansatz := some ⟨A.n, A.raw, none⟩, circuit := some (rawCirc A),
                     params := some (q.params.getD (List.replicate A.numParams 0)) }, ?_, ?_,
      hi, rfl, rfl, rfl, rfl⟩
    · unfold TQI.construct TQI.setCircuit
      rw [hi]
      rfl
    · exact ⟨hk, ⟨_, rfl, hlen⟩, fun _ => rfl, fun h => by simp [hi] at h, fun _ => rfl, fun h => by simp [hi] at h⟩
  | true =>
    have key : ∀ q1 : TQI V, q1.opts = q.opts → q1.pm = some q.opts.manager → q1.isa = true → q1.v2 = q.v2 →
        q1.minv = q.minv → q1.params = q.params → ∃ q2, q1.transpile P A q.opts.manager = (.ok (), q2) ∧
        q2.isa = true ∧ q2.v2 = q.v2 ∧ q2.opts = q.opts ∧ q2.minv = q.minv ∧ q2.params = q.params ∧
        q2.pm = some q.opts.manager ∧ q2.xy = some (P.xMeas q.opts.manager, P.yMeas q.opts.manager) ∧
        ∃ c, q2.circuit = some c ∧ BuiltCirc P A q.opts.manager c ∧
          q2.finalIdx = c.layout.elim (List.range c.n) Prod.snd ∧ SettledTQI P A q2 := by
      intro q1 h1 h2 h3 h4 h5 h6
      have settled : ∀ c, SettledTQI P A { afterTranspile P A q1 q.opts.manager with circuit := some c } := by
        intro c
        unfold SettledTQI afterTranspile
        dsimp only
        rw [h1]
        exact ⟨rfl, rfl, rfl, rfl, rfl⟩
      rcases transpile_cases (P := P) (A := A) q1 q.opts.manager with ⟨-, hn⟩ | ⟨c, hc, he⟩
      · exact absurd (builtCirc_exists F _) hn
      · exact ⟨_, he, h3, h4, h1, h5, h6, h2, rfl, c, rfl, hc, by obtain ⟨s, -, rfl⟩ := hc; rfl, settled c⟩
    have : ∃ q2, q.setCircuit P A = (.ok (), q2) ∧
        q2.isa = true ∧ q2.v2 = q.v2 ∧ q2.opts = q.opts ∧ q2.minv = q.minv ∧ q2.params = q.params ∧
        q2.pm = some q.opts.manager ∧ q2.xy = some (P.xMeas q.opts.manager, P.yMeas q.opts.manager) ∧
        ∃ c, q2.circuit = some c ∧ BuiltCirc P A q.opts.manager c ∧
          q2.finalIdx = c.layout.elim (List.range c.n) Prod.snd ∧ SettledTQI P A q2 := by
      unfold TQI.setCircuit
      rw [if_pos hi]
      rcases hpm hi with h | h
      · rw [h, manager_known hk q rfl]
        exact key { q with pm := some q.opts.manager } rfl rfl hi rfl rfl rfl
      · rw [h]
        exact key q rfl h hi rfl rfl rfl
    obtain ⟨q2, e, h1, h2, h3, h4, h5, h6, h7, c, h8, h9, h10, h11⟩ := this
    refine ⟨{ q2 with params := some (q2.params.getD (List.replicate A.numParams 0)) }, ?_, ?_, h1, h2, h3, h4, ?_⟩
    · unfold TQI.construct
      rw [e]
    · refine ⟨?_, ⟨_, rfl, by rw [h5]; exact hlen⟩, fun h => by simp [h1] at h, fun _ => ?_, fun h => by simp [h1] at h, fun _ => h11⟩
      · exact h3.symm ▸ hk
      · dsimp only
        rw [h3]
        exact ⟨h6, h7, c, h8, h9, h10⟩
    · rw [h5]

theorem fill_known {o : PassOpts V} (h : KnownOptions o) {k : String} (hk : k ∈ allowedOptions) (v : V) :
    KnownOptions (o.fill k v) := by
  intro j hj
  have hne : j ≠ k := fun e => hj (e ▸ hk)
  unfold PassOpts.fill PassOpts.set
  split_ifs
  · dsimp only
    rw [if_neg hne]
    exact h j hj
  · exact h j hj

theorem fill_get {o : PassOpts V} {k j : String} {v w : V} (h : o.get j = some w) : (o.fill k v).get j = some w := by
  unfold PassOpts.fill
  split_ifs with h0
  · unfold PassOpts.get PassOpts.set
    split_ifs with e
    · subst e
      rw [h] at h0
      cases h0
    · exact h
  · exact h

theorem defaults_known {q : TQI V} (h : KnownOptions q.opts) : KnownOptions (q.defaults P).opts := by
  have h1 : KnownOptions (q.opts.fillBackend q.backend) := by
    unfold PassOpts.fillBackend
    split
    · exact fill_known h (by simp [allowedOptions]) _
    · exact h
  have h2 := fill_known h1 (k := "optimization_level") (by simp [allowedOptions]) P.level3
  unfold TQI.defaults PassOpts.fillSeed
  dsimp only
  split_ifs
  · exact fill_known h2 (by simp [allowedOptions]) _
  · exact h2

theorem defaults_get {q : TQI V} {j : String} {w : V} (h : q.opts.get j = some w) : (q.defaults P).opts.get j = some w := by
  have h1 : (q.opts.fillBackend q.backend).get j = some w := by
    unfold PassOpts.fillBackend
    split
    · exact fill_get h
    · exact h
  have h2 : ((q.opts.fillBackend q.backend).fill "optimization_level" P.level3).get j = some w := fill_get h1
  unfold TQI.defaults PassOpts.fillSeed
  dsimp only
  split_ifs
  · exact fill_get h2
  · exact h2

theorem good_circuit {q : TQI V} (h : GoodTQI P A q) : ∃ c, q.circuit = some c := by
  cases hi : q.isa with
  | false => exact ⟨_, h.off hi⟩
  | true =>
    obtain ⟨-, -, c, hc, -⟩ := h.on hi
    exact ⟨c, hc⟩

theorem setIsa_good (F : FaithfulManagers P A) {q : TQI V} (h : GoodTQI P A q) (b : Bool)
    (hb : q.isa = true → (q.v2 || b) = true) :
    ∃ q', q.setIsa P A b = (.ok (), q') ∧ GoodTQI P A q' ∧ q'.isa = (q.v2 || b) ∧ q'.v2 = q.v2 ∧ q'.minv = q.minv ∧
      q'.params = q.params ∧ ∀ k v, q.opts.get k = some v → q'.opts.get k = some v := by
  obtain ⟨p, hp, hl⟩ := h.params
  obtain ⟨c, hc⟩ := good_circuit h
  unfold TQI.setIsa
  cases hi : (q.v2 || b) with
  | false =>
    have hf : q.isa = false := by
      cases h : q.isa with
      | false => rfl
      | true => exact absurd (hb h) (by simp [hi])
    exact ⟨_, rfl, ⟨h.known, h.params, fun _ => h.off hf, fun h => (by cases h), fun _ => h.rawOff hf, fun h => (by cases h)⟩, rfl, rfl, rfl, rfl, fun _ _ h => h⟩
  | true =>
    dsimp only
    rw [if_pos rfl]
    have hc' : (TQI.defaults P { q with isa := true }).circuit.isSome := by
      change q.circuit.isSome
      rw [hc]; rfl
    rw [if_pos hc']
    unfold TQI.redo
    have hk : KnownOptions (TQI.defaults P { q with isa := true }).opts := defaults_known h.known
    rw [manager_known hk _ rfl]
    obtain ⟨q', e, g, h1, h2, h3, h4, h5⟩ := construct_good F
      { TQI.defaults P { q with isa := true } with pm := some (TQI.defaults P { q with isa := true }).opts.manager }
      hk (fun _ => Or.inr rfl) (fun p' h' => by
        have h' : q.params = some p' := h'
        rw [hp] at h'
        rw [← Option.some.inj h', hl])
    refine ⟨q', e, g, h1, h2, h4, ?_, fun k v hv => ?_⟩
    · rw [h5]
      change some (q.params.getD _) = _
      rw [hp]; rfl
    · rw [h3]
      exact defaults_get (q := { q with isa := true }) hv

theorem update_known {o new : PassOpts V} (h : KnownOptions o) (hn : KnownOptions new) : KnownOptions (o.update new) := by
  intro k hk
  unfold PassOpts.update
  rw [hn k hk]
  exact h k hk

theorem updateManager_good (F : FaithfulManagers P A) {q : TQI V} (h : GoodTQI P A q) (new : Option (PassOpts V))
    (hn : ∀ o ∈ new, KnownOptions o) :
    ∃ q', q.updateManager P A new = (.ok (), q') ∧ GoodTQI P A q' ∧ q'.isa = true ∧ q'.v2 = q.v2 ∧ q'.minv = q.minv ∧
      q'.params = q.params ∧ ∀ k v, (q.addOptions new).opts.get k = some v → q'.opts.get k = some v := by
  obtain ⟨p, hp, hl⟩ := h.params
  obtain ⟨c, hc⟩ := good_circuit h
  have hk : KnownOptions (q.addOptions new).opts := by
    cases new with
    | none => exact h.known
    | some o => exact update_known h.known (hn o rfl)
  have h1 : (q.addOptions new).isa = q.isa := by cases new <;> rfl
  have h2 : (q.addOptions new).v2 = q.v2 := by cases new <;> rfl
  have h3 : (q.addOptions new).minv = q.minv := by cases new <;> rfl
  have h4 : (q.addOptions new).params = q.params := by cases new <;> rfl
  have h5 : (q.addOptions new).circuit = q.circuit := by cases new <;> rfl
  have h6 : (q.addOptions new).ansatz = q.ansatz := by cases new <;> rfl
  unfold TQI.updateManager TQI.newManager
  rw [manager_known hk _ rfl]
  dsimp only
  by_cases hi : q.isa = true
  · rw [if_pos (h1.trans hi)]
    cases new with
    | none =>
      rw [if_neg (by simp)]
      refine ⟨_, rfl, ⟨h.known, h.params, h.off, fun _ => ?_, h.rawOff, h.settled⟩, hi, rfl, rfl, rfl, fun _ _ h => h⟩
      obtain ⟨-, h7, h8⟩ := h.on hi
      exact ⟨rfl, h7, h8⟩
    | some o =>
      rw [if_pos (by rw [h5, hc]; exact ⟨rfl, rfl⟩)]
      obtain ⟨q', e, g, g1, g2, g3, g4, g5⟩ := construct_good F
        { q.addOptions (some o) with pm := some (q.addOptions (some o)).opts.manager } hk (fun _ => Or.inr rfl)
        (fun p' h' => by
          have h' : q.params = some p' := h'
          rw [hp] at h'
          rw [← Option.some.inj h', hl])
      refine ⟨q', e, g, g1.trans hi, g2, g4, ?_, fun k v hv => ?_⟩
      · rw [g5]
        change some (q.params.getD _) = _
        rw [hp]; rfl
      · rw [g3]; exact hv
  · have hi : q.isa = false := by simpa using hi
    rw [if_neg (by simp [h1, hi])]
    have g0 : GoodTQI P A (q.addOptions new) :=
      ⟨hk, ⟨p, h4.trans hp, hl⟩, fun _ => h5.trans (h.off hi), fun h => (by rw [h1, hi] at h; cases h),
        fun _ => h6.trans (h.rawOff hi), fun h => (by rw [h1, hi] at h; cases h)⟩
    obtain ⟨q', e, g, g1, g2, g3, g4, g5⟩ := setIsa_good F g0 true (by simp)
    rw [e]
    refine ⟨_, rfl, ⟨g.known, g.params, g.off, fun hi => ?_, g.rawOff, g.settled⟩, g1.trans (by simp), g2.trans h2, g3.trans h3, g4.trans h4, g5⟩
    obtain ⟨-, h7, h8⟩ := g.on hi
    exact ⟨rfl, h7, h8⟩

theorem changePrimitive_good (F : FaithfulManagers P A) {q : TQI V} (h : GoodTQI P A q) (v2 : Bool) (backend : Option V) :
    ∃ q', q.changePrimitive P A v2 backend = (.ok (), q') ∧ GoodTQI P A q' ∧ q'.isa = (v2 || q.isa) ∧ q'.v2 = v2 ∧
      q'.minv = none ∧ q'.params = q.params ∧ ∀ k v, q.opts.get k = some v → q'.opts.get k = some v := by
  obtain ⟨p, hp, hl⟩ := h.params
  obtain ⟨q1, e, g, g1, g2, g3, g4, g5⟩ := construct_good F { q with v2 := v2, backend := backend } h.known
    (fun hi => Or.inr (h.on hi).1) (fun p' h' => by
        have h' : q.params = some p' := h'
        rw [hp] at h'
        rw [← Option.some.inj h', hl])
  obtain ⟨q2, e', k, k1, k2, k3, k4, k5⟩ := setIsa_good F g q1.isa (fun h => by simp [h])
  unfold TQI.changePrimitive
  dsimp only
  rw [e]
  dsimp only
  rw [e']
  refine ⟨_, rfl, ⟨k.known, k.params, k.off, k.on, k.rawOff, k.settled⟩, ?_, k2.trans g2, rfl, ?_, fun j v hv => ?_⟩
  · exact k1.trans (by rw [g1, g2])
  · refine k4.trans (g5.trans ?_)
    change some (q.params.getD _) = _
    rw [hp]; rfl
  · exact k5 j v (by rw [g3]; exact hv)

theorem start_good (F : FaithfulManagers P A) (v2 : Bool) (backend : Option V) {opts : PassOpts V} (isa : Bool)
    (hk : KnownOptions opts) : GoodTQI P A (TQI.start P A v2 backend opts isa) ∧
      (TQI.start P A v2 backend opts isa).isa = (v2 || isa) ∧ (TQI.start P A v2 backend opts isa).v2 = v2 ∧
      (TQI.start P A v2 backend opts isa).minv = none := by
  unfold TQI.start TQI.init TQI.setIsa
  dsimp only
  cases hi : (v2 || isa) with
  | false =>
    obtain ⟨q', e, g, g1, g2, g3, g4, g5⟩ := construct_good (P := P) F
      ⟨v2, backend, false, opts, none, none, false, none, none, [], [], none, none, none⟩ hk (fun h => by cases h) (fun _ h => by cases h)
    rw [if_neg (by simp), e]
    exact ⟨g, g1, g2, g4⟩
  | true =>
    rw [if_pos rfl]
    obtain ⟨q', e, g, g1, g2, g3, g4, g5⟩ := construct_good (P := P) F
      (TQI.defaults P ⟨v2, backend, true, opts, none, none, false, none, none, [], [], none, none, none⟩) (defaults_known hk)
      (fun _ => Or.inl rfl) (fun _ h => by cases h)
    rw [if_neg (by simp [(defaults_same (P := P) (⟨v2, backend, true, opts, none, none, false, none, none, [], [], none, none, none⟩ : TQI V)).1]), e]
    exact ⟨g, g1, g2, g4⟩

theorem built_finals (F : FaithfulManagers P A) {pm : String → Option V} {c : TCirc} (h : BuiltCirc P A pm c) :
    c.layout.elim (List.range c.n) Prod.snd = c.finals A := by
  have hF := F.ansatz pm
  obtain ⟨s, -, rfl⟩ := h
  revert hF s
  unfold TCirc.finals
  generalize P.run pm A.raw = out
  rcases out with ⟨N, gates, _ | l⟩
  · rintro ⟨rfl, -⟩ s
    rfl
  · intro _ _
    rfl

/-- The circuit that is run for a label, and the answers about the read-out matrix. -/
theorem good_run (F : FaithfulManagers P A) {q : TQI V} (h : GoodTQI P A q) (hv : q.v2 = true → q.isa = true)
    (p : List ℝ) (op : List Char) :
    ∃ r, q.runCirc A p op = .ok r ∧ r.read = q.calibrationQubits A ∧
      (q.mitigate A).1 = .ok (0, q.minv.getD r.read) := by
  cases hi : q.isa with
  | true =>
    obtain ⟨-, hx, c, hc, hb, hf⟩ := h.on hi
    obtain ⟨hd, -⟩ := builtCirc_right F hb
    rw [built_finals F hb] at hf
    have hcal : q.calibrationQubits A = c.finals A := by
      unfold TQI.calibrationQubits
      rw [if_pos hi, hf]
    refine ⟨⟨c.n, c.gates p ++ (cbsWith A.n (P.xMeas q.opts.manager, P.yMeas q.opts.manager) op).map (CGate.place hd.at),
      c.finals A⟩, ?_, hcal.symm, ?_⟩
    · unfold TQI.runCirc
      rw [hc]
      dsimp only
      unfold TQI.measure
      rw [hx, hi]
      dsimp only
      rw [if_pos (by simp)]
      rw [composeAt_ok hd (cbsWith A.n (P.xMeas q.opts.manager, P.yMeas q.opts.manager) op)]
      rfl
    · unfold TQI.mitigate
      rw [hc]
      dsimp only
      unfold TQI.layoutConflict
      dsimp only
      rw [if_neg (by simp [hi]), hf, if_neg (by simp), if_pos rfl, hcal]
  | false =>
    have hc := h.off hi
    have hv' : q.v2 = false := by
      cases h : q.v2 with
      | false => rfl
      | true => rw [hv h] at hi; cases hi
    have hcal : q.calibrationQubits A = List.range A.n := by
      unfold TQI.calibrationQubits
      rw [if_neg (by simp [hi])]
    refine ⟨⟨A.n, A.state ++ A.raw p ++ ((toCBS A.n op).map CGate.c).map (CGate.place (distinct_range A.n).at),
      List.range A.n⟩, ?_, hcal.symm, ?_⟩
    · unfold TQI.runCirc
      rw [hc]
      dsimp only
      unfold TQI.measure
      rw [hi, hv']
      rw [if_neg (by simp)]
      have := composeAt_ok (distinct_range A.n) ((toCBS A.n op).map CGate.c)
      change (composeAt A.n (List.range A.n) ((toCBS A.n op).map CGate.c) >>= _) = _
      rw [this]
      rfl
    · unfold TQI.mitigate
      rw [hc]
      dsimp only
      unfold TQI.layoutConflict
      dsimp only
      rw [if_pos hi, if_pos (show (rawCirc A).layout.isNone = true from rfl), hcal]

/-- A proper call succeeds; only the setter of parameters changes them. -/
theorem call_good (F : FaithfulManagers P A) {q : TQI V} (h : GoodTQI P A q) (hv : q.v2 = true → q.isa = true)
    (c : TCall V) (hc : ProperCall A c) :
    ∃ q', q.call P A c = (.ok (), q') ∧ GoodTQI P A q' ∧ (q'.v2 = true → q'.isa = true) ∧
      ((∀ p, c ≠ .params p) → q'.params = q.params) := by
  cases c with
  | isa b =>
    obtain rfl : b = true := hc
    obtain ⟨q', e, g, g1, g2, g3, g4, g5⟩ := setIsa_good F h true (by simp)
    exact ⟨q', e, g, fun _ => by simp [g1], fun _ => g4⟩
  | options new =>
    obtain ⟨q', e, g, g1, g2, g3, g4, g5⟩ := updateManager_good F h new hc
    exact ⟨q', e, g, fun _ => g1, fun _ => g4⟩
  | primitive v2 backend =>
    obtain ⟨q', e, g, g1, g2, g3, g4, g5⟩ := changePrimitive_good F h v2 backend
    exact ⟨q', e, g, fun h => by rw [g1, ← g2, h]; rfl, fun _ => g4⟩
  | params p =>
    have hc : p.length = A.numParams := hc
    obtain ⟨c, hcc⟩ := good_circuit h
    refine ⟨{ q with params := some p }, ?_, ⟨h.known, ⟨p, rfl, hc⟩, h.off, h.on, h.rawOff, h.settled⟩, hv, fun hn => absurd rfl (hn p)⟩
    change q.setParams A p = _
    unfold TQI.setParams
    rw [if_neg (by simp [hcc]), if_neg (by simp [hc])]
  | shots => exact ⟨_, rfl, ⟨h.known, h.params, h.off, h.on, h.rawOff, h.settled⟩, hv, fun _ => rfl⟩
  | redoMatrix => exact ⟨_, rfl, ⟨h.known, h.params, h.off, h.on, h.rawOff, h.settled⟩, hv, fun _ => rfl⟩
  | mitigate =>
    obtain ⟨r, -, -, hm⟩ := good_run F h hv [] []
    obtain ⟨c, hcc⟩ := good_circuit h
    have e2 : (q.mitigate A).2 = { q with minv := some (q.minv.getD (q.calibrationQubits A)) } := by
      unfold TQI.mitigate
      rw [hcc]
      dsimp only
      split <;> rfl
    refine ⟨{ q with minv := some (q.minv.getD (q.calibrationQubits A)) }, ?_, ⟨h.known, h.params, h.off, h.on, h.rawOff, h.settled⟩, hv,
      fun _ => rfl⟩
    change ((q.mitigate A).1.map fun _ => (), (q.mitigate A).2) = _
    rw [hm, e2]
    rfl

theorem calls_good (F : FaithfulManagers P A) {q : TQI V} (h : GoodTQI P A q) (hv : q.v2 = true → q.isa = true)
    (cs : List (TCall V)) (hc : ∀ c ∈ cs, ProperCall A c) :
    GoodTQI P A (q.calls P A cs) ∧ ((q.calls P A cs).v2 = true → (q.calls P A cs).isa = true) := by
  induction cs generalizing q with
  | nil => exact ⟨h, hv⟩
  | cons c cs ih =>
    obtain ⟨q', e, g, g1, -⟩ := call_good F h hv c (hc c List.mem_cons_self)
    have := ih g g1 fun c' h' => hc c' (List.mem_cons_of_mem c h')
    change GoodTQI P A ((q.call P A c).2.calls P A cs) ∧ (((q.call P A c).2.calls P A cs).v2 = true →
      ((q.call P A c).2.calls P A cs).isa = true)
    rw [e]
    exact this

/-- The read-out matrix is that of the qubits in use. -/
def FreshMatrix (A : Ansatz0) (q : TQI V) : Prop := q.minv = none ∨ q.minv = some (q.calibrationQubits A)

theorem call_fresh (F : FaithfulManagers P A) {q : TQI V} (h : GoodTQI P A q) (hm : FreshMatrix A q)
    (c : TCall V) (hc : ¬ ChangesSettings c) : FreshMatrix A (q.call P A c).2 := by
  cases c with
  | isa b => exact absurd trivial hc
  | options new => exact absurd trivial hc
  | primitive v2 backend =>
    obtain ⟨q', e, g, g1, g2, g3, g4, g5⟩ := changePrimitive_good F h v2 backend
    change FreshMatrix A (q.changePrimitive P A v2 backend).2
    rw [e]
    exact Or.inl g3
  | params p =>
    change FreshMatrix A (q.setParams A p).2
    unfold TQI.setParams
    split_ifs
    · exact hm
    · exact hm
    · exact hm
  | shots => exact Or.inl rfl
  | redoMatrix => exact Or.inr rfl
  | mitigate =>
    change FreshMatrix A (q.mitigate A).2
    obtain ⟨c, hcc⟩ := good_circuit h
    have e2 : (q.mitigate A).2 = { q with minv := some (q.minv.getD (q.calibrationQubits A)) } := by
      unfold TQI.mitigate
      rw [hcc]
      dsimp only
      split <;> rfl
    rw [e2]
    refine Or.inr ?_
    rcases hm with h | h <;> rw [h] <;> rfl

theorem calls_fresh (F : FaithfulManagers P A) {q : TQI V} (h : GoodTQI P A q) (hv : q.v2 = true → q.isa = true)
    (hm : FreshMatrix A q) (cs : List (TCall V)) (hr : ResetAfterChanges cs) (hc : ∀ c ∈ cs, ProperCall A c) :
    FreshMatrix A (q.calls P A cs) := by
  induction hr generalizing q with
  | nil => exact hm
  | other c cs hn _ ih =>
    obtain ⟨q', e, g, g1, -⟩ := call_good F h hv c (hc c List.mem_cons_self)
    have h1 := call_fresh F h hm c hn
    rw [e] at h1
    change FreshMatrix A ((q.call P A c).2.calls P A cs)
    rw [e]
    exact ih g g1 h1 fun c' h' => hc c' (List.mem_cons_of_mem c h')
  | change c cs _ ih =>
    obtain ⟨q', e, g, g1, -⟩ := call_good F h hv c (hc c List.mem_cons_self)
    change FreshMatrix A (TQI.calls P A { (q.call P A c).2 with minv := none } cs)
    rw [e]
    exact ih ⟨g.known, g.params, g.off, g.on, g.rawOff, g.settled⟩ g1 (Or.inl rfl)
      fun c' h' => hc c' (List.mem_cons_of_mem c (List.mem_cons_of_mem _ h'))

end

end SQ
