import Verif.Lemmas.ProjStdVar
import Mathlib.Probability.Distributions.Uniform
import Mathlib.Probability.ProbabilityMassFunction.Integrals
import Mathlib.Probability.Independence.InfinitePi

/-!
# C139: standard deviations of the matrices of projected and all-projected linear response
-/

namespace SQ

open MeasureTheory ProbabilityTheory

variable {tiny big : ℝ → Bool} {W : RespWf}
variable {Ω : Type} [MeasurableSpace Ω] {μ : Measure Ω} [IsProbabilityMeasure μ] {est : Dict ℝ → Ω → ℝ}

/-- The entry at `r`, `c` belongs to two different active operators whose estimates are independent. -/
def ActivePair (tiny : ℝ → Bool) (W : RespWf) (L : QLR) (μ : Measure Ω) (est : Dict ℝ → Ω → ℝ) (r c : ℕ) : Prop :=
  ∃ i j Gi Gj, j < i ∧ L.G[i]? = some Gi ∧ L.G[j]? = some Gj ∧ IndependentActive tiny W L μ est Gi Gj ∧
    (r = L.Q.length + i ∧ c = L.Q.length + j ∨ r = L.Q.length + j ∧ c = L.Q.length + i)

omit [IsProbabilityMeasure μ] in
theorem var_zero : Var[fun _ : Ω => (0 : ℝ); μ] = 0 := by
  rw [show (fun _ : Ω => (0 : ℝ)) = 0 from rfl, variance_zero]

/-- The entry of two active operators in the matrices, for both classes. -/
theorem active_entries {L : QLR} {P : List (Dict ℝ × Dict ℝ)} (hv : FiniteVariance μ est)
    (hP : List.Forall₂ (fun G p => expOps tiny W L.H0 G = .ok p) L.G P) {x y : Dict ℝ × ℕ}
    (hx : x ∈ L.G.zipIdx) (hy : y ∈ (L.G.drop x.2).zipIdx x.2)
    {o : Dict ℝ × Dict ℝ × (Dict ℝ × Dict ℝ) × (Dict ℝ × Dict ℝ)} (ho : projActOps tiny W L.H0 P x y = .ok o)
    {r c : ℕ} (hrc : r = y.2 + L.Q.length ∧ c = x.2 + L.Q.length ∨ r = x.2 + L.Q.length ∧ c = y.2 + L.Q.length)
    (h : ActivePair tiny W L μ est r c) :
    Var[fun ω => (pairEntry est (W.fold L.H0) o ω).1; μ] ≤ 4 * (pairStd μ est (W.fold L.H0) o).1 ^ 2 ∧
    Var[fun ω => (pairEntry est (W.fold L.H0) o ω).2.1; μ] ≤ 2 * (pairStd μ est (W.fold L.H0) o).2.1 ^ 2 ∧
    Var[fun ω => (pairEntry est (W.fold L.H0) o ω).2.2; μ] = (pairStd μ est (W.fold L.H0) o).2.2 ^ 2 := by
  obtain ⟨i, j, Gi, Gj, hij, hi, hj, hI, hr⟩ := h
  have lx : x.2 ≤ y.2 := (List.mem_zipIdx_iff_le_and_getElem?_sub.1 hy).1
  obtain ⟨e1, e2⟩ : i = y.2 ∧ j = x.2 := by omega
  have gx : L.G[x.2]? = some x.1 := zipIdx_get hx
  have gy : L.G[y.2]? = some y.1 := zipIdx_drop_get hy
  rw [e1, gy] at hi
  rw [e2, gx] at hj
  obtain rfl := Option.some.inj hi
  obtain rfl := Option.some.inj hj
  exact pair_bounds hv (act_indep hP gx gy ho hI)

/-- C139 (projected linear response): computing the deviations does not raise, and neither does `run` without density
matrices, whatever is measured.  At the true means, what `run_std` returns bounds the scatter of the matrices that `run` leaves,
except on the diagonal of the active blocks.  For orbital rotations it is as for naive linear response (C136).  Of the
mixed entries, those of `A` have the reported deviation and those of `B` a variance of half the reported one.  For
different active operators with independent estimates the metric has the reported deviation, and the variances of `A`
and `B` are at most four and two times the reported ones, however the products in them are correlated.
`C139_diagonal_disagree` shows that the diagonal is left out for a reason. -/
theorem C139_projected_partial (ht : ExactTiny tiny) (hb : ExactBig big) (hW : W.Proper) (hv : FiniteVariance μ est)
    (excitations : String) :
    let n := W.kappa.length
    ∃ L S E, qlrInit tiny big W excitations = .ok L ∧
      qpStd tiny big (meanOf μ est) (varianceOf μ est) (W.atMean L μ est) [] L = .ok (S, E) ∧
      ∃ M : Ω → LRMats,
        (∀ ω doGradients, ∃ E', qpRun tiny big (measuredAt est ω) (W.atOutcome L est ω) false doGradients L =
          .ok (M ω, E')) ∧
        ∀ i j,
          (0 ≤ S.A i j ∧ 0 ≤ S.B i j ∧ 0 ≤ S.Sigma i j) ∧
          (i < n → j < n → Var[fun ω => (M ω).Sigma i j; μ] = S.Sigma i j ^ 2 ∧
            Var[fun ω => (M ω).B i j; μ] = S.B i j ^ 2 ∧ Var[fun ω => (M ω).A i j; μ] ≤ 2 * S.A i j ^ 2 ∧
            (Uncorr μ est → Var[fun ω => (M ω).A i j; μ] ≤ S.A i j ^ 2)) ∧
          ((i < n ↔ n ≤ j) → Var[fun ω => (M ω).A i j; μ] = S.A i j ^ 2 ∧
            Var[fun ω => (M ω).B i j; μ] = 1 / 2 * S.B i j ^ 2 ∧
            Var[fun ω => (M ω).Sigma i j; μ] = S.Sigma i j ^ 2) ∧
          (ActivePair tiny W L μ est i j → Var[fun ω => (M ω).Sigma i j; μ] = S.Sigma i j ^ 2 ∧
            Var[fun ω => (M ω).A i j; μ] ≤ 4 * S.A i j ^ 2 ∧ Var[fun ω => (M ω).B i j; μ] ≤ 2 * S.B i j ^ 2) := by
  intro n
  obtain ⟨L, H2, hL, hM, hn, -, h2, hg⟩ := qlrInit_gens ht hb hW excitations
  obtain ⟨P, hE, hP⟩ := hg.exps ht
  obtain ⟨M, S, r1, r2, r3⟩ := proj_pair (big := big) (est := fun ω A => est A ω) (e := fun ω => est (W.fold L.H0) ω)
    (m := fun A => ∫ ω, est A ω ∂μ) (v := fun A => Var[est A; μ]) (e0 := ∫ ω, est (W.fold L.H0) ω ∂μ)
    (fun i j X s => 0 ≤ s ∧ (i < n → j < n → EntryOK μ (Uncorr μ est) X s) ∧ ((i < n ↔ n ≤ j) → Var[X; μ] = s ^ 2) ∧
      (ActivePair tiny W L μ est i j → Var[X; μ] ≤ 4 * s ^ 2))
    (fun i j X s => 0 ≤ s ∧ (i < n → j < n → Var[X; μ] = s ^ 2) ∧ ((i < n ↔ n ≤ j) → Var[X; μ] = 1 / 2 * s ^ 2) ∧
      (ActivePair tiny W L μ est i j → Var[X; μ] ≤ 2 * s ^ 2))
    (fun i j X s => 0 ≤ s ∧ ((i < n ∨ j < n) → Var[X; μ] = s ^ 2) ∧
      (ActivePair tiny W L μ est i j → Var[X; μ] = s ^ 2))
    ht hg hM h2 hE
    (fun i j => ⟨⟨le_rfl, fun _ _ => entryEq_zero.ok _, fun _ => by rw [var_zero]; norm_num,
        fun _ => by rw [var_zero]; norm_num⟩,
      ⟨le_rfl, fun _ _ => by rw [var_zero]; norm_num, fun _ => by rw [var_zero]; norm_num,
        fun _ => by rw [var_zero]; norm_num⟩,
      ⟨le_rfl, fun _ => by rw [var_zero]; norm_num, fun _ => by rw [var_zero]; norm_num⟩⟩)
    (fun i j o hi hj => by
      rw [hn] at hi hj
      have na : ¬ActivePair tiny W L μ est i j := by
        rintro ⟨a, b, -, -, -, -, -, -, h⟩
        rw [hn] at h
        omega
      refine ⟨⟨Real.sqrt_nonneg _, fun _ _ => entry_sub hv _ _, fun h => absurd (h.1 hi) (not_le.2 hj), fun h => absurd h na⟩,
        ⟨Real.sqrt_nonneg _, fun _ _ => (entry_neg _).eq, fun h => absurd (h.1 hi) (not_le.2 hj), fun h => absurd h na⟩,
        fun s => ⟨Real.sqrt_nonneg _, fun _ => (entry_single _).eq, fun h => absurd h na⟩⟩)
    (fun i j o hij => by
      rw [hn] at hij
      have na : ¬ActivePair tiny W L μ est i j := by
        rintro ⟨a, b, -, -, -, -, -, -, h⟩
        rw [hn] at h
        omega
      refine ⟨⟨Real.sqrt_nonneg _, fun h h' => by omega, fun _ => (entry_single _).eq, fun h => absurd h na⟩,
        ⟨Real.sqrt_nonneg _, fun h h' => by omega, fun _ => ?_, fun h => absurd h na⟩⟩
      have e : Var[fun ω => -1 / 2 * est o.2 ω; μ] = (-1 / 2) ^ 2 * Var[est o.2; μ] := variance_smul _ _ _
      rw [e, Real.sq_sqrt (mul_nonneg (by norm_num) (variance_nonneg _ _))]
      ring)
    (fun M S hR => act_pair _ _ _ ht hg hP.length_eq (fun x hx y hy o ho => by
      have key : ∀ r c, (r = y.2 + L.Q.length ∧ c = x.2 + L.Q.length ∨ r = x.2 + L.Q.length ∧ c = y.2 + L.Q.length) → _ :=
        fun r c h => active_entries (r := r) (c := c) hv hP hx hy ho h
      have nn := pair_nonneg (μ := μ) (est := est) (W.fold L.H0) o
      have hn' : n = L.Q.length := hn.symm
      refine ⟨⟨⟨nn.1, fun h h' => by omega, fun h => by omega, fun h => (key _ _ (Or.inl ⟨rfl, rfl⟩) h).1⟩,
          ⟨nn.2.1, fun h h' => by omega, fun h => by omega, fun h => (key _ _ (Or.inl ⟨rfl, rfl⟩) h).2.1⟩,
          ⟨nn.2.2, fun h => by omega, fun h => (key _ _ (Or.inl ⟨rfl, rfl⟩) h).2.2⟩⟩,
        ⟨⟨nn.1, fun h h' => by omega, fun h => by omega, fun h => (key _ _ (Or.inr ⟨rfl, rfl⟩) h).1⟩,
          ⟨nn.2.1, fun h h' => by omega, fun h => by omega, fun h => (key _ _ (Or.inr ⟨rfl, rfl⟩) h).2.1⟩,
          ⟨nn.2.2, fun h => by omega, fun h => (key _ _ (Or.inr ⟨rfl, rfl⟩) h).2.2⟩⟩⟩) hR)
  refine ⟨L, S, _, hL, r2, M, fun ω dg => ⟨_, r1 ω dg⟩, fun i j => ?_⟩
  obtain ⟨⟨a0, a1, a2, a3⟩, ⟨b0, b1, b2, b3⟩, s0, s1, s2⟩ := r3 i j
  exact ⟨⟨a0, b0, s0⟩, fun hi hj => ⟨s1 (Or.inl hi), b1 hi hj, (a1 hi hj).two, (a1 hi hj).one⟩,
    fun h => ⟨a2 h, b2 h, s1 (by omega)⟩, fun h => ⟨s2 h, a3 h, b3 h⟩⟩

/-- The entry at `r`, `c` belongs to two orbital rotations for which the estimates of the metric and of the energy are
independent. -/
def OrbitalPair (tiny : ℝ → Bool) (W : RespWf) (L : QLR) (μ : Measure Ω) (est : Dict ℝ → Ω → ℝ) (r c : ℕ) : Prop :=
  ∃ i j qi qj, j ≤ i ∧ L.Q[i]? = some qi ∧ L.Q[j]? = some qj ∧ IndependentOrbital tiny W L μ est qi qj ∧
    (r = i ∧ c = j ∨ r = j ∧ c = i)

/-- C139 (all-projected linear response): as for projected linear response, with a metric for orbital rotations that
has the reported deviation, entries of `A` for two orbital rotations with a variance of at most twice the reported one
(if the estimates of the metric and of the energy are independent), mixed entries of `A` with the reported deviation,
and no mixed or orbital entries of `B`. -/
theorem C139_all_projected_partial (ht : ExactTiny tiny) (hb : ExactBig big) (hW : W.Proper) (hv : FiniteVariance μ est)
    (excitations : String) :
    let n := W.kappa.length
    ∃ L S E, qlrInit tiny big W excitations = .ok L ∧
      qaStd tiny big (meanOf μ est) (varianceOf μ est) (W.atMean L μ est) [] L = .ok (S, E) ∧
      ∃ M : Ω → LRMats,
        (∀ ω doGradients, ∃ E', qaRun tiny big (measuredAt est ω) (W.atOutcome L est ω) doGradients L = .ok (M ω, E')) ∧
        ∀ i j,
          (0 ≤ S.A i j ∧ 0 ≤ S.B i j ∧ 0 ≤ S.Sigma i j) ∧
          (i < n ∨ j < n → S.B i j = 0 ∧ (∀ ω, (M ω).B i j = 0) ∧
            Var[fun ω => (M ω).Sigma i j; μ] = S.Sigma i j ^ 2) ∧
          (OrbitalPair tiny W L μ est i j → Var[fun ω => (M ω).A i j; μ] ≤ 2 * S.A i j ^ 2) ∧
          ((i < n ↔ n ≤ j) → Var[fun ω => (M ω).A i j; μ] = S.A i j ^ 2) ∧
          (ActivePair tiny W L μ est i j → Var[fun ω => (M ω).Sigma i j; μ] = S.Sigma i j ^ 2 ∧
            Var[fun ω => (M ω).A i j; μ] ≤ 4 * S.A i j ^ 2 ∧ Var[fun ω => (M ω).B i j; μ] ≤ 2 * S.B i j ^ 2) := by
  intro n
  obtain ⟨L, H2, hL, hM, hn, -, h2, hg⟩ := qlrInit_gens ht hb hW excitations
  have hn' : n = L.Q.length := hn.symm
  obtain ⟨P, hE, hP⟩ := hg.exps ht
  have no : ∀ {i j}, n ≤ i ∨ n ≤ j → ¬OrbitalPair tiny W L μ est i j := by
    rintro i j h ⟨a, b, qa, qb, -, ha, hb, -, h'⟩
    have := (List.getElem?_eq_some_iff.1 ha).1
    have := (List.getElem?_eq_some_iff.1 hb).1
    omega
  have na : ∀ {i j}, i < n ∨ j < n → ¬ActivePair tiny W L μ est i j := by
    rintro i j h ⟨a, b, -, -, -, -, -, -, h'⟩
    omega
  obtain ⟨M, S, r1, r2, r3⟩ := all_pair (big := big) (est := fun ω A => est A ω) (e := fun ω => est (W.fold L.H0) ω)
    (m := fun A => ∫ ω, est A ω ∂μ) (v := fun A => Var[est A; μ]) (e0 := ∫ ω, est (W.fold L.H0) ω ∂μ)
    (fun i j X s => 0 ≤ s ∧ (OrbitalPair tiny W L μ est i j → Var[X; μ] ≤ 2 * s ^ 2) ∧
      ((i < n ↔ n ≤ j) → Var[X; μ] = s ^ 2) ∧ (ActivePair tiny W L μ est i j → Var[X; μ] ≤ 4 * s ^ 2))
    (fun i j X s => 0 ≤ s ∧ (i < n ∨ j < n → s = 0 ∧ ∀ ω, X ω = 0) ∧
      (ActivePair tiny W L μ est i j → Var[X; μ] ≤ 2 * s ^ 2))
    (fun i j X s => 0 ≤ s ∧ ((i < n ∨ j < n) → Var[X; μ] = s ^ 2) ∧
      (ActivePair tiny W L μ est i j → Var[X; μ] = s ^ 2))
    ht hg hM h2 hE
    (fun i j => ⟨⟨le_rfl, fun _ => by rw [var_zero]; norm_num, fun _ => by rw [var_zero]; norm_num,
        fun _ => by rw [var_zero]; norm_num⟩,
      ⟨le_rfl, fun _ => ⟨rfl, fun _ => rfl⟩, fun _ => by rw [var_zero]; norm_num⟩,
      ⟨le_rfl, fun _ => by rw [var_zero]; norm_num, fun _ => by rw [var_zero]; norm_num⟩⟩)
    (fun x hx y hy o ho => by
      have lx := idx_zipIdx hx
      have ly := idx_drop hy lx
      have le : x.2 ≤ y.2 := (List.mem_zipIdx_iff_le_and_getElem?_sub.1 hy).1
      have gx : L.Q[x.2]? = some x.1 := zipIdx_get hx
      have gy : L.Q[y.2]? = some y.1 := zipIdx_drop_get hy
      have key : ∀ r c, (r = y.2 ∧ c = x.2 ∨ r = x.2 ∧ c = y.2) → OrbitalPair tiny W L μ est r c →
          Var[fun ω => est o.1 ω - est o.2 ω * est (W.fold L.H0) ω; μ] ≤ 2 * √(Var[est o.1; μ] +
            varProd (∫ ω, est o.2 ω ∂μ) Var[est o.2; μ] (∫ ω, est (W.fold L.H0) ω ∂μ) Var[est (W.fold L.H0); μ]) ^ 2 := by
        rintro r c hrc ⟨i, j, qi, qj, hij, hi, hj, hI, hr⟩
        obtain ⟨rfl, rfl⟩ : i = y.2 ∧ j = x.2 := by omega
        rw [gy] at hi
        rw [gx] at hj
        obtain rfl := Option.some.inj hi
        obtain rfl := Option.some.inj hj
        unfold allOrbOps at ho
        obtain ⟨d, hd, ho⟩ := Res.of_bind ho
        obtain ⟨a, ha, ho⟩ := Res.of_bind ho
        obtain ⟨s, hs, ho⟩ := Res.of_bind ho
        obtain rfl := Except.ok.inj ho
        have pv := prod_var (hv (W.fold s)) (hv (W.fold L.H0)) (hI d s hd hs)
        have sp := (spread_self (hv (W.fold a))).add ((spread_self pv.1).smul (-1) (by norm_num))
        have e : (fun ω => est (W.fold a) ω - est (W.fold s) ω * est (W.fold L.H0) ω) =
            fun ω => est (W.fold a) ω + -1 * (est (W.fold s) * est (W.fold L.H0)) ω := by
          funext ω
          simp only [Pi.mul_apply]
          ring
        change Var[fun ω => est (W.fold a) ω - est (W.fold s) ω * est (W.fold L.H0) ω; μ] ≤ _
        rw [e]
        refine sp.le.trans (le_of_eq ?_)
        rw [Real.sq_sqrt (add_nonneg (variance_nonneg _ _) (varProd_nonneg (variance_nonneg _ _) (variance_nonneg _ _))),
          pv.2]
        unfold varProd
        ring
      refine ⟨⟨⟨Real.sqrt_nonneg _, key _ _ (Or.inl ⟨rfl, rfl⟩), fun h => by omega, fun h => absurd h (na (by omega))⟩,
          ⟨Real.sqrt_nonneg _, fun _ => (entry_single _).eq, fun h => absurd h (na (by omega))⟩⟩,
        ⟨⟨Real.sqrt_nonneg _, key _ _ (Or.inr ⟨rfl, rfl⟩), fun h => by omega, fun h => absurd h (na (by omega))⟩,
          ⟨Real.sqrt_nonneg _, fun _ => (entry_single _).eq, fun h => absurd h (na (by omega))⟩⟩⟩)
    (fun i j o hij => ⟨Real.sqrt_nonneg _, fun h => absurd h (no (by omega)), fun _ => (entry_single _).eq,
      fun h => absurd h (na (by omega))⟩)
    (fun M S hR => act_pair _ _ _ ht hg hP.length_eq (fun x hx y hy o ho => by
      have key : ∀ r c, (r = y.2 + L.Q.length ∧ c = x.2 + L.Q.length ∨ r = x.2 + L.Q.length ∧ c = y.2 + L.Q.length) → _ :=
        fun r c h => active_entries (r := r) (c := c) hv hP hx hy ho h
      have nn := pair_nonneg (μ := μ) (est := est) (W.fold L.H0) o
      refine ⟨⟨⟨nn.1, fun h => absurd h (no (by omega)), fun h => by omega, fun h => (key _ _ (Or.inl ⟨rfl, rfl⟩) h).1⟩,
          ⟨nn.2.1, fun h => by omega, fun h => (key _ _ (Or.inl ⟨rfl, rfl⟩) h).2.1⟩,
          ⟨nn.2.2, fun h => by omega, fun h => (key _ _ (Or.inl ⟨rfl, rfl⟩) h).2.2⟩⟩,
        ⟨⟨nn.1, fun h => absurd h (no (by omega)), fun h => by omega, fun h => (key _ _ (Or.inr ⟨rfl, rfl⟩) h).1⟩,
          ⟨nn.2.1, fun h => by omega, fun h => (key _ _ (Or.inr ⟨rfl, rfl⟩) h).2.1⟩,
          ⟨nn.2.2, fun h => by omega, fun h => (key _ _ (Or.inr ⟨rfl, rfl⟩) h).2.2⟩⟩⟩) hR)
  refine ⟨L, S, _, hL, r2, M, fun ω dg => ⟨_, r1 ω dg⟩, fun i j => ?_⟩
  obtain ⟨⟨a0, a1, a2, a3⟩, ⟨b0, b1, b3⟩, s0, s1, s2⟩ := r3 i j
  exact ⟨⟨a0, b0, s0⟩, fun h => ⟨(b1 h).1, (b1 h).2, s1 h⟩, a1, a2, fun h => ⟨s2 h, a3 h, b3 h⟩⟩

/-- C139: after `run` with the same measurements, `run_std` gives the same as on a new object. -/
theorem C139_after_run {qev qvar : Dict ℝ → Res ℝ} {L : QLR} {M : LRMats} {E : List (ℝ × ℝ)} :
    (∀ doRdm doGradients, qpRun tiny big qev W doRdm doGradients L = .ok (M, E) →
      qpStd tiny big qev qvar W E L = qpStd tiny big qev qvar W [] L) ∧
    ∀ doGradients, qaRun tiny big qev W doGradients L = .ok (M, E) →
      qaStd tiny big qev qvar W E L = qaStd tiny big qev qvar W [] L := by
  have key : L.G.mapM (qpExp tiny qev W L.H0) = .ok E → stdExp tiny qev W L E = stdExp tiny qev W L [] := by
    intro h
    unfold stdExp
    rw [if_pos (show ([] : List (ℝ × ℝ)).length = 0 from rfl)]
    by_cases c : E.length = 0
    · rw [if_pos c]
    · rw [if_neg c, h]
      rfl
  refine ⟨fun doRdm doGradients h => ?_, fun doGradients h => ?_⟩
  · have : L.G.mapM (qpExp tiny qev W L.H0) = .ok E := by
      unfold qpRun at h
      by_cases c : L.Q.length ≠ 0 ∧ doRdm = false ∧ doGradients = true
      · rw [if_pos c] at h
        obtain ⟨_, -, h⟩ := Res.of_bind h
        obtain ⟨E', hE, h⟩ := Res.of_bind h
        obtain ⟨_, -, h⟩ := Res.of_bind h
        obtain ⟨_, -, h⟩ := Res.of_bind h
        obtain ⟨_, -, h⟩ := Res.of_bind h
        rw [hE, (Prod.mk.inj (Except.ok.inj h)).2]
      · rw [if_neg c] at h
        obtain ⟨E', hE, h⟩ := Res.of_bind h
        obtain ⟨_, -, h⟩ := Res.of_bind h
        obtain ⟨_, -, h⟩ := Res.of_bind h
        obtain ⟨_, -, h⟩ := Res.of_bind h
        rw [hE, (Prod.mk.inj (Except.ok.inj h)).2]
    unfold qpStd
    rw [key this]
  · have : L.G.mapM (qpExp tiny qev W L.H0) = .ok E := by
      unfold qaRun at h
      obtain ⟨_, -, h⟩ := Res.of_bind h
      obtain ⟨E', hE, h⟩ := Res.of_bind h
      by_cases c : doGradients = true
      · rw [if_pos c] at h
        obtain ⟨_, -, h⟩ := Res.of_bind h
        obtain ⟨_, -, h⟩ := Res.of_bind h
        obtain ⟨_, -, h⟩ := Res.of_bind h
        obtain ⟨_, -, h⟩ := Res.of_bind h
        rw [hE, (Prod.mk.inj (Except.ok.inj h)).2]
      · rw [if_neg c] at h
        obtain ⟨_, -, h⟩ := Res.of_bind h
        obtain ⟨_, -, h⟩ := Res.of_bind h
        obtain ⟨_, -, h⟩ := Res.of_bind h
        rw [hE, (Prod.mk.inj (Except.ok.inj h)).2]
    unfold qaStd
    rw [key this]

/-- A fair coin. -/
noncomputable def coin : Measure Bool := (PMF.uniformOfFintype Bool).toMeasure

instance : IsProbabilityMeasure coin := by
  unfold coin
  infer_instance

theorem coin_mean (f : Bool → ℝ) : ∫ b, f b ∂coin = (f true + f false) / 2 := by
  unfold coin
  rw [PMF.integral_eq_sum]
  simp
  ring

theorem coin_var (f : Bool → ℝ) : Var[f; coin] = ((f true - f false) / 2) ^ 2 := by
  rw [variance_eq_sub MemLp.of_discrete, coin_mean, coin_mean]
  simp only [Pi.pow_apply]
  ring

/-- C139: on the diagonal the deviation is reported too small.  Whenever there is an active operator, there are
estimates, independent for different operators, for which the entry of the metric on the diagonal scatters more than
`run_std` says, in both classes: the variance of the square of a number is taken as if its factors were independent. -/
theorem C139_diagonal_disagree (ht : ExactTiny tiny) (hb : ExactBig big) (hW : W.Proper) (excitations : String)
    (hG : lrOps W (lettersOf excitations) ≠ []) :
    let n := W.kappa.length
    ∃ L est, qlrInit tiny big W excitations = .ok L ∧ FiniteVariance coin est ∧
      (∀ A B, A ≠ B → IndepFun (est A) (est B) coin) ∧
      (∃ S E, qpStd tiny big (meanOf coin est) (varianceOf coin est) (W.atMean L coin est) [] L = .ok (S, E) ∧
        ∃ M : Bool → LRMats,
          (∀ ω doGradients, ∃ E', qpRun tiny big (measuredAt est ω) (W.atOutcome L est ω) false doGradients L =
            .ok (M ω, E')) ∧
          S.Sigma n n ^ 2 < Var[fun ω => (M ω).Sigma n n; coin]) ∧
      ∃ S E, qaStd tiny big (meanOf coin est) (varianceOf coin est) (W.atMean L coin est) [] L = .ok (S, E) ∧
        ∃ M : Bool → LRMats,
          (∀ ω doGradients, ∃ E', qaRun tiny big (measuredAt est ω) (W.atOutcome L est ω) doGradients L =
            .ok (M ω, E')) ∧
          S.Sigma n n ^ 2 < Var[fun ω => (M ω).Sigma n n; coin] := by
  classical
  intro n
  obtain ⟨L, H2, hL, hM, hn, hl, h2, hg⟩ := qlrInit_gens ht hb hW excitations
  have hn' : n = L.Q.length := hn.symm
  obtain ⟨P, hE, hP⟩ := hg.exps ht
  obtain ⟨g0, rest, hG⟩ : ∃ g0 rest, L.G = g0 :: rest := by
    cases h : L.G with
    | nil => exact absurd (List.eq_nil_of_length_eq_zero (by rw [← hl, h]; rfl)) hG
    | cons a l => exact ⟨a, l, rfl⟩
  let est : Dict ℝ → Bool → ℝ := fun A b => if A = W.fold g0 then (if b then -2 / 5 else -3 / 5) else 0
  have z1 : ((g0, 0) : Dict ℝ × ℕ) ∈ L.G.zipIdx := by rw [hG, List.zipIdx_cons]; simp
  obtain ⟨o, ho⟩ := hg.act ht hP.length_eq (g0, 0) z1 (g0, 0) (by simpa using z1)
  have hoi : o.2.2.1.1 = W.fold g0 ∧ o.2.2.2.1 = W.fold g0 := by
    have h := (List.forall₂_iff_get.1 hP).2 0 (by rw [hG]; simp) (by rw [← hP.length_eq, hG]; simp)
    rw [List.get_eq_getElem, List.get_eq_getElem] at h
    have hg0 : L.G[0]'(by rw [hG]; simp) = g0 := by simp [hG]
    rw [hg0] at h
    unfold expOps at h
    obtain ⟨HG, -, h⟩ := Res.of_bind h
    have h := Except.ok.inj h
    unfold projActOps at ho
    obtain ⟨d, -, ho⟩ := Res.of_bind ho
    obtain ⟨a, -, ho⟩ := Res.of_bind ho
    obtain ⟨s, -, ho⟩ := Res.of_bind ho
    obtain ⟨pi, hpi, ho⟩ := Res.of_bind ho
    obtain ⟨pj, hpj, ho⟩ := Res.of_bind ho
    rw [elemAt_lt (by rw [← hP.length_eq, hG]; simp)] at hpi hpj
    obtain rfl := Except.ok.inj hpi
    obtain rfl := Except.ok.inj hpj
    obtain rfl := Except.ok.inj ho
    dsimp only
    rw [← h]
    exact ⟨rfl, rfl⟩
  have bad : (pairStd coin est (W.fold L.H0) o).2.2 ^ 2 < Var[fun ω => (pairEntry est (W.fold L.H0) o ω).2.2; coin] := by
    have v0 := variance_nonneg (est o.2.1) coin
    have v1 := variance_nonneg (est (W.fold g0)) coin
    unfold pairStd actStd pairEntry actEntry
    dsimp only
    rw [hoi.1, hoi.2, Real.sq_sqrt (add_nonneg v0 (varProd_nonneg v1 v1))]
    rw [coin_var, coin_var, coin_var, coin_mean]
    unfold varProd
    by_cases c : o.2.1 = W.fold g0
    · simp only [est, c, if_true]
      norm_num
    · simp only [est, c, if_true, if_false]
      norm_num
  have hd := fun M S => act_diag (est := fun ω A => est A ω) (e := fun ω => est (W.fold L.H0) ω)
    (m := fun A => ∫ ω, est A ω ∂coin) (v := fun A => Var[est A; coin]) (e0 := ∫ ω, est (W.fold L.H0) ω ∂coin)
    ht hg hP.length_eq hG ho (fun X s => s ^ 2 < Var[X; coin]) bad M S
  refine ⟨L, est, hL, fun A => MemLp.of_discrete, fun A B hAB => ?_, ?_, ?_⟩
  · by_cases c : A = W.fold g0
    · have e : est B = fun _ => 0 := by
        funext b
        exact if_neg fun h => hAB (c.trans h.symm)
      rw [e]
      exact indepFun_const_right _ _
    · have e : est A = fun _ => 0 := by
        funext b
        exact if_neg c
      rw [e]
      exact indepFun_const_left _ _
  · obtain ⟨M, S, r1, r2, r3⟩ := proj_pair (big := big) (est := fun ω A => est A ω) (e := fun ω => est (W.fold L.H0) ω)
      (m := fun A => ∫ ω, est A ω ∂coin) (v := fun A => Var[est A; coin]) (e0 := ∫ ω, est (W.fold L.H0) ω ∂coin)
      (fun _ _ _ _ => True) (fun _ _ _ _ => True) (fun _ _ _ _ => True) ht hg hM h2 hE
      (fun _ _ => ⟨trivial, trivial, trivial⟩) (fun _ _ _ _ _ => ⟨trivial, trivial, fun _ => trivial⟩)
      (fun _ _ _ _ => ⟨trivial, trivial⟩) (fun M S _ => hd M S)
    exact ⟨S, _, r2, M, fun ω dg => ⟨_, r1 ω dg⟩, hn' ▸ r3⟩
  · obtain ⟨M, S, r1, r2, r3⟩ := all_pair (big := big) (est := fun ω A => est A ω) (e := fun ω => est (W.fold L.H0) ω)
      (m := fun A => ∫ ω, est A ω ∂coin) (v := fun A => Var[est A; coin]) (e0 := ∫ ω, est (W.fold L.H0) ω ∂coin)
      (fun _ _ _ _ => True) (fun _ _ _ _ => True) (fun _ _ _ _ => True) ht hg hM h2 hE
      (fun _ _ => ⟨trivial, trivial, trivial⟩) (fun _ _ _ _ _ _ => ⟨⟨trivial, trivial⟩, ⟨trivial, trivial⟩⟩)
      (fun _ _ _ _ => trivial) (fun M S _ => hd M S)
    exact ⟨S, _, r2, M, fun ω dg => ⟨_, r1 ω dg⟩, hn' ▸ r3⟩

/-- One occupied and one unoccupied active orbital give an active operator. -/
example (hocc : W.occ = [1]) (hun : W.unocc = [2]) : lrOps W (lettersOf "s") ≠ [] := by
  unfold lrOps
  have h : ('s' ∈ lettersOf "s") := by decide
  rw [if_pos h, hocc, hun]
  simp [iterateT1sa]

/-- Independent estimates that scatter, for any two operators: a coin for each operator. -/
example (m : Dict ℝ → ℝ) : ∃ (Ω : Type) (_ : MeasurableSpace Ω) (μ : Measure Ω) (_ : IsProbabilityMeasure μ)
    (est : Dict ℝ → Ω → ℝ), FiniteVariance μ est ∧ iIndepFun est μ ∧ ∀ A, ∃ ω ω', est A ω ≠ est A ω' := by
  classical
  refine ⟨Dict ℝ → Bool, inferInstance, Measure.infinitePi fun _ => coin, inferInstance,
    fun A ω => m A + if ω A then 1 else -1, fun A => ?_, ?_, fun A => ⟨fun _ => true, fun _ => false, by norm_num⟩⟩
  · have hm : Measurable fun ω : Dict ℝ → Bool => m A + if ω A = true then (1 : ℝ) else -1 := by
      have : Measurable fun b : Bool => m A + if b = true then (1 : ℝ) else -1 := measurable_of_finite _
      exact this.comp (measurable_pi_apply A)
    refine MemLp.of_bound hm.aestronglyMeasurable (|m A| + 1) (Filter.Eventually.of_forall fun ω => ?_)
    rw [Real.norm_eq_abs]
    refine (abs_add_le _ _).trans (add_le_add le_rfl ?_)
    split <;> norm_num
  · exact iIndepFun_infinitePi (X := fun A (b : Bool) => m A + if b = true then (1 : ℝ) else -1)
      fun A => measurable_of_finite _

end SQ
