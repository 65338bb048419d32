import Verif.Lemmas.OrbitalDerivative
import Verif.Props.WaveFunctionOpt
import Verif.Props.Density

/-!
# C123: the orbital gradient is the derivative of the energy

`orbitalEnergy`, `RealAo`, `shiftBy`, `listDot`: Spec/OrbitalDerivative.lean. The objects, `WFOp` and the reference `WFRef`
are those of C39 and C41.
-/

namespace SQ

open NormedSpace

variable {N nI nA nV : ℕ} {Ψs : List (Fock ℝ)}

theorem rotGen_pairing (X : Fin N → Fin N → ℝ) (idx : List (Fin N × Fin N)) (d : List ℝ) :
    ∑ m, ∑ n, rotGen idx d m n * X m n = listDot d (idx.map fun x => X x.1 x.2 - X x.2 x.1) := by
  induction idx generalizing d with
  | nil => simp [rotGen, listDot]
  | cons x idx ih =>
    cases d with
    | nil => simp [rotGen, listDot]
    | cons y d =>
      have e1 : rotGen (x :: idx) (y :: d) =
          y • (Matrix.single x.1 x.2 (1 : ℝ) - Matrix.single x.2 x.1 1) + rotGen idx d := by
        simp [rotGen]
      have e2 : listDot (y :: d) ((x :: idx).map fun x => X x.1 x.2 - X x.2 x.1) =
          y * (X x.1 x.2 - X x.2 x.1) + listDot d (idx.map fun x => X x.1 x.2 - X x.2 x.1) := by
        simp [listDot]
      rw [e1, e2, ← ih]
      simp only [Matrix.add_apply, Matrix.smul_apply, Matrix.sub_apply, add_mul, Finset.sum_add_distrib, smul_eq_mul,
        Matrix.single_apply, mul_assoc, sub_mul, mul_sub, Finset.sum_sub_distrib, ← Finset.mul_sum]
      congr 1
      have e3 : ∀ a b : Fin N, ∑ m, ∑ n, (if a = m ∧ b = n then (1 : ℝ) else 0) * X m n = X a b := by
        intro a b
        rw [Finset.sum_eq_single a, Finset.sum_eq_single b]
        · simp
        · intro n _ hn; simp [hn.symm]
        · simp
        · intro m _ hm; simp [hm.symm]
        · simp
      rw [e3, e3]

theorem natMat_real {h : Matrix (Fin N) (Fin N) ℝ} {g : Tensor4 (Fin N)} (hr : RealAo h g) :
    RealIntegrals (natMat h) (natTen g) where
  one := fun p q => by
    unfold natMat
    by_cases hp : p < N ∧ q < N
    · rw [dif_pos hp, dif_pos hp.symm, hr.one]
    · rw [dif_neg hp, dif_neg fun h => hp h.symm]
  two := fun p q r s => by
    unfold natTen
    by_cases hp : (p < N ∧ q < N) ∧ (r < N ∧ s < N)
    · rw [dif_pos hp, dif_pos hp.symm, hr.two]
    · rw [dif_neg hp, dif_neg fun h => hp h.symm]
  real := fun p q r s => by
    unfold natTen
    by_cases hp : (p < N ∧ q < N) ∧ (r < N ∧ s < N)
    · rw [dif_pos hp, dif_pos ⟨hp.1.symm, hp.2.symm⟩, hr.real]
    · rw [dif_neg hp, dif_neg fun h => hp ⟨h.1.symm, h.2.symm⟩]

theorem transform_real {h : Matrix (Fin N) (Fin N) ℝ} {g : Tensor4 (Fin N)} (hr : RealAo h g) (C : Matrix (Fin N) (Fin N) ℝ) :
    RealAo (oneTransform C h) (twoTransform C g) where
  one := fun a b => by
    unfold oneTransform
    rw [Finset.sum_comm]
    refine Finset.sum_congr rfl fun x _ => Finset.sum_congr rfl fun y _ => ?_
    rw [hr.one]; ring
  two := fun a b c d => by
    unfold twoTransform
    have h1 : ∀ a' b', ∑ c', ∑ d', C a' a * C b' b * C c' c * C d' d * g a' b' c' d' =
        ∑ c', ∑ d', C c' c * C d' d * C a' a * C b' b * g c' d' a' b' := fun a' b' =>
      Finset.sum_congr rfl fun x _ => Finset.sum_congr rfl fun y _ => by rw [hr.two]; ring
    simp only [h1]
    have h2 : ∀ a', ∑ b', ∑ c', ∑ d', C c' c * C d' d * C a' a * C b' b * g c' d' a' b' =
        ∑ c', ∑ b', ∑ d', C c' c * C d' d * C a' a * C b' b * g c' d' a' b' := fun _ => Finset.sum_comm
    simp only [h2]
    rw [Finset.sum_comm]
    refine Finset.sum_congr rfl fun c' _ => ?_
    have h3 : ∀ a', ∑ b', ∑ d', C c' c * C d' d * C a' a * C b' b * g c' d' a' b' =
        ∑ d', ∑ b', C c' c * C d' d * C a' a * C b' b * g c' d' a' b' := fun _ => Finset.sum_comm
    simp only [h3]
    exact Finset.sum_comm
  real := fun a b c d => by
    unfold twoTransform
    rw [Finset.sum_comm]
    refine Finset.sum_congr rfl fun b' _ => Finset.sum_congr rfl fun a' _ => ?_
    rw [Finset.sum_comm]
    refine Finset.sum_congr rfl fun c' _ => Finset.sum_congr rfl fun d' _ => ?_
    rw [hr.real]; ring

theorem orbitalEnergy_mul (h : Matrix (Fin N) (Fin N) ℝ) (g : Tensor4 (Fin N)) (C U : Matrix (Fin N) (Fin N) ℝ) :
    orbitalEnergy h g Ψs (C * U) = orbitalEnergy (oneTransform C h) (twoTransform C g) Ψs U := by
  unfold orbitalEnergy
  rw [(C62_compose C U h g).1, (C62_compose C U h g).2]

theorem rotGen_smul (idx : List (Fin N × Fin N)) (d : List ℝ) (t : ℝ) : rotGen idx (d.map (t * ·)) = t • rotGen idx d := by
  induction idx generalizing d with
  | nil => simp [rotGen]
  | cons x idx ih =>
    cases d with
    | nil => simp [rotGen]
    | cons y d =>
      have := ih d
      simp only [rotGen, List.map_cons, List.zip_cons_cons, List.sum_cons, smul_add] at this ⊢
      rw [this, mul_smul]

/-- C123: `get_orbital_gradient` is the gradient of the energy: rotating the orbitals by `exp(-t K)`, `K` the
antisymmetric matrix of the parameters `d`, changes the energy at the rate `Σ_i G_i d_i`. -/
theorem C123_gradient (hN : N = nI + nA + nV) (hR : Reference nI nA Ψs) {rdm1 : Mat ℝ} {rdm2 : Arr4}
    (hd : IsRdm nI nA Ψs rdm1 rdm2) {hAo : Matrix (Fin N) (Fin N) ℝ} {gAo : Tensor4 (Fin N)} (hr : RealAo hAo gAo)
    (C : Matrix (Fin N) (Fin N) ℝ) (idx : List (Fin N × Fin N)) (d : List ℝ) :
    HasDerivAt (fun t : ℝ => orbitalEnergy hAo gAo Ψs (C * exp (-rotGen idx (d.map (t * ·)))))
      (listDot d (getOrbitalGradient (natMat (oneTransform C hAo)) (natTen (twoTransform C gAo)) nI nA rdm1 rdm2
        (idx.map fun x => (x.1.val, x.2.val)))) 0 := by
  have h1 := energy_deriv (rotGen_transpose idx d) (oneTransform C hAo) (twoTransform C gAo) Ψs
  simp only [orbitalEnergy_mul, rotGen_smul]
  refine h1.congr_deriv ?_
  rw [rotGen_pairing]
  have h2 := C32_gradient (nV := nV) hR hd (natMat_real (transform_real hr C)) (kappa := idx.map fun x => (x.1.val, x.2.val))
    (by
      intro mn hmn
      obtain ⟨x, -, rfl⟩ := List.mem_map.1 hmn
      have := x.1.2
      have := x.2.2
      constructor <;> simp only <;> omega)
  rw [h2, List.map_map, ← hN]
  congr 1
  refine List.map_congr_left fun x _ => ?_
  show _ = mean Ψs (comm (E _ _ - E _ _) _)
  rw [comm_sub_left, mean_sub]

/-- The functions a wave function object is made of are the ones of C30-C34 for a wave function `Ψ θ` of `nI` inactive,
`nA` active and `nV` virtual orbitals (one state or several), `d1` and `d2` being the arrays of density matrices. -/
structure Physical (w : WFEnv) (nI nA nV : ℕ) (Ψ : List ℝ → List (Fock ℝ)) (d1 : w.D1 → Mat ℝ) (d2 : w.D2 → Arr4) :
    Prop where
  n : w.n = nI + nA + nV
  real : RealAo w.hAo w.gAo
  ref : ∀ θ, Reference nI nA (Ψ θ)
  rdm : ∀ θ, IsRdm nI nA (Ψ θ) (d1 (w.mkRdm1 (w.state θ))) (d2 (w.mkRdm2 (w.state θ) (w.mkRdm1 (w.state θ))))
  energy : ∀ θ h g, w.energy (w.state θ) h g = mean (Ψ θ) (electronic (natMat h) (natTen g) w.n)
  energyRdm : ∀ h g x y, w.energyRdm h g x y = getElectronicEnergy (natMat h) (natTen g) nI nA (d1 x) (d2 y)
  grad : ∀ h g x y, w.gradKappa h g x y =
    getOrbitalGradient (natMat h) (natTen g) nI nA (d1 x) (d2 y) (w.kappaIdx.map fun x => (x.1.val, x.2.val))

variable {w : WFEnv} {Ψ : List ℝ → List (Fock ℝ)} {d1 : w.D1 → Mat ℝ} {d2 : w.D2 → Arr4}

theorem Physical.E_eq (hp : Physical w nI nA nV Ψ d1 d2) (r : WFRef w.n) (kappa : Bool) :
    r.E w kappa = orbitalEnergy w.hAo w.gAo (Ψ r.thetas) r.orb := by
  unfold WFRef.E orbitalEnergy
  simp only
  split_ifs
  · rw [hp.energyRdm, C31_energy (nV := nV) (hp.ref r.thetas) (hp.rdm r.thetas), ← hp.n]
  · rw [hp.energy]

theorem shift_sub {k d : List ℝ} (h : d.length = k.length) (t : ℝ) :
    List.zipWith (· - ·) (shiftBy k d t) k = d.map (t * ·) := by
  unfold shiftBy
  induction k generalizing d with
  | nil => rw [List.eq_nil_of_length_eq_zero h]; rfl
  | cons x k ih =>
    cases d with
    | nil => simp at h
    | cons y d => simp [ih (by simpa using h)]

theorem shift_length {k d : List ℝ} (h : d.length = k.length) (t : ℝ) : (shiftBy k d t).length = k.length := by
  unfold shiftBy
  simp [h]

theorem shift_orb {r : WFRef w.n} {d : List ℝ} (h : d.length = r.kappa.length) (t : ℝ) (arr : Bool) :
    (r.setKappa w.kappaIdx (shiftBy r.kappa d t) arr).orb = r.orb * exp (-rotGen w.kappaIdx (d.map (t * ·))) := by
  simp only [WFRef.setKappa]
  rw [shift_sub h]

/-- C123: after any history of assignments and reads, the gradient that the optimizers are given for the current
orbital parameters is the gradient of the energy: assigning `kappa + t d` and reading the energy gives a function of `t`
with derivative `Σ_i G_i d_i` at zero, for every direction `d`. -/
theorem C123_object (hp : Physical w nI nA nV Ψ d1 d2) (hv : ValidKappa w.kappaIdx)
    (hz : w.state (List.replicate w.numTheta 0) = w.csf) (ops : List WFOp) (hw : ∀ op ∈ ops, op.Fits w) (s : WFObj w)
    (hs : s = ops.foldl (fun s op => op.run s) (WFObj.init w)) :
    ∃ G, (WFObj.gradCall s.kappa false true s).1 = .ok G ∧ G.length = w.kappaIdx.length ∧
      ∀ (d : List ℝ) (arr : Bool), d.length = w.kappaIdx.length →
      ∃ f : ℝ → ℝ, (∀ t, (WFObj.readEnergy ((WFOp.setKappa (shiftBy s.kappa d t) arr).run s)).1 = .ok (f t)) ∧
        HasDerivAt f (listDot d G) 0 := by
  have hi := inv_ops hv hz ops hw
  rw [← hs] at hi
  generalize hr : ops.foldl (fun r op => op.ref w r) (WFRef.start w) = r at hi
  have hk := hi.kappaLen
  have hc : r.kappa.length = callSize w false true := by simp [callSize, hk]
  have hG := follows_fst (follows_gradCall hv r hc) hi
  have e1 : (r.params w r.kappa false true).orb = r.orb := by
    show (r.setKappa w.kappaIdx (r.kappa.take w.kappaIdx.length) true).orb = _
    rw [List.take_of_length_le (le_of_eq hk)]
    simp only [WFRef.setKappa]
    rw [rotGen_zero, neg_zero, exp_zero, mul_one]
    intro x hx
    rw [List.zipWith_self] at hx
    obtain ⟨y, -, rfl⟩ := List.mem_map.1 hx
    exact sub_self y
  have e2 : (r.params w r.kappa false true).thetas = r.thetas := rfl
  have e3 : (r.params w r.kappa false true).G w false true = getOrbitalGradient (natMat (oneTransform r.orb w.hAo))
      (natTen (twoTransform r.orb w.gAo)) nI nA (d1 (w.mkRdm1 (w.state r.thetas)))
      (d2 (w.mkRdm2 (w.state r.thetas) (w.mkRdm1 (w.state r.thetas)))) (w.kappaIdx.map fun x => (x.1.val, x.2.val)) := by
    unfold WFRef.G
    simp only [e1, e2, hp.grad]
    simp
  rw [e3] at hG
  refine ⟨_, by rw [hi.kappa]; exact hG, by simp [getOrbitalGradient], fun d arr hd => ?_⟩
  refine ⟨fun t => orbitalEnergy w.hAo w.gAo (Ψ r.thetas) (r.orb * exp (-rotGen w.kappaIdx (d.map (t * ·)))), fun t => ?_, ?_⟩
  · have hl : (shiftBy s.kappa d t).length = w.kappaIdx.length := by
      rw [hi.kappa, shift_length (hd.trans hk.symm), hk]
    have := follows_snd (follows_setKappa hv r hl arr) hi
    have hE := follows_fst (follows_readEnergy hv _) this
    rw [show (r.setKappa w.kappaIdx (shiftBy s.kappa d t) arr).reported = none from rfl, Option.getD_none,
      show (r.setKappa w.kappaIdx (shiftBy s.kappa d t) arr).thetas = r.thetas from rfl, hp.energy, hi.kappa,
      shift_orb (hd.trans hk.symm)] at hE
    rw [hi.kappa]
    exact hE
  · exact C123_gradient hp.n (hp.ref r.thetas) (hp.rdm r.thetas) hp.real r.orb w.kappaIdx d

/-- C123: the objective of an optimization (C41), with the parameters counted from the start of the optimization: if the
rotations commute, the orbital part of the gradient at every point `p` is the gradient of the objective there. -/
theorem C123_objective (hp : Physical w nI nA nV Ψ d1 d2) (hc : CommutingKappa w.kappaIdx) (theta : Bool)
    {r0 : WFRef w.n} (h0 : r0.kappa.length = w.kappaIdx.length) {p d : List ℝ} (hl : p.length = callSize w theta true)
    (hd : d.length = w.kappaIdx.length) :
    HasDerivAt (fun t : ℝ => (r0.params w (shiftBy (p.take w.kappaIdx.length) d t ++ p.drop w.kappaIdx.length) theta true).E w true)
      (listDot d (((r0.params w p theta true).G w theta true).take w.kappaIdx.length)) 0 := by
  have s0 : SamePath w theta true r0 r0 := ⟨h0, fun _ => rfl, fun h => (nomatch h), fun _ => rfl⟩
  obtain ⟨s1, -, -⟩ := samePath_params (fun _ => hc) s0 h0 hl
  have hlp : (p.take w.kappaIdx.length).length = w.kappaIdx.length := by
    unfold callSize at hl
    rw [List.length_take]
    simp at hl
    omega
  have hq : ∀ t, (shiftBy (p.take w.kappaIdx.length) d t).length = w.kappaIdx.length := fun t => by
    rw [shift_length (hd.trans hlp.symm), hlp]
  have hq' : ∀ t, (shiftBy (p.take w.kappaIdx.length) d t ++ p.drop w.kappaIdx.length).length = callSize w theta true := by
    intro t
    rw [List.length_append, hq, List.length_drop]
    rw [List.length_take] at hlp
    omega
  have hf : ∀ t, (r0.params w (shiftBy (p.take w.kappaIdx.length) d t ++ p.drop w.kappaIdx.length) theta true).E w true =
      orbitalEnergy w.hAo w.gAo (Ψ (r0.params w p theta true).thetas)
        ((r0.params w p theta true).orb * exp (-rotGen w.kappaIdx (d.map (t * ·)))) := by
    intro t
    obtain ⟨-, a, b⟩ := samePath_params (fun _ => hc) s1 h0 (hq' t)
    rw [hp.E_eq, ← a, ← b]
    have k1 : (r0.params w p theta true).kappa = p.take w.kappaIdx.length := by
      unfold WFRef.params
      cases theta <;> rfl
    have k2 : ((r0.params w p theta true).params w (shiftBy (p.take w.kappaIdx.length) d t ++ p.drop w.kappaIdx.length) theta true).orb =
        ((r0.params w p theta true).setKappa w.kappaIdx (shiftBy (r0.params w p theta true).kappa d t) true).orb := by
      rw [k1]
      have : (shiftBy (p.take w.kappaIdx.length) d t ++ p.drop w.kappaIdx.length).take w.kappaIdx.length =
          shiftBy (p.take w.kappaIdx.length) d t := by
        rw [List.take_append_of_le_length (le_of_eq (hq t).symm), List.take_of_length_le (le_of_eq (hq t))]
      have gen : ∀ (r1 : WFRef w.n) (q : List ℝ), (r1.params w q theta true).orb =
          (r1.setKappa w.kappaIdx (q.take w.kappaIdx.length) true).orb := by
        intro r1 q
        cases theta <;> rfl
      rw [gen, this]
    have k3 : ((r0.params w p theta true).params w (shiftBy (p.take w.kappaIdx.length) d t ++ p.drop w.kappaIdx.length) theta true).thetas =
        (r0.params w p theta true).thetas := by
      have : (shiftBy (p.take w.kappaIdx.length) d t ++ p.drop w.kappaIdx.length).drop w.kappaIdx.length =
          p.drop w.kappaIdx.length := by
        exact List.drop_left' (hq t)
      cases theta
      · rfl
      · show (shiftBy (p.take w.kappaIdx.length) d t ++ p.drop w.kappaIdx.length).drop w.kappaIdx.length = p.drop w.kappaIdx.length
        exact this
    rw [k2, k3, shift_orb (by rw [k1, hlp, hd])]
  simp only [hf]
  refine (C123_gradient hp.n (hp.ref _) (hp.rdm _) hp.real _ w.kappaIdx d).congr_deriv ?_
  congr 1
  unfold WFRef.G
  simp only [if_true, hp.grad]
  rw [List.take_append_of_le_length (by simp [getOrbitalGradient]), List.take_of_length_le (by simp [getOrbitalGradient])]

/-- Two orbitals, one of them doubly occupied. -/
noncomputable def pairEnv : WFEnv where
  kind := .ups
  n := 2
  kappaIdx := [(0, 1)]
  numTheta := 0
  hAo := !![1, 2; 2, 3]
  gAo := fun _ _ _ _ => 1
  mo := 1
  V := Unit
  D1 := Mat ℝ
  D2 := Arr4
  D3 := Unit
  D4 := Unit
  St := Unit
  csf := ()
  state := fun _ => ()
  mkRdm1 := fun _ p q => mean [(ket {0, 1} : Fock ℝ)] (E (0 + p) (0 + q))
  mkRdm2 := fun _ _ p q r s => mean [(ket {0, 1} : Fock ℝ)] (e (0 + p) (0 + q) (0 + r) (0 + s))
  mkRdm3 := fun _ _ _ => ()
  mkRdm4 := fun _ _ _ _ => ()
  energy := fun _ h g => mean [(ket {0, 1} : Fock ℝ)] (electronic (natMat h) (natTen g) 2)
  energyRdm := fun h g x y => getElectronicEnergy (natMat h) (natTen g) 0 1 x y
  gradKappa := fun h g x y => getOrbitalGradient (natMat h) (natTen g) 0 1 x y [(0, 1)]
  gradTheta := fun _ _ _ _ => []
  stateCI := fun _ _ _ => ()

theorem pairEnv_physical : Physical pairEnv 0 1 1 (fun _ => [(ket {0, 1} : Fock ℝ)]) id id where
  n := rfl
  real := ⟨fun a b => by
      show (!![1, 2; 2, 3] : Matrix (Fin 2) (Fin 2) ℝ) a b = (!![1, 2; 2, 3] : Matrix (Fin 2) (Fin 2) ℝ) b a
      have h : ∀ a b : Fin 2, (!![1, 2; 2, 3] : Matrix (Fin 2) (Fin 2) ℝ) a b = (!![1, 2; 2, 3] : Matrix (Fin 2) (Fin 2) ℝ) b a := by
        intro a b
        fin_cases a <;> fin_cases b <;> simp
      exact h a b, fun _ _ _ _ => rfl, fun _ _ _ _ => rfl⟩
  ref := fun _ => by
    constructor
    · intro Ψ hΨ
      rw [List.mem_singleton] at hΨ
      subst hΨ
      intro S hS
      rw [show (ket {0, 1} : Fock ℝ) = sgl {0, 1} 1 from rfl, coeff_sgl] at hS
      by_cases h : ({0, 1} : Finset ℕ) = S
      · subst h
        refine ⟨fun p hp => absurd hp (by omega), fun p hp => ?_⟩
        rw [Finset.mem_insert, Finset.mem_singleton] at hp
        omega
      · exact absurd (if_neg h) hS
    · have : inner (ket {0, 1} : Fock ℝ) ((1 : FOp ℝ) (ket {0, 1})) = 1 := by
        show inner (sgl {0, 1} 1 : Fock ℝ) (sgl {0, 1} 1) = 1
        rw [inner_ket_left, coeff_sgl, if_pos rfl]
      unfold mean
      rw [List.map_singleton, this]
      simp
  rdm := fun _ => ⟨fun _ _ _ _ => rfl, fun _ _ _ _ _ _ _ _ => rfl⟩
  energy := fun _ _ _ => rfl
  energyRdm := fun _ _ _ _ => rfl
  grad := fun _ _ _ _ => rfl

/-- The hypotheses of C123 hold for it, with the gradient in the direction of its only parameter. -/
example (k : ℝ) (s : WFObj pairEnv) (hs : s = (WFOp.setKappa [k] true).run (WFObj.init pairEnv)) :
    ∃ G, (WFObj.gradCall s.kappa false true s).1 = .ok G ∧
    ∃ f : ℝ → ℝ, (∀ t, (WFObj.readEnergy ((WFOp.setKappa (shiftBy s.kappa [1] t) true).run s)).1 = .ok (f t)) ∧
      HasDerivAt f (listDot [1] G) 0 := by
  have hv : ValidKappa ([(0, 1)] : List (Fin 2 × Fin 2)) := by
    unfold ValidKappa
    decide
  obtain ⟨G, h1, -, h2⟩ := C123_object pairEnv_physical hv rfl [.setKappa [k] true]
    (by intro op ho; rw [List.mem_singleton] at ho; subst ho; rfl) s hs
  obtain ⟨f, h3, h4⟩ := h2 [1] true rfl
  exact ⟨G, h1, f, h3, h4⟩

end SQ
