import Verif.Lemmas.AnsatzChain

/-! # Layouts as lists of one-parameter groups -/

namespace SQ

variable {off n : ℕ}

theorem Layout.length {types : List String} {indices : List (List ℕ)} {Ts : List (FOp ℝ)}
    (h : Layout off n types indices Ts) : types.length = Ts.length ∧ indices.length = Ts.length := by
  induction h with
  | nil => simp
  | cons _ _ ih => simp [ih]

theorem Layout.append {a1 a2 : List String} {b1 b2 : List (List ℕ)} {c1 c2 : List (FOp ℝ)}
    (h : Layout off n a1 b1 c1) (k : Layout off n a2 b2 c2) :
    Layout off n (a1 ++ a2) (b1 ++ b2) (c1 ++ c2) := by
  induction h with
  | nil => exact k
  | cons h1 _ ih => exact .cons h1 ih

theorem Layout.reverse {types : List String} {indices : List (List ℕ)} {Ts : List (FOp ℝ)}
    (h : Layout off n types indices Ts) : Layout off n types.reverse indices.reverse Ts.reverse := by
  induction h with
  | nil => exact .nil
  | cons h1 _ ih =>
    rw [List.reverse_cons, List.reverse_cons, List.reverse_cons]
    exact ih.append (.cons h1 .nil)

theorem zip_reverse {α β : Type*} {a : List α} {b : List β} (h : a.length = b.length) :
    a.reverse.zip b.reverse = (a.zip b).reverse := by
  rw [List.zip_eq_zipWith, List.zip_eq_zipWith, List.reverse_zipWith h]

section
variable {tiny : ℝ → Bool} {ci : CIInfo} {th : Threads}

theorem layout_facs (ht : ExactTiny tiny) (hs : AnsatzSpace ci n) (hth : th.Fair ci.idx2det.length)
    {types : List String} {indices : List (List ℕ)} {Ts : List (FOp ℝ)}
    (h : Layout ci.offset n types indices Ts) (thetas : List ℝ) :
    ∃ gs : List Fac, List.Forall₂ (Realises tiny th ci) (types.zip (indices.zip thetas)) gs ∧
      gs.map (fun g => (g.2.1, g.1)) = Ts.zip (thetas.map effAngle) := by
  induction h generalizing thetas with
  | nil => exact ⟨[], .nil, rfl⟩
  | cons h1 _ ih =>
    cases thetas with
    | nil => exact ⟨[], .nil, rfl⟩
    | cons θ thetas =>
      obtain ⟨gs, k1, k2⟩ := ih thetas
      obtain ⟨U, hU⟩ := realises (tiny := tiny) ht hs hth h1 θ
      refine ⟨(_, _, U) :: gs, .cons hU k1, ?_⟩
      rw [List.map_cons, k2, List.map_cons, List.zip_cons_cons]

theorem facs_zip_rev {types : List String} {indices : List (List ℕ)} {thetas : List ℝ}
    (h1 : types.length = thetas.length) (h2 : indices.length = thetas.length) :
    types.reverse.zip (indices.reverse.zip thetas.reverse) = (types.zip (indices.zip thetas)).reverse := by
  rw [zip_reverse h2, zip_reverse]
  rw [List.length_zip, h1, h2]; simp

/-- The ansatz and its adjoint act as the product of the factors and its inverse. -/
theorem ups_acts {st : AnsatzStruct} {thetas : List ℝ} {gs : List Fac}
    (hg : List.Forall₂ (Realises tiny th ci) (st.types.zip (st.indices.zip thetas)) gs)
    (h1 : st.types.length = thetas.length) (h2 : st.indices.length = thetas.length) :
    ActsAs ci (constructUps (propVec tiny th ci) tiny ci.offset st thetas false) (opOf gs) ∧
    ActsAs ci (constructUps (propVec tiny th ci) tiny ci.offset st thetas true) (opOf (invFacs gs)) := by
  constructor
  · refine (fold_acts hg false).congr (fun v => rfl) ?_
    congr 1
    exact (List.map_congr_left fun g _ => by simp).trans (List.map_id _)
  · have hr : List.Forall₂ (Realises tiny th ci)
        (st.types.reverse.zip (st.indices.reverse.zip thetas.reverse)) gs.reverse := by
      rw [facs_zip_rev h1 h2]
      exact List.forall₂_reverse_iff.2 hg
    refine (fold_acts hr true).congr (fun v => rfl) ?_
    unfold invFacs
    rw [List.map_reverse]
    congr 2

theorem dk_saSingle (ht : ExactTiny tiny) {i a : ℕ} (hr : ∀ p ∈ [i, a], p < n) :
    ∃ dA dB, saSingle tiny off [i, a] = .ok (dA, dB) ∧
      DK (InBlock off n) (.ok (frmul 1 (fadd tiny dA dB))) (E (a + off) (i + off) - E (i + off) (a + off)) := by
  have hi : i < n := hr i (by simp)
  have ha : a < n := hr a (by simp)
  have gen : ∀ σ, σ < 2 → DK (InBlock off n)
      (G1 tiny ((i + off) * 2 + σ) ((a + off) * 2 + σ) true)
      (cr (2 * (a + off) + σ) * an (2 * (i + off) + σ)
        - cr (2 * (i + off) + σ) * an (2 * (a + off) + σ)) := by
    intro σ hσ
    have := dk_spin ht off n 1 (by omega) [2 * i + σ] [2 * a + σ] rfl rfl
      (by simp; omega) (by simp)
    have e1 : (i + off) * 2 + σ = 2 * i + σ + 2 * off := by ring
    have e2 : (a + off) * 2 + σ = 2 * a + σ + 2 * off := by ring
    rw [e1, e2]
    refine DK.congr this ?_
    simp only [excite, List.map_cons, List.map_nil, List.reverse_singleton, List.prod_cons,
      List.prod_nil, mul_one]
    rw [← e1, ← e2]
    congr 1 <;> congr 2 <;> omega
  obtain ⟨dA, a1, a2, a3, a4⟩ := gen 0 (by omega)
  obtain ⟨dB, b1, b2, b3, b4⟩ := gen 1 (by omega)
  refine ⟨dA, dB, ?_, _, rfl, ?_, ?_, (a4.fadd b4).frmul 1⟩
  · show (do let Ta ← G1 tiny ((i + off) * 2 + 0) ((a + off) * 2 + 0) true
             let Tb ← G1 tiny ((i + off) * 2 + 1) ((a + off) * 2 + 1) true
             pure (Ta, Tb)) = _
    rw [a1, b1]; rfl
  · exact (a2.add b2).scale 1
  · show sumOp (fscale (fadd tiny dA dB) 1) = _
    rw [sumOp_fscale, one_smul, sumOp_fadd ht, a3, b3]
    unfold E
    simp only [add_zero]
    abel

theorem gradAction_acts (ht : ExactTiny tiny) (hs : AnsatzSpace ci n) (hth : th.Fair ci.idx2det.length)
    {st : AnsatzStruct} {i : ℕ} {ty : String} {ix : List ℕ} {T : FOp ℝ} (h1 : st.types[i]? = some ty)
    (h2 : st.indices[i]? = some ix) (h : Excitation ci.offset n ty ix T) :
    ActsAs ci (gradAction (propVec tiny th ci) tiny ci.offset st i) T := by
  intro v
  unfold gradAction
  rw [h1, h2]
  dsimp only
  by_cases hty : ty = "sa_single"
  · rw [if_pos hty]
    have key : ∀ {ty ix T}, Excitation ci.offset n ty ix T → ty = "sa_single" →
        ∃ dA dB, saSingle tiny ci.offset ix = .ok (dA, dB) ∧
          DK (InBlock ci.offset n) (.ok (frmul 1 (fadd tiny dA dB))) T := by
      intro ty ix T h hty
      cases h with
      | saSingle i a hr => exact dk_saSingle ht hr
      | spin k hk I A hI hA hr hs =>
        exfalso
        have := spinName_mem hk
        rw [hty] at this
        exact absurd this (by decide)
      | _ => exact absurd hty (by decide)
    obtain ⟨dA, dB, e1, e2⟩ := key h hty
    rw [e1]
    obtain ⟨d, hd, a1, -⟩ := dk_acts ht hs hth e2
    obtain rfl : frmul 1 (fadd tiny dA dB) = d := by injection hd
    exact a1 v
  · rw [if_neg hty]
    obtain ⟨d, hd, a1, -⟩ := dk_acts ht hs hth (dk_exc ht h hty)
    rw [hd]
    exact a1 v

end

end SQ
