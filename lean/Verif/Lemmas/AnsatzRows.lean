import Verif.Lemmas.AnsatzLayout
import Verif.Lemmas.StateOps

/-! # The ansatz on ensembles, and step by step -/

namespace SQ

theorem RowsAgree.bind {n : ℕ} {r : Res (Mat ℝ)} {s : ℕ → Res (Vec ℝ)} (h : RowsAgree n r s)
    {f : Mat ℝ → Res (Mat ℝ)} {g : ℕ → Vec ℝ → Res (Vec ℝ)}
    (hf : ∀ M, RowsAgree n (f M) fun a => g a (M a)) : RowsAgree n (r >>= f) fun a => s a >>= g a := by
  rcases h with ⟨M, rfl, h2⟩ | ⟨e, rfl, a, ha, h2⟩
  · refine (hf M).congr fun a ha => ?_
    rw [h2 a ha]; rfl
  · exact Or.inr ⟨e, rfl, a, ha, by beta_reduce; rw [h2]; rfl⟩

theorem RowsAgree.pure {n : ℕ} (M : Mat ℝ) : RowsAgree n (.ok M) fun a => .ok (M a) :=
  Or.inl ⟨M, rfl, fun _ _ => rfl⟩

theorem RowsAgree.err {n : ℕ} (hn : 0 < n) (e : PyErr) :
    RowsAgree n (.error e : Res (Mat ℝ)) fun _ => .error e := Or.inr ⟨e, rfl, 0, hn, rfl⟩

section
variable {nS : ℕ} {pm : List (Dict ℝ) → Mat ℝ → Res (Mat ℝ)} {pv : List (Dict ℝ) → Vec ℝ → Res (Vec ℝ)}

theorem rotate_rows (hp : ∀ ops M, RowsAgree nS (pm ops M) fun a => pv ops (M a)) (T : Dict ℝ) (x : ℝ)
    (M : Mat ℝ) : RowsAgree nS (rotate pm T x M) fun a => rotate pv T x (M a) :=
  RowsAgree.bind (g := fun a t1 => pv [T, T] (M a) >>= fun t2 =>
      Pure.pure (M a + Real.sin x • t1 + (1 - Real.cos x) • t2)) (hp [T] M) fun M1 =>
    RowsAgree.bind (g := fun a t2 => Pure.pure (M a + Real.sin x • M1 a + (1 - Real.cos x) • t2))
      (hp [T, T] M) fun _ => RowsAgree.pure _

theorem series_rows (hp : ∀ ops M, RowsAgree nS (pm ops M) fun a => pv ops (M a)) (T : Dict ℝ)
    (S : List ℝ) (θ : ℝ) (ks : List (List ℝ × List ℝ)) : ∀ (tmp out : Mat ℝ),
    RowsAgree nS (series pm T S θ ks tmp out) fun a => series pv T S θ ks (tmp a) (out a) := by
  induction ks with
  | nil => exact fun tmp out => RowsAgree.pure _
  | cons k ks ih =>
    intro tmp out
    exact RowsAgree.bind (g := fun a t1 => pv [T] t1 >>= fun t2 => series pv T S θ ks t2
        (out a + sinSum S k.1 θ • t1 + cosSum S k.2 θ • t2)) (hp [T] tmp) fun M1 =>
      RowsAgree.bind (g := fun a t2 => series pv T S θ ks t2
        (out a + sinSum S k.1 θ • M1 a + cosSum S k.2 θ • t2)) (hp [T] M1) fun M2 => ih M2 _

theorem applyExc_rows (hn : 0 < nS) (hp : ∀ ops M, RowsAgree nS (pm ops M) fun a => pv ops (M a))
    (tiny : ℝ → Bool) (offset : ℕ) (ty : String) (idx : List ℕ) (θ : ℝ) (M : Mat ℝ) :
    RowsAgree nS (applyExc pm tiny offset ty idx θ M) fun a => applyExc pv tiny offset ty idx θ (M a) := by
  unfold applyExc
  split_ifs
  · cases saSingle tiny offset idx with
    | error e => exact RowsAgree.err hn e
    | ok T =>
      obtain ⟨Ta, Tb⟩ := T
      exact RowsAgree.bind (f := rotate pm Tb (1 * θ)) (g := fun _ => rotate pv Tb (1 * θ))
        (rotate_rows hp Ta (1 * θ) M) fun M1 => rotate_rows hp Tb (1 * θ) M1
  · cases excT tiny offset ty idx with
    | error e => exact RowsAgree.err hn e
    | ok T => exact rotate_rows hp T θ M
  · cases excT tiny offset ty idx with
    | error e => exact RowsAgree.err hn e
    | ok T => exact series_rows hp T _ θ _ M M
  · cases excT tiny offset ty idx with
    | error e => exact RowsAgree.err hn e
    | ok T => exact series_rows hp T _ θ _ M M
  · cases excT tiny offset ty idx with
    | error e => exact RowsAgree.err hn e
    | ok T => exact series_rows hp T _ θ _ M M
  · exact RowsAgree.err hn _

theorem constructUps_rows (hn : 0 < nS) (hp : ∀ ops M, RowsAgree nS (pm ops M) fun a => pv ops (M a))
    (tiny : ℝ → Bool) (offset : ℕ) (st : AnsatzStruct) (thetas : List ℝ) (dagger : Bool) (M : Mat ℝ) :
    RowsAgree nS (constructUps pm tiny offset st thetas dagger M)
      fun a => constructUps pv tiny offset st thetas dagger (M a) := by
  unfold constructUps
  refine RowsAgree.foldlM _ (fun _ => upsStep pv tiny offset dagger) _ (fun x _ M => ?_) M
  unfold upsStep
  split_ifs
  · exact RowsAgree.pure M
  · exact applyExc_rows hn hp tiny offset _ _ _ M
  · exact applyExc_rows hn hp tiny offset _ _ _ M

theorem propagateUnitary_rows (hn : 0 < nS) (hp : ∀ ops M, RowsAgree nS (pm ops M) fun a => pv ops (M a))
    (tiny : ℝ → Bool) (offset : ℕ) (st : AnsatzStruct) (thetas : List ℝ) (i : ℕ) (M : Mat ℝ) :
    RowsAgree nS (propagateUnitary pm tiny offset st thetas i M)
      fun a => propagateUnitary pv tiny offset st thetas i (M a) := by
  unfold propagateUnitary
  rcases st.types[i]? with _ | ty
  · exact RowsAgree.err hn _
  rcases st.indices[i]? with _ | ix
  · exact RowsAgree.err hn _
  rcases thetas[i]? with _ | θ
  · exact RowsAgree.err hn _
  dsimp only
  split_ifs
  · exact RowsAgree.pure M
  · exact applyExc_rows hn hp tiny offset _ _ _ M

theorem gradAction_rows (hn : 0 < nS) (hp : ∀ ops M, RowsAgree nS (pm ops M) fun a => pv ops (M a))
    (tiny : ℝ → Bool) (offset : ℕ) (st : AnsatzStruct) (i : ℕ) (M : Mat ℝ) :
    RowsAgree nS (gradAction pm tiny offset st i M) fun a => gradAction pv tiny offset st i (M a) := by
  unfold gradAction
  rcases st.types[i]? with _ | ty
  · exact RowsAgree.err hn _
  rcases st.indices[i]? with _ | ix
  · exact RowsAgree.err hn _
  dsimp only
  split_ifs
  · cases saSingle tiny offset ix with
    | error e => exact RowsAgree.err hn e
    | ok T => exact hp _ M
  · cases excT tiny offset ty ix with
    | error e => exact RowsAgree.err hn e
    | ok T => exact hp _ M

end

theorem propMat_rows {tiny big : ℝ → Bool} (ht : ∀ x, tiny x = true ↔ x = 0)
    (hb : ∀ x, big x = false ↔ x = 0) (th : Threads) (ci : CIInfo) {nS : ℕ} (hn : 0 < nS)
    (ops : List (Dict ℝ)) (M : Mat ℝ) :
    RowsAgree nS (propMat big th ci nS ops M) fun a => propVec tiny th ci ops (M a) :=
  propagateStateSA_rows ht hb th ci _ _ false false hn (fun _ _ => RowsAgree.err hn _) _ M

/-! ### Step by step -/

section
variable {V : Type} [AddCommGroup V] [Module ℝ V] (prop : List (Dict ℝ) → V → Res V)

theorem propagateUnitary_eq (tiny : ℝ → Bool) (offset : ℕ) (st : AnsatzStruct) (thetas : List ℝ) (i : ℕ)
    (v : V) : propagateUnitary prop tiny offset st thetas i v =
      match (st.types.zip (st.indices.zip thetas))[i]? with
      | some x => upsStep prop tiny offset false v x
      | none => .error .indexError := by
  unfold propagateUnitary
  have e : (st.types.zip (st.indices.zip thetas))[i]? =
      match st.types[i]?, st.indices[i]?, thetas[i]? with
      | some a, some b, some c => some (a, b, c)
      | _, _, _ => none := by
    rw [List.zip_eq_zipWith, List.zip_eq_zipWith, List.getElem?_zipWith, List.getElem?_zipWith]
    rcases st.types[i]? with _ | a <;> rcases st.indices[i]? with _ | b <;> rcases thetas[i]? with _ | c <;> rfl
  rw [e]
  rcases st.types[i]? with _ | a <;> rcases st.indices[i]? with _ | b <;> rcases thetas[i]? with _ | c <;> rfl

theorem foldlM_range {α : Type} {β : Type} (f : α → β → Res α) (g : α → ℕ → Res α) (L : List β)
    (k : ℕ) (h : ∀ i x, L[i]? = some x → ∀ v, g v (i + k) = f v x) (v : α) :
    ((List.range L.length).map (· + k)).foldlM g v = L.foldlM f v := by
  induction L generalizing k v with
  | nil => rfl
  | cons x L ih =>
    rw [List.length_cons, List.range_succ_eq_map, List.map_cons, List.foldlM_cons, List.foldlM_cons,
      h 0 x rfl v]
    congr 1
    funext w
    have := ih (k + 1) (fun i y hy v => by
      have := h (i + 1) y (by simpa using hy) v
      rwa [show i + 1 + k = i + (k + 1) by omega] at this) w
    rw [← this]
    congr 1
    rw [List.map_map]
    refine List.map_congr_left fun i _ => ?_
    simp only [Function.comp_apply]; omega

end

end SQ
