import Verif.Lemmas.StdAnalysis

/-! # Lemmas: the table of contributions -/

namespace SQ

variable {argsort : List ℝ → List ℕ} {q g : ℕ}

/-- The square of a component, by position. -/
noncomputable def sqAt {N : ℕ} (v : Fin N → ℝ) (k : ℕ) : ℝ := if h : k < N then v ⟨k, h⟩ ^ 2 else 0

/-- The row printed for position `k`. -/
noncomputable def contribRow (q g : ℕ) (cutoff : ℝ) (v : Fin ((q + g) + (q + g)) → ℝ) (k : ℕ) : Option (ℝ × ℕ × String) :=
  if sqAt v k < cutoff then none else some (sqAt v k, k, operatorIndex q (q + g) k)

/-- The positions in the order in which they are printed. -/
def orderOf (argsort : List ℝ → List ℕ) {N : ℕ} (v : Fin N → ℝ) : List ℕ :=
  (argsort (List.ofFn fun i => |v i|)).reverse

theorem mem_orderOf (ha : SortsPositions argsort) {N : ℕ} {v : Fin N → ℝ} {k : ℕ} : k ∈ orderOf argsort v ↔ k < N := by
  unfold orderOf
  rw [List.mem_reverse, ha.lt, List.length_ofFn]

theorem length_orderOf (ha : SortsPositions argsort) {N : ℕ} (v : Fin N → ℝ) : (orderOf argsort v).length = N := by
  unfold orderOf
  rw [List.length_reverse, ha.length, List.length_ofFn]

theorem nodup_orderOf (ha : SortsPositions argsort) {N : ℕ} (v : Fin N → ℝ) : (orderOf argsort v).Nodup :=
  List.nodup_reverse.2 (ha.nodup _)

theorem sq_le_of_abs {N : ℕ} (v : Fin N → ℝ) {a b : ℕ} (hb : b < N)
    (ha : a < N) (h : ∀ x y, (List.ofFn fun i => |v i|)[a]? = some x → (List.ofFn fun i => |v i|)[b]? = some y → y ≤ x) :
    sqAt v b ≤ sqAt v a := by
  have := h |v ⟨a, ha⟩| |v ⟨b, hb⟩| (by simp [ha]) (by simp [hb])
  unfold sqAt
  rw [dif_pos hb, dif_pos ha]
  exact sq_le_sq.2 this

theorem orderOf_desc (ha : SortsPositions argsort) {N : ℕ} (v : Fin N → ℝ) :
    (orderOf argsort v).Pairwise fun a b => sqAt v b ≤ sqAt v a := by
  refine (List.Pairwise.imp_of_mem ?_ (ha.desc (List.ofFn fun i => |v i|)))
  intro a b h1 h2 h
  exact sq_le_of_abs v ((mem_orderOf ha).1 h2) ((mem_orderOf ha).1 h1) h

theorem contributionTable_eq (ha : SortsPositions argsort) (numContr : Option ℕ) (cutoff : ℝ)
    (v : Fin ((q + g) + (q + g)) → ℝ) : contributionTable argsort numContr cutoff v =
    if (q + g) + (q + g) < numContr.getD ((q + g) * 2) then .error .indexError
    else .ok (((orderOf argsort v).take (numContr.getD ((q + g) * 2))).filterMap (contribRow q g cutoff v)) := by
  unfold contributionTable
  have h1 : ((argsort (List.ofFn fun i => |v i|)).reverse.mapM fun k => do
      let x ← readIdx (List.ofFn v) k
      (.ok (k, |x| ^ 2) : Res (ℕ × ℝ))) = .ok ((orderOf argsort v).map fun k => (k, sqAt v k)) := by
    refine mapM_ok fun k hk => ?_
    have hk' : k < (q + g) + (q + g) := (mem_orderOf ha).1 hk
    rw [readIdx_ok (a := v ⟨k, hk'⟩) (by simp [hk']), ok_bind]
    unfold sqAt
    rw [dif_pos hk', sq_abs]
  dsimp only
  rw [h1, ok_bind]
  have h2 := mapM_read ((orderOf argsort v).map fun k => (k, sqAt v k)) (fun p =>
    if p.2 < cutoff then none else some (p.2, p.1, operatorIndex q (q + g) p.1)) (numContr.getD ((q + g) * 2))
  rw [List.length_map, length_orderOf ha] at h2
  rw [h2]
  split
  · rfl
  · rw [ok_bind, ← List.map_take, List.map_map]
    congr 1
    unfold List.reduceOption
    rw [List.filterMap_map]
    rfl

theorem mem_rows {cutoff : ℝ} {v : Fin ((q + g) + (q + g)) → ℝ} {ks : List ℕ} (hks : ∀ k ∈ ks, k < (q + g) + (q + g))
    {x : ℝ} {k : ℕ} {s : String} : (x, k, s) ∈ ks.filterMap (contribRow q g cutoff v) ↔
    k ∈ ks ∧ ∃ h : k < (q + g) + (q + g), x = v ⟨k, h⟩ ^ 2 ∧ cutoff ≤ x ∧ (operatorNames q g)[k]? = some s := by
  rw [List.mem_filterMap]
  constructor
  · rintro ⟨k', hk', e⟩
    unfold contribRow at e
    split at e
    · cases e
    · rename_i hc
      simp only [Option.some.injEq, Prod.mk.injEq] at e
      obtain ⟨rfl, rfl, rfl⟩ := e
      have h := hks _ hk'
      refine ⟨hk', h, by unfold sqAt; rw [dif_pos h], not_lt.1 hc, operatorNames_get h⟩
  · rintro ⟨hk, h, rfl, hc, hs⟩
    refine ⟨k, hk, ?_⟩
    have e : sqAt v k = v ⟨k, h⟩ ^ 2 := by unfold sqAt; rw [dif_pos h]
    rw [operatorNames_get h] at hs
    unfold contribRow
    rw [e, if_neg (not_lt.2 hc), ← Option.some.inj hs]

theorem rows_desc {cutoff : ℝ} {v : Fin ((q + g) + (q + g)) → ℝ} {ks : List ℕ}
    (h : ks.Pairwise fun a b => sqAt v b ≤ sqAt v a) :
    (ks.filterMap (contribRow q g cutoff v)).Pairwise fun a b => b.1 ≤ a.1 := by
  refine List.Pairwise.filterMap _ ?_ h
  intro a a' haa b hb b' hb'
  unfold contribRow at hb hb'
  split at hb
  · cases hb
  split at hb'
  · cases hb'
  obtain rfl := Option.some.inj hb
  obtain rfl := Option.some.inj hb'
  exact haa

theorem rows_nodup {cutoff : ℝ} {v : Fin ((q + g) + (q + g)) → ℝ} {ks : List ℕ} (h : ks.Nodup) :
    ((ks.filterMap (contribRow q g cutoff v)).map fun r => r.2.1).Nodup := by
  rw [List.map_filterMap]
  refine List.Nodup.filterMap ?_ h
  intro a a' b hb hb'
  unfold contribRow at hb hb'
  split at hb
  · cases hb
  split at hb'
  · cases hb'
  simp only [Option.map_some, Option.mem_some_iff] at hb hb'
  exact hb.trans hb'.symm

end SQ
