import Verif.Model.AnsatzChoice
import Verif.Spec.AnsatzChoice
import Verif.Props.Circuits

/-!
# Lemmas: option dictionaries, parameter names
-/

namespace SQ

/-! ## Options -/

theorem lookup_put (o : Options) (k k' : String) (v : ℤ) :
    (o.put k v).lookup k' = if k' = k then some v else o.lookup k' := by
  induction o with
  | nil =>
    unfold Options.put
    by_cases h : k' = k
    · simp [List.lookup, h]
    · rw [if_neg h, List.lookup_cons, show (k' == k) = false by simpa using h]
  | cons kv t ih =>
    obtain ⟨a, b⟩ := kv
    unfold Options.put
    by_cases h : a = k
    · subst h
      rw [if_pos rfl]
      by_cases h' : k' = a <;> simp [List.lookup, h']
      · rw [show (k' == a) = false by simpa using h']
    · rw [if_neg h, List.lookup_cons, List.lookup_cons]
      by_cases h' : k' = a
      · subst h'
        rw [beq_self_eq_true, if_neg h]
      · rw [show (k' == a) = false by simpa using h']
        exact ih

theorem put_self {o : Options} {k : String} {v : ℤ} (h : o.lookup k = some v) : o.put k v = o := by
  induction o with
  | nil => cases h
  | cons kv t ih =>
    obtain ⟨a, b⟩ := kv
    unfold Options.put
    rw [List.lookup_cons] at h
    by_cases h' : a = k
    · subst h'
      rw [beq_self_eq_true] at h
      cases h
      rw [if_pos rfl]
    · rw [show (k == a) = false by simpa using fun h => h' h.symm] at h
      rw [if_neg h', ih h]

theorem lookup_defaultLayers (o : Options) (k : String) :
    o.defaultLayers.lookup k = if k = "n_layers" then some ((o.lookup "n_layers").getD 1) else o.lookup k := by
  unfold Options.defaultLayers
  cases h : o.lookup "n_layers" with
  | none =>
    rw [if_pos (by simp), lookup_put]
    rfl
  | some n =>
    rw [if_neg (by simp)]
    split_ifs with hk
    · subst hk; exact h
    · rfl

theorem defaultLayers_self {o : Options} {n : ℤ} (h : o.lookup "n_layers" = some n) : o.defaultLayers = o := by
  unfold Options.defaultLayers
  rw [h]
  rfl

theorem flag_put (o : Options) (k k' : String) (v : ℤ) : (o.put k v).flag k' = if k' = k then v else o.flag k' := by
  unfold Options.flag
  rw [lookup_put]
  split_ifs <;> rfl

theorem flag_defaultLayers (o : Options) {k : String} (hk : k ≠ "n_layers") : o.defaultLayers.flag k = o.flag k := by
  unfold Options.flag
  rw [lookup_defaultLayers, if_neg hk]

/-! ## Names of parameters -/

theorem circuitParameters_range {n : ℕ} (h : n ≤ 10 ^ 9) :
    circuitParameters ((List.range n).map pname) = (List.range n).map pname := by
  unfold circuitParameters
  rw [List.mergeSort_of_pairwise, List.map_map]
  · conv_rhs => rw [← List.map_id ((List.range n).map pname)]
    refine List.map_congr_left fun s _ => ?_
    simp
  · rw [List.pairwise_map, List.pairwise_map]
    refine List.pairwise_lt_range.imp_of_mem fun {a b} _ hb hab => ?_
    have := pname_lt hab ((List.mem_range.1 hb).trans_le h)
    exact decide_eq_true (List.le_of_lt this)

end SQ
