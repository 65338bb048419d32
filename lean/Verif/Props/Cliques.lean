import Verif.Lemmas.Measure

/-!
# C46-C48: Pauli cliques, mitigation flags, bit string signs

`Clash`, `Covers`, `CliqueOp`: Spec/Cliques.lean; qubit states and Pauli operators: Spec/Qubits.lean.
-/

namespace SQ

/-! ## C46 -/

/-- C46: `fit_in_clique` accepts exactly the labels that ask for no other letter than the head on any
qubit, and the new head then measures both. -/
theorem C46_fit {p h : List Char} (hl : h.length = p.length) :
    ((fitInClique p h).1 = true ↔ ¬ Clash h p) ∧
    (¬ Clash h p → Covers (fitInClique p h).2 h ∧ Covers (fitInClique p h).2 p ∧
      ∀ g, Covers g h → Covers g p → Covers g (fitInClique p h).2) := by
  constructor
  · by_cases hc : Clash h p
    · rw [fit_neg hc]; simp [hc]
    · rw [fit_pos hc]; simp [hc]
  · intro hc
    rw [fit_pos hc]
    refine ⟨(merge_covers hl hc).1, (merge_covers hl hc).2, fun g g1 g2 => ⟨?_, fun i x hx hI => ?_⟩⟩
    · rw [(merge_covers hl hc).1.1]; exact g1.1
    · have hx' : (mergeHead h p)[i]? = some x := hx
      rw [mergeHead_get hl] at hx'
      cases h1 : h[i]? with
      | none => rw [h1] at hx'; simp at hx'
      | some a =>
        cases h2 : p[i]? with
        | none => rw [h1, h2] at hx'; simp at hx'
        | some b =>
          rw [h1, h2] at hx'
          simp only [Option.some.injEq] at hx'
          by_cases ha : a = 'I'
          · rw [if_neg (by simp [ha])] at hx'
            exact g2.2 i x (by rw [h2, hx']) hI
          · rw [if_pos ha] at hx'
            exact g1.2 i x (by rw [h1, hx']) hI

/-- C46: after any sequence of `add_paulis` and `update_distr` calls (failing ones included) on labels of
one length: the heads clash pairwise; every label ever added has a head that measures it, which
`get_head` and `get_distr` find; and a distribution that `get_distr` returns was handed over for exactly
the present head and flags. -/
theorem C46_history {n : ℕ} (ops : List CliqueOp) (hn : ∀ op ∈ ops, ∀ p ∈ op.adds, p.length = n) :
    let cs := ops.foldl CliqueOp.run []
    (headsOf cs).Pairwise Clash ∧ (∀ h ∈ headsOf cs, h.length = n) ∧
    ∀ op ∈ ops, ∀ p ∈ op.adds, ∃ head ∈ headsOf cs, Covers head p ∧ getHead p cs = .ok head ∧
      ∀ m d, getDistr p m cs = .ok d → d ≠ [] ∧ ∃ op' ∈ ops, op'.Gives head m d := by
  intro cs
  obtain ⟨hi, hd⟩ := history_inv ops hn
  refine ⟨hi.clash, hi.len, fun op ho p hp => ?_⟩
  obtain ⟨c, hc, h1, h2, h3⟩ := read_located cs (hi.found p (List.mem_flatMap.2 ⟨op, ho, hp⟩))
  refine ⟨c.head, List.mem_map.2 ⟨c, hc, rfl⟩, h1, h2, fun m d hg => ?_⟩
  obtain ⟨h4, h5⟩ := (h3 m).1 d hg
  refine ⟨h5, hd c hc m d ?_ h5⟩
  have := List.lookup_eq_some_iff.1 h4
  obtain ⟨l1, l2, he, -⟩ := this
  rw [he]; simp

/-- C46: handing over a non-empty distribution for each head `add_paulis` asks for succeeds, and all labels
ever added can then be read. -/
theorem C46_measure {n : ℕ} (ops : List CliqueOp) (hn : ∀ op ∈ ops, ∀ p ∈ op.adds, p.length = n)
    (ps : List (List Char)) (hps : ∀ p ∈ ps, p.length = n) {heads : List (List Char)}
    (hadd : (addPaulis (ops.foldl CliqueOp.run []) ps).1 = .ok heads) (ds : List Distr)
    (hl : ds.length = heads.length) (hne : ∀ d ∈ ds, d ≠ []) :
    let cs := (addPaulis (ops.foldl CliqueOp.run []) ps).2
    (updateDistr cs heads ds 0).1 = .ok () ∧
    ∀ op ∈ CliqueOp.add ps :: ops, ∀ p ∈ op.adds, ∃ d, getDistr p 0 (updateDistr cs heads ds 0).2 = .ok d := by
  intro cs
  have hrun : cs = (ops ++ [CliqueOp.add ps]).foldl CliqueOp.run [] := by rw [List.foldl_append]; rfl
  have hn' : ∀ op ∈ ops ++ [CliqueOp.add ps], ∀ p ∈ op.adds, p.length = n := by
    intro op ho p hp
    rcases List.mem_append.1 ho with ho | ho
    · exact hn op ho p hp
    · rw [List.mem_singleton] at ho; subst ho; exact hps p hp
  obtain ⟨hi, -⟩ := history_inv (ops ++ [CliqueOp.add ps]) hn'
  rw [← hrun] at hi
  have hnew : newHeads cs = .ok heads := by
    by_cases h0 : ops.foldl CliqueOp.run [] = [] ∧ ps = []
    · unfold addPaulis at hadd
      rw [if_pos h0] at hadd
      exact absurd hadd (by simp)
    · have e := addPaulis_eq _ ps h0
      rw [e] at hadd
      show newHeads (addPaulis (ops.foldl CliqueOp.run []) ps).2 = _
      rw [e]; exact hadd
  have hnd : (headsOf cs).Nodup := hi.clash.imp fun h => h.ne
  obtain ⟨u1, u2, -⟩ := update_after_newHeads hnd hnew hl hne
  have hres : updateDistr cs heads ds 0 = (.ok (), (updateAll 0 (heads.zip ds) cs).2) := by
    unfold updateDistr
    cases hu : updateAll 0 (heads.zip ds) cs with
    | mk r cs' =>
      rw [hu] at u1 u2
      simp only at u1 u2
      rw [u1]
      simp only [checkAllocated_ok u2]
  rw [hres]
  refine ⟨rfl, fun op ho p hp => ?_⟩
  have hloc : Located p (headsOf (updateAll 0 (heads.zip ds) cs).2) := by
    rw [headsOf_updateAll]
    refine hi.found p (List.mem_flatMap.2 ⟨op, ?_, hp⟩)
    rcases List.mem_cons.1 ho with rfl | ho
    · simp
    · simp [ho]
  obtain ⟨c, hc, -, -, h3⟩ := read_located _ hloc
  exact (h3 0).2 (u2 c hc)

/-- The groups contain the labels dealt with so far. -/
theorem groupPut_perm (groups : List (List Char × List (List Char))) (h p : List Char)
    (hnd : (groups.map Prod.fst).Nodup) :
    ((groupPut groups h p).flatMap Prod.snd).Perm (groups.flatMap Prod.snd ++ [p]) ∧
    ((groupPut groups h p).map Prod.fst).Nodup ∧
    ∀ x ∈ groupPut groups h p, ∀ q ∈ x.2, (∃ y ∈ groups, y.1 = x.1 ∧ q ∈ y.2) ∨ (x.1 = h ∧ q = p) := by
  unfold groupPut
  by_cases ha : (groups.any fun kv => kv.1 == h) = true
  · rw [if_pos ha]
    refine ⟨?_, ?_, ?_⟩
    · induction groups with
      | nil => simp at ha
      | cons x groups ih =>
        obtain ⟨a, b⟩ := x
        have hnd' : a ∉ groups.map Prod.fst ∧ (groups.map Prod.fst).Nodup := List.nodup_cons.1 hnd
        by_cases hx : a = h
        · subst hx
          have hmap : groups.map (fun kv => if kv.1 = a then (a, kv.2 ++ [p]) else kv) = groups := by
            refine (List.map_congr_left fun y hy => ?_).trans (List.map_id _)
            have : y.1 ≠ a := fun e => hnd'.1 (e ▸ List.mem_map_of_mem hy)
            simp [this]
          simp only [List.map_cons, if_true, hmap, List.flatMap_cons, List.append_assoc]
          refine List.Perm.append_left b ?_
          simpa using (List.perm_append_comm (l₁ := [p]) (l₂ := groups.flatMap Prod.snd))
        · have h' : (groups.any fun kv => kv.1 == h) = true := by
            rw [List.any_cons] at ha
            have : (a == h) = false := by simpa using hx
            simpa [this] using ha
          simp only [List.map_cons, if_neg hx, List.flatMap_cons, List.append_assoc]
          exact (ih hnd'.2 h').append_left b
    · have : (groups.map fun kv => if kv.1 = h then (h, kv.2 ++ [p]) else kv).map Prod.fst = groups.map Prod.fst := by
        rw [List.map_map]
        refine List.map_congr_left fun y _ => ?_
        simp only [Function.comp]
        split_ifs with e
        · exact e.symm
        · rfl
      rw [this]; exact hnd
    · intro x hx q hq
      obtain ⟨y, hy, rfl⟩ := List.mem_map.1 hx
      by_cases e : y.1 = h
      · rw [if_pos e] at hq ⊢
        rcases List.mem_append.1 hq with hq | hq
        · exact Or.inl ⟨y, hy, e, hq⟩
        · exact Or.inr ⟨rfl, List.mem_singleton.1 hq⟩
      · rw [if_neg e] at hq ⊢
        exact Or.inl ⟨y, hy, rfl, hq⟩
  · rw [if_neg ha]
    refine ⟨by simp, ?_, ?_⟩
    · rw [List.map_append, List.nodup_append]
      refine ⟨hnd, by simp, fun a h1 b h2 e => ?_⟩
      simp only [List.map_cons, List.map_nil, List.mem_singleton] at h2
      obtain ⟨y, hy, rfl⟩ := List.mem_map.1 h1
      exact ha (List.any_eq_true.2 ⟨y, hy, by simpa using e.trans h2⟩)
    · intro x hx q hq
      rcases List.mem_append.1 hx with hx | hx
      · exact Or.inl ⟨x, hx, rfl, hq⟩
      · rw [List.mem_singleton] at hx
        subst hx
        exact Or.inr ⟨rfl, List.mem_singleton.1 hq⟩

/-- C46: `update_distr` never replaces stored data. Whatever it is handed, and whether or not it raises, every
distribution that could be read before is read unchanged afterwards, and handing over data for a head that
already has data for these flags raises `ValueError`. -/
theorem C46_overwrite (cs : List CliqueHead) (heads : List (List Char)) (ds : List Distr) (m : ℕ) (p : List Char) :
    (∀ m' d, getDistr p m' cs = .ok d → getDistr p m' (updateDistr cs heads ds m).2 = .ok d) ∧
    (∀ d d' head, getDistr p m cs = .ok d → getHead p cs = .ok head → (head, d') ∈ heads.zip ds →
      (updateDistr cs heads ds m).1 = .error .valueError) := by
  refine ⟨fun m' d h => ?_, fun d d' head h hh hz => ?_⟩
  · rw [updateDistr_snd]
    exact getDistr_keeps (updateAll_keeps _ _ _) h
  · obtain ⟨c, hc, h1, h2⟩ := getDistr_head h hh
    have := updateAll_filled (l := heads.zip ds) hc h2 (d := d') (h1 ▸ hz)
    unfold updateDistr
    split
    · rename_i e cs' he; rw [he] at this; exact this
    · rename_i cs' he; rw [he] at this; cases this

/-- After `ZZ` is added and measured, the label `ZI` reads the data of the head `ZZ`, and a second measurement of
this head is refused. -/
example :
    let cs := (updateDistr (addPaulis [] [['Z', 'Z']]).2 [['Z', 'Z']] [[(0, 1)]] 0).2
    getDistr ['Z', 'I'] 0 cs = .ok [(0, 1)] ∧ getHead ['Z', 'I'] cs = .ok ['Z', 'Z'] := by
  simp [addPaulis, sortedReverse, updateDistr, updateAll, updateHeads, addPauli, fitInClique,
    commuting, getDistr, getHead, SaverData.empty, SaverData.isEmpty, SaverData.add, SaverData.get, dictPut]

/-- C46: `get_groups` sorts labels that have been added into groups, each label in one group, and the
head of a group measures all its members. -/
theorem C46_groups {n : ℕ} (ops : List CliqueOp) (hn : ∀ op ∈ ops, ∀ p ∈ op.adds, p.length = n)
    (ps : List (List Char)) (hps : ∀ p ∈ ps, ∃ op ∈ ops, p ∈ op.adds) :
    ∃ groups, getGroups (ops.foldl CliqueOp.run []) ps = .ok groups ∧ (groups.flatMap Prod.snd).Perm ps ∧
      (groups.map Prod.fst).Nodup ∧ ∀ g ∈ groups, ∀ p ∈ g.2, Covers g.1 p := by
  obtain ⟨hi, -⟩ := history_inv ops hn
  set cs := ops.foldl CliqueOp.run [] with hcs
  have key : ∀ (l : List (List Char)), (∀ p ∈ l, ∃ op ∈ ops, p ∈ op.adds) → ∀ g0 : List (List Char × List (List Char)),
      (g0.map Prod.fst).Nodup → (∀ g ∈ g0, ∀ p ∈ g.2, Covers g.1 p) →
      ∃ groups, l.foldlM (fun groups p => do
          let h ← getHead p cs
          return groupPut groups h p) g0 = .ok groups ∧ (groups.flatMap Prod.snd).Perm (g0.flatMap Prod.snd ++ l) ∧
        (groups.map Prod.fst).Nodup ∧ ∀ g ∈ groups, ∀ p ∈ g.2, Covers g.1 p := by
    intro l
    induction l with
    | nil => intro _ g0 h1 h2; exact ⟨g0, rfl, by simp, h1, h2⟩
    | cons p l ih =>
      intro hl g0 h1 h2
      obtain ⟨op, ho, hp⟩ := hl p (by simp)
      obtain ⟨c, -, g1, g2, -⟩ := read_located cs (hi.found p (List.mem_flatMap.2 ⟨op, ho, hp⟩))
      obtain ⟨p1, p2, p3⟩ := groupPut_perm g0 c.head p h1
      obtain ⟨groups, k1, k2, k3, k4⟩ := ih (fun q hq => hl q (by simp [hq])) (groupPut g0 c.head p) p2 (by
        intro g hg q hq
        rcases p3 g hg q hq with ⟨y, hy, e, hq'⟩ | ⟨e, rfl⟩
        · rw [← e]; exact h2 y hy q hq'
        · rw [e]; exact g1)
      refine ⟨groups, ?_, ?_, k3, k4⟩
      · rw [List.foldlM_cons, g2]
        exact k1
      · refine k2.trans ?_
        refine (p1.append_right l).trans ?_
        simp
  obtain ⟨groups, k1, k2, k3, k4⟩ := key (sortedReverse ps) (fun p hp => hps p (mem_sortedReverse.1 hp)) [] (by simp) (by simp)
  refine ⟨groups, k1, ?_, k3, k4⟩
  rw [List.flatMap_nil, List.nil_append] at k2
  exact k2.trans (List.mergeSort_perm ps _)

/-- Three labels: two share a head, one needs its own. -/
example : headsOf ([CliqueOp.add [['Z', 'X']], .add [['X', 'I']], .add [['I', 'Y']]].foldl CliqueOp.run []) =
    [['Z', 'Z'], ['Z', 'X'], ['X', 'Y']] := by
  simp only [CliqueOp.run, addPaulis, sortedReverse, List.mergeSort_singleton, List.foldl_cons, List.foldl_nil]
  decide +kernel

/-! ## C47 -/

/-- Calls that change the flags. -/
inductive FlagOp
  | update (kwargs : List (String × FlagVal))
  | allToFalse

def FlagOp.run (f : Flags) : FlagOp → Flags
  | .update kw => (f.update kw).2
  | .allToFalse => f.allToFalse

/-- All flags are Booleans, and the implications between them hold. -/
def Flags.Consistent (f : Flags) : Prop :=
  ∃ m a p s : Bool, f = ⟨.bool m, .bool a, .bool p, .bool s⟩ ∧ (a = true → m = true) ∧ (p = true → a = true)

theorem imply_consistent (m a p s : Bool) : (Flags.mk (.bool m) (.bool a) (.bool p) (.bool s)).imply.Consistent := by
  cases m <;> cases a <;> cases p <;> cases s <;>
    exact ⟨_, _, _, _, rfl, by decide, by decide⟩

theorem setattr_bool {f : Flags} (hf : ∃ m a p s : Bool, f = ⟨.bool m, .bool a, .bool p, .bool s⟩) (n : String) (b : Bool) :
    ∃ m a p s : Bool, f.setattr n (.bool b) = ⟨.bool m, .bool a, .bool p, .bool s⟩ := by
  obtain ⟨m, a, p, s, rfl⟩ := hf
  unfold Flags.setattr
  split_ifs <;> exact ⟨_, _, _, _, rfl⟩

/-- C47: flags constructed from Booleans stay consistent under any sequence of `update_flags` and
`all_to_false` calls: M_Ansatz0 implies M, M_Ansatz0+ implies M_Ansatz0. -/
theorem C47_consistent (m a p s : Bool) (ops : List FlagOp) :
    (ops.foldl FlagOp.run (Flags.init (.bool m) (.bool a) (.bool p) (.bool s))).Consistent := by
  have h0 : (Flags.init (.bool m) (.bool a) (.bool p) (.bool s)).Consistent := imply_consistent m a p s
  induction ops using List.reverseRecOn with
  | nil => exact h0
  | append_singleton ops op ih =>
    rw [List.foldl_append, List.foldl_cons, List.foldl_nil]
    obtain ⟨m, a, p, s, hf, h1, h2⟩ := ih
    rw [hf]
    cases op with
    | allToFalse => exact ⟨false, false, false, false, rfl, by decide, by decide⟩
    | update kw =>
      show (Flags.update _ kw).2.Consistent
      unfold Flags.update
      cases hv : validateFlags kw with
      | error e => exact ⟨m, a, p, s, rfl, h1, h2⟩
      | ok u =>
        have hbool : ∀ kv ∈ kw, ∃ b, kv.2 = .bool b := by
          intro kv hkv
          unfold validateFlags at hv
          split_ifs at hv with g1 g2
          cases hb : kv.2 with
          | bool b => exact ⟨b, rfl⟩
          | other t => exact absurd (List.any_eq_true.2 ⟨kv, hkv, by rw [hb]⟩) g2
        have : ∃ m' a' p' s' : Bool, kw.foldl (fun f kv => f.setattr kv.1 kv.2)
            (Flags.mk (.bool m) (.bool a) (.bool p) (.bool s)) = ⟨.bool m', .bool a', .bool p', .bool s'⟩ := by
          clear hv hf
          have gen : ∀ f : Flags, (∃ m a p s : Bool, f = ⟨.bool m, .bool a, .bool p, .bool s⟩) →
              ∃ m a p s : Bool, kw.foldl (fun f kv => f.setattr kv.1 kv.2) f = ⟨.bool m, .bool a, .bool p, .bool s⟩ := by
            induction kw with
            | nil => intro f hf; exact hf
            | cons kv kw ih =>
              intro f hf
              obtain ⟨b, hb⟩ := hbool kv (by simp)
              rw [List.foldl_cons, hb]
              exact ih (fun x hx => hbool x (by simp [hx])) _ (setattr_bool hf _ b)
          exact gen _ ⟨m, a, p, s, rfl⟩
        obtain ⟨m', a', p', s', he⟩ := this
        show (Flags.imply _).Consistent
        rw [he]
        exact imply_consistent m' a' p' s'

/-- C47: an update with an unknown flag raises `ValueError`, one with a known flag and a value that is no
Boolean `TypeError`; both change nothing. Otherwise the named flags hold the given values, except that
implied flags are switched on. -/
theorem C47_update (f : Flags) (kw : List (String × FlagVal)) :
    ((∃ kv ∈ kw, kv.1 ∉ flagOrder) → f.update kw = (.error .valueError, f)) ∧
    ((∀ kv ∈ kw, kv.1 ∈ flagOrder) → (∃ kv ∈ kw, ∀ b, kv.2 ≠ .bool b) → f.update kw = (.error .typeError, f)) ∧
    ((∀ kv ∈ kw, kv.1 ∈ flagOrder ∧ ∃ b, kv.2 = .bool b) → (f.update kw).1 = .ok ()) := by
  have hany : ∀ kv : String × FlagVal, (match kv.2 with | .bool _ => false | .other _ => true) = true ↔ ∀ b, kv.2 ≠ .bool b := by
    intro kv
    cases kv.2 with
    | bool b => simp
    | other t => simp
  refine ⟨fun ⟨kv, h1, h2⟩ => ?_, fun h1 ⟨kv, h2, h3⟩ => ?_, fun h => ?_⟩
  · unfold Flags.update validateFlags
    rw [if_pos (List.any_eq_true.2 ⟨kv, h1, by simpa using h2⟩)]
  · unfold Flags.update validateFlags
    rw [if_neg (by
      intro h
      obtain ⟨x, hx, hx'⟩ := List.any_eq_true.1 h
      exact absurd (h1 x hx) (by simpa using hx')), if_pos (List.any_eq_true.2 ⟨kv, h2, (hany kv).2 h3⟩)]
  · unfold Flags.update validateFlags
    rw [if_neg (by
      intro h'
      obtain ⟨x, hx, hx'⟩ := List.any_eq_true.1 h'
      exact absurd (h x hx).1 (by simpa using hx')), if_neg (by
      intro h'
      obtain ⟨x, hx, hx'⟩ := List.any_eq_true.1 h'
      obtain ⟨b, hb⟩ := (h x hx).2
      exact (hany x).1 hx' b hb)]

/-- C47: switching a single flag on or off sets exactly this flag (and the flags it implies). -/
theorem C47_single (m a p s b : Bool) (h : (Flags.mk (.bool m) (.bool a) (.bool p) (.bool s)).Consistent) :
    (Flags.update ⟨.bool m, .bool a, .bool p, .bool s⟩ [("do_postselection", .bool b)]).2 =
      ⟨.bool m, .bool a, .bool p, .bool b⟩ ∧
    (Flags.update ⟨.bool m, .bool a, .bool p, .bool s⟩ [("do_M_ansatz0_plus", .bool true)]).2 =
      ⟨.bool true, .bool true, .bool true, .bool s⟩ ∧
    (Flags.update ⟨.bool m, .bool a, .bool p, .bool s⟩ [("do_M_ansatz0", .bool true)]).2 =
      ⟨.bool true, .bool true, .bool p, .bool s⟩ ∧
    (Flags.update ⟨.bool m, .bool a, .bool p, .bool s⟩ [("do_M_mitigation", .bool b)]).2 =
      ⟨.bool (b || a || p), .bool a, .bool p, .bool s⟩ := by
  obtain ⟨_, _, _, _, e, h1, h2⟩ := h
  cases e
  revert h1 h2
  cases m <;> cases a <;> cases p <;> cases s <;> cases b <;> decide

/-- C47: for Boolean flags `to_int` identifies the flags, and `is_enabled` tells whether one is set. -/
theorem C47_to_int (m a p s m' a' p' s' : Bool) :
    ((Flags.mk (.bool m) (.bool a) (.bool p) (.bool s)).toInt = (Flags.mk (.bool m') (.bool a') (.bool p') (.bool s')).toInt →
      m = m' ∧ a = a' ∧ p = p' ∧ s = s') ∧
    (Flags.mk (.bool m) (.bool a) (.bool p) (.bool s)).toInt < 16 ∧
    ((Flags.mk (.bool m) (.bool a) (.bool p) (.bool s)).isEnabled = true ↔ m = true ∨ a = true ∨ p = true ∨ s = true) := by
  revert m a p s m' a' p' s'
  decide +kernel

/-- Disagreement: the constructor does not check its arguments; a truthy value that is not `True` (such as
1) switches M_Ansatz0 on without M mitigation. -/
theorem C47_constructor_disagree :
    let f := Flags.init (.bool false) (.other true) (.bool false) (.bool false)
    f.ansatz0.truthy = true ∧ f.mMit.truthy = false ∧ f.toInt = 2 := by
  decide +kernel

/-! ## C48 -/

/-- C48: the sign of a measured integer is the product over the qubits on which the label is not the
identity of +1 for outcome 0 and -1 for outcome 1. -/
theorem C48_sign {n : ℕ} {op : List Char} (h : PauliLabel n op) (hn : 0 < n) (b : ℕ) :
    getBitstringSign op b = .ok (∏ i : Fin n, if letter op i ≠ 'I' ∧ b.testBit i = true then -1 else 1) :=
  sign_spec h hn b

/-- C48: measuring after the circuit of a head and averaging the signs of a label the head covers gives
the exact expectation value of this label, for every state. -/
theorem C48_expectation {n : ℕ} {head p : List Char} (hp : PauliLabel n p) (hn : 0 < n) (hc : Covers head p)
    (ψ : QState n) (s : ℕ → ℤ) (hs : ∀ b, getBitstringSign p b = .ok (s b)) :
    ∑ b ∈ Finset.range (2 ^ n), ((prob (runCircuit (toCBS n head) ψ) b * s b : ℝ) : ℂ) = qinner ψ (pauliOp n p ψ) := by
  rw [← measure_expectation hp hc ψ]
  refine Finset.sum_congr rfl fun b _ => ?_
  have : s b = ∏ i : Fin n, if letter p i ≠ 'I' ∧ b.testBit i = true then (-1 : ℤ) else 1 := by
    have := sign_spec hp hn b
    rw [hs b] at this
    exact Except.ok.inj this
  rw [this]
  push_cast
  refine congrArg _ (Finset.prod_congr rfl fun i _ => ?_)
  split_ifs <;> simp

/-- C48: an empty label or another letter raises `ValueError`. -/
theorem C48_errors (op : List Char) (b : ℕ) (h : op = [] ∨ ∃ l ∈ op, l ≠ 'I' ∧ l ≠ 'X' ∧ l ≠ 'Y' ∧ l ≠ 'Z') :
    getBitstringSign op b = .error .valueError := by
  have key : opBits op = .error .valueError := by
    unfold opBits
    by_cases h0 : op = []
    · rw [if_pos h0]
    · rw [if_neg h0]
      obtain ⟨l, hl, hne⟩ := h.resolve_left h0
      clear h h0
      have gen : ∀ r : ℕ, op.foldlM (fun r l => if l = 'I' then Except.ok (2 * r)
          else if l = 'Z' ∨ l = 'X' ∨ l = 'Y' then .ok (2 * r + 1) else .error PyErr.valueError) r = .error .valueError := by
        induction op with
        | nil => simp at hl
        | cons x op ih =>
          intro r
          rw [List.foldlM_cons]
          rcases List.mem_cons.1 hl with rfl | hl
          · rw [if_neg hne.1, if_neg (by rintro (h | h | h); exacts [hne.2.2.2 h, hne.2.1 h, hne.2.2.1 h])]
            rfl
          · split_ifs
            · exact ih hl _
            · exact ih hl _
            · rfl
      exact gen 0
  unfold getBitstringSign
  rw [key]; rfl

/-- `XZ` (X on qubit 1, Z on qubit 0) is covered by the head `XZ`, and so is `XI`. -/
example : PauliLabel 2 ['X', 'I'] ∧ Covers ['X', 'Z'] ['X', 'I'] ∧ getBitstringSign ['X', 'I'] 3 = .ok (-1) := by
  refine ⟨⟨rfl, by decide⟩, ⟨rfl, fun i x h hI => ?_⟩, rfl⟩
  match i with
  | 0 => simpa using h
  | 1 =>
    simp only [List.getElem?_cons_succ, List.getElem?_cons_zero, Option.some.injEq] at h
    exact absurd h.symm hI
  | (i + 2) => simp at h

end SQ
