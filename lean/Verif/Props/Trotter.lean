import Verif.Props.Circuits
import Verif.Lemmas.TrotterMap
import Verif.Lemmas.TrotterLayouts

/-!
# C135: circuits of Pauli evolutions, for mappers other than Jordan-Wigner

`evolve`, `runEvolutions`, `PauliMapper`, `jwEnc`, `parityEnc`, `Evolves`, `TrotterExc`, `TrotterLayout`: Spec/Trotter.lean.
The circuit for `exp(θ T)` is a product of exponentials of the Pauli labels of `T` (one Trotter step). The labels of the
generator of a single or double excitation commute, so there is no Trotter error.
-/

namespace SQ

/-- C135: the circuit for an excitation applies the exponential of its generator to every state; `grad_param_R` is 2 or, for a
spin-adapted single, 4. -/
theorem C135_excitation {tiny : ℝ → Bool} (ht : ExactTiny tiny) {norb : ℕ} {map : SDict ℝ → Res (List (List Char × ℂ))}
    {enc : Fock ℝ →ₗ[ℝ] QState (2 * norb)} (hM : PauliMapper (2 * norb) map enc) {ty : String} {idx : List ℕ} {T : FOp ℝ}
    (h : TrotterExc norb ty idx T) (θ : ℝ) :
    ∃ gs R, excitationTrotter tiny map norb (2 * norb) ty idx θ = .ok (gs, R) ∧ Evolves norb enc gs T θ ∧ gradR ty = some R := by
  cases h with
  | single i a hr hn hs =>
    obtain ⟨gs, e1, e2⟩ := single_evolves ht hM (hr i (by simp)) (hr a (by simp)) hn hs θ
    refine ⟨gs, 2, ?_, ?_, rfl⟩
    · unfold excitationTrotter
      rw [if_pos rfl]
      simp only [e1]
      rfl
    · simpa [excite] using e2
  | double i j a b hr hn hs =>
    obtain ⟨gs, e1, e2⟩ := double_evolves ht hM (hr i (by simp)) (hr j (by simp)) (hr a (by simp)) (hr b (by simp)) hn hs θ
    refine ⟨gs, 2, ?_, e2, rfl⟩
    unfold excitationTrotter
    rw [if_neg (by decide), if_pos rfl]
    simp only [e1]
    rfl
  | saSingle i a hr hn =>
    obtain ⟨gs, e1, e2⟩ := sa_evolves ht hM (hr i (by simp)) (hr a (by simp)) hn θ
    refine ⟨gs, 4, ?_, e2, rfl⟩
    unfold excitationTrotter
    rw [if_neg (by decide), if_neg (by decide), if_pos rfl]
    simp only [e1]
    rfl

/-- C135: the circuit of a layout applies the exponentials one after the other, the first entry first; the parameters are
named in that order, and the number stored for each is the one that belongs to the type. -/
theorem C135_layout {tiny : ℝ → Bool} (ht : ExactTiny tiny) {norb : ℕ} {map : SDict ℝ → Res (List (List Char × ℂ))}
    {enc : Fock ℝ →ₗ[ℝ] QState (2 * norb)} (hM : PauliMapper (2 * norb) map enc) {types : List String}
    {indices : List (List ℕ)} {Ts : List (FOp ℝ)} (h : TrotterLayout norb types indices Ts) (θs : ℕ → ℝ) :
    ∃ gs names, upslayout2trotter tiny map norb (2 * norb) types indices θs = .ok (gs, names) ∧
      names.map Prod.fst = (List.range types.length).map pname ∧ names.map (fun p => some p.2) = types.map gradR ∧
      ∀ x, Below (2 * norb) x → ∃ y, ExpChain (Ts.zip ((List.range Ts.length).map θs)) x y ∧ Below (2 * norb) y ∧
        runEvolutions (2 * norb) gs (enc (toBlocked norb x)) = enc (toBlocked norb y) := by
  unfold upslayout2trotter
  have key : ∀ k : ℕ, ∃ gs names, trotterLoop tiny map norb (2 * norb) θs k (types.zip indices) = .ok (gs, names) ∧
      names.map Prod.fst = (List.range' k types.length).map pname ∧ names.map (fun p => some p.2) = types.map gradR ∧
      ∀ x, Below (2 * norb) x → ∃ y, ExpChain (Ts.zip ((List.range' k Ts.length).map θs)) x y ∧ Below (2 * norb) y ∧
        runEvolutions (2 * norb) gs (enc (toBlocked norb x)) = enc (toBlocked norb y) := by
    induction h with
    | nil => intro k; exact ⟨[], [], rfl, rfl, rfl, fun x hx => ⟨x, .nil x, hx, rfl⟩⟩
    | cons he _ ih =>
      intro k
      obtain ⟨g1, R, e1, e3, e4⟩ := C135_excitation ht hM he (θs k)
      obtain ⟨g2, names, i1, i2, i2', i3⟩ := ih (k + 1)
      refine ⟨g1 ++ g2, (pname k, R) :: names, ?_, ?_, ?_, ?_⟩
      · simp only [List.zip_cons_cons, trotterLoop, e1, i1, bind, Except.bind, pure, Except.pure]
      · simp [i2, List.range'_succ]
      · simp only [List.map_cons, i2', e4]
      · intro x hx
        obtain ⟨y, c1, c2, c3⟩ := e3 x hx
        obtain ⟨z, d1, d2, d3⟩ := i3 y c2
        refine ⟨z, ?_, d2, ?_⟩
        · simp only [List.length_cons, List.range'_succ, List.map_cons, List.zip_cons_cons]
          exact .cons c1 d1
        · unfold runEvolutions at *
          rw [List.foldl_append, c3, d3]
  simpa [List.range_eq_range'] using key 0

/-- C135: so the choice of the mapper does not matter: the states of electrons prepared with two mappers are the same. -/
theorem C135_mappers {tiny : ℝ → Bool} (ht : ExactTiny tiny) {norb : ℕ} {map1 map2 : SDict ℝ → Res (List (List Char × ℂ))}
    {enc1 enc2 : Fock ℝ →ₗ[ℝ] QState (2 * norb)} (h1 : PauliMapper (2 * norb) map1 enc1) (h2 : PauliMapper (2 * norb) map2 enc2)
    {types : List String} {indices : List (List ℕ)} {Ts : List (FOp ℝ)} (h : TrotterLayout norb types indices Ts) (θs : ℕ → ℝ) :
    ∃ g1 g2 names, upslayout2trotter tiny map1 norb (2 * norb) types indices θs = .ok (g1, names) ∧
      upslayout2trotter tiny map2 norb (2 * norb) types indices θs = .ok (g2, names) ∧
      ∀ x, Below (2 * norb) x → ∃ y, Below (2 * norb) y ∧
        runEvolutions (2 * norb) g1 (enc1 (toBlocked norb x)) = enc1 (toBlocked norb y) ∧
        runEvolutions (2 * norb) g2 (enc2 (toBlocked norb x)) = enc2 (toBlocked norb y) := by
  obtain ⟨g1, n1, a1, a2, a3, a4⟩ := C135_layout ht h1 h θs
  obtain ⟨g2, n2, b1, b2, b3, b4⟩ := C135_layout ht h2 h θs
  obtain rfl : n1 = n2 := names_ext (a2.trans b2.symm) (a3.trans b3.symm)
  refine ⟨g1, g2, n1, a1, b1, fun x hx => ?_⟩
  obtain ⟨y, c1, c2, c3⟩ := a4 x hx
  obtain ⟨z, d1, -, d3⟩ := b4 x hx
  obtain rfl := C26_unique c1 d1
  exact ⟨y, c2, c3, d3⟩

/-- C135: and the circuits used for a Jordan-Wigner mapper (C89, C90) do the same as the evolutions with that mapper. -/
theorem C135_agree {tiny : ℝ → Bool} (ht : ExactTiny tiny) {norb : ℕ} {map : SDict ℝ → Res (List (List Char × ℂ))}
    (hM : PauliMapper (2 * norb) map (jwEnc (2 * norb))) {types : List String} {indices : List (List ℕ)} {Ts : List (FOp ℝ)}
    (h : TrotterLayout norb types indices Ts) (h' : CircuitLayout norb types indices Ts) (θs : ℕ → ℝ) :
    ∃ g1 g2 names, upslayout2trotter tiny map norb (2 * norb) types indices θs = .ok (g1, names) ∧
      upslayout2circuit norb types indices θs = .ok (g2, names) ∧
      ∀ x, Below (2 * norb) x → runEvolutions (2 * norb) g1 (onRegister norb x) = runPCircuit g2 (onRegister norb x) := by
  obtain ⟨g1, n1, a1, a2, a3, a4⟩ := C135_layout ht hM h θs
  obtain ⟨g2, n2, b1, b2, b3, b4⟩ := C90_layout h' θs
  obtain rfl : n1 = n2 := names_ext (a2.trans b2.symm) (a3.trans b3.symm)
  refine ⟨g1, g2, n1, a1, b1, fun x hx => ?_⟩
  obtain ⟨y, c1, -, c3⟩ := a4 x hx
  obtain ⟨z, d1, -, d3⟩ := b4 x hx
  obtain rfl := C26_unique c1 d1
  exact c3.trans d3.symm

/-- C135: structures made by `create_tiled`, `create_fUCC` and `create_SDSfUCC` (with the options of C90) are such layouts, so
they are translated for every mapper, and the circuits agree. -/
theorem C135_structures {n : ℕ} (calls : List UpsCall) (h : ∀ c ∈ calls, c.HasCircuit n) :
    let s := calls.foldl UpsCall.run {}
    ∃ Ts, Layout 0 n s.types s.indices Ts ∧ CircuitLayout n s.types s.indices Ts ∧ TrotterLayout n s.types s.indices Ts := by
  intro s
  obtain ⟨Ts, -, -, h1, h2, -⟩ := C90_structures calls h fun _ => 0
  exact ⟨Ts, h2, h1, trotter_layout h2 h1⟩

/-- C135: what is rejected with `ValueError`: other names, index lists of the wrong length. -/
theorem C135_rejected (tiny : ℝ → Bool) (map : SDict ℝ → Res (List (List Char × ℂ))) (norb n : ℕ) (θ : ℝ) :
    (∀ ty idx, (ty = "single" ∨ ty = "sa_single") → idx.length ≠ 2 → excitationTrotter tiny map norb n ty idx θ = .error .valueError) ∧
    (∀ idx, idx.length ≠ 4 → excitationTrotter tiny map norb n "double" idx θ = .error .valueError) ∧
    (∀ ty idx, ty ∉ ["single", "double", "sa_single"] → excitationTrotter tiny map norb n ty idx θ = .error .valueError) := by
  refine ⟨?_, ?_, ?_⟩
  · rintro ty idx (rfl | rfl) h
    · unfold excitationTrotter
      rw [if_pos rfl]
      match idx, h with
      | [], _ | [_], _ | _ :: _ :: _ :: _, _ => rfl
      | [_, _], h => exact absurd rfl h
    · unfold excitationTrotter
      rw [if_neg (by decide), if_neg (by decide), if_pos rfl]
      match idx, h with
      | [], _ | [_], _ | _ :: _ :: _ :: _, _ => rfl
      | [_, _], h => exact absurd rfl h
  · intro idx h
    unfold excitationTrotter
    rw [if_neg (by decide), if_pos rfl]
    match idx, h with
    | [], _ | [_], _ | [_, _], _ | [_, _, _], _ | _ :: _ :: _ :: _ :: _ :: _, _ => rfl
    | [_, _, _, _], h => exact absurd rfl h
  · intro ty idx h
    simp only [List.mem_cons, List.not_mem_nil, or_false, not_or] at h
    unfold excitationTrotter
    rw [if_neg h.1, if_neg h.2.1, if_neg h.2.2]

/-- There are mappers as required: for the Jordan-Wigner and for the parity encoding of any number of modes. -/
example (n : ℕ) : (∃ map, PauliMapper n map (jwEnc n)) ∧ ∃ map, PauliMapper n map (parityEnc n) := ⟨jw_mapper n, parity_mapper n⟩

/-- The encodings differ: one electron in the first of two modes. -/
example : jwEnc 2 (ket {0}) ![true, false] = 1 ∧ parityEnc 2 (ket {0}) ![true, true] = 1 ∧ parityEnc 2 (ket {0}) ![true, false] = 0 := by
  have e : ∀ b : Fin 2 → Bool, amps 2 (ket {0}) b = if ({0} : Finset ℕ) = occupied b then 1 else 0 := by
    intro b
    unfold amps
    rw [coeff_sgl]
    split_ifs <;> simp
  refine ⟨(e _).trans (if_pos (by decide)), (e _).trans (if_pos (by decide)), (e _).trans (if_neg (by decide))⟩

/-- Excitations down and between two pairs in any order. -/
example : TrotterExc 3 "single" [4, 2] (excite [2] [4] - excite [4] [2]) ∧
    TrotterExc 3 "double" [5, 0, 2, 1] (excite [2, 1] [0, 5] - excite [5, 0] [1, 2]) ∧
    TrotterExc 3 "sa_single" [2, 0] (E 0 2 - E 2 0) :=
  ⟨.single 4 2 (by decide) (by decide) (by decide), .double 5 0 2 1 (by decide) (by decide) (by decide),
    .saSingle 2 0 (by decide) (by decide)⟩

/-- Structures with circuits. -/
example : ∀ c ∈ [UpsCall.tiled 3 [("do_pp", 1), ("n_layers", 2), ("do_tups", 1)]], c.HasCircuit 3 := by simp [UpsCall.HasCircuit]

end SQ
