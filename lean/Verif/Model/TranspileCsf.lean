import Verif.Model.Transpile
import Verif.Model.Layout

/-!
# Model: circuits of determinants and superpositions on a transpiled ansatz

slowquant/qiskit_interface/interface.py: the circuits made by `quantum_expectation_value_csfs` (784-794, 804-807, 832-838,
852-896, 940-944 and 960-964) with the correction of their distributions (1286-1306); util.py: `layout_conserving_compose`
(786-866).  The sum over determinants is modelled in Csf, the circuits of determinants and superpositions in Determinants;
here `st` is any such circuit.

The other stages of a pass manager are parameters as well. `compose(…, front=True)` keeps the layout of the circuit. Not
modelled: prints, the argument `M_circuit` of `layout_conserving_compose` (nobody sets it), the circuits with
`do_M_ansatz0_plus` (modelled in ReadoutMatrix without layouts).
-/

namespace SQ

/-- What else a pass manager has: `layout.routing_permutation()` of the circuit it returns, `translation.run`,
`optimization.run`; and `coupling_map` of a backend. -/
structure PassStages (V : Type) where
  routing : (String → Option V) → {n : ℕ} → (List ℝ → List (CGate n)) → List ℕ
  translate : (String → Option V) → {n : ℕ} → (List ℝ → List (CGate n)) → List ℝ → List (CGate n)
  optimize : (String → Option V) → {n : ℕ} → (List ℝ → List (CGate n)) → List ℝ → List (CGate n)
  coupling : V → Option (List (ℕ × ℕ))

/-- `c.compose(other, qubits=qs, front=True)`. -/
def frontAt (c : TCirc) {m : ℕ} (qs : List ℕ) (gs : List ℝ → List (CGate m)) : Res TCirc :=
  if h : qs.length = m ∧ qs.Nodup ∧ ∀ q ∈ qs, q < c.n then
    .ok ⟨c.n, fun p => (gs p).map (CGate.place fun i : Fin m =>
      ⟨qs[(i : ℕ)]'(by rw [h.1]; exact i.2), h.2.2 _ (List.getElem_mem _)⟩) ++ c.gates p, c.layout⟩
  else .error .runtimeError

section
variable {V : Type} (P : PassManagers V) (S : PassStages V) (A : Ansatz0)

/-- The transpiled state circuit with its qubits put back, util.py:813-841; `fuel`: sweeps of `add_permutation_gate`. -/
def restoreOrder (pm : String → Option V) (st : List (CGate A.n)) (coupling : Option (List (ℕ × ℕ))) (fuel : ℕ) :
    Res (List ℝ → List (CGate (P.run pm fun _ => st).n)) :=
  match (P.run pm fun _ => st).layout with
  | none => .error .attributeError
  | some l =>
    if l.1 ≠ l.2 then
      match coupling with
      | none => .error .valueError
      | some edges =>
        match addPermutationGate (P.run pm fun _ => st).n (S.routing pm fun _ => st) edges fuel with
        | .error e => .error e
        | .ok swaps =>
          .ok (S.optimize pm (S.translate pm fun p => (P.run pm fun _ => st).gates p ++ swaps.map CGate.c))
    else .ok (P.run pm fun _ => st).gates

/-- Optimizing the composed circuit, util.py:845-848 and 858-860. -/
def optimized (pm : String → Option V) (optimization : Bool) (c : TCirc) : TCirc :=
  if optimization then ⟨c.n, S.optimize pm c.gates, c.layout⟩ else c

/-- `layout_conserving_compose`, util.py:811-866. -/
def layoutCompose (ansatz : TCirc) (st : List (CGate A.n)) (pm : String → Option V) (coupling : Option (List (ℕ × ℕ)))
    (optimization : Bool) (fuel : ℕ) : Res TCirc :=
  if ansatz.layout.isSome then do
    let gs ← restoreOrder P S A pm st coupling fuel
    (frontAt ansatz (List.range (P.run pm fun _ => st).n) gs).map (optimized S pm optimization)
  else
    (frontAt ansatz (List.range (P.run pm fun _ => st).n) (P.run pm fun _ => st).gates).map (optimized S pm optimization)

/-- The default of `ISA_csfs_option`, lines 784-794. `mFlag`, `ansatz0`, `plus`: the flags `do_M_mitigation`,
`do_M_ansatz0` and `do_M_ansatz0_plus`. -/
def TQI.csfsOption (q : TQI V) (mFlag ansatz0 plus : Bool) (option : ℕ) : Res ℕ :=
  if option = 0 then
    if mFlag then
      match q.ansatz with
      | none => .error .attributeError
      | some a =>
        if a.layout.isSome ∧ plus = false then
          if ansatz0 then .ok 4 else .ok 2
        else .ok 1
    else .ok 1
  else .ok option

/-- The circuit for a determinant, lines 804-807 and 832-838 (also 940-944, 960-964). -/
def TQI.detCirc (q : TQI V) (st : List (CGate A.n)) : Res TCirc :=
  match q.ansatz with
  | none => .error .attributeError
  | some a => frontAt a (if q.isa then q.initIdx else List.range A.n) fun _ => st

/-- Options 3 and 4, lines 869-890. -/
def TQI.fixedOrderCirc (q : TQI V) (st : List (CGate A.n)) (optimization : Bool) (fuel : ℕ) : Res TCirc :=
  match q.ansatz, q.fixed, q.opts.get "backend" with
  | some a, some pm, some b => layoutCompose P S A a st pm (S.coupling b) optimization fuel
  | _, _, _ => .error .attributeError

/-- The circuit for a superposition, lines 852-896. -/
def TQI.superCirc (q : TQI V) (option : ℕ) (st : List (CGate A.n)) (fuel : ℕ) : Res TCirc :=
  if q.isa then
    match option with
    | 1 => match q.hasRaw, q.pm with
      | true, some pm => .ok (P.run pm fun p => st ++ A.raw p)
      | _, _ => .error .attributeError
    | 2 => match q.hasRaw, q.fixed with
      | true, some pm => .ok (P.run pm fun p => st ++ A.raw p)
      | _, _ => .error .attributeError
    | 3 => q.fixedOrderCirc P S A st false fuel
    | 4 => q.fixedOrderCirc P S A st true fuel
    | _ => .error .valueError
  else
    match q.ansatz with
    | none => .error .attributeError
    | some a => frontAt a (List.range A.n) fun _ => st

/-- `_apply_M_mitigation` on one distribution measured with the circuit `c`, lines 1286-1306. -/
noncomputable def TQI.correct (q : TQI V) (ansatz0 : Bool) {N : ℕ} (Minv : Matrix (Fin N) (Fin N) ℝ) (c : TCirc) (dist : Distr) :
    Res Distr :=
  match q.layoutConflict A c with
  | .error e => .error e
  | .ok 0 => correctDistribution dist Minv
  | .ok _ =>
    if ansatz0 then .error .valueError
    else
      match c.layout with
      | none => .error .attributeError
      | some l => correctWithLayoutV2 dist Minv (q.finalIdx.map Int.ofNat) (l.2.map Int.ofNat)

end

end SQ
