import Verif.Model.Trotter
import Verif.Spec.Sampler

/-!
# Specification: Pauli evolutions, and mappers that send ladder operators to pairs of Pauli labels
-/

namespace SQ

/-- `exp(-i t P)` for the operator `P` of a label (`P² = 1`). -/
noncomputable def evolve (n : ℕ) (g : Evolution) (ψ : QState n) : QState n :=
  (Real.cos g.2 : ℂ) • ψ - (Complex.I * (Real.sin g.2 : ℂ)) • pauliOp n g.1 ψ

/-- Run a circuit of evolutions (first gate first). -/
noncomputable def runEvolutions (n : ℕ) (gs : List Evolution) (ψ : QState n) : QState n :=
  gs.foldl (fun ψ g => evolve n g ψ) ψ

/-- What is relied on of a mapper (Jordan-Wigner, parity, Bravyi-Kitaev). `enc X` is the state of the register for the state
`X` of electrons in `n` modes.
* `onto`: all states of the register are states of electrons (with complex amplitudes);
* `modes`: creation and annihilation operator of a mode are `(P - i Q) / 2` and `(P + i Q) / 2` for Pauli labels `P` and `Q`;
* `labels`: a mapped operator has each label once, all on `n` qubits;
* `exact`: and it is the given operator (nothing is relied on for an operator without terms). -/
structure PauliMapper (n : ℕ) (map : SDict ℝ → Res (List (List Char × ℂ))) (enc : Fock ℝ →ₗ[ℝ] QState n) : Prop where
  onto : ∀ ψ, ∃ X Y : Fock ℝ, Below n X ∧ Below n Y ∧ ψ = enc X + Complex.I • enc Y
  modes : ∀ k < n, ∃ P Q, PauliLabel n P ∧ PauliLabel n Q ∧ ∀ X : Fock ℝ, Below n X →
    enc (cr k X) = (1 / 2 : ℂ) • (pauliOp n P (enc X) - Complex.I • pauliOp n Q (enc X)) ∧
    enc (an k X) = (1 / 2 : ℂ) • (pauliOp n P (enc X) + Complex.I • pauliOp n Q (enc X))
  labels : ∀ terms obs, map terms = .ok obs → (∀ pc ∈ obs, PauliLabel n pc.1) ∧ (obs.map Prod.fst).Nodup
  exact : ∀ T : Dict ℝ, T ≠ [] → WF T → (∀ kv ∈ T, ∀ o ∈ kv.1, o.1 < n) →
    ∃ obs, map (T.map fun kv => (qiskitText kv.1, kv.2)) = .ok obs ∧
      ∀ X : Fock ℝ, Below n X → obsOp n obs (enc X) = enc (sumOp T X)

/-- Jordan-Wigner: qubit `i` holds the occupation of mode `i`. -/
noncomputable def jwEnc (n : ℕ) : Fock ℝ →ₗ[ℝ] QState n where
  toFun := amps n
  map_add' X Y := funext fun _ => Complex.ofReal_add _ _
  map_smul' c X := funext fun _ => Complex.ofReal_mul _ _

/-- Qubit before qubit `m`. -/
def prevBit {n : ℕ} (b : Fin n → Bool) (m : ℕ) : Bool := if h : 0 < m ∧ m - 1 < n then b ⟨m - 1, h.2⟩ else false

/-- Parity: qubit `i` holds the parity of the occupations of the modes up to `i`, so that the occupation of mode `i` is the
difference of qubits `i` and `i - 1`. -/
noncomputable def parityEnc (n : ℕ) : Fock ℝ →ₗ[ℝ] QState n where
  toFun X b := amps n X fun i => b i ^^ prevBit b i
  map_add' X Y := funext fun _ => Complex.ofReal_add _ _
  map_smul' c X := funext fun _ => Complex.ofReal_mul _ _

/-- The circuit applies `exp(θ T)` to every state of electrons in the `norb` orbitals (the modes are numbered alpha first). -/
def Evolves (norb : ℕ) (enc : Fock ℝ →ₗ[ℝ] QState (2 * norb)) (gs : List Evolution) (T : FOp ℝ) (θ : ℝ) : Prop :=
  ∀ x : Fock ℝ, Below (2 * norb) x → ∃ y, ExpTo T θ x y ∧ Below (2 * norb) y ∧
    runEvolutions (2 * norb) gs (enc (toBlocked norb x)) = enc (toBlocked norb y)

/-- Excitations that conserve spin, with their generators: from any spin orbital to any other, from any two to any two
others, spin-adapted from any orbital to any other; up or down. -/
inductive TrotterExc (norb : ℕ) : String → List ℕ → FOp ℝ → Prop
  | single (i a : ℕ) (hr : ∀ p ∈ [i, a], p < 2 * norb) (hn : i ≠ a) (hs : i % 2 = a % 2) :
      TrotterExc norb "single" [i, a] (excite [a] [i] - excite [i] [a])
  | double (i j a b : ℕ) (hr : ∀ p ∈ [i, j, a, b], p < 2 * norb) (hn : [i, j, a, b].Nodup)
      (hs : [i, j].countP (· % 2 = 1) = [a, b].countP (· % 2 = 1)) :
      TrotterExc norb "double" [i, j, a, b] (excite [a, b] [j, i] - excite [i, j] [b, a])
  | saSingle (i a : ℕ) (hr : ∀ p ∈ [i, a], p < norb) (hn : i ≠ a) : TrotterExc norb "sa_single" [i, a] (E a i - E i a)

/-- The lists of names and indices of a layout of such excitations, and the generators they stand for. -/
inductive TrotterLayout (norb : ℕ) : List String → List (List ℕ) → List (FOp ℝ) → Prop
  | nil : TrotterLayout norb [] [] []
  | cons {ty : String} {ix : List ℕ} {T : FOp ℝ} {types : List String} {indices : List (List ℕ)}
      {Ts : List (FOp ℝ)} : TrotterExc norb ty ix T → TrotterLayout norb types indices Ts →
      TrotterLayout norb (ty :: types) (ix :: indices) (T :: Ts)

end SQ
