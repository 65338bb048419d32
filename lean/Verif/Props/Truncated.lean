import Verif.Lemmas.Truncated
import Verif.Props.Excitations

/-!
# C93: Hamiltonians with truncated index ranges
-/

namespace SQ

variable {K : Type*} [Field K]

/-- C93, single: between a state with filled inactive and empty virtual orbitals and a state with at
most one inactive hole and at most one virtual electron, `hamiltonian_1i_1a` has the matrix elements
of the full-space Hamiltonian, in both orders. -/
theorem C93_single {tiny big : K → Bool} (ht : ExactTiny tiny) (hb : ExactBig big) (h : ℕ → ℕ → K)
    (g : ℕ → ℕ → ℕ → ℕ → K) (nI nA nV : ℕ) {x y : Fock K} (hx : ActiveState nI nA x)
    (hy : NearState nI nA y) :
    ∃ d f, hamiltonian1i1a tiny big h g nI nA nV = .ok d ∧
      hamiltonianFull tiny h g (nI + nA + nV) = .ok f ∧
      inner x (sumOp d y) = inner x (sumOp f y) ∧ inner y (sumOp d x) = inner y (sumOp f x) := by
  obtain ⟨f, a1, _, a3⟩ := (C11_form ht hb h g (nI + nA + nV)).1
  obtain ⟨d, k1, _, k3⟩ := den_hamiltonian1i1a ht hb h g nI nA nV
  refine ⟨d, f, k1, a1, ?_, ?_⟩
  · rw [k3, a3, LinearMap.add_apply, LinearMap.add_apply, inner_add_right, inner_add_right,
      one1_mel h fun p q hne => truncE hx hne, twoK_mel g fun p q r s hne => by
        simpa using trunc1 hx hy hne]
  · rw [k3, a3, LinearMap.add_apply, LinearMap.add_apply, inner_add_right, inner_add_right,
      one1_mel h fun p q hne => ?_, twoK_mel g fun p q r s hne => ?_]
    · rw [inner_comm, adjoint_e p q r s] at hne
      rw [numVirt_swap, numAct_swap]; simpa using trunc1 hx hy hne
    · rw [inner_comm, adjoint_E p q] at hne
      rw [skip1_swap]; exact truncE hx hne

/-- C93, properties: with one state active, `one_elec_op_1i_1a` has the matrix elements of the
full-space one-electron operator with every state. -/
theorem C93_property {tiny big : K → Bool} (ht : ExactTiny tiny) (hb : ExactBig big) (h : ℕ → ℕ → K)
    (nI nA nV : ℕ) {x : Fock K} (hx : ActiveState nI nA x) (y : Fock K) :
    ∃ d f, oneElec1i1a tiny big h nI nA nV = .ok d ∧ oneElecFull tiny big h (nI + nA + nV) = .ok f ∧
      inner x (sumOp d y) = inner x (sumOp f y) ∧ inner y (sumOp d x) = inner y (sumOp f x) := by
  obtain ⟨f, a1, _, a3⟩ := (C11_form ht hb h (fun _ _ _ _ => 0) (nI + nA + nV)).2
  obtain ⟨d, k1, _, k3⟩ := den_oneElec1i1a ht hb h nI nA nV
  refine ⟨d, f, k1, a1, ?_, ?_⟩
  · rw [k3, a3, one1_mel h fun p q hne => truncE hx hne]
  · rw [k3, a3, one1_mel h fun p q hne => ?_]
    rw [inner_comm, adjoint_E p q] at hne
    rw [skip1_swap]; exact truncE hx hne

/-- C93, double: `hamiltonian_2i_2a` has the matrix elements of the full-space Hamiltonian between
states with at most one inactive hole and at most one virtual electron each. -/
theorem C93_double {tiny big : K → Bool} (ht : ExactTiny tiny) (hb : ExactBig big) (h : ℕ → ℕ → K)
    (g : ℕ → ℕ → ℕ → ℕ → K) (nI nA nV : ℕ) {x y : Fock K} (hx : NearState nI nA x)
    (hy : NearState nI nA y) :
    ∃ d f, hamiltonian2i2a tiny big h g nI nA nV = .ok d ∧
      hamiltonianFull tiny h g (nI + nA + nV) = .ok f ∧
      inner x (sumOp d y) = inner x (sumOp f y) := by
  obtain ⟨f, a1, _, a3⟩ := (C11_form ht hb h g (nI + nA + nV)).1
  obtain ⟨d, k1, _, k3⟩ := den_hamiltonian2i2a ht hb h g nI nA nV
  refine ⟨d, f, k1, a1, ?_⟩
  rw [k3, a3, LinearMap.add_apply, LinearMap.add_apply, inner_add_right, inner_add_right,
      twoK_mel g fun p q r s hne => by simpa using trunc2 hx hy hne]

/-- C93, reach: the states of the theorems above are met: every `E_pq` takes active states to such
states. -/
theorem C93_reach {nI nA : ℕ} {x : Fock K} (hx : ActiveState nI nA x) (p q : ℕ) :
    NearState nI nA (E p q x) ∧ NearState nI nA x := ⟨near_E hx p q, hx.near⟩

/-- One inactive, two active and one virtual orbital: an electron moved from the inactive to the
virtual orbital, so the state is near but not active, and not zero. -/
example : NearState 1 2 (E 3 0 (sgl {0, 1, 2, 3} 1) : Fock ℚ) ∧
    coeff (E 3 0 (sgl {0, 1, 2, 3} 1) : Fock ℚ) {1, 2, 3, 6} = -1 := by
  constructor
  · refine (C93_reach (K := ℚ) (nI := 1) (nA := 2) ?_ 3 0).1
    intro S hS
    have : S = {0, 1, 2, 3} := by
      by_contra hne
      apply hS
      simp [coeff_sgl, Ne.symm hne]
    subst this
    decide
  · simp [E, an_single, cr_single, coeff_sgl, phase]
    rw [if_pos (by decide), if_neg (by decide), show (Finset.filter (· < 6) ({1, 2, 3} : Finset ℕ)).card = 3
      from by decide]
    norm_num

end SQ
