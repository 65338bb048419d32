import Verif.Spec.QuantumResponse
import Verif.Spec.DetCircuits
import Verif.Model.QuantumTransfer

/-!
# Specification: linear response with transferred states on a quantum computer
-/

namespace SQ

/-- The occupied spin orbitals of an occupation string. -/
def detSet (d : List Char) : Finset ℕ := (Finset.range d.length).filter fun p => d[p]? = some '1'

/-- The state of a linear combination of determinants. -/
noncomputable def csfFock (s : Csf) : Fock ℝ := ((s.1.zip s.2).map fun cd => sgl (detSet cd.2) cd.1).sum

/-- Lists of equal length, of occupation strings over `n` spatial orbitals. -/
def Csf.Good (n : ℕ) (s : Csf) : Prop := s.1.length = s.2.length ∧ ∀ d ∈ s.2, IsDet n d

/-- Every determinant has an electron. -/
def Csf.Electrons (s : Csf) : Prop := ∀ d ∈ s.2, '1' ∈ d

/-- The Hartree-Fock determinant: the first `na` alpha and the first `nb` beta orbitals. -/
def hfOcc (n na nb : ℕ) : Finset ℕ :=
  (Finset.range (2 * n)).filter fun p => (p % 2 = 0 ∧ p / 2 < na) ∨ (p % 2 = 1 ∧ p / 2 < nb)

/-- Matrix elements of `A` over the first `n` spatial orbitals are symmetric. -/
def SymOn (n : ℕ) (A : Dict ℝ) : Prop :=
  ∀ x y, Below (2 * n) x → Below (2 * n) y → inner x (sumOp A y) = inner y (sumOp A x)

/-- The interface evaluates matrix elements between linear combinations of determinants (none of them without electrons)
exactly: for symmetric number-conserving `A` on the active orbitals it returns `⟨bra| U† A U |ket⟩`, where `U` is the
ansatz, applied by the circuit to the prepared states (C56; C114 for an ideal device). -/
def ExactCsfs (W : RespWf) (qcsf : Csf → Dict ℝ → Csf → Res ℝ) : Prop :=
  ∀ A, NumCons A → (∀ kv ∈ A, ∀ o ∈ kv.1, o.1 < 2 * W.ci.nA) → SymOn W.ci.nA A →
    ∀ bra ket, Csf.Good W.ci.nA bra → Csf.Good W.ci.nA ket → bra.Electrons → ket.Electrons → ∀ b k b' k',
      csfFock bra = stateOf W.ci b → csfFock ket = stateOf W.ci k →
      W.U false b = .ok b' → W.U false k = .ok k' →
      qcsf bra A ket = .ok (inner (stateOf W.ci b') (sumOp A (stateOf W.ci k')))

/-- The reference: the Hartree-Fock determinant with the given numbers of active electrons, which occupies the orbitals
the excitations start from. -/
structure RespWf.HFStart (W : RespWf) (na nb : ℕ) : Prop where
  closed : emb W.ci W.csf = ket W.refDet
  active : stateOf W.ci W.csf = ket (hfOcc W.ci.nA na nb)
  orbitals : 0 < W.ci.nA
  electrons : (hfOcc W.ci.nA na nb).Nonempty

/-- The operators of self-consistent linear response without orbital rotations: `U G U†`. -/
noncomputable def RespWf.scOps (W : RespWf) (U Ud : FOp ℝ) (letters : List Char) : List (FOp ℝ) :=
  (lrOps W letters).map fun G => U * G * Ud

/-- The active operators of state-transfer linear response alone: `U G |ref⟩⟨0|`. -/
noncomputable def RespWf.transferAct (W : RespWf) (U : FOp ℝ) (letters : List Char) : List (FOp ℝ) :=
  (lrOps W letters).map fun G => ketbra (W.moved U G) W.state

end SQ
