import Verif.Spec.Ansatz
import Verif.Spec.Density
import Verif.Spec.Embed
import Verif.Model.Response
import Verif.Lemmas.Fock

/-!
# Specification: linear response matrices
-/

namespace SQ

/-- The state of a coefficient vector over the active space, with the inactive orbitals filled. -/
noncomputable def emb (ci : CIInfo) (v : Vec ℝ) : Fock ℝ := core (2 * ci.nI) (stateOf ci v)

/-- `⟨Ψ| T |Ψ⟩`. -/
noncomputable def expv (Ψ : Fock ℝ) (T : FOp ℝ) : ℝ := inner Ψ (T Ψ)

/-- The symmetric double commutator `[A, H, B] = 1/2 ([A, [H, B]] + [[A, H], B])`. -/
noncomputable def dcomm (A H B : FOp ℝ) : FOp ℝ := (1 / 2 : ℝ) • (comm A (comm H B) + comm (comm A H) B)

/-- The wave function `|0⟩` of the object. -/
noncomputable def RespWf.state (W : RespWf) : Fock ℝ := emb W.ci W.c

/-- The number of orbitals. -/
def RespWf.numOrbs (W : RespWf) : ℕ := W.ci.nI + W.ci.nA + W.ci.nV

/-- The electronic Hamiltonian in all orbitals. -/
noncomputable def RespWf.ham (W : RespWf) : FOp ℝ := electronic W.h W.g W.numOrbs

/-- What the wave function classes provide: a determinant space closed under spin-conserving operators, a
normalised state with its density matrices, integrals of real orbitals, the rotations that are not redundant,
and disjoint lists of occupied and unoccupied active orbitals. -/
structure RespWf.Proper (W : RespWf) : Prop where
  space : AnsatzSpace W.ci W.ci.nA
  norm : inner W.state W.state = 1
  rdm : IsRdm W.ci.nI W.ci.nA [W.state] W.rdm1 W.rdm2
  ints : RealIntegrals W.h W.g
  kappa : ∀ k ∈ W.kappa, NonRedundant W.ci.nI W.ci.nA k ∧ k.2 < W.numOrbs
  dagger : W.kappaD = W.kappa.map Prod.swap
  act : ∀ p ∈ W.occ ++ W.unocc, W.ci.nI ≤ p ∧ p < W.ci.nI + W.ci.nA
  actS : ∀ p ∈ W.occS ++ W.unoccS, 2 * W.ci.nI ≤ p ∧ p < 2 * (W.ci.nI + W.ci.nA)
  spin : ∀ p, (p / 2 ∈ W.occ ↔ p ∈ W.occS) ∧ (p / 2 ∈ W.unocc ↔ p ∈ W.unoccS)
  nodup : (W.occ ++ W.unocc).Nodup
  nodupS : (W.occS ++ W.unoccS).Nodup

/-- `a, b, ...` of the list `a, i, b, j, ...`. -/
def creators : List ℕ → List ℕ
  | a :: _ :: t => a :: creators t
  | _ => []

/-- `i, j, ...` of the list `a, i, b, j, ...`. -/
def annihilators : List ℕ → List ℕ
  | _ :: i :: t => i :: annihilators t
  | _ => []

/-- The excitation `a†_a a†_b ... a_j a_i` of the list `a, i, b, j, ...`. -/
noncomputable def stringOp (x : List ℕ) : FOp ℝ := excite (creators x) (annihilators x).reverse

/-- The spin-adapted double excitation `ij → ab`: `1/2 / √((1+δ_ab)(1+δ_ij)) (E_ai E_bj + E_aj E_bi)`, and for
the second coupling `1/(2√3) (E_ai E_bj - E_aj E_bi)`. -/
noncomputable def saDoubleOp (x : SaDouble) : FOp ℝ :=
  if x.case = 5 then (1 / (2 * Real.sqrt 3)) • (E x.a x.i * E x.b x.j - E x.a x.j * E x.b x.i)
  else (1 / 2 * (Real.sqrt ((if x.a = x.b then 2 else 1) * (if x.i = x.j then 2 else 1)))⁻¹)
    • (E x.a x.i * E x.b x.j + E x.a x.j * E x.b x.i)

/-- The excitations of the active space named by the letters, in the order of the iterators (which list every
excitation once, C35). -/
noncomputable def lrOps (W : RespWf) (letters : List Char) : List (FOp ℝ) :=
  (if 's' ∈ letters then (iterateT1sa W.occ W.unocc).map fun x => qOp x.1 x.2.1 else [])
  ++ (if 'd' ∈ letters then (iterateT2sa W.occ W.unocc).map saDoubleOp else [])
  ++ (if 't' ∈ letters then (iterateT3 W.occS W.unoccS).map stringOp else [])
  ++ (if 'q' ∈ letters then (iterateT4 W.occS W.unoccS).map stringOp else [])
  ++ (if '5' ∈ letters then (iterateT5 W.occS W.unoccS).map stringOp else [])
  ++ (if '6' ∈ letters then (iterateT6 W.occS W.unoccS).map stringOp else [])

/-- The excitation operators of linear response: the orbital rotations `q = E_nm / √2` for the pairs `m`, `n` of
orbitals, then the excitations of the active space. -/
noncomputable def RespWf.ops (W : RespWf) (letters : List Char) : List (FOp ℝ) :=
  (W.kappa.map fun k => qOp k.2 k.1) ++ lrOps W letters

/-- `|a⟩⟨b|`. -/
noncomputable def ketbra (a b : Fock ℝ) : FOp ℝ where
  toFun x := inner b x • a
  map_add' x y := by rw [inner_add_right, add_smul]
  map_smul' c x := by rw [inner_smul_right, mul_smul]; rfl

/-- The projected operator `G|0⟩⟨0| - ⟨0|G|0⟩`. -/
noncomputable def projOp (Ψ : Fock ℝ) (G : FOp ℝ) : FOp ℝ := ketbra (G Ψ) Ψ - expv Ψ G • 1

/-- The operators of projected linear response. -/
noncomputable def RespWf.projOps (W : RespWf) (letters : List Char) : List (FOp ℝ) :=
  (W.kappa.map fun k => qOp k.2 k.1) ++ (lrOps W letters).map (projOp W.state)

/-- The operators of all-projected linear response: orbital rotations and active operators are projected. -/
noncomputable def RespWf.allProjOps (W : RespWf) (letters : List Char) : List (FOp ℝ) :=
  (W.ops letters).map (projOp W.state)

/-- The closed-shell determinant: inactive and occupied active orbitals are filled. -/
def RespWf.refDet (W : RespWf) : Finset ℕ := Finset.range (2 * W.ci.nI) ∪ W.occS.toFinset

/-- The names "U" and "Ud" stand for the orthogonal operator `U` and its inverse, and the stored state is `U` on the
reference state. -/
structure RespWf.Rotates (W : RespWf) (U Ud : FOp ℝ) : Prop where
  run : ∀ v, ∃ w, W.U false v = .ok w ∧ emb W.ci w = U (emb W.ci v)
  runDagger : ∀ v, ∃ w, W.U true v = .ok w ∧ emb W.ci w = Ud (emb W.ci v)
  adjoint : IsAdjoint U Ud
  inverse : ∀ v, Ud (U (emb W.ci v)) = emb W.ci v
  state : W.state = U (emb W.ci W.csf)

/-- The state `U G |ref⟩`. -/
noncomputable def RespWf.moved (W : RespWf) (U G : FOp ℝ) : Fock ℝ := U (G (emb W.ci W.csf))

/-- The operators of state-transfer linear response: orbital rotations and `U G |ref⟩⟨0|`. -/
noncomputable def RespWf.transferOps (W : RespWf) (U : FOp ℝ) (letters : List Char) : List (FOp ℝ) :=
  (W.kappa.map fun k => qOp k.2 k.1) ++ (lrOps W letters).map fun G => ketbra (W.moved U G) W.state

/-- The operators of projected state-transfer linear response: `q |0⟩⟨0|` and `U G |ref⟩⟨0|`. -/
noncomputable def RespWf.projTransferOps (W : RespWf) (U : FOp ℝ) (letters : List Char) : List (FOp ℝ) :=
  (W.kappa.map fun k => ketbra (qOp k.2 k.1 W.state) W.state)
    ++ (lrOps W letters).map fun G => ketbra (W.moved U G) W.state

/-- The letters of `excitations.lower()`. -/
def lettersOf (excitations : String) : List Char := excitations.toList.map Char.toLower

end SQ
