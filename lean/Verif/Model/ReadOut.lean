import Verif.Model.Sampler
import Verif.Model.Layout
import Verif.Model.Determinants
import Verif.Spec.Circuits

/-!
# Model: read-out matrices and their use

slowquant/qiskit_interface/interface.py, `_make_Minv` (1532-1611), `_apply_M_mitigation` (1273-1314) and
`_apply_postselection` (1316-1325), for circuits without a layout and without a custom circuit (`circuit_M`). The number of
shots of the calibration is taken as fixed (`M_shots`). The distributions of one call are corrected one after the other,
so that of two failures the one of the first distribution is reported.
-/

namespace SQ

/-- A circuit as it is put together here: first gates, ansatz, last gates. -/
structure Prog (n : ℕ) where
  pre : List (Gate n)
  ansatz : List (PGate n)
  post : List (Gate n)

/-- The primitive: the distribution found in a run (numbered), with a number of shots, repeated so often, on a circuit
followed by the measurement of a label. -/
structure Primitive (n : ℕ) where
  sample : ℕ → Option ℕ → ℕ → Prog n → List Char → Distr

/-- `itertools.product([0, 1], repeat=n)`, lines 1576 and 1592. -/
def productBits : ℕ → List (List ℕ)
  | 0 => [[]]
  | n + 1 => [0, 1].flatMap fun b => (productBits n).map fun l => b :: l

/-- The X gates of a calibration circuit, lines 1594-1596: `for i, bit in enumerate(comb[::-1])`. -/
def combGates (n : ℕ) (comb : List ℕ) : List (Gate n) :=
  (List.finRange n).flatMap fun i : Fin n => if comb.reverse[(i : ℕ)]? = some 1 then [.x i] else []

/-- The calibration circuits, lines 1562-1569 and 1590-1605. -/
def calibration (n : ℕ) (ansatz0 : List (PGate n)) : List (Prog n) :=
  (productBits n).map fun comb => ⟨[], ansatz0, combGates n comb⟩

open Classical in
/-- `_make_Minv`, lines 1560-1561 and 1606-1611: the columns are the distributions of the calibration circuits.
`np.linalg.inv` raises (`LinAlgError`, here `runtimeError`) for a singular matrix. -/
noncomputable def makeMinv (n : ℕ) (ansatz0 : List (PGate n)) (measure : Prog n → List Char → Distr) :
    Res (Matrix (Fin (2 ^ n)) (Fin (2 ^ n)) ℝ) :=
  if n > 8 then .error .valueError
  else do
    let cols ← (calibration n ansatz0).mapM fun g => distVector (2 ^ n) (measure g (List.replicate n 'Z'))
    let M : Matrix (Fin (2 ^ n)) (Fin (2 ^ n)) ℝ := Matrix.of fun a b => (cols.getD b []).getD a 0
    if M.det = 0 then .error .runtimeError else .ok M⁻¹

variable {norb : ℕ}

/-- What the constructor and `construct_circuit` fix besides the primitive: number of ansatz parameters, shots of the
calibration, mapper and electrons. -/
structure Calib where
  numParams : ℕ
  shots : Option ℕ
  mapper : Mapper
  numElec : ℕ × ℕ

/-- The matrix with the number `id` (run and flags in force when it was built): with `do_M_ansatz0` the ansatz with all
parameters `10**-8` comes before the X gates. -/
noncomputable def matrixOf (S : Primitive (2 * norb)) (ansatz : List ℝ → List (PGate (2 * norb))) (K : Calib) (id : ℕ × ℕ) :
    Res (Matrix (Fin (2 ^ (2 * norb))) (Fin (2 ^ (2 * norb))) ℝ) :=
  makeMinv (2 * norb) (if id.2.testBit 1 then ansatz (List.replicate K.numParams (1 / 10 ^ 8)) else [])
    (S.sample id.1 K.shots 1)

/-- `_apply_M_mitigation` on one distribution (lines 1273-1296), if `do_M_mitigation` is on in the flags `m`. -/
noncomputable def applyMatrix (S : Primitive (2 * norb)) (ansatz : List ℝ → List (PGate (2 * norb))) (K : Calib)
    (id : ℕ × ℕ) (m : ℕ) (raw : Distr) : Res Distr :=
  if m.testBit 0 then do
    let Minv ← matrixOf S ansatz K id
    correctDistribution raw Minv
  else .ok raw

/-- `_apply_postselection` on one distribution (lines 1323-1325), if `do_postselection` is on in the flags `m`. -/
noncomputable def applySelection (norb : ℕ) (K : Calib) (m : ℕ) (head : List Char) (d : Distr) : Res Distr :=
  if m.testBit 3 then
    if 'X' ∉ head ∧ 'Y' ∉ head then postselection d K.mapper K.numElec (2 * norb) else .ok d
  else .ok d

/-- One after the other, lines 1057-1062, 1133-1137 and 1150-1154. -/
noncomputable def applyMitigation (S : Primitive (2 * norb)) (ansatz : List ℝ → List (PGate (2 * norb))) (K : Calib)
    (id : ℕ × ℕ) (m : ℕ) (head : List Char) (raw : Distr) : Res Distr := do
  let d ← applyMatrix S ansatz K id m raw
  applySelection norb K m head d

/-- The device of an interface on a primitive. -/
noncomputable def primitiveDevice (S : Primitive (2 * norb)) (ansatz : List ℝ → List (PGate (2 * norb))) (K : Calib) :
    Device (List (Gate (2 * norb))) where
  measure run s head := S.sample run s.perRun s.runs ⟨s.circuit, ansatz s.params, []⟩ head
  mitigate id m _ head raw := applyMitigation S ansatz K id m head raw

end SQ
