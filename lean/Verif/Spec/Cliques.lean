import Verif.Model.Cliques

/-! # Specification vocabulary for Pauli cliques -/

namespace SQ

/-- Two labels ask for different letters on a qubit: they cannot be measured together qubit by qubit. -/
def Clash (a b : List Char) : Prop :=
  ∃ (i : ℕ) (x y : Char), a[i]? = some x ∧ b[i]? = some y ∧ x ≠ 'I' ∧ y ≠ 'I' ∧ x ≠ y

/-- Measuring `head` also measures `p`. -/
def Covers (head p : List Char) : Prop :=
  head.length = p.length ∧ ∀ (i : ℕ) (x : Char), p[i]? = some x → x ≠ 'I' → head[i]? = some x

/-- Calls that change a `Clique`. -/
inductive CliqueOp
  | add (paulis : List (List Char))
  | update (heads : List (List Char)) (distr : List Distr) (m : ℕ)

def CliqueOp.run (cs : List CliqueHead) : CliqueOp → List CliqueHead
  | .add ps => (addPaulis cs ps).2
  | .update hs ds m => (updateDistr cs hs ds m).2

/-- The labels a call adds. -/
def CliqueOp.adds : CliqueOp → List (List Char)
  | .add ps => ps
  | .update _ _ _ => []

/-- The distribution `d` was handed over for `head` and flags `m`. -/
def CliqueOp.Gives (op : CliqueOp) (head : List Char) (m : ℕ) (d : Distr) : Prop :=
  match op with
  | .add _ => False
  | .update hs ds m' => m = m' ∧ (head, d) ∈ hs.zip ds

end SQ
