import Verif.Model.QuantumResponse
import Verif.Model.FermionicText

/-! # `quantumLRBaseClass.get_operator_info`

/repo/slowquant/qiskit_interface/linear_response/lr_baseclass.py, lines 87-118.  The printed lines are data: the layout
of a line (`center`, the separators) and the rounding of the coefficient to three digits are left out.  A call that
raises is an error; the lines printed before are not kept. -/

namespace SQ

/-- One printed line. -/
inductive InfoLine where
  /-- line 90 -/
  | heading
  /-- line 92 -/
  | qTitle
  /-- line 112 -/
  | gTitle
  /-- line 95 -/
  | qNr (n : ℕ)
  /-- line 115 -/
  | gNr (n : ℕ)
  /-- lines 103-111 (with the type of the excitation) and 117 (without) -/
  | row (ann cre : List ℕ) (coeff : ℝ) (exc : Option String)

/-- `exc_type`, lines 97-102; `active` is `self.wf.active_spin_idx`. -/
def excType (active a c : List ℕ) : Res String :=
  match a with
  | [] => .error .indexError
  | a0 :: _ =>
    if a0 ∈ active then .ok "active -> virtual"
    else
      match c with
      | [] => .error .indexError
      | c0 :: _ => if c0 ∈ active then .ok "inactive -> active" else .ok "inactive -> virtual"

/-- `zip(annihilation, creation, coefficients)` of `op.get_info()`, lines 94, 96 and 114, 116. -/
def infoTerms (op : Dict ℝ) : List (List ℕ × List ℕ × ℝ) :=
  let i := getInfo op
  i.1.zip (i.2.1.zip i.2.2)

/-- The loop over the terms of an orbital rotation, lines 96-111. -/
def qInfo (active : List ℕ) (op : Dict ℝ) : Res (List InfoLine) :=
  (infoTerms op).mapM fun x => do
    let t ← excType active x.1 x.2.1
    pure (InfoLine.row x.1 x.2.1 x.2.2 (some t))

/-- The loop over the terms of an active operator, lines 116-117. -/
def gInfo (op : Dict ℝ) : List InfoLine := (infoTerms op).map fun x => InfoLine.row x.1 x.2.1 x.2.2 none

/-- `get_operator_info`, lines 87-117. -/
def operatorInfo (active : List ℕ) (L : QLR) : Res (List InfoLine) := do
  let q ← if 0 < L.Q.length then do
      let b ← L.Q.zipIdx.mapM fun x => do
        let r ← qInfo active x.1
        pure (InfoLine.qNr x.2 :: r)
      pure (InfoLine.qTitle :: b.flatten)
    else pure []
  let g := if 0 < L.G.length then
      InfoLine.gTitle :: (L.G.zipIdx.map fun x => InfoLine.gNr x.2 :: gInfo x.1).flatten
    else []
  pure (InfoLine.heading :: (q ++ g))

end SQ
