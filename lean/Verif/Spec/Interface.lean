import Verif.Model.Interface

/-! # Specification: where a distribution comes from, and what a value is -/

namespace SQ

/-- `d` is a measurement of `head` with the settings `s`, for `m ≠ 0` with the mitigation of flags `m`
applied to it. -/
def FromDevice {C : Type} (dev : Device C) (s : RunSetting C) (m : ℕ) (head : List Char) (d : Distr) : Prop :=
  if m = 0 then ∃ r, d = dev.measure r s head
  else ∃ r M, dev.mitigate M m s.circuit head (dev.measure r s head) = .ok d

/-- Average of the signs of a label on `n` qubits over a distribution. -/
noncomputable def averageSign (n : ℕ) (p : List Char) (d : Distr) : ℝ :=
  (d.map fun kv => kv.2 * ∏ i : Fin n, if letter p i ≠ 'I' ∧ kv.1.testBit i = true then -1 else 1).sum

end SQ
