/-!
# Python-level vocabulary shared by all models

Exceptions are values of `PyErr`; a Python function that may raise is modelled as a function into
`Except PyErr`.  `outOfFuel` is not a Python exception: it marks a `while` loop that has not
stopped after the number of iterations given to it, and the termination theorems show it is never
produced.
-/

namespace SQ

inductive PyErr where
  | indexError
  | keyError
  | typeError
  | valueError
  | runtimeError
  | attributeError
  | notImplemented
  | zeroDivision
  | outOfFuel
deriving DecidableEq, Repr

/-- The result of a model function that may raise. -/
abbrev Res (α : Type _) := Except PyErr α

end SQ
