/-!
# Outcomes of modelled C++ functions

`Outcome σ α` is what a call of a C++ member function may lead to, for an object with state `σ` and a
returned value in `α`.
-/
set_option autoImplicit false

namespace Verif

/-- Outcome of a call: normal return, exception (with the state in which the object is left), or
undefined behaviour. -/
inductive Outcome (σ α : Type) where
  /-- The call returned `a`, leaving the object in state `s`. -/
  | ok (s : σ) (a : α)
  /-- The call threw an exception, leaving the object in state `s`. -/
  | throw (s : σ)
  /-- The call has undefined behaviour. -/
  | ub
deriving Repr, DecidableEq

end Verif
