import Verif.Model.LinearizedTask
import Verif.Model.ResolutionValues
/-!
# Model of the passage from the tasks to the constraints given to the solvers
(src/LinearizedControlProblem.cpp, lines 26-58; src/constraint/LinearizedTaskConstraint.cpp, lines 18-89 and 106-163)

`LinearizedControlProblem::add` builds a `LinearizedTaskConstraint` for each task; the assignments of the solvers, and the substitutions, read its variables, its Jacobians and its vectors.

Simplified: the variables have numbers, `vn` gives the number of a variable and `un` the variable of a number; the variables are atomic, as in the models of the substitutions.
-/
set_option autoImplicit false
set_option linter.unusedSectionVars false

namespace Verif.TR
open Verif TD LTask

variable {K : Type} [Field K] [LinearOrder K] [IsStrictOrderedRing K]

/-- The type of a constraint, that is the type of its task (LinearizedTaskConstraint.cpp, line 19) -/
def ctype : TD.CType → AS.CType
  | .equal => .equal
  | .greaterThan => .greaterThan
  | .lowerThan => .lowerThan
  | .doubleSided => .doubleSided

/-- A vector of a constraint. Those that the type does not use do not exist (`Constraint::e`, `l`, `u`), the value is never read. -/
def vec : Option (Vec K) → Nat → K
  | some x, i => x.v i
  | none, _ => 0

/-- What the solvers see of the constraint of a task after the update (LinearizedTaskConstraint.cpp, line 19: `RHS::AS_GIVEN`, the size of the function) -/
def constraintOf (vn : VId → Nat) (un : Nat → VId) (f : Fn K) (c : LTC K) : Outcome Unit (RV.UserCstr K) :=
  match c.update f with
  | .throw _ => .throw ()
  | .ub => .ub
  | .ok _ r => .ok () ⟨ctype c.type, .asGiven, f.size, c.vars.map vn, fun x i k => match c.jacobian f (un x) with
      | .ok _ J => J i k
      | _ => 0, vec r.e, vec r.l, vec r.u⟩

/-- The outputs of a function that change from an update to the next one -/
structure Outs (K : Type) where
  value : Nat → K
  velocity : Nat → K
  normalAcc : Nat → K
  jac : VId → Nat → Nat → K

/-- A function with the outputs of an update -/
def after (f : Fn K) (o : Outs K) : Fn K := { f with value := o.value, velocity := o.velocity, normalAcc := o.normalAcc, jac := o.jac }

end Verif.TR
