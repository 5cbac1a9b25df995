import Verif.Model.MatrixProperties
import Verif.Model.Assignment
/-!
# Model of the functions that recognize bounds (src/scheme/helpers.cpp)

The variables are numbered; `x` and `xsub`, two vectors of the same length, are one list of pairs. `none` is an exception.
-/
set_option autoImplicit false

namespace Verif.BH
open Verif Verif.MP Verif.AS

/-- A constraint, as far as it is asked: its type, its variables, and for each variable whether it is linear in it and the properties of the
Jacobian -/
structure Cstr where
  type : CType
  vars : List Nat
  linear : Nat → Bool
  jac : Nat → Props

/-- The function that replaces a variable: its variables and the properties of its Jacobians; `jacobian` throws for a variable that is neither
one of its variables nor part of one (include/tvm/utils/internal/MapWithVariableAsKey.h, lines 85-117). -/
structure Sub where
  vars : List Nat
  jac : Nat → Option Props

/-- `isBound(c)` (helpers.cpp, lines 18-26) -/
def isBound (c : Cstr) : Bool :=
  match c.vars with
  | [] => false
  | x :: _ => c.linear x && decide (c.vars.length = 1) && (c.jac x).isDiagonal && (c.jac x).isInvertible

/-- `isBound(c, x, xsub)` (helpers.cpp, lines 31-71); `inter` is `Variable::intersects`. -/
def isBoundSub (inter : Nat → Nat → Bool) (c : Cstr) (xs : List (Nat × Sub)) : Option Bool :=
  if isBound c then
    match c.vars with
    | [] => some false
    | cx :: _ =>
      match xs.find? fun p => p.1 == cx with
      | none => if xs.any fun p => inter cx p.1 then some false else some true
      | some p =>
        match p.2.vars with
        | [v] =>
          match p.2.jac v with
          | none => none
          | some q => some (q.isDiagonal && q.isInvertible)
        | _ => some false
  else some false

/-- `canBeUsedAsBound(c, x, xsub, targetConvention)` (helpers.cpp, lines 78-151). In line 145 the Jacobian asked is the one for the first
substituted variable. -/
def canBeUsedAsBound (inter : Nat → Nat → Bool) (c : Cstr) (xs : List (Nat × Sub)) (target : CType) : Option Bool :=
  match isBoundSub inter c xs with
  | none => none
  | some false => some false
  | some true =>
    let go (case1 : Bool) : Option Bool :=
      match c.vars with
      | [] => some false
      | cx :: _ =>
        let p := c.jac cx
        match xs.find? fun q => q.1 == cx with
        | none => some (if case1 then p.isPositiveDefinite else p.isNegativeDefinite)
        | some q =>
          match xs.head?.bind fun h => q.2.jac h.1 with
          | none => none
          | some ps =>
            match MP.mul p ps with
            | none => none
            | some r => some (if case1 then r.isPositiveDefinite else r.isNegativeDefinite)
    match target, c.type with
    | .equal, _ => some false
    | .greaterThan, .greaterThan => go true
    | .greaterThan, .lowerThan => go false
    | .greaterThan, _ => some false
    | .lowerThan, .greaterThan => go false
    | .lowerThan, .lowerThan => go true
    | .lowerThan, _ => some false
    | .doubleSided, _ => some true

end Verif.BH
