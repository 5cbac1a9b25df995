/-!
# The permission to allocate

Model of `include/tvm/utils/memoryChecks.h` and `src/utils/memoryChecks.cpp`, for a build with `EIGEN_RUNTIME_NO_MALLOC` and the assertions. Eigen keeps the permission in a
variable of an inline function: a library that is linked separately may have its own. `site i` is the variable of the code numbered `i`, `lib` is the one of TVM; the functions of
the header are inlined at the caller, those of the source file are in TVM.
-/
set_option autoImplicit false

namespace Verif.MC

/-- The permissions, and `malloc_is_allowed_override_` (memoryChecks.cpp, line 10), its top first -/
structure State where
  lib : Bool
  site : Nat → Bool
  stack : List Bool

/-- `check_malloc_coherency` (memoryChecks.h, lines 25-33): `none` is an assertion that fails -/
def State.check (s : State) (i : Nat) : Option State := if s.site i = s.lib then some s else none

/-- `enforce_malloc_coherency` (lines 39-44) -/
def State.enforce (s : State) (i : Nat) : State := { s with site := fun k => if k = i then s.lib else s.site k }

/-- `is_malloc_allowed` (lines 48-52) -/
def State.isAllowed (s : State) (i : Nat) : Option Bool := (s.check i).map (·.lib)

/-- `set_is_malloc_allowed` (lines 55-61) -/
def State.set (s : State) (i : Nat) (a : Bool) : Option State := (s.check i).map fun s => State.enforce { s with lib := a } i

/-- `override_is_malloc_allowed` (lines 69-74; memoryChecks.cpp, lines 30-36) -/
def State.override (s : State) (i : Nat) (a : Bool) : Option State :=
  (s.check i).map fun s => State.enforce { s with lib := a, stack := s.lib :: s.stack } i

/-- `restore_is_malloc_allowed` (lines 77-82; memoryChecks.cpp, lines 38-46) -/
def State.restore (s : State) (i : Nat) : Option State :=
  (s.check i).bind fun s => match s.stack with
    | [] => none
    | a :: l => some (State.enforce { s with lib := a, stack := l } i)

/-- How an expression ends: the assertions, an exception or the normal end -/
inductive Ends where
  | fails
  | throws (s : State)
  | normally (s : State)

/-- `TVM_TEMPORARY_ALLOW_EIGEN_MALLOC(x)` (lines 85-88): an exception of `x` leaves before `restore` -/
def temporaryAllow (i : Nat) (x : State → Ends) (s : State) : Ends :=
  match s.override i true with
  | none => .fails
  | some s => match x s with
    | .fails => .fails
    | .throws s => .throws s
    | .normally s => match s.restore i with
      | none => .fails
      | some s => .normally s

/-- Sequence of two parts of a function -/
def Ends.seq (e : Ends) (x : State → Ends) : Ends :=
  match e with
  | .normally s => x s
  | e => e

/-- A call to `override`, or to `restore` -/
def ofOption : Option State → Ends
  | none => .fails
  | some s => .normally s

/-- `ResolutionScheme::createComputationData` (include/tvm/scheme/abstract/ResolutionScheme.h, lines 83-91): `restore` comes after the `return` -/
def createData (i : Nat) (create : State → Ends) (s : State) : Ends := (ofOption (s.override i true)).seq create

/-- `ResolutionScheme::updateComputationData` (lines 93-101) -/
def updateData (i : Nat) (update : State → Ends) (s : State) : Ends :=
  ((ofOption (s.override i true)).seq update).seq fun s => ofOption (s.restore i)

/-- `ResolutionScheme::solve` (lines 70-81) with `getComputationData` (include/tvm/scheme/internal/helpers.hpp, lines 14-31). `known` tells whether the problem has data of the scheme; `finalize`, `create`, `run`
(`problem.update()`), `update` and `resolve` (`solve_` and what follows) are what the problem and the scheme do. -/
def schemeSolve (i : Nat) (known : Bool) (finalize create run update resolve : State → Ends) (s : State) : Ends :=
  (((if known then .normally s else (finalize s).seq (createData i create)).seq run).seq (updateData i update)).seq resolve

end Verif.MC
