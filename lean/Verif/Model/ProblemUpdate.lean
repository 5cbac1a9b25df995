import Verif.Model.CallGraph
import Verif.Model.Outcome

/-!
# The update of a problem

Model of `ControlProblem::Updater` (`include/tvm/ControlProblem.h:76-97`, `src/ControlProblem.cpp:88-104`) and of what
`LinearizedControlProblem` does with it (`src/LinearizedControlProblem.cpp:26-74`).

Simplifications.  Tasks and constraints are numbers; each constraint that is created has a new number (its address may be
one that was used before in the code).  `Inputs` is the list of its sources with their outputs (it is studied in C56), and
the order in which it is iterated on is arbitrary.  The dependencies of the nodes (`CG.Net`) are given once for all the
constraints that will be created.  For each constraint, one records whether it is used by a substitution, simple or not.
-/

set_option autoImplicit false

namespace Verif.PU
open Verif Verif.CG

/-- `constraint::Type` (`constraint/enums.h:14-27`). -/
inductive Ty where
  | equal | greater | lower | double
deriving DecidableEq

/-- `FirstOrderProvider::Output::Jacobian` and `Constraint::Output::{L,U,E}`; only their being distinct is of importance. -/
def jac : Nat := 1
def outL : Nat := 2
def outU : Nat := 3
def outE : Nat := 4

/-- The outputs that are requested for a constraint (`LinearizedControlProblem.cpp:43-59`). -/
def requested : Ty → List Nat
  | .equal => [jac, outE]
  | .greater => [jac, outL]
  | .lower => [jac, outU]
  | .double => [jac, outL, outU]

/-- What does not change: the graph of the nodes, the types of the tasks, the order in which `Inputs` is iterated on and
the number of nested calls that is allowed. -/
structure Env where
  net : Net
  type : Nat → Ty
  order : List (Nat × Nat) → List (Nat × Nat)
  perm : ∀ l, (order l).Perm l
  fuel : Nat

/-- Members of `LinearizedControlProblem`: `tr_`, `constraints_`, `finalized_`; of `Updater`: `upToDate_`, `inputs_`,
`updateGraph_`; the substitutions of the constraints (`some true` if simple); the number of the next constraint. -/
structure St where
  tr : List Nat := []
  cstr : Nat → Option Nat := fun _ => none
  finalized : Bool := false
  upToDate : Bool := false
  ins : List (Nat × List Nat) := []
  graph : CSt := {}
  subs : Nat → Option Bool := fun _ => none
  next : Nat := 0

/-- Replace one value of a function. -/
def upd {α : Type} (f : Nat → α) (a : Nat) (x : α) : Nat → α := fun b => if b = a then x else f b

/-- `ControlProblem::add` (`ControlProblem.cpp:19-25`). -/
def St.addBase (s : St) (t : Nat) : St := { s with tr := s.tr ++ [t], finalized := false }

/-- `LinearizedControlProblem::add` (`LinearizedControlProblem.cpp:26-60`).  `ok` is false when the construction of the
constraint throws. -/
def St.add (E : Env) (s : St) (t : Nat) (ok : Bool) : Outcome St Unit :=
  let s := s.addBase t
  if ok then
    .ok { s with cstr := upd s.cstr t (some s.next), ins := s.ins ++ [(s.next, requested (E.type t))], upToDate := false,
                 next := s.next + 1 } ()
  else .throw s

/-- `ControlProblem::remove` (`ControlProblem.cpp:27-38`). -/
def St.removeBase (s : St) (t : Nat) : St :=
  if t ∈ s.tr then { s with tr := s.tr.erase t, finalized := false } else s

/-- `updater_.removeInput` (`ControlProblem.h:151-155`) and the erasure (`LinearizedControlProblem.cpp:71-72`). -/
def St.forget (s : St) (t c : Nat) : St :=
  { s with ins := s.ins.filter (fun p => decide (p.1 ≠ c)), upToDate := false, cstr := upd s.cstr t none }

/-- `LinearizedControlProblem::remove(TaskWithRequirements)` (`LinearizedControlProblem.cpp:62-73`) with
`removeSubstitutionFor` (`:91-108`). -/
def St.remove (s : St) (t : Nat) : Outcome St Unit :=
  let s := s.removeBase t
  match s.cstr t with
  | none => .ok s ()
  | some c =>
    match s.subs c with
    | none => .ok (s.forget t c) ()
    | some true => .ok (St.forget { s with subs := upd s.subs c none, finalized := false } t c) ()
    | some false => .throw s

/-- `add(Substitution)` and `remove(Substitution)` (`LinearizedControlProblem.cpp:75-87`), seen from a constraint. -/
def St.hint (s : St) (c : Nat) (b : Option Bool) : St := { s with subs := upd s.subs c b, finalized := false }

/-- The pairs (source, output) of the inputs. -/
def St.pairs (s : St) : List (Nat × Nat) := s.ins.flatMap fun p => p.2.map fun o => (p.1, o)

/-- `Updater::refresh` (`ControlProblem.cpp:90-99`). -/
def St.refresh (E : Env) (s : St) : Outcome St Unit :=
  if s.upToDate then .ok s ()
  else
    match addInputs E.net E.fuel (E.order s.pairs) (clear s.graph) with
    | .error _ => .ub
    | .ok g =>
      match CG.update g with
      | .ok g _ => .ok { s with graph := g, upToDate := true } ()
      | .throw g => .throw { s with graph := g }
      | .ub => .ub

/-- `finalize` (`ControlProblem.cpp:51-59`).  `fin` is false when `finalize_` throws. -/
def St.finalize (E : Env) (s : St) (fin : Bool) : Outcome St Unit :=
  if s.finalized then .ok s ()
  else
    match s.refresh E with
    | .ok s _ => if fin then .ok { s with finalized := true } () else .throw s
    | .throw s => .throw s
    | .ub => .ub

/-- `update` (`ControlProblem.cpp:44-49`): the calls that are made by `updater_.run()`. -/
def St.update (E : Env) (s : St) (fin : Bool) : Outcome St (List Call) :=
  match s.finalize E fin with
  | .ok s _ => .ok s s.graph.plan
  | .throw s => .throw s
  | .ub => .ub

/-- What a user can do. -/
inductive Op where
  | add (t : Nat) (ok : Bool)
  | remove (t : Nat)
  | hint (c : Nat) (b : Option Bool)
  | finalize (fin : Bool)
  | update (fin : Bool)

/-- The state that an operation leaves, the exceptions being caught. -/
def step (E : Env) (s : St) : Op → Option St
  | .add t ok => match s.add E t ok with
    | .ok s _ => some s
    | .throw s => some s
    | .ub => none
  | .remove t => match s.remove t with
    | .ok s _ => some s
    | .throw s => some s
    | .ub => none
  | .hint c b => some (s.hint c b)
  | .finalize fin => match s.finalize E fin with
    | .ok s _ => some s
    | .throw s => some s
    | .ub => none
  | .update fin => match s.update E fin with
    | .ok s _ => some s
    | .throw s => some s
    | .ub => none

end Verif.PU
