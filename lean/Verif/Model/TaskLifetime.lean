import Verif.Model.WeightedLeastSquares
/-!
# Model of the pointers of a problem to its tasks
(include/tvm/ControlProblem.h, src/ControlProblem.cpp, src/LinearizedControlProblem.cpp,
include/tvm/scheme/internal/{ProblemDefinitionEvent.h,LinearizedProblemComputationData.h}, src/scheme/WeightedLeastSquares.cpp)

A `TaskWithRequirements` exists as long as a shared pointer refers to it. Such pointers are in the program, in `tr_` (ControlProblem.h,
line 115), in the requirements kept beside the constraints of `constraints_` (aliasing pointers, LinearizedControlProblem.cpp lines
34-36) and of `task2Constraint_` of the data of a scheme, which is a copy of them (LinearizedProblemComputationData.h, lines 24-38).
The keys of `callbackTokens_`, `constraints_` and `task2Constraint_` and the emitters of the events are raw pointers, which keep
nothing. The maps compare their keys by reading the identifiers in the tasks (include/tvm/utils/internal/map.h, lines 11-19): a search
reads the task given and keys of the map, unless the map is empty.

A task is designated by its address; the maps find the tasks by their identifiers, which is the same for tasks that exist. The program may create a task at any address that is free. What is read of the tasks (`PB.Env`)
may be different in each call, because another task may be at the same address then.

Simplifications. A search reads all the keys, in fact those on a path from the root of the tree. The pointers in the objectives of the
solver are not counted: they only keep more tasks, and longer. One scheme is used (`PB.State`). An exception thrown in
`LinearizedControlProblem::add` comes from the constructor of the constraint (`LinearizedTaskConstraint`, lines 25-28 and 69-70).
-/
set_option autoImplicit false

namespace Verif.TL
open Verif

/-! ## A problem without linearization -/

/-- Members `tr_` and keys of `callbackTokens_` of a `ControlProblem` (ControlProblem.h, lines 109-118), and the pointers of the
program, one element for each pointer -/
structure Plain where
  prog : List Nat := []
  tr : List Nat := []
  toks : List Nat := []
deriving DecidableEq, Repr

/-- What a program does with tasks and a problem. `make` creates a task, `copy` makes a pointer to it, `release` drops one. -/
inductive POp where
  | make (t : Nat)
  | copy (t : Nat)
  | release (t : Nat)
  | add (t : Nat)
  | remove (t : Nat)
deriving DecidableEq, Repr

/-- The task exists. -/
def Plain.exist (s : Plain) (t : Nat) : Bool := s.prog.contains t || s.tr.contains t

/-- The program can do this: it creates tasks at free addresses, and refers to tasks that exist. -/
def Plain.can (s : Plain) : POp → Bool
  | .make t => !s.exist t
  | .copy t => s.exist t
  | .release t => s.prog.contains t
  | .add t => s.exist t
  | .remove t => s.exist t

/-- A search of `t` in a map with these keys reads only tasks that exist (map.h, lines 11-19). -/
def search (keys : List Nat) (t : Nat) (exist : Nat → Bool) : Bool := keys.isEmpty || (t :: keys).all exist

/-- `ControlProblem::add` (ControlProblem.cpp, lines 19-25) with `addCallBackToTask` (73-86), `ControlProblem::remove` (lines 27-38):
the task is erased from `tr_` (line 34) before it is searched in `callbackTokens_` (line 36). `none`: a destroyed task is read. -/
def Plain.step (s : Plain) : POp → Option Plain
  | .make t => some { s with prog := t :: s.prog }
  | .copy t => some { s with prog := t :: s.prog }
  | .release t => some { s with prog := s.prog.erase t }
  | .add t =>
    let s := { s with tr := s.tr ++ [t] }
    if search s.toks t s.exist then some { s with toks := t :: s.toks.filter (· ≠ t) } else none
  | .remove t =>
    if t ∈ s.tr then
      let s := { s with tr := s.tr.erase t }
      if search s.toks t s.exist then some { s with toks := s.toks.filter (· ≠ t) } else none
    else some s

/-! ## A linearized problem with the data of a scheme -/

/-- The problem with the data of the scheme, and the pointers of the program -/
structure State where
  prog : List Nat := []
  s : PB.State := {}
deriving DecidableEq, Repr

/-- The task exists: it is referred to by the program, by `tr_`, by `constraints_` or by `task2Constraint_`. -/
def exist (prog : List Nat) (s : PB.State) (t : Nat) : Bool :=
  prog.contains t || s.pb.tr.contains t || (s.pb.cons.map (·.1)).contains t ||
    (match s.mem with
      | none => false
      | some m => (m.map.map (·.1)).contains t)

/-- What a program does with tasks and a problem. `addThrows` is the addition of a task the constraint of which can not be created. -/
inductive Op where
  | make (t : Nat)
  | copy (t : Nat)
  | release (t : Nat)
  | addThrows (t : Nat)
  | call (E : PB.Env) (c : PB.Call)

/-- The task given to a call -/
def arg : PB.Call → Option Nat
  | .addTask t => some t
  | .removeTask t => some t
  | .changeWeight t _ => some t
  | _ => none

/-- The program can do this. -/
def State.can (s : State) : Op → Bool
  | .make t => !exist s.prog s.s t
  | .copy t => exist s.prog s.s t
  | .release t => s.prog.contains t
  | .addThrows t => exist s.prog s.s t
  | .call _ c => match arg c with
    | none => true
    | some t => exist s.prog s.s t

/-- The reads of tasks in the treatment of an event (WeightedLeastSquares.cpp, lines 62-88) are reads of tasks that exist: the searches
in `constraints_` (lines 65, 74 and 229), and in `task2Constraint_` (lines 235, 276 and 313; the entry found in line 276 is kept until
the end). `m` is the data at that time. -/
def eventReads (prog : List Nat) (p : PB.Problem) (m : PB.Mem) (e : EQ.Event) : Bool :=
  match e.type, e.emitter with
  | .weightChange, .task t => search (p.cons.map (·.1)) t (exist prog ⟨p, some m⟩)
  | .anisotropicWeightChange, .task t => search (p.cons.map (·.1)) t (exist prog ⟨p, some m⟩)
  | .taskAddition, .task t =>
    search (p.cons.map (·.1)) t (exist prog ⟨p, some m⟩) &&
      ((PB.get p.cons t).isNone || search (m.map.map (·.1)) t (exist prog ⟨p, some m⟩))
  | .taskRemoval, .task t => search (m.map.map (·.1)) t (exist prog ⟨p, some m⟩)
  | _, _ => true

/-- The same for the loop on the events (WeightedLeastSquares.cpp, lines 59-91). -/
def handleReads (prog : List Nat) (E : PB.Env) (p : PB.Problem) : List EQ.Event → PB.Mem → Bool
  | [], _ => true
  | e :: q, m =>
    eventReads prog p { m with queue := q } e &&
      (match PB.onEvent E p { m with queue := q } e with
        | .ok m _ => handleReads prog E p q m
        | _ => true)

/-- The reads of tasks in a call are reads of tasks that exist. Addition: searches in `callbackTokens_` (ControlProblem.cpp, line 85)
and `constraints_` (LinearizedControlProblem.cpp, line 38), when the task is in `tr_`. Removal: searches in `callbackTokens_`
(ControlProblem.cpp, line 36), when it is not there any more, and in `constraints_` (LinearizedControlProblem.cpp, line 63).
Resolution: with data of the scheme, the events, if none of them requires to rebuild the data (WeightedLeastSquares.cpp, lines 51-58). -/
def State.reads (s : State) : Op → Bool
  | .addThrows t =>
    let s1 : PB.State := ⟨{ s.s.pb with tr := s.s.pb.tr ++ [t] }, s.s.mem⟩
    search s.s.pb.toks t (exist s.prog s1)
  | .call _ (.addTask t) =>
    let s1 : PB.State := ⟨{ s.s.pb with tr := s.s.pb.tr ++ [t] }, s.s.mem⟩
    search s.s.pb.toks t (exist s.prog s1) && search (s.s.pb.cons.map (·.1)) t (exist s.prog s1)
  | .call _ (.removeTask t) =>
    let s1 : PB.State := ⟨{ s.s.pb with tr := s.s.pb.tr.erase t }, s.s.mem⟩
    (!s.s.pb.tr.contains t || search s.s.pb.toks t (exist s.prog s1)) && search (s.s.pb.cons.map (·.1)) t (exist s.prog s1)
  | .call E .solve => match s.s.mem with
    | none => true
    | some m => m.queue.any PB.isSubEvent || handleReads s.prog E (s.s.pb.finalize E) m.queue m
  | _ => true

/-- State after an outcome, exceptions included; `none` when it is undefined -/
def left {α : Type} : Outcome PB.State α → Option PB.State
  | .ok s _ => some s
  | .throw s => some s
  | .ub => none

/-- Effect of what the program does; `none` when a destroyed task is read or an assertion fails. For `addThrows`: `ControlProblem::add`
is complete when the constructor of the constraint throws (LinearizedControlProblem.cpp, lines 28-33). -/
def State.step (s : State) (op : Op) : Option State :=
  if s.reads op then
    match op with
    | .make t => some { s with prog := t :: s.prog }
    | .copy t => some { s with prog := t :: s.prog }
    | .release t => some { s with prog := s.prog.erase t }
    | .addThrows t => (PB.notify s.s.mem ⟨.taskAddition, .task t⟩).map fun mem =>
        { s with s := ⟨{ s.s.pb with tr := s.s.pb.tr ++ [t], toks := t :: s.s.pb.toks.filter (· ≠ t), finalized := false }, mem⟩ }
    | .call E c => (left (s.s.call E c)).map fun s' => { s with s := s' }
  else none

end Verif.TL
