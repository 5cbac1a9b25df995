import Verif.Model.Hierarchical
import Verif.Model.WeightedLeastSquares
/-!
# Model of a problem solved by the hierarchical scheme (src/scheme/HierarchicalLeastSquares.cpp, src/ControlProblem.cpp, src/LinearizedControlProblem.cpp, include/tvm/scheme/abstract/ResolutionScheme.h, include/tvm/scheme/internal/helpers.hpp)

The members of the problem and what a call changes in them are those of Model/WeightedLeastSquares.lean (`PB.Problem`); the events are those of Model/EventQueue.lean; the construction of the solver and the resolution are those of Model/Hierarchical.lean.

What is added here: the data of the scheme for the problem, the handling of the events, and the requirements of the tasks (priority and weights), which the user may change at any time. The assignments keep the weights and the substitutions that
were present when they were created (src/scheme/Assignment.cpp, lines 378-400): the values they write are a function `v` of these.

The parts of the program that are not modelled are the parameters in `Env`. The resolution is with one scheme and one problem.
-/
set_option autoImplicit false

namespace Verif.HE
open Verif.SE Verif.PB

/-- A task of the problem: identity, constraint, priority, weights (a number for each value of the scalar and anisotropic weights) -/
structure Item where
  task : Nat
  c : Cstr
  prio : Nat
  wgt : Nat
deriving DecidableEq, Repr

/-- What a problem is at a given time: tasks, substitutions, additional constraints -/
structure Snap where
  items : List Item
  subs : List Sub
  extra : List Cstr
deriving DecidableEq, Repr

/-- The parts of the program that are not modelled, as functions of what they depend on -/
structure Env (K : Type) where
  /-- Size, type and evaluation of the violation of the tasks -/
  size : Nat → Nat
  type : Nat → CType
  vet : Nat → SA.VET
  /-- `canBeUsedAsBound(constraint, substitutions, DOUBLE_SIDED)` -/
  asBound : List Sub → Cstr → Bool
  /-- Sizes of the additional constraints; there are none without substitutions (Substitutions.cpp, lines 71-126). -/
  extraSizes : List Sub → List Nat
  extraNil : extraSizes [] = []
  /-- Size of the unknowns, start of the variable of a bound, columns of the variables of a constraint -/
  total : Snap → Nat
  start : Snap → Cstr → Nat
  cols : Snap → Cstr → Nat → Bool
  /-- The options -/
  opts : HLS.Opts K

/-- `ProblemComputationData` with `HierarchicalLeastSquares::Memory`: queue of events, solver (`none` when it was not built), and what its assignments were created from: the tasks with their weights, and the generation of the substitutions -/
structure Mem (K : Type) where
  queue : List EQ.Event
  solver : Option (HLS.Solver K)
  src : Snap
  gen : Nat

/-- The problem, the requirements of the tasks, and the data of the scheme if any -/
structure State (K : Type) where
  pb : Problem
  prio : Nat → Nat
  wgt : Nat → Nat
  mem : Option (Mem K)

variable {K : Type} [Field K] [LinearOrder K]

/-- Type of a constraint -/
def tyOf : CType → HLS.Ty
  | .equal => .equal
  | .greaterThan => .greater
  | .lowerThan => .lower
  | .doubleSided => .both

/-- What `processProblem` (HierarchicalLeastSquares.cpp, lines 107-191) reads of the constraint of a task -/
def cstrOf (E : Env K) (sn : Snap) (i : Item) : HLS.Cstr :=
  ⟨i.c.id, i.prio, E.vet i.task, E.asBound sn.subs i.c, uses sn.subs i.c, tyOf i.c.type, i.c.size, E.start sn i.c, E.cols sn i.c⟩

/-- What it reads of an additional constraint -/
def extraOf (E : Env K) (sn : Snap) (c : Cstr) : HLS.Cstr :=
  ⟨c.id, 0, .l2, false, false, tyOf c.type, c.size, 0, E.cols sn c⟩

/-- What it reads of the problem -/
def pbOf (E : Env K) (sn : Snap) : HLS.Pb := ⟨E.total sn, sn.items.map (cstrOf E sn), sn.extra.map (extraOf E sn)⟩

/-- The tasks of a problem with the requirements -/
def itemsOf (p : Problem) (prio wgt : Nat → Nat) : List Item := p.cons.map (fun e => ⟨e.1, e.2, prio e.1, wgt e.1⟩)

/-- The problem at the present time -/
def State.snap (s : State K) : Snap := ⟨itemsOf s.pb s.prio s.wgt, s.pb.subs, s.pb.extra⟩

/-! ## The problem -/

/-- `ControlProblem::notify` (ControlProblem.cpp, lines 65-71): `none` when the assertion of `addEvent` fails -/
def note (mem : Option (Mem K)) (e : EQ.Event) : Option (Option (Mem K)) :=
  match mem with
  | none => some none
  | some m => match EQ.addEvent m.queue e with
    | none => none
    | some q => some (some { m with queue := q })

/-- `LinearizedControlProblem::add(TaskWithRequirementsPtr)` (LinearizedControlProblem.cpp, lines 26-58) -/
def State.addTask (E : Env K) (s : State K) (t : Nat) : Outcome (State K) Unit :=
  match note s.mem ⟨.taskAddition, .task t⟩ with
  | none => .ub
  | some mem =>
    .ok { s with
      pb := { s.pb with
        tr := s.pb.tr ++ [t]
        toks := t :: s.pb.toks.filter (· ≠ t)
        finalized := false
        cons := put s.pb.cons t ⟨s.pb.nextC, E.size t, E.type t⟩
        nextC := s.pb.nextC + 1 }
      mem := mem } ()

/-- `LinearizedControlProblem::remove(const Substitution &)` (LinearizedControlProblem.cpp, lines 80-85) on the stored substitution of index `i` -/
def State.removeSub (s : State K) (i : Nat) : Outcome (State K) Unit :=
  match note s.mem ⟨.substitutionRemoval, .subs i⟩ with
  | none => .ub
  | some mem => .ok { s with
      pb := { s.pb with
        subs := s.pb.subs.eraseIdx i
        finalized := false }
      mem := mem } ()

/-- `ControlProblem::remove` (ControlProblem.cpp, lines 27-38) -/
def State.removeBase (s : State K) (t : Nat) : Outcome (State K) Unit :=
  if t ∈ s.pb.tr then
    match note s.mem ⟨.taskRemoval, .task t⟩ with
    | none => .ub
    | some mem => .ok { s with
        pb := { s.pb with
          tr := s.pb.tr.erase t
          toks := s.pb.toks.filter (· ≠ t)
          finalized := false }
        mem := mem } ()
  else .ok s ()

/-- `LinearizedControlProblem::remove(const TaskWithRequirements &)` (LinearizedControlProblem.cpp, lines 60-71) with `removeSubstitutionFor` (lines 89-106) -/
def State.removeTask (s : State K) (t : Nat) : Outcome (State K) Unit :=
  match s.removeBase t with
  | .ub => .ub
  | .throw s => .throw s
  | .ok s _ =>
    match get s.pb.cons t with
    | none => .ok s ()
    | some c =>
      match findSub s.pb.subs c with
      | none => .ok { s with pb := { s.pb with cons := del s.pb.cons t } } ()
      | some i =>
        if ((s.pb.subs[i]?).map Sub.isSimple).getD false then
          match s.removeSub i with
          | .ok s _ => .ok { s with pb := { s.pb with cons := del s.pb.cons t } } ()
          | o => o
        else .throw s

/-- `LinearizedControlProblem::add(const Substitution &)` (LinearizedControlProblem.cpp, lines 73-78) -/
def State.addSub (s : State K) (x : Sub) : Outcome (State K) Unit :=
  match note s.mem ⟨.substitutionAddition, .subs s.pb.subs.length⟩ with
  | none => .ub
  | some mem => .ok { s with
      pb := { s.pb with
        subs := s.pb.subs ++ [x]
        finalized := false }
      mem := mem } ()

/-- `LinearizedControlProblem::remove(const Substitution &)` for a substitution that is not stored: nothing is removed but the event is sent. -/
def State.removeForeign (s : State K) : Outcome (State K) Unit :=
  match note s.mem ⟨.substitutionRemoval, .subs 0⟩ with
  | none => .ub
  | some mem => .ok { s with
      pb := { s.pb with finalized := false }
      mem := mem } ()

/-- Change of the scalar or of the anisotropic weight of a task: the callbacks registered by `addCallBackToTask` (ControlProblem.cpp, lines 73-86) live as long as the tokens. -/
def State.setWeight (s : State K) (t w : Nat) (scalar : Bool) : Outcome (State K) Unit :=
  let wgt := fun u => if u = t then w else s.wgt u
  if t ∈ s.pb.toks then
    match note s.mem ⟨if scalar then .weightChange else .anisotropicWeightChange, .task t⟩ with
    | none => .ub
    | some mem => .ok { s with
        wgt := wgt
        mem := mem } ()
  else .ok { s with wgt := wgt } ()

/-- Change of the priority of a task: nothing is registered for it (ControlProblem.cpp, lines 73-86). -/
def State.setPriority (s : State K) (t p : Nat) : State K := { s with prio := fun u => if u = t then p else s.prio u }

/-- `ControlProblem::finalize` (ControlProblem.cpp, lines 51-59) with `Substitutions::finalize` (Substitutions.cpp, lines 71-126) -/
def finalize (E : Env K) (p : Problem) : Problem :=
  if p.finalized then p
  else { p with
    gen := p.gen + 1
    extra := mkExtra p.nextC (E.extraSizes p.subs)
    nextC := p.nextC + (E.extraSizes p.subs).length
    finalized := true }

/-! ## The scheme -/

/-- `memory->reset(…)` if needed, and `processProblem` (HierarchicalLeastSquares.cpp, lines 92-105): the data, or the data with a solver that was not built when there is an exception -/
def build (E : Env K) (sn : Snap) (gen : Nat) : Outcome (Mem K) (Mem K) :=
  match HLS.processProblem E.opts (pbOf E sn) with
  | .ok _ sol => .ok ⟨[], some sol, sn, gen⟩ ⟨[], some sol, sn, gen⟩
  | .throw _ => .throw ⟨[], none, sn, gen⟩
  | .ub => .ub

/-- The loop of `updateComputationData_` (HierarchicalLeastSquares.cpp, lines 62-86): events left in the queue when an exception is thrown, by `addTask`, `removeTask` (lines 193-203), `constraintWithRequirements`, the default case, or, when all the
events were popped, by `process` (line 89; HierarchicalLeastSquareSolver.cpp, lines 173-174) -/
def rest (p : Problem) : List EQ.Event → List EQ.Event
  | [] => []
  | e :: q => match e.type, e.emitter with
    | .weightChange, .task t => if (get p.cons t).isSome then rest p q else q
    | .anisotropicWeightChange, .task t => if (get p.cons t).isSome then rest p q else q
    | _, _ => q

/-- `updateComputationData_` (HierarchicalLeastSquares.cpp, lines 40-90) -/
def updateData (E : Env K) (p : Problem) (sn : Snap) (m : Mem K) : Outcome (Mem K) (Mem K) :=
  if m.queue.isEmpty then .ok m m
  else if m.queue.any isSubEvent then build E sn p.gen
  else .throw { m with queue := rest p m.queue }

/-- `getComputationData` (helpers.hpp, lines 15-31) -/
def State.getData (E : Env K) (s : State K) : Outcome (State K) (Mem K) :=
  match s.mem with
  | some m => .ok s m
  | none =>
    let s : State K := { s with pb := finalize E s.pb }
    match build E s.snap s.pb.gen with
    | .ok _ m => .ok { s with mem := some m } m
    | .throw _ => .throw s
    | .ub => .ub

/-- `solve_` (HierarchicalLeastSquares.cpp, lines 25-38): the objectives handed to LexLS, if it is called, and the solver afterwards. A solver that was not built has no sizes and its members are not initialised: this is the outcome `ub`. -/
def solveWith (E : Env K) (v : Snap → Nat → Nat → HLS.Val K) (p : Problem) (m : Mem K) : Outcome Unit (Mem K × Option (List (HLS.Obj K))) :=
  if p.tr.length > p.subs.length then
    match m.solver with
    | none => .ub
    | some sol => match sol.solve E.opts (v m.src m.gen) with
      | .ok _ r => .ok () ({ m with solver := some r.1 }, some r.2)
      | .throw _ => .throw ()
      | .ub => .ub
  else .ok () (m, none)

/-- `ResolutionScheme::solve` (ResolutionScheme.h, lines 72-81) up to the call to LexLS: `v` gives the values at this time for what the assignments were created from. -/
def State.solve (E : Env K) (v : Snap → Nat → Nat → HLS.Val K) (s : State K) : Outcome (State K) (Option (List (HLS.Obj K))) :=
  match s.getData E with
  | .ub => .ub
  | .throw s => .throw s
  | .ok s m =>
    let s : State K := { s with pb := finalize E s.pb }
    match updateData E s.pb s.snap m with
    | .ub => .ub
    | .throw m => .throw { s with mem := some m }
    | .ok _ m => match solveWith E v s.pb m with
      | .ok _ r => .ok { s with mem := some r.1 } r.2
      | .throw _ => .throw { s with mem := some m }
      | .ub => .ub

end Verif.HE
