import Verif.Model.Outcome
import Verif.Model.EventQueue
import Verif.Model.LeastSquareSolver
import Verif.Model.SchemeAbilities
/-!
# Model of a linearized problem solved by the weighted least-squares scheme
(src/ControlProblem.cpp, src/LinearizedControlProblem.cpp, src/hint/Substitutions.cpp, src/scheme/WeightedLeastSquares.cpp,
include/tvm/scheme/abstract/ResolutionScheme.h, include/tvm/scheme/internal/{helpers.hpp,ProblemComputationData.h,
LinearizedProblemComputationData.h})

What is modelled: the list of tasks, the map from tasks to constraints, the list of substitutions, the data rebuilt by
`Substitutions::finalize`, the queue of events, and the data of one scheme for this problem: its map from tasks to
constraints, its counted variables, the solver (rows, counters, targets: see the model of `LeastSquareSolver`) and, for
each assignment of the solver, its scalarization weight and the generation of the substitutions it was created with.

What is not: the numerical values, the call graph run by `update` (see the model of `CallGraph`), the algebra of the
substitutions. They are represented by the parameters in `Env`.

Simplifications. Failing assertions are the outcome `ub`. The maps keyed by tasks are `std::map`s ordered by identity; they
are lists in order of insertion here (no property depends on the order). Two variables are either the same or disjoint:
overlapping subvariables in `VariableCountingVector` are covered by the model of that class. Reprocessing of assignments on
changes of weight (LeastSquareSolver.cpp 311-322) is not modelled.
-/
set_option autoImplicit false

namespace Verif.PB
open Verif.SE Verif.LS

/-- What is read of a `TaskWithRequirements`: size and type of the task, priority, evaluation of the violation. -/
structure TaskInfo where
  size : Nat
  type : CType
  prio : Nat
  vet : SA.VET
deriving DecidableEq, Repr

/-- A substitution stored in the problem: its constraints and its number of variables. -/
structure Sub where
  cstrs : List Cstr
  nvars : Nat
deriving DecidableEq, Repr

/-- `Substitution::isSimple` (src/hint/Substitution.cpp): one constraint and one variable. -/
def Sub.isSimple (s : Sub) : Bool := s.cstrs.length == 1 && s.nvars == 1

/-- A variable of the solver: generation 0 for the variables of the problem, generation `g` for the additional variables
`z` created by the `g`-th call to `Substitutions::finalize` (SubstitutionUnit.cpp, 354-356). -/
structure V where
  gen : Nat
  idx : Nat
deriving DecidableEq, Repr

/-- An identity for each variable. -/
def V.code (v : V) : Nat := 2 ^ v.gen * (2 * v.idx + 1)

/-- The parts of the program that are not modelled, as functions of what they depend on. -/
structure Env where
  /-- The tasks. -/
  task : Nat → TaskInfo
  /-- `canBeUsedAsBound(constraint of the task, substitutions, DOUBLE_SIDED)`. -/
  asBound : List Sub → Nat → Bool
  /-- Variables of the problem in `substitute(x)` for the variables `x` of the constraint of the task. -/
  ys : List Sub → Nat → List Nat
  /-- Additional variables in the same. -/
  zs : List Sub → Nat → List Nat
  /-- Sizes of the additional constraints (only those of positive size are kept, Substitutions.cpp 108-114). -/
  extraSizes : List Sub → List Nat
  /-- Total size of a set of variables. -/
  total : (V → Bool) → Nat
  /-- Start of the variable of a bound in a set of variables. -/
  start : (V → Bool) → Cstr → Int
  /-- The solver created by the factory and its option. -/
  kind : Kind
  cholesky : Bool
  /-- Options of the scheme (include/tvm/scheme/WeightedLeastSquares.h, 17-28). -/
  autoDamping : Bool
  scalarizationWeight : Rat

/-- Members of `ControlProblem` and `LinearizedControlProblem`. `toks` are the keys of `callbackTokens_`, `extra` is
`additionalConstraints_` of the substitutions, `gen` the number of calls to `Substitutions::finalize`, `nextC` the identity
of the next constraint created. -/
structure Problem where
  tr : List Nat := []
  toks : List Nat := []
  cons : List (Nat × Cstr) := []
  subs : List Sub := []
  extra : List Cstr := []
  gen : Nat := 0
  nextC : Nat := 0
  finalized : Bool := false
deriving DecidableEq, Repr

/-- An assignment of the solver: constraint, scalarization weight, generation of the substitutions it refers to. -/
structure Held where
  c : Cstr
  weight : Rat
  gen : Nat
deriving DecidableEq, Repr

/-- `WeightedLeastSquares::Memory`. -/
structure Mem where
  queue : List EQ.Event := []
  map : List (Nat × Cstr) := []
  vars : List V := []
  maxp : Nat := 0
  solver : Solver
  held : List Held := []
deriving DecidableEq, Repr

/-- The problem and the data of the scheme attached to it, if any. -/
structure State where
  pb : Problem := {}
  mem : Option Mem := none
deriving DecidableEq, Repr

/-! ## Maps -/

/-- `map.find(t)`. -/
def get (l : List (Nat × Cstr)) (t : Nat) : Option Cstr := l.lookup t

/-- `map.erase(t)`. -/
def del (l : List (Nat × Cstr)) (t : Nat) : List (Nat × Cstr) := l.filter (fun e => e.1 ≠ t)

/-- `map[t] = c`. -/
def put (l : List (Nat × Cstr)) (t : Nat) (c : Cstr) : List (Nat × Cstr) := del l t ++ [(t, c)]

/-! ## The problem -/

/-- `Substitutions::uses` (Substitutions.cpp, 58-69). -/
def uses (subs : List Sub) (c : Cstr) : Bool := subs.any (fun s => s.cstrs.contains c)

/-- `Substitutions::getSubstitutionFor` (Substitutions.cpp, 189-201): index of the substitution. -/
def findSub : List Sub → Cstr → Option Nat
  | [], _ => none
  | s :: l, c => if c ∈ s.cstrs then some 0 else (findSub l c).map (· + 1)

/-- `ControlProblem::notify` (65-71) for the only scheme: `none` when the assertion of `addEvent` fails. -/
def notify (mem : Option Mem) (e : EQ.Event) : Option (Option Mem) :=
  match mem with
  | none => some none
  | some m => match EQ.addEvent m.queue e with
    | none => none
    | some q => some (some { m with queue := q })

/-- `LinearizedControlProblem::add(TaskWithRequirementsPtr)` (26-58) with `ControlProblem::add` (19-25) and
`addCallBackToTask` (73-86). -/
def State.addTask (E : Env) (s : State) (t : Nat) : Outcome State Unit :=
  match notify s.mem ⟨.taskAddition, .task t⟩ with
  | none => .ub
  | some mem =>
    let p := s.pb
    let c : Cstr := ⟨p.nextC, (E.task t).size, (E.task t).type⟩
    .ok ⟨{ p with tr := p.tr ++ [t], toks := t :: p.toks.filter (· ≠ t), finalized := false, cons := put p.cons t c,
                  nextC := p.nextC + 1 }, mem⟩ ()

/-- `ControlProblem::remove` (27-38). -/
def State.removeBase (s : State) (t : Nat) : Outcome State Unit :=
  if t ∈ s.pb.tr then
    match notify s.mem ⟨.taskRemoval, .task t⟩ with
    | none => .ub
    | some mem =>
      .ok ⟨{ s.pb with tr := s.pb.tr.erase t, toks := s.pb.toks.filter (· ≠ t), finalized := false }, mem⟩ ()
  else .ok s ()

/-- `LinearizedControlProblem::remove(const Substitution &)` (80-85) on the stored substitution of index `i`;
`Substitutions::remove` (47-55) finds it by its address. -/
def State.removeStored (s : State) (i : Nat) : Outcome State Unit :=
  match notify s.mem ⟨.substitutionRemoval, .subs i⟩ with
  | none => .ub
  | some mem => .ok ⟨{ s.pb with subs := s.pb.subs.eraseIdx i, finalized := false }, mem⟩ ()

/-- `LinearizedControlProblem::remove(const TaskWithRequirements &)` (60-71) with `removeSubstitutionFor` (89-106). -/
def State.removeTask (s : State) (t : Nat) : Outcome State Unit :=
  match s.removeBase t with
  | .ub => .ub
  | .throw s => .throw s
  | .ok s _ =>
    match get s.pb.cons t with
    | none => .ok s ()
    | some c =>
      match findSub s.pb.subs c with
      | none => .ok ⟨{ s.pb with cons := del s.pb.cons t }, s.mem⟩ ()
      | some i =>
        if ((s.pb.subs[i]?).map Sub.isSimple).getD false then
          match s.removeStored i with
          | .ok s _ => .ok ⟨{ s.pb with cons := del s.pb.cons t }, s.mem⟩ ()
          | o => o
        else .throw s

/-- `LinearizedControlProblem::add(const Substitution &)` (73-78). -/
def State.addSub (s : State) (x : Sub) : Outcome State Unit :=
  match notify s.mem ⟨.substitutionAddition, .subs s.pb.subs.length⟩ with
  | none => .ub
  | some mem => .ok ⟨{ s.pb with subs := s.pb.subs ++ [x], finalized := false }, mem⟩ ()

/-- `LinearizedControlProblem::remove(const Substitution &)` (80-85), for a substitution object of the user: its address
is not that of a stored one (`Substitutions::add` stores a copy, 29-31), so that `Substitutions::remove` returns without
doing anything (49-51). -/
def State.removeForeign (s : State) : Outcome State Unit :=
  match notify s.mem ⟨.substitutionRemoval, .subs 0⟩ with
  | none => .ub
  | some mem => .ok ⟨{ s.pb with finalized := false }, mem⟩ ()

/-- Change of the weight (`scalar`) or of the anisotropic weight of a task: the callbacks registered by
`addCallBackToTask` (79-85) live as long as the tokens. -/
def State.changeWeight (s : State) (t : Nat) (scalar : Bool) : Outcome State Unit :=
  if t ∈ s.pb.toks then
    match notify s.mem ⟨if scalar then .weightChange else .anisotropicWeightChange, .task t⟩ with
    | none => .ub
    | some mem => .ok ⟨s.pb, mem⟩ ()
  else .ok s ()

/-- Constraints created with identities from `n`. -/
def mkExtra : Nat → List Nat → List Cstr
  | _, [] => []
  | n, k :: l => ⟨n, k, .equal⟩ :: mkExtra (n + 1) l

/-- `ControlProblem::finalize` (51-59) with `Substitutions::finalize` (71-126). -/
def Problem.finalize (E : Env) (p : Problem) : Problem :=
  if p.finalized then p
  else { p with gen := p.gen + 1, extra := mkExtra p.nextC (E.extraSizes p.subs),
                nextC := p.nextC + (E.extraSizes p.subs).length, finalized := true }

/-! ## The scheme -/

/-- The variables `substitute(x)` of the constraint of task `t`. -/
def varsOf (E : Env) (p : Problem) (t : Nat) : List V :=
  (E.ys p.subs t).map (fun i => ⟨0, i⟩) ++ (E.zs p.subs t).map (fun j => ⟨p.gen, j⟩)

/-- The set of variables in a counted list. -/
def setOf (vars : List V) : V → Bool := fun v => vars.contains v

/-- Role of a constraint (not used by a substitution) in the scheme: bound, constraint or objective. -/
inductive Cat where
  | bnd | cstr | obj
deriving DecidableEq, Repr

/-- Role given by `addTask` (249-265), `removeTask` (297-312) and, for a constraint not used by a substitution, by
`processProblem` (138-158). -/
def catOf (E : Env) (p : Problem) (t : Nat) : Cat :=
  if (E.task t).prio = 0 then (if E.asBound p.subs t then .bnd else .cstr) else .obj

/-- Scalarization weight (WeightedLeastSquares.cpp, 196 and 263). -/
def weightOf (E : Env) (maxp t : Nat) : Rat := E.scalarizationWeight ^ ((maxp : Int) - ((E.task t).prio : Int))

/-- `abilities_.check(c.constraint, c.requirements)` returns. -/
def accepted (E : Env) (t : Nat) : Bool :=
  SA.wls.check (E.task t).prio ((E.task t).type == .equal) (E.task t).vet == .ok

/-- Data accumulated when scanning the constraints (`processProblem`, 121-128). `constr` and `bounds` hold the tasks. -/
structure Scan where
  vars : List V := []
  constr : List (Nat × Cstr) := []
  bounds : List Cstr := []
  nEq : Nat := 0
  nIneq : Nat := 0
  nObj : Nat := 0
  maxp : Nat := 0
deriving DecidableEq, Repr

/-- One iteration of the loop of `processProblem` (129-159): `.error` when an exception is thrown. -/
def scanOne (E : Env) (p : Problem) (a : Scan) (e : Nat × Cstr) : Except Scan Scan :=
  if uses p.subs e.2 then .ok a
  else if accepted E e.1 = false then .error a
  else
    let a := { a with vars := a.vars ++ varsOf E p e.1 }
    match catOf E p e.1 with
    | .bnd => .ok { a with bounds := a.bounds ++ [e.2] }
    | .obj =>
      if e.2.type ≠ .equal then .error a
      else .ok { a with nObj := a.nObj + e.2.size, maxp := max a.maxp (E.task e.1).prio, constr := a.constr ++ [e] }
    | .cstr =>
      if e.2.isEquality then .ok { a with nEq := a.nEq + constraintSize E.kind e.2, constr := a.constr ++ [e] }
      else .ok { a with nIneq := a.nIneq + constraintSize E.kind e.2, constr := a.constr ++ [e] }

/-- The loop of `processProblem` (129-159). -/
def scanAll (E : Env) (p : Problem) : List (Nat × Cstr) → Scan → Except Scan Scan
  | [], a => .ok a
  | e :: l, a => match scanOne E p a e with
    | .error a => .error a
    | .ok a => scanAll E p l a

/-- The addition made for a constraint of the problem (`processProblem`, 186-198). -/
def addOf (E : Env) (maxp : Nat) (e : Nat × Cstr) : Add :=
  if (E.task e.1).prio = 0 then .cstr e.2 else .obj ⟨e.2, e.1, weightOf E maxp e.1⟩

/-- The assignment made by an addition. -/
def heldOf (gen : Nat) : Add → Held
  | .cstr c => ⟨c, 1, gen⟩
  | .bnd c => ⟨c, 1, gen⟩
  | .obj o => ⟨o.c, o.scalarizationWeight, gen⟩

/-- The additions made by `processProblem` (160-167, 186-198, 204-216). -/
def addsOf (E : Env) (p : Problem) (a : Scan) : List Add :=
  a.constr.map (addOf E a.maxp) ++ p.extra.map Add.cstr ++ a.bounds.map Add.bnd

/-- Number of objective rows announced (`processProblem`, 169-174). -/
def nObjOf (E : Env) (a : Scan) : Nat :=
  if a.nObj = 0 ∧ E.autoDamping = true then E.total (setOf a.vars) else a.nObj

/-- `processProblem` (113-219) on a memory with a new solver. The outcome is `ub` if the assertions of `finalizeBuild`
fail. -/
def processProblem (E : Env) (p : Problem) (m : Mem) : Outcome Mem Unit :=
  let m := { m with map := p.cons }
  match scanAll E p p.cons {} with
  | .error a => .throw { m with vars := a.vars }
  | .ok a =>
    let solver : Solver := m.solver.build (E.total (setOf a.vars)) (nObjOf E a) (a.nEq + (p.extra.map (·.size)).sum) a.nIneq
      (!a.bounds.isEmpty) (addsOf E p a) (E.start (setOf a.vars))
    if solver.nObj = solver.objSize ∧ solver.nEq = solver.eqSize ∧ solver.nIneq = solver.ineqSize then
      .ok { m with vars := a.vars, maxp := a.maxp, solver := solver,
                   held := (addsOf E p a).map (heldOf p.gen) } ()
    else .ub

/-- A new memory (`Memory::Memory`, 316-318; `Memory::reset`, 320-325). -/
def Mem.new (E : Env) : Mem := { solver := Solver.new E.kind E.cholesky }

/-- Loop on the variables in `addTask` (239-247): calls to `addVariable`, and the resulting calls on the `SolverEvents`. -/
def addVars : List V → List V → List V × List Op
  | vars, [] => (vars, [])
  | vars, v :: l =>
    let r := addVars (v :: vars) l
    (r.1, if v ∈ vars then r.2 else .addVariable v.code :: r.2)

/-- Loop on the variables in `removeTask` (287-295). `VariableCountingVector::remove` throws for an absent variable; the
flag tells whether this arised. -/
def removeVars : List V → List V → List V × List Op × Bool
  | vars, [] => (vars, [], true)
  | vars, v :: l =>
    if v ∈ vars then
      let r := removeVars (vars.erase v) l
      (r.1, if v ∈ vars.erase v then r.2.1 else .removeVariable v.code :: r.2.1, r.2.2)
    else (vars, [], false)

/-- Event of addition for a role. -/
def addOp (E : Env) (p : Problem) (maxp t : Nat) (c : Cstr) : Op :=
  match catOf E p t with
  | .bnd => .addBound c
  | .obj => .addObjective ⟨c, t, weightOf E maxp t⟩
  | .cstr => .addConstraint c

/-- Event of removal for a role. -/
def removeOp (E : Env) (p : Problem) (t : Nat) (c : Cstr) : Op :=
  match catOf E p t with
  | .bnd => .removeBound c
  | .obj => .removeObjective c
  | .cstr => .removeConstraint c

/-- `addTask` (221-266): the memory and the calls on the `SolverEvents`. -/
def onAddTask (E : Env) (p : Problem) (m : Mem) (t : Nat) : Outcome Mem (List Op) :=
  match get p.cons t with
  | none => .ok m []
  | some c =>
    if (get m.map t).isSome then .ub
    else
      let m := { m with map := put m.map t c }
      if accepted E t = false then .throw m
      else
        let r := addVars m.vars (varsOf E p t)
        .ok { m with vars := r.1 } (r.2 ++ [addOp E p m.maxp t c])

/-- `removeTask` (268-314). -/
def onRemoveTask (E : Env) (p : Problem) (m : Mem) (t : Nat) : Outcome Mem (List Op) :=
  match get m.map t with
  | none => .ok m []
  | some c =>
    if uses p.subs c then .throw m
    else
      let r := removeVars m.vars (varsOf E p t)
      if r.2.2 then .ok { m with vars := r.1, map := del m.map t } (r.2.1 ++ [removeOp E p t c])
      else .throw { m with vars := r.1 }

/-- Change of weight in `updateComputationData_` (64-81). -/
def onWeight (E : Env) (p : Problem) (m : Mem) (t : Nat) (scalar : Bool) : Outcome Mem (List Op) :=
  match get p.cons t with
  | none => .throw m
  | some c =>
    if (E.task t).prio = 0 then .throw m
    else .ok m [if scalar then .scalarWeight c else .vectorWeight c]

/-- The `switch` of `updateComputationData_` (62-90). -/
def onEvent (E : Env) (p : Problem) (m : Mem) (e : EQ.Event) : Outcome Mem (List Op) :=
  match e.type, e.emitter with
  | .weightChange, .task t => onWeight E p m t true
  | .anisotropicWeightChange, .task t => onWeight E p m t false
  | .taskAddition, .task t => onAddTask E p m t
  | .taskRemoval, .task t => onRemoveTask E p m t
  | _, _ => .throw m

/-- The loop of `updateComputationData_` (59-91) on the content of the queue: an event is popped before it is handled. -/
def handle (E : Env) (p : Problem) : List EQ.Event → Mem → Outcome Mem (List Op)
  | [], m => .ok m []
  | e :: q, m =>
    match onEvent E p { m with queue := q } e with
    | .ub => .ub
    | .throw m => .throw m
    | .ok m ops => match handle E p q m with
      | .ok m ops' => .ok m (ops ++ ops')
      | o => o

/-- Is the event about a substitution (53)? -/
def isSubEvent (e : EQ.Event) : Bool := e.type == .substitutionAddition || e.type == .substitutionRemoval

/-- The additions of a batch (`processAddedConstraints`). -/
def addedOf (se : SolverEvents) : List Add :=
  se.addedConstraints.map Add.cstr ++ se.addedBounds.map Add.bnd ++ se.addedObjectives.map Add.obj

/-- `solver->process(se)` (94) with the assertions at its end. -/
def Mem.applyBatch (E : Env) (p : Problem) (m : Mem) (se : SolverEvents) : Outcome Mem Unit :=
  let solver : Solver := m.solver.process se (E.total (setOf m.vars)) (E.start (setOf m.vars))
  let gone := se.removedConstraints ++ se.removedBounds ++ se.removedObjectives
  if solver.nObj = solver.objSize ∧ solver.nEq = solver.eqSize ∧ solver.nIneq = solver.ineqSize then
    .ok { m with solver := solver,
                 held := m.held.filter (fun h => !gone.contains h.c) ++ (addedOf se).map (heldOf p.gen) } ()
  else .ub

/-- `updateComputationData_` (40-96) with `resetComputationData` (107-111). -/
def updateData (E : Env) (p : Problem) (m : Mem) : Outcome Mem Unit :=
  if m.queue.isEmpty then .ok m ()
  else if m.queue.any isSubEvent then processProblem E p (Mem.new E)
  else
    match handle E p m.queue m with
    | .ub => .ub
    | .throw m => .throw m
    | .ok m ops => m.applyBatch E p (run {} ops)

/-- `getComputationData` (helpers.hpp 15-31). An exception in `createComputationData` leaves no data. -/
def State.getData (E : Env) (s : State) : Outcome State Mem :=
  match s.mem with
  | some m => .ok s m
  | none =>
    let p := s.pb.finalize E
    match processProblem E p (Mem.new E) with
    | .ok m _ => .ok ⟨p, some m⟩ m
    | .throw _ => .throw ⟨p, none⟩
    | .ub => .ub

/-- `ResolutionScheme::solve` (ResolutionScheme.h 72-81) up to the resolution itself. The value returned tells whether the
solver is called (`solve_`, 28): otherwise the variables are set to zero. -/
def State.solve (E : Env) (s : State) : Outcome State Bool :=
  match s.getData E with
  | .ub => .ub
  | .throw s => .throw s
  | .ok s m =>
    let p := s.pb.finalize E
    match updateData E p m with
    | .ub => .ub
    | .throw m => .throw ⟨p, some m⟩
    | .ok m _ => .ok ⟨p, some m⟩ (decide (p.tr.length > p.subs.length))

/-- The calls of the user. -/
inductive Call where
  | addTask (t : Nat)
  | removeTask (t : Nat)
  | addSub (x : Sub)
  | removeSub (i : Nat)
  | removeForeignSub
  | changeWeight (t : Nat) (scalar : Bool)
  | update
  | solve
deriving DecidableEq, Repr

/-- Forget the value returned. -/
def drop {α : Type} : Outcome State α → Outcome State Unit
  | .ok s _ => .ok s ()
  | .throw s => .throw s
  | .ub => .ub

/-- `ControlProblem::update` and `finalize` (ControlProblem.cpp 44-59), called by the user or for another scheme: the
values that `updater_.run()` computes are not modelled here. -/
def State.update (E : Env) (s : State) : Outcome State Unit := .ok ⟨s.pb.finalize E, s.mem⟩ ()

/-- One call. -/
def State.call (E : Env) (s : State) : Call → Outcome State Unit
  | .addTask t => s.addTask E t
  | .removeTask t => s.removeTask t
  | .addSub x => s.addSub x
  | .removeSub i => if i < s.pb.subs.length then s.removeStored i else .ub
  | .removeForeignSub => s.removeForeign
  | .changeWeight t b => s.changeWeight t b
  | .update => s.update E
  | .solve => drop (s.solve E)

/-- A sequence of calls, as long as they return. -/
def State.calls (E : Env) : State → List Call → Outcome State Unit
  | s, [] => .ok s ()
  | s, c :: l => match s.call E c with
    | .ok s _ => s.calls E l
    | o => o

end Verif.PB
