import Verif.Model.WeightedLeastSquares
/-!
# Several schemes on one problem

Model of `ControlProblem::computationData_` (include/tvm/ControlProblem.h, line 121), which holds the data of each scheme that
was used with the problem, under the id of the scheme; of `getComputationData` (include/tvm/scheme/internal/helpers.hpp, lines
14-31), of the notification of all the data (src/ControlProblem.cpp, lines 65-71) and of the ids (include/tvm/internal/ObjWithId.h
and IdProvider.h). The schemes are `WeightedLeastSquares`, which cannot be copied nor moved (WeightedLeastSquares.h, lines
108-111), each with its own solver and options. The rest is as in the model of one scheme.
-/
set_option autoImplicit false

namespace Verif.PB

/-- What a scheme is built with: the solver of the factory, its option and the options of the scheme
(WeightedLeastSquares.h, lines 17-28 and 71-77). -/
structure Opt where
  kind : LS.Kind
  cholesky : Bool
  autoDamping : Bool
  scalarizationWeight : Rat

/-- The same program for a scheme built with `o`. -/
def Env.with (E : Env) (o : Opt) : Env :=
  { E with kind := o.kind, cholesky := o.cholesky, autoDamping := o.autoDamping, scalarizationWeight := o.scalarizationWeight }

/-- The problem; `computationData_`; the schemes, with their ids, in order of construction; the next id (IdProvider.h,
line 22). -/
structure World where
  pb : Problem := {}
  data : List (Nat × Mem) := []
  schemes : List (Nat × Opt) := []
  next : Nat := 0

/-- `ControlProblem::notify` (ControlProblem.cpp, lines 65-71): `none` when the assertion of `addEvent` fails. -/
def notifyAll : List (Nat × Mem) → EQ.Event → Option (List (Nat × Mem))
  | [], _ => some []
  | (k, m) :: l, e =>
    match EQ.addEvent m.queue e with
    | none => none
    | some q => (notifyAll l e).map ((k, { m with queue := q }) :: ·)

/-- `LinearizedControlProblem::add(TaskWithRequirementsPtr)`: see `State.addTask`. -/
def World.addTask (E : Env) (s : World) (t : Nat) : Outcome World Unit :=
  match notifyAll s.data ⟨.taskAddition, .task t⟩ with
  | none => .ub
  | some d =>
    let p := s.pb
    let c : SE.Cstr := ⟨p.nextC, (E.task t).size, (E.task t).type⟩
    .ok { s with pb := { p with tr := p.tr ++ [t], toks := t :: p.toks.filter (· ≠ t), finalized := false, cons := put p.cons t c,
                                nextC := p.nextC + 1 }, data := d } ()

/-- `ControlProblem::remove` (ControlProblem.cpp, lines 27-38). -/
def World.removeBase (s : World) (t : Nat) : Outcome World Unit :=
  if t ∈ s.pb.tr then
    match notifyAll s.data ⟨.taskRemoval, .task t⟩ with
    | none => .ub
    | some d => .ok { s with pb := { s.pb with tr := s.pb.tr.erase t, toks := s.pb.toks.filter (· ≠ t), finalized := false }, data := d } ()
  else .ok s ()

/-- `LinearizedControlProblem::remove(const Substitution &)`: see `State.removeStored`. -/
def World.removeStored (s : World) (i : Nat) : Outcome World Unit :=
  match notifyAll s.data ⟨.substitutionRemoval, .subs i⟩ with
  | none => .ub
  | some d => .ok { s with pb := { s.pb with subs := s.pb.subs.eraseIdx i, finalized := false }, data := d } ()

/-- `LinearizedControlProblem::remove(const TaskWithRequirements &)`: see `State.removeTask`. -/
def World.removeTask (s : World) (t : Nat) : Outcome World Unit :=
  match s.removeBase t with
  | .ub => .ub
  | .throw s => .throw s
  | .ok s _ =>
    match get s.pb.cons t with
    | none => .ok s ()
    | some c =>
      match findSub s.pb.subs c with
      | none => .ok { s with pb := { s.pb with cons := del s.pb.cons t } } ()
      | some i =>
        if ((s.pb.subs[i]?).map Sub.isSimple).getD false then
          match s.removeStored i with
          | .ok s _ => .ok { s with pb := { s.pb with cons := del s.pb.cons t } } ()
          | o => o
        else .throw s

/-- `LinearizedControlProblem::add(const Substitution &)`: see `State.addSub`. -/
def World.addSub (s : World) (x : Sub) : Outcome World Unit :=
  match notifyAll s.data ⟨.substitutionAddition, .subs s.pb.subs.length⟩ with
  | none => .ub
  | some d => .ok { s with pb := { s.pb with subs := s.pb.subs ++ [x], finalized := false }, data := d } ()

/-- Removal of a substitution that is not a stored one: see `State.removeForeign`. -/
def World.removeForeign (s : World) : Outcome World Unit :=
  match notifyAll s.data ⟨.substitutionRemoval, .subs 0⟩ with
  | none => .ub
  | some d => .ok { s with pb := { s.pb with finalized := false }, data := d } ()

/-- Change of a weight: see `State.changeWeight`. -/
def World.changeWeight (s : World) (t : Nat) (scalar : Bool) : Outcome World Unit :=
  if t ∈ s.pb.toks then
    match notifyAll s.data ⟨if scalar then .weightChange else .anisotropicWeightChange, .task t⟩ with
    | none => .ub
    | some d => .ok { s with data := d } ()
  else .ok s ()

/-- `ControlProblem::update`: see `State.update`. -/
def World.update (E : Env) (s : World) : Outcome World Unit := .ok { s with pb := s.pb.finalize E } ()

/-- Construction of a scheme (ObjWithId.h, line 29; IdProvider.h, lines 27-31). -/
def World.make (s : World) (o : Opt) : World := { s with schemes := s.schemes ++ [(s.next, o)], next := s.next + 1 }

/-- Construction of another object that has an id. -/
def World.makeOther (s : World) : World := { s with next := s.next + 1 }

/-- `getComputationData` (helpers.hpp, lines 14-31) for the scheme of id `k`. -/
def World.getData (E : Env) (s : World) (k : Nat) : Outcome World Mem :=
  match s.data.lookup k with
  | some m => .ok s m
  | none =>
    let p := s.pb.finalize E
    match processProblem E p (Mem.new E) with
    | .ok m _ => .ok { s with pb := p, data := s.data ++ [(k, m)] } m
    | .throw _ => .throw { s with pb := p }
    | .ub => .ub

/-- What is written through the pointer to the data of the scheme of id `k`. -/
def write (l : List (Nat × Mem)) (k : Nat) (m : Mem) : List (Nat × Mem) := l.map fun e => if e.1 = k then (k, m) else e

/-- `ResolutionScheme::solve` (ResolutionScheme.h, lines 72-81) for the scheme number `h`: see `State.solve`. -/
def World.solve (E : Env) (s : World) (h : Nat) : Outcome World Bool :=
  match s.schemes[h]? with
  | none => .ub
  | some (k, o) =>
    match s.getData (E.with o) k with
    | .ub => .ub
    | .throw s => .throw s
    | .ok s m =>
      let p := s.pb.finalize E
      match updateData (E.with o) p m with
      | .ub => .ub
      | .throw m => .throw { s with pb := p, data := write s.data k m }
      | .ok m _ => .ok { s with pb := p, data := write s.data k m } (decide (p.tr.length > p.subs.length))

/-- The calls of the user. -/
inductive WCall where
  | addTask (t : Nat)
  | removeTask (t : Nat)
  | addSub (x : Sub)
  | removeSub (i : Nat)
  | removeForeignSub
  | changeWeight (t : Nat) (scalar : Bool)
  | update
  | make (o : Opt)
  | makeOther
  | solve (h : Nat)

/-- Forget the value returned. -/
def dropW {α : Type} : Outcome World α → Outcome World Unit
  | .ok s _ => .ok s ()
  | .throw s => .throw s
  | .ub => .ub

/-- One call. -/
def World.call (E : Env) (s : World) : WCall → Outcome World Unit
  | .addTask t => s.addTask E t
  | .removeTask t => s.removeTask t
  | .addSub x => s.addSub x
  | .removeSub i => if i < s.pb.subs.length then s.removeStored i else .ub
  | .removeForeignSub => s.removeForeign
  | .changeWeight t b => s.changeWeight t b
  | .update => s.update E
  | .make o => .ok (s.make o) ()
  | .makeOther => .ok s.makeOther ()
  | .solve h => dropW (s.solve E h)

end Verif.PB
