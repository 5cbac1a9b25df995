import Verif.Model.EventQueue
import Mathlib.Algebra.Order.Field.Basic

/-!
# Solving requirements and how their changes are notified

Model of `include/tvm/requirements/*.h` and of the part of `src/ControlProblem.cpp` that follows the requirements of the
tasks.

Simplifications.  Weights are in a linearly ordered field (no NaN).  That an argument is given twice is an error of the
compilation (`static_assert`); here it is the result `none`.  The callbacks are those of C30: a callback registered for a
requirement runs when the requirement is changed by `value(v)` and while the token is kept in `callbackTokens_`.  The data
of one scheme is modelled: the queue of its events (without the compression of `addEvent`, see C31) and the requirements
it has read, which it reads again at each event that it handles.  A `TaskWithRequirements` is never destroyed.
-/

set_option autoImplicit false

namespace Verif.SR
open Verif.EQ

/-- `ViolationEvaluationType` (`ViolationEvaluation.h:24-32`). -/
inductive Viol where
  | l1 | l2 | linf
deriving DecidableEq

/-- `SingleSolvingRequirement` (`abstract/SingleSolvingRequirement.h:24-71`): `value_` and `default_`. -/
structure Rq (T : Type) where
  value : T
  dflt : Bool
deriving DecidableEq

section
variable {K : Type} [Field K] [LinearOrder K]

/-- `PriorityLevel(p)` (`PriorityLevel.h:24-28`); `none` is the exception. -/
def mkPrio (p : Int) : Option (Rq Int) := if p < 0 then none else some ⟨p, false⟩

/-- `Weight(alpha)` (`Weight.h:29-33`). -/
def mkWeight (a : K) : Option (Rq K) := if a < 0 then none else some ⟨a, false⟩

/-- `AnisotropicWeight(w)` (`AnisotropicWeight.h:45-50`). -/
def mkAniso (w : List K) : Option (Rq (List K)) := if w.any (fun a => decide (a < 0)) = true then none else some ⟨w, false⟩

/-- `ViolationEvaluation(t)` (`ViolationEvaluation.h:47-49`). -/
def mkViol (t : Viol) : Rq Viol := ⟨t, false⟩

/-- The members of `SolvingRequirementsBase` (`SolvingRequirements.h:48` and `:94-97`). -/
structure Reqs (K : Type) where
  prio : Rq Int
  weight : Rq K
  aniso : Rq (List K)
  viol : Rq Viol

/-- The default constructors of the members (`PriorityLevel.h:21`, `Weight.h:27`, `AnisotropicWeight.h:42`,
`ViolationEvaluation.h:43-45`). -/
def Reqs.dflt : Reqs K := ⟨⟨0, true⟩, ⟨1, true⟩, ⟨[], true⟩, ⟨.l2, true⟩⟩

/-- An argument of the constructor of `SolvingRequirements`. -/
inductive Arg (K : Type) where
  | prio (r : Rq Int)
  | weight (r : Rq K)
  | aniso (r : Rq (List K))
  | viol (r : Rq Viol)

/-- The types of the arguments. -/
inductive Kind where
  | prio | weight | aniso | viol
deriving DecidableEq

def Arg.kind {K : Type} : Arg K → Kind
  | .prio _ => .prio
  | .weight _ => .weight
  | .aniso _ => .aniso
  | .viol _ => .viol

/-- `member = m` (`SolvingRequirements.h:54` and `:62`). -/
def Reqs.put (q : Reqs K) : Arg K → Reqs K
  | .prio r => ⟨r, q.weight, q.aniso, q.viol⟩
  | .weight r => ⟨q.prio, r, q.aniso, q.viol⟩
  | .aniso r => ⟨q.prio, q.weight, r, q.viol⟩
  | .viol r => ⟨q.prio, q.weight, q.aniso, r⟩

/-- `build(m, args...)` (`SolvingRequirements.h:49-64` and `:99`). -/
def build : List (Arg K) → Reqs K → Option (Reqs K)
  | [], q => some q
  | a :: l, q => if l.any (fun b => decide (b.kind = a.kind)) = true then none else build l (q.put a)

/-- `SolvingRequirements(args...)` (`SolvingRequirements.h:81-83`). -/
def make (l : List (Arg K)) : Option (Reqs K) := build l .dflt

/-- `SolvingRequirementsWithCallbacks(req)` (`SolvingRequirements.h:114-116`). -/
def withCallbacks (q : Reqs K) : Option (Reqs K) := make [.prio q.prio, .weight q.weight, .aniso q.aniso, .viol q.viol]

/-! ## The problem -/

/-- What the program holds: the requirements of the living `TaskWithRequirements`, the tasks of the problem (`tr_`), the
keys of `callbackTokens_`, the queue of the scheme and the requirements it has read. -/
structure State (K : Type) where
  reqs : Nat → Option (Reqs K)
  tr : List Nat
  tok : Nat → Bool
  queue : List Event
  view : Nat → Option (Reqs K)

/-- Nothing. -/
def State.init : State K := ⟨fun _ => none, [], fun _ => false, [], fun _ => none⟩

/-- Replace one value of a function. -/
def upd {α : Type} (f : Nat → α) (a : Nat) (x : α) : Nat → α := fun b => if b = a then x else f b

/-- `notify` (`ControlProblem.cpp:65-71`). -/
def State.notify (s : State K) (y : EvType) (t : Nat) : State K := ⟨s.reqs, s.tr, s.tok, s.queue ++ [⟨y, .task t⟩], s.view⟩

/-- Replace the requirements of a task. -/
def State.set (s : State K) (t : Nat) (q : Reqs K) : State K := ⟨upd s.reqs t (some q), s.tr, s.tok, s.queue, s.view⟩

/-- What the scheme does with an event: the requirements are read from the task. -/
def handle (reqs view : Nat → Option (Reqs K)) (e : Event) : Nat → Option (Reqs K) :=
  match e.emitter with
  | .subs _ => view
  | .task t =>
    match e.type with
    | .taskAddition => upd view t (reqs t)
    | .taskRemoval => upd view t none
    | .weightChange =>
      match view t, reqs t with
      | some q, some r => upd view t (some ⟨q.prio, r.weight, q.aniso, q.viol⟩)
      | _, _ => view
    | .anisotropicWeightChange =>
      match view t, reqs t with
      | some q, some r => upd view t (some ⟨q.prio, q.weight, r.aniso, q.viol⟩)
      | _, _ => view
    | _ => view

/-- All the events of the queue. -/
def handleAll (reqs : Nat → Option (Reqs K)) : List Event → (Nat → Option (Reqs K)) → Nat → Option (Reqs K)
  | [], view => view
  | e :: l, view => handleAll reqs l (handle reqs view e)

/-- What a user can do.  `set...` is `value(v)` or `= v`, `put...` is the assignment of a requirement object. -/
inductive Op (K : Type) where
  | create (t : Nat) (args : List (Arg K))
  | add (t : Nat)
  | remove (t : Nat)
  | setPrio (t : Nat) (v : Int)
  | setWeight (t : Nat) (v : K)
  | setAniso (t : Nat) (v : List K)
  | setViol (t : Nat) (v : Viol)
  | put (t : Nat) (a : Arg K)
  | solve

/-- The effect of each; `none` when the task does not exist (or exists already) or when the arguments are refused.
* `create`: `ControlProblem.cpp:8-10`.
* `add`: `ControlProblem.cpp:19-25`, `:73-86`; `remove`: `:27-38`.
* `setPrio` ...: `SingleSolvingRequirement.h:34-42` and `:61-65`; nobody registers callbacks on the priority and on the
  violation evaluation.
* `put`: `SingleSolvingRequirement.h:54-59`.
* `solve`: the events are handled. -/
def step (s : State K) : Op K → Option (State K)
  | .create t args =>
    match s.reqs t with
    | some _ => none
    | none => (make args).bind fun q => (withCallbacks q).map fun q' => s.set t q'
  | .add t =>
    match s.reqs t with
    | none => none
    | some _ => some (State.notify ⟨s.reqs, s.tr ++ [t], upd s.tok t true, s.queue, s.view⟩ .taskAddition t)
  | .remove t =>
    if t ∈ s.tr then
      let s' := State.notify ⟨s.reqs, s.tr.erase t, s.tok, s.queue, s.view⟩ .taskRemoval t
      some ⟨s'.reqs, s'.tr, upd s'.tok t false, s'.queue, s'.view⟩
    else some s
  | .setPrio t v => (s.reqs t).map fun q => s.set t (q.put (.prio ⟨v, false⟩))
  | .setWeight t v => (s.reqs t).map fun q =>
      let s' := s.set t (q.put (.weight ⟨v, false⟩))
      if s.tok t = true then s'.notify .weightChange t else s'
  | .setAniso t v => (s.reqs t).map fun q =>
      let s' := s.set t (q.put (.aniso ⟨v, false⟩))
      if s.tok t = true then s'.notify .anisotropicWeightChange t else s'
  | .setViol t v => (s.reqs t).map fun q => s.set t (q.put (.viol ⟨v, false⟩))
  | .put t a => (s.reqs t).map fun q => s.set t (q.put a)
  | .solve => some ⟨s.reqs, s.tr, s.tok, [], handleAll s.reqs s.queue s.view⟩

end
end Verif.SR
