/-!
# Model of the queue of problem events (include/tvm/scheme/internal/ProblemComputationData.h,
ProblemDefinitionEvent.h)

The emitter of an event is a pointer, to a task with requirements or to a substitution. Objects of different classes
have different addresses: the emitter is the identity of a task or the identity of a substitution.
-/
set_option autoImplicit false

namespace Verif.EQ

/-- `ProblemDefinitionEvent::Type` (ProblemDefinitionEvent.h). -/
inductive EvType where
  | weightChange | anisotropicWeightChange | taskAddition | taskRemoval | substitutionAddition | substitutionRemoval
deriving DecidableEq, Repr

/-- The emitter of an event: address of a task or of a substitution. -/
inductive Emitter where
  | task (t : Nat)
  | subs (s : Nat)
deriving DecidableEq, Repr

/-- `ProblemDefinitionEvent`. -/
structure Event where
  type : EvType
  emitter : Emitter
deriving DecidableEq, Repr

/-- The loop of `addEvent` (lines 128-145) for a removal event emitted by `em`: the events kept, the flag `add` and
whether the assertion of line 136 held. -/
def scan (em : Emitter) : List Event → Bool → List Event × Bool × Bool
  | [], add => ([], add, true)
  | e :: q, add =>
    if e.emitter = em ∧ e.type ≠ .taskRemoval then
      if e.type = .taskAddition then
        let r := scan em q false
        (r.1, r.2.1, add && r.2.2)
      else scan em q add
    else
      let r := scan em q add
      (e :: r.1, r.2.1, r.2.2)

/-- `addEvent` (lines 118-151): `none` when the assertion of line 136 fails. -/
def addEvent (q : List Event) (e : Event) : Option (List Event) :=
  if e.type = .taskRemoval then
    let r := scan e.emitter q true
    if r.2.2 then some (if r.2.1 then r.1 ++ [e] else r.1) else none
  else some (q ++ [e])

/-- A sequence of calls to `addEvent`. -/
def addEvents : List Event → List Event → Option (List Event)
  | q, [] => some q
  | q, e :: l => match addEvent q e with
    | none => none
    | some q' => addEvents q' l

end Verif.EQ
