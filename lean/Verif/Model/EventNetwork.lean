import Verif.Model.EventSource
/-!
# Sources that notify while they notify

Model of `tvm::event::Source` and `tvm::event::Listener` (`include/tvm/event`, `src/event`) for any number of sources: what `process` of a listener does can also be a notification of a source, of its own for a class that is both a listener
and a source (Source.h, lines 35-38), or of the source it listens to. `Verif.Model.EventSource` is the case of one source and listeners that do not notify.

Notifications that call each other without end exhaust the stack of the program. The depth of the stack is a parameter here; the result `none` means that it does not suffice.
-/
set_option autoImplicit false

namespace Verif.EvN
open Verif

/-- What a program does to the sources and the listeners -/
inductive Act where
  /-- `source.regist(user, evt)` -/
  | regist (src user evt : Nat)
  /-- the last owner of the listener releases it -/
  | expire (user : Nat)
  /-- `source.notify(evt)` -/
  | notify (src evt : Nat)

/-- `registrations_` of each source (Source.h, line 39), the listeners that have an owner, and what they received, from which source -/
structure Net where
  reg : Nat → Nat → List Nat := fun _ _ => []
  alive : Nat → Bool := fun _ => true
  log : List (Nat × Nat × Nat) := []

/-- `Source::regist` (Source.cpp, line 13) -/
def Net.regist (s : Net) (src u e : Nat) : Net := { s with reg := fun a k => if a = src ∧ k = e then s.reg src e ++ [u] else s.reg a k }

def Net.expire (s : Net) (u : Nat) : Net := { s with alive := fun k => if k = u then false else s.alive k }

/-- The listener receives the event (Listener.cpp, line 11). -/
def Net.receive (s : Net) (u src e : Nat) : Net := { s with log := s.log ++ [(u, src, e)] }

/-- What `process` of a listener does. `active` are the vectors of registrations that are iterated on, in this call of `notify` and in those that led to it: `push_back` invalidates the end of the range that their loops compare with.
`nested` is `notify`. -/
def acts (nested : Nat → Nat → Net → Option (Outcome Net Unit)) (active : List (Nat × Nat)) : List Act → Net → Option (Outcome Net Unit)
  | [], s => some (.ok s ())
  | .regist src u e :: l, s => if active.contains (src, e) then some .ub else acts nested active l (s.regist src u e)
  | .expire u :: l, s => acts nested active l (s.expire u)
  | .notify src e :: l, s =>
    match nested src e s with
    | some (.ok s ()) => acts nested active l s
    | r => r

/-- The loop of `Source::notify` (Source.cpp, lines 18-19). `lock` of a listener that does not exist any more is null; a listener that has no owner any more exists as long as one of its calls of `process` is not finished (`busy`), since
the pointer given by `lock` is destroyed after it. -/
def loop (nested : List Nat → Nat → Nat → Net → Option (Outcome Net Unit)) (react : Nat → Nat → Nat → List Act) (active : List (Nat × Nat)) (busy : List Nat) (src e : Nat) : List Nat → Net → Option (Outcome Net Unit)
  | [], s => some (.ok s ())
  | u :: l, s =>
    if s.alive u || busy.contains u then
      match acts (nested (u :: busy)) active (react u src e) (s.receive u src e) with
      | some (.ok s ()) => loop nested react active busy src e l s
      | r => r
    else some .ub

/-- `Source::notify` (Source.cpp, lines 15-20), called from the calls given by `active` and `busy`, with a stack for `depth` calls. `react u src e` is what the listener `u` does when it receives the event `e` of the source `src`. -/
def notify (react : Nat → Nat → Nat → List Act) : Nat → List (Nat × Nat) → List Nat → Nat → Nat → Net → Option (Outcome Net Unit)
  | 0, _, _, _, _, _ => none
  | depth + 1, active, busy, src, e, s =>
    loop (fun busy src' e' s => notify react depth ((src, e) :: active) busy src' e' s) react ((src, e) :: active) busy src e (s.reg src e) s

/-- A notification by a program that is not processing an event -/
def Net.notify (s : Net) (react : Nat → Nat → Nat → List Act) (depth src e : Nat) : Option (Outcome Net Unit) := EvN.notify react depth [] [] src e s

end Verif.EvN
