import Verif.Model.Outcome
/-!
# Sources of events and their listeners

Model of `tvm::event::Source` and `tvm::event::Listener` (`include/tvm/event`, `src/event`). A listener is an address. What its `process` does to the source and to the
listeners is a list of actions; a source that notifies while it notifies is in `Verif.Model.EventNetwork`.
-/
set_option autoImplicit false

namespace Verif.Ev
open Verif

/-- What a program does to the source and the listeners -/
inductive Act where
  /-- `source.regist(user, evt)` -/
  | regist (user evt : Nat)
  /-- the last owner of the listener releases it -/
  | expire (user : Nat)

/-- `Source::registrations_` (Source.h, line 39), the listeners that exist, and what they received -/
structure St where
  reg : Nat → List Nat := fun _ => []
  alive : Nat → Bool := fun _ => true
  log : List (Nat × Nat) := []

/-- `Source::regist` (Source.cpp, line 13) -/
def St.regist (s : St) (u e : Nat) : St := { s with reg := fun k => if k = e then s.reg e ++ [u] else s.reg k }

def St.expire (s : St) (u : Nat) : St := { s with alive := fun k => if k = u then false else s.alive k }

/-- What `process` of a listener does while the registrations for `evt` are iterated on: `push_back` invalidates the end of the range that the loop compares with -/
def during (evt : Nat) : List Act → St → Outcome St Unit
  | [], s => .ok s ()
  | .regist u e :: l, s => if e = evt then .ub else during evt l (s.regist u e)
  | .expire u :: l, s => during evt l (s.expire u)

/-- The loop of `Source::notify` (Source.cpp, lines 18-19): `lock` of a listener that does not exist any more is null -/
def loop (react : Nat → Nat → List Act) (evt : Nat) : List Nat → St → Outcome St Unit
  | [], s => .ok s ()
  | u :: l, s =>
    if s.alive u then
      match during evt (react u evt) { s with log := s.log ++ [(u, evt)] } with
      | .ok s () => loop react evt l s
      | .throw s => .throw s
      | .ub => .ub
    else .ub

/-- `Source::notify` (Source.cpp, lines 15-20) -/
def St.notify (react : Nat → Nat → List Act) (s : St) (evt : Nat) : Outcome St Unit := loop react evt (s.reg evt) s

end Verif.Ev
