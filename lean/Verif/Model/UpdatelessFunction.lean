import Verif.Model.Outcome
/-!
# Model of `tvm::utils::UpdatelessFunction` (include/tvm/utils/UpdatelessFunction.h, src/utils/UpdatelessFunction.cpp)

Variables are numbers, with a size, a derivative and a value that is a list of coefficients. The variables are supposed not to share memory (no subvariable of one
another). The outputs of the wrapped function are any function of the values of the variables: the call graphs of the class (lines 20-55 of the source) compute them
from the present values (C14). `std::initializer_list` arguments are turned into vectors (`toVec`), which is the identity here. The arguments of the variadic functions
are a list that is not empty.
-/
set_option autoImplicit false

namespace Verif.ULF
open Verif

variable {K R : Type}

/-- The values of the variables -/
abbrev Store (K : Type) := Nat → List K

/-- `x->set(v)` when the sizes agree -/
def Store.put (s : Store K) (x : Nat) (v : List K) : Store K := fun y => if y = x then v else s y

/-- The wrapped function: its variables in order, the size of the variables and their derivatives -/
structure Fn where
  vars : List Nat
  size : Nat → Nat
  dot : Nat → Nat

/-- `assign(size_t i, val, value)` (source, lines 76-114) -/
def Fn.assignAt (u : Fn) (i : Nat) (v : List K) (value : Bool) (s : Store K) : Outcome (Store K) Unit :=
  match u.vars[i]? with
  | none => .throw s
  | some x =>
    if value then
      if v.length = u.size x then .ok (s.put x v) () else .throw s
    else
      if v.length = u.size (u.dot x) then .ok (s.put (u.dot x) v) () else .throw s

/-- `assign(Variable & x, val, value)` (source, lines 116-163) -/
def Fn.assignVar (u : Fn) (x : Nat) (v : List K) (value : Bool) (s : Store K) : Outcome (Store K) Unit :=
  if u.vars = [] then .throw s
  else if u.vars.contains x then
    if value then
      if v.length = u.size x then .ok (s.put x v) () else .throw s
    else
      if v.length = u.size (u.dot x) then .ok (s.put (u.dot x) v) () else .throw s
  else .throw s

/-- The loop of `assign(val)` (source, lines 180-186): `x[i]->set(val.segment(s, ni))` -/
def Fn.loop1 (u : Fn) (v : List K) : Nat → List Nat → Store K → Store K
  | _, [], s => s
  | p, x :: l, s => u.loop1 v (p + u.size x) l (s.put x ((v.drop p).take (u.size x)))

/-- `assign(val)` (source, lines 165-187); without variables `x[0]` is undefined -/
def Fn.assignAll (u : Fn) (v : List K) (s : Store K) : Outcome (Store K) Unit :=
  if u.vars = [] then .ub
  else if v.length ≠ (u.vars.map u.size).sum then .throw s
  else .ok (u.loop1 v 0 u.vars s) ()

/-- The loop of `assign(val, vel)` (source, lines 211-221) -/
def Fn.loop2 (u : Fn) (v w : List K) : Nat → Nat → List Nat → Store K → Store K
  | _, _, [], s => s
  | p, q, x :: l, s =>
    u.loop2 v w (p + u.size x) (q + u.size (u.dot x)) l
      ((s.put x ((v.drop p).take (u.size x))).put (u.dot x) ((w.drop q).take (u.size (u.dot x))))

/-- `assign(val, vel)` (source, lines 189-222) -/
def Fn.assignAll2 (u : Fn) (v w : List K) (s : Store K) : Outcome (Store K) Unit :=
  if u.vars = [] then .ub
  else if v.length ≠ (u.vars.map u.size).sum then .throw s
  else if w.length ≠ (u.vars.map (fun x => u.size (u.dot x))).sum then .throw s
  else .ok (u.loop2 v w 0 0 u.vars s) ()

/-- `parseValues_(int i, v, vals...)`: end of the recursion (source, lines 224-253) and recursion (header, lines 311-316) -/
def Fn.parse (u : Fn) : Nat → List K → List (List K) → Store K → Outcome (Store K) Unit
  | i, v, [], s =>
    if i + 1 = u.vars.length then u.assignAt i v true s
    else if i < u.vars.length then
      if i = 0 then u.assignAll v s else .throw s
    else .throw s
  | i, v, w :: l, s =>
    match u.assignAt i v true s with
    | .ok s' _ => u.parse (i + 1) w l s'
    | .throw s' => .throw s'
    | .ub => .ub

/-- `parseValues_(Variable & x, v, vals...)` (header, lines 322-327 and source, line 257) -/
def Fn.parseNamed (u : Fn) : List (Nat × List K) → Store K → Outcome (Store K) Unit
  | [], s => .ok s ()
  | a :: l, s =>
    match u.assignVar a.1 a.2 true s with
    | .ok s' _ => u.parseNamed l s'
    | .throw s' => .throw s'
    | .ub => .ub

/-- `assign(i, val, true); assign(i, vel, false);` (header, lines 359-360 and source, lines 269-270) -/
def Fn.assignPair (u : Fn) (i : Nat) (a : List K × List K) (s : Store K) : Outcome (Store K) Unit :=
  match u.assignAt i a.1 true s with
  | .ok s' _ => u.assignAt i a.2 false s'
  | .throw s' => .throw s'
  | .ub => .ub

/-- `parseValuesAndVelocities_(int i, val, vel, vals...)` (source, lines 262-295 and header, lines 353-362) -/
def Fn.parse2 (u : Fn) : Nat → List K × List K → List (List K × List K) → Store K → Outcome (Store K) Unit
  | i, a, [], s =>
    if i + 1 = u.vars.length then u.assignPair i a s
    else if i < u.vars.length then
      if i = 0 then u.assignAll2 a.1 a.2 s else .throw s
    else .throw s
  | i, a, b :: l, s =>
    match u.assignPair i a s with
    | .ok s' _ => u.parse2 (i + 1) b l s'
    | .throw s' => .throw s'
    | .ub => .ub

/-- `parseValuesAndVelocities_(Variable & x, val, vel, vals...)` (source, lines 312-318 and header, lines 385-394) -/
def Fn.parseNamed2 (u : Fn) : List (Nat × List K × List K) → Store K → Outcome (Store K) Unit
  | [], s => .ok s ()
  | a :: l, s =>
    match u.assignVar a.1 a.2.1 true s with
    | .ok s' _ =>
      match u.assignVar a.1 a.2.2 false s' with
      | .ok s'' _ => u.parseNamed2 l s''
      | .throw s'' => .throw s''
      | .ub => .ub
    | .throw s' => .throw s'
    | .ub => .ub

/-- The body of `value`, `jacobian`, `velocity`, `normalAcceleration` and `JDot` (header, lines 218-297): the output `out` of the function after the parsing `p` -/
def run (enabled : Bool) (out : Store K → R) (p : Store K → Outcome (Store K) Unit) (s : Store K) : Outcome (Store K) R :=
  if enabled then
    match p s with
    | .ok s' _ => .ok s' (out s')
    | .throw s' => .throw s'
    | .ub => .ub
  else .throw s

/-- `value(val1, val2, ...)` -/
def Fn.value (u : Fn) (enabled : Bool) (out : Store K → R) (v : List K) (l : List (List K)) (s : Store K) : Outcome (Store K) R :=
  run enabled out (u.parse 0 v l) s

/-- `value(x1, val1, x2, val2, ...)` -/
def Fn.valueNamed (u : Fn) (enabled : Bool) (out : Store K → R) (l : List (Nat × List K)) (s : Store K) : Outcome (Store K) R :=
  run enabled out (u.parseNamed l) s

/-- `velocity(val1, vel1, val2, vel2, ...)` -/
def Fn.velocity (u : Fn) (enabled : Bool) (out : Store K → R) (a : List K × List K) (l : List (List K × List K)) (s : Store K) : Outcome (Store K) R :=
  run enabled out (u.parse2 0 a l) s

/-- `velocity(x1, val1, vel1, x2, val2, vel2, ...)` -/
def Fn.velocityNamed (u : Fn) (enabled : Bool) (out : Store K → R) (l : List (Nat × List K × List K)) (s : Store K) : Outcome (Store K) R :=
  run enabled out (u.parseNamed2 l) s

end Verif.ULF
