import Verif.Model.Variable
/-!
# Model of the pointers to variables
(`VariablePtr`, that is `std::shared_ptr<Variable>`; include/tvm/Variable.h and src/Variable.cpp)

A pointer has a control block, which says what the pointer keeps alive, and a target. Two kinds of objects have a control block: the variables made by
`Space::createVariable` and the subvariables made by `std::make_shared` (Variable.cpp, lines 248 and 251), both base primitives. A derivative belongs to its primitive
(member `derivative_`, Variable.h, line 282). The control block is designated by the index of its object. The objects are those of `Var.World`, where nothing is removed: an
object is destroyed when `alive` is false.

Simplification: the variables returned by `createVariable` are in a `unique_ptr`; here they are in a `VariablePtr` at once.
-/
set_option autoImplicit false

namespace Verif.Own
open Verif Verif.Var
variable {V : Type}

/-- `std::shared_ptr<Variable>`: the object of the control block and the object it points to -/
structure Ptr where
  owner : Nat
  target : Nat
deriving Repr, DecidableEq

/-- The variables and the pointers that the program has -/
structure State (V : Type) where
  w : World V
  ptrs : List Ptr

/-- The base primitive of a variable (Variable.cpp, lines 130-148), as an object -/
def base (w : World V) (i : Nat) : Option Nat :=
  match w.objs[i]? with
  | none => none
  | some o => w.basePrimitive i o.order

/-- The pointer `p` keeps alive the object `b` that has a control block: it has the control block of `b`, or that of a subvariable the member `superVariable_` of which is a
pointer with the control block of `b` (Variable.h, line 279) -/
def keeps (w : World V) (p : Ptr) (b : Nat) : Bool :=
  decide (p.owner = b) ||
    match w.objs[p.owner]? with
    | none => false
    | some o => decide (o.root = some b)

/-- The object exists still: its base primitive is kept alive, and it belongs to it -/
def State.alive (S : State V) (i : Nat) : Bool :=
  match base S.w i with
  | none => false
  | some b => S.ptrs.any fun p => keeps S.w p b

/-- `Variable::shared_from_this` (Variable.cpp, lines 273-290). A super variable is not a subvariable, so that the calls on it use the control block of its own base primitive. -/
def sharedFromThis (w : World V) (i : Nat) : Option Ptr :=
  match w.objs[i]? with
  | none => none
  | some o =>
    if o.order = 0 then
      match o.root with
      | some s => some ⟨s, i⟩
      | none => some ⟨i, i⟩
    else
      match o.root with
      | some s => (base w s).map fun b => ⟨b, i⟩
      | none => (base w i).map fun b => ⟨b, i⟩

/-- `Variable::basePrimitive` (Variable.cpp, lines 130-148), as a pointer -/
def basePrimitivePtr (w : World V) (i : Nat) : Option Ptr := (base w i).bind (sharedFromThis w)

/-- `Variable::superVariable` (Variable.cpp, lines 152-158), as a pointer -/
def superVariablePtr (w : World V) (i : Nat) : Option Ptr :=
  match w.objs[i]? with
  | none => none
  | some o =>
    match o.root with
    | some s => sharedFromThis w s
    | none => sharedFromThis w i

/-- `Variable::primitiveNoCheck<n + 1>` (Variable.h, lines 305-319) -/
def primitivePtr (w : World V) (i : Nat) : Nat → Option Ptr
  | 0 =>
    match w.objs[i]? with
    | none => none
    | some o =>
      match o.prim with
      | none => none
      | some q => if o.order > 1 then (basePrimitivePtr w i).map fun p => ⟨p.owner, q⟩ else sharedFromThis w q
  | n + 1 =>
    match w.objs[i]? with
    | none => none
    | some o =>
      match o.prim with
      | none => none
      | some q => primitivePtr w q n

/-- Calls of a program. A pointer is designated by its rank among the pointers the program has. `dot k n` is `dot(p, n + 1)` and `primitive k n` is `p->primitive<n + 1>()`. -/
inductive Op where
  | create (s : Sizes)
  | dot (k n : Nat)
  | subvariable (k : Nat) (space shift : Sizes)
  | superVariable (k : Nat)
  | basePrimitive (k : Nat)
  | primitive (k n : Nat)
  | copy (k : Nat)
  | drop (k : Nat)

/-- The program gets one more pointer -/
def State.push (S : State V) (p : Option Ptr) : Outcome (State V) Unit :=
  match p with
  | none => .ub
  | some p => .ok { S with ptrs := S.ptrs ++ [p] } ()

/-- `dot(var, n)` (Variable.cpp, lines 12-40): the pointer that is returned has the control block of the argument (lines 28 and 38) -/
def State.dot (S : State V) (z : V) (p : Ptr) (n : Nat) : Outcome (State V) Unit :=
  match S.w.dot z p.target n with
  | none => .ub
  | some (w, d) => .ok ⟨w, S.ptrs ++ [⟨p.owner, d⟩]⟩ ()

/-- `Variable::subvariable` (Variable.cpp, lines 229-259): the new object has a control block, which the pointer that is returned has, derivatives included (line 257) -/
def State.subvariable (S : State V) (z : V) (p : Ptr) (space shift : Sizes) : Outcome (State V) Unit :=
  match S.w.subvariable z p.target space shift with
  | .ub => .ub
  | .throw w => .throw { S with w := w }
  | .ok w j => .ok ⟨w, S.ptrs ++ [⟨S.w.objs.length, j⟩]⟩ ()

/-- `p->f(...)` for the pointer of rank `k`: undefined if the object does not exist any more. Without such a pointer there is no call. -/
def State.through (S : State V) (k : Nat) (f : Ptr → Outcome (State V) Unit) : Outcome (State V) Unit :=
  match S.ptrs[k]? with
  | none => .ok S ()
  | some p => if S.alive p.target then f p else .ub

/-- Effect of a call. `primitive<n>` throws when the order of derivation is less than `n` (Variable.h, lines 296-303). -/
def State.run (S : State V) (z : V) : Op → Outcome (State V) Unit
  | .create s => .ok ⟨(S.w.create z s).1, S.ptrs ++ [⟨(S.w.create z s).2, (S.w.create z s).2⟩]⟩ ()
  | .dot k n => S.through k fun p => S.dot z p (n + 1)
  | .subvariable k space shift => S.through k fun p => S.subvariable z p space shift
  | .superVariable k => S.through k fun p => S.push (superVariablePtr S.w p.target)
  | .basePrimitive k => S.through k fun p => S.push (basePrimitivePtr S.w p.target)
  | .primitive k n => S.through k fun p =>
      match S.w.objs[p.target]? with
      | none => .ub
      | some o => if n + 1 ≤ o.order then S.push (primitivePtr S.w p.target n) else .throw S
  | .copy k =>
    match S.ptrs[k]? with
    | none => .ok S ()
    | some p => .ok { S with ptrs := S.ptrs ++ [p] } ()
  | .drop k => .ok { S with ptrs := S.ptrs.eraseIdx k } ()

end Verif.Own
