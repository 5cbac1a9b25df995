import Verif.Model.VariableCountingVector
/-!
# Model of `tvm::internal::VariableVectorPartition` (include/tvm/internal/VariableVectorPartition.h)

The container `var_` is a list of variables, the partition the list of the elements of
`VariableCountingVector::variables()`. Accessing an element out of a list, or violating an assertion, is `ub`.
-/
set_option autoImplicit false

namespace Verif.VVP
open Verif Verif.VCV

/-- `Variable::subvariableRange` (src/Variable.cpp, lines 164-170): the shift between the buffers and the size of the
buffer, in the representation space for a base primitive (line 205) and in the tangent space for a derivative
(line 213). -/
def subRange (v : Var) : Range :=
  if v.root.basePrimitive then ⟨v.start.r, v.dim.r⟩ else ⟨v.start.t, v.dim.t⟩

/-- `Variable::contains` (src/Variable.cpp, lines 180-181) -/
def contains (v x : Var) : Bool := decide (v.root = x.root) && (subRange v).contains (subRange x)

/-- `VariableVectorPartition::iterator` (lines 126-127): `ip_` and `iv_`. -/
structure It where
  ip : Nat
  iv : Nat
deriving Repr, DecidableEq

/-- The loops that look for the first element contained in `v` (lines 80-84 and 108-112), from the element number
`ip` on, whose elements are `p`. -/
def search (v : Var) : List Item → Nat → Option Nat
  | [], _ => none
  | x :: p, ip => if contains v x.var then some ip else search v p (ip + 1)

/-- Constructor of `iterator` (lines 71-87). Without element number `iv` in the container, `var[iv]` (line 79) is
undefined. -/
def mkIt (vs : List Var) (p : List Item) (iv : Nat) : Outcome Unit It :=
  if iv = p.length then .ok () ⟨iv, iv⟩
  else match vs[iv]? with
    | none => .ub
    | some v => match search v p 0 with
      | some ip => .ok () ⟨ip, iv⟩
      | none => .throw ()

/-- `begin` (line 132) -/
def begin_ (vs : List Var) (p : List Item) : Outcome Unit It := mkIt vs p 0

/-- `end` (line 133) -/
def end_ (vs : List Var) (p : List Item) : Outcome Unit It := mkIt vs p p.length

/-- `operator==` (lines 117-121): only the positions in the partition are compared. -/
def It.eq (a b : It) : Bool := decide (a.ip = b.ip)

/-- `operator*` (line 123) -/
def deref (p : List Item) (it : It) : Outcome Unit Item :=
  match p[it.ip]? with
  | none => .ub
  | some x => .ok () x

/-- Second part of `operator++` (lines 100-113): the variable number `iv` is finished. -/
def nextVar (vs : List Var) (p : List Item) (it : It) : Outcome Unit It :=
  if it.iv + 1 = vs.length then .ok () ⟨p.length, it.iv + 1⟩
  else match vs[it.iv + 1]? with
    | none => .ub
    | some v => match search v p 0 with
      | some ip => .ok () ⟨ip, it.iv + 1⟩
      | none => .throw ()

/-- `operator++` (lines 89-115). The assertion is on lines 98-99. -/
def next (vs : List Var) (p : List Item) (it : It) : Outcome Unit It :=
  match vs[it.iv]?, p[it.ip]? with
  | some v, some x =>
    match p[it.ip + 1]? with
    | some y => if contains v y.var then .ok () ⟨it.ip + 1, it.iv⟩
      else if (subRange x.var).stop = (subRange v).stop then nextVar vs p it else .ub
    | none => if (subRange x.var).stop = (subRange v).stop then nextVar vs p it else .ub
  | _, _ => .ub

/-- The elements visited by `for(auto it = from; it != stop; ++it)` within `n` steps. `none`: the loop is not finished. -/
def visit (vs : List Var) (p : List Item) (stop : It) : Nat → It → Option (Outcome Unit (List Item))
  | 0, it => if it.eq stop then some (.ok () []) else none
  | n + 1, it =>
    if it.eq stop then some (.ok () [])
    else match deref p it with
      | .ok _ x => match next vs p it with
        | .ok _ it' => match visit vs p stop n it' with
          | some (.ok _ l) => some (.ok () (x :: l))
          | r => r
        | .throw _ => some (.throw ())
        | .ub => some .ub
      | .throw _ => some (.throw ())
      | .ub => some .ub

/-- `for(const auto & x : VariableVectorPartition(vs, p))`, within `n` steps (the range-based loop calls `begin` and
`end` once). -/
def run (vs : List Var) (p : List Item) (n : Nat) : Option (Outcome Unit (List Item)) :=
  match begin_ vs p with
  | .throw _ => some (.throw ())
  | .ub => some .ub
  | .ok _ it => match end_ vs p with
    | .throw _ => some (.throw ())
    | .ub => some .ub
    | .ok _ stop => visit vs p stop n it

end Verif.VVP
