import Verif.Model.Outcome
/-!
# Model of `tvm::Space` and `tvm::Variable`
(include/tvm/Space.h, src/Space.cpp, include/tvm/Variable.h, src/Variable.cpp)

The variables of a program are a list of objects, a pointer to a variable is an index in this list. The buffers are numbered;
the memory gives the value at each place of each buffer.

Not modelled: names, the lifetime of the objects (nothing is ever destroyed), `duplicate`.
-/
set_option autoImplicit false

namespace Verif.Var
open Verif

/-! ## Spaces -/

/-- `Space::Type` (Space.h, lines 36-42) -/
inductive SType where
  | euclidean | so3 | se3 | unspecified
deriving Repr, DecidableEq

/-- Members of `Space` (Space.h, lines 108-111) -/
structure Space where
  m : Int
  r : Int
  t : Int
  type : SType
deriving Repr, DecidableEq

/-- `Space::Space(int, int, int)` (Space.cpp, lines 15-22); `none` is a failing assertion. -/
def Space.ofSizes (size rsize tsize : Int) : Option Space :=
  if size ≥ 0 ∧ rsize ≥ size ∧ tsize ≥ size then
    some ⟨size, rsize, tsize, if size = rsize ∧ size = tsize then .euclidean else .unspecified⟩
  else none

/-- `Space::Space(int)` (Space.cpp, line 11) -/
def Space.ofSize (size : Int) : Option Space := ofSizes size size size

/-- `Space::Space(int, int)` (Space.cpp, line 13) -/
def Space.ofSizes2 (size rsize : Int) : Option Space := ofSizes size rsize size

/-- `Space::Space(Type, int)` (Space.cpp, lines 24-47); `none` is the exception or a failing assertion. -/
def Space.ofType (type : SType) (size : Int) : Option Space :=
  match type with
  | .euclidean => some ⟨size, size, size, .euclidean⟩
  | .so3 => if size < 0 then some ⟨3, 4, 3, .so3⟩ else none
  | .se3 => if size < 0 then some ⟨6, 7, 6, .se3⟩ else none
  | .unspecified => none

/-- `Space::isEuclidean` (Space.cpp, line 60) -/
def Space.isEuclidean (s : Space) : Bool := decide (s.type = .euclidean)

/-- `operator<=` (Space.h, lines 94-95) -/
def Space.le (a b : Space) : Bool := decide (a.m ≤ b.m) && decide (a.r ≤ b.r) && decide (a.t ≤ b.t)

/-- `operator*` (Space.h, lines 97-105). The constructor called on line 99 asserts on sizes; its assertions hold for the
product when they hold for the factors. -/
def Space.mul (a b : Space) : Space :=
  ⟨a.m + b.m, a.r + b.r, a.t + b.t, if a.type = .euclidean ∧ b.type = .euclidean then .euclidean else .unspecified⟩

/-! ## Variables -/

/-- The sizes of a space, as used by the variables. -/
structure Sizes where
  m : Nat
  r : Nat
  t : Nat
deriving Repr, DecidableEq

/-- Product of spaces (Space.h, lines 97-105), on sizes -/
def Sizes.mul (a b : Sizes) : Sizes := ⟨a.m + b.m, a.r + b.r, a.t + b.t⟩

/-- `operator<=` (Space.h, lines 94-95), on sizes -/
def Sizes.le (a b : Sizes) : Bool := decide (a.m ≤ b.m) && decide (a.r ≤ b.r) && decide (a.t ≤ b.t)

/-- Members of `Variable` (Variable.h, lines 251-288). `value_` is the buffer `block`, from the place `off`, `size` places.
`root` is `superVariable_`, `order` is `derivativeNumber_`. -/
structure Obj where
  space : Sizes
  shift : Sizes
  block : Nat
  off : Nat
  size : Nat
  order : Nat
  prim : Option Nat
  root : Option Nat
  deriv : Option Nat
deriving Repr, DecidableEq

/-- After `derivative_` is set to point to `n` (Variable.cpp, line 35) -/
def Obj.withDeriv (o : Obj) (n : Nat) : Obj := { o with deriv := some n }

/-- All the variables and buffers. -/
structure World (V : Type) where
  objs : List Obj
  mem : Nat → Nat → V
  blocks : Nat

/-- No variable yet. -/
def World.empty {V : Type} (z : V) : World V := ⟨[], fun _ _ => z, 0⟩

variable {V : Type}

/-- Memory after `value_.setZero()` (or any constant) on a segment. -/
def fill (mem : Nat → Nat → V) (b off size : Nat) (z : V) : Nat → Nat → V :=
  fun b' k => if b' = b ∧ off ≤ k ∧ k < off + size then z else mem b' k

/-- Memory after `value_ = x` on a segment of the size of `x`. -/
def write (mem : Nat → Nat → V) (b off : Nat) (x : List V) : Nat → Nat → V :=
  fun b' k => if b' = b ∧ off ≤ k then x.getD (k - off) (mem b' k) else mem b' k

/-- `Space::createVariable` and the constructor it calls (Space.cpp, lines 49-50, Variable.cpp, lines 203-207) -/
def World.create (w : World V) (z : V) (s : Sizes) : World V × Nat :=
  (⟨w.objs ++ [⟨s, ⟨0, 0, 0⟩, w.blocks, 0, s.r, 0, none, none, none⟩], fill w.mem w.blocks 0 s.r z, w.blocks + 1⟩, w.objs.length)

/-- The derivative constructor for a variable `o` at index `i` that is not a subvariable, and the assignment of
`derivative_` (Variable.cpp, lines 209-227 and 35) -/
def World.newDeriv (w : World V) (z : V) (i : Nat) (o : Obj) : World V × Nat :=
  (⟨w.objs.set i (o.withDeriv w.objs.length) ++
      [⟨o.space, o.shift, w.blocks, 0, o.space.t, o.order + 1, some i, none, none⟩],
    fill w.mem w.blocks 0 o.space.t z, w.blocks + 1⟩, w.objs.length)

/-- The derivative constructor for a subvariable `o` at index `i`, where `d` at index `di` is `dot(var->superVariable())`
(Variable.cpp, lines 209-227 and 35) -/
def World.newSubDeriv (w : World V) (z : V) (i : Nat) (o : Obj) (di : Nat) (d : Obj) : World V × Nat :=
  (⟨w.objs.set i (o.withDeriv w.objs.length) ++
      [⟨o.space, o.shift, d.block, o.shift.t, o.space.t, o.order + 1, some i, some di, none⟩],
    fill w.mem d.block o.shift.t o.space.t z, w.blocks⟩, w.objs.length)

/-- `dot(var)` for a variable that is not a subvariable (Variable.cpp, lines 12-40) -/
def World.dotRoot (w : World V) (z : V) (i : Nat) : Option (World V × Nat) :=
  match w.objs[i]? with
  | none => none
  | some o =>
    match o.deriv with
    | some d => some (w, d)
    | none => if o.root = none then some (w.newDeriv z i o) else none

/-- One step of `dot` (Variable.cpp, lines 12-40): the derivative of the variable, created if needed. `none` stands for a case
that does not occur (an invalid index, or a super variable that is itself a subvariable). -/
def World.dot1 (w : World V) (z : V) (i : Nat) : Option (World V × Nat) :=
  match w.objs[i]? with
  | none => none
  | some o =>
    match o.deriv with
    | some d => some (w, d)
    | none =>
      match o.root with
      | none => some (w.newDeriv z i o)
      | some s =>
        match w.dotRoot z s with
        | none => none
        | some (w', di) =>
          match w'.objs[di]? with
          | none => none
          | some d => some (w'.newSubDeriv z i o di d)

/-- `dot(var, ndiff)` (Variable.cpp, lines 12-40) -/
def World.dot (w : World V) (z : V) (i : Nat) : Nat → Option (World V × Nat)
  | 0 => some (w, i)
  | n + 1 =>
    match w.dot1 z i with
    | none => none
    | some (w', d) => w'.dot z d n

/-- `Variable::superVariable` (Variable.cpp, lines 152-158) -/
def Obj.super (o : Obj) (i : Nat) : Nat := o.root.getD i

/-- `Variable::basePrimitive` (Variable.cpp, lines 130-148): follows `primitive_` `n = derivativeNumber_` times -/
def World.basePrimitive (w : World V) (i : Nat) : Nat → Option Nat
  | 0 => some i
  | n + 1 =>
    match w.objs[i]? with
    | none => none
    | some o =>
      match o.prim with
      | none => none
      | some p => w.basePrimitive p n

/-- `Variable::subvariable` (Variable.cpp, lines 229-264) -/
def World.subvariable (w : World V) (z : V) (i : Nat) (space shift : Sizes) : Outcome (World V) Nat :=
  match w.objs[i]? with
  | none => .ub
  | some o =>
    if !((space.mul shift).le o.space) then .throw w
    else
      match w.objs[o.super i]? with
      | none => .ub
      | some so =>
        match w.basePrimitive (o.super i) so.order with
        | none => .ub
        | some b =>
          match w.objs[b]? with
          | none => .ub
          | some bo =>
            let sub : Obj := ⟨space, o.shift.mul shift, bo.block, (o.shift.mul shift).r, space.r, 0, none, some b, none⟩
            match (World.mk (w.objs ++ [sub]) w.mem w.blocks).dot z w.objs.length o.order with
            | none => .ub
            | some (w', j) => .ok w' j

/-- `Variable::set(const VectorConstRef &)` (Variable.cpp, lines 86-92) -/
def World.set (w : World V) (i : Nat) (x : List V) : Outcome (World V) Unit :=
  match w.objs[i]? with
  | none => .ub
  | some o => if x.length = o.size then .ok { w with mem := write w.mem o.block o.off x } () else .throw w

/-- `Variable::set(idx, length, value)` (Variable.cpp, lines 106-116) -/
def World.setSegment (w : World V) (i : Nat) (idx length : Int) (x : List V) : Outcome (World V) Unit :=
  match w.objs[i]? with
  | none => .ub
  | some o =>
    if idx ≥ 0 ∧ idx + length ≤ o.size ∧ (x.length : Int) = length then
      .ok { w with mem := write w.mem o.block (o.off + idx.toNat) x } ()
    else .throw w

/-- `Variable::set(idx, value)` (Variable.cpp, lines 94-104) -/
def World.setAt (w : World V) (i : Nat) (idx : Int) (x : V) : Outcome (World V) Unit :=
  match w.objs[i]? with
  | none => .ub
  | some o =>
    if idx ≥ 0 ∧ idx < o.size then .ok { w with mem := write w.mem o.block (o.off + idx.toNat) [x] } ()
    else .throw w

/-- `Variable::setZero` (Variable.cpp, line 118) -/
def World.setZero (w : World V) (z : V) (i : Nat) : Outcome (World V) Unit :=
  match w.objs[i]? with
  | none => .ub
  | some o => .ok { w with mem := fill w.mem o.block o.off o.size z } ()

/-- `Variable::value` (Variable.cpp, line 84) -/
def World.value (w : World V) (i : Nat) : Option (List V) :=
  match w.objs[i]? with
  | none => none
  | some o => some ((List.range o.size).map fun k => w.mem o.block (o.off + k))

/-- `Variable::subvariableRange` (Variable.cpp, lines 164-170): start and size -/
def World.subvariableRange (w : World V) (i : Nat) : Option (Int × Int) :=
  match w.objs[i]? with
  | none => none
  | some o =>
    match o.root with
    | none => some (0, o.size)
    | some s =>
      match w.objs[s]? with
      | none => none
      | some so => some ((o.off : Int) - so.off, o.size)

/-- `Variable::tSubvariableRange` (Variable.cpp, lines 172-178) -/
def World.tSubvariableRange (w : World V) (i : Nat) : Option (Int × Int) :=
  match w.objs[i]?, w.subvariableRange i with
  | some o, some (a, n) => if o.order = 0 then some (a - ((o.shift.r : Int) - o.shift.t), o.space.t) else some (a, n)
  | _, _ => none

/-- `Variable::contains` (Variable.cpp, lines 180-181, with Range.h, lines 35-41) -/
def World.contains (w : World V) (i j : Nat) : Option Bool :=
  match w.objs[i]?, w.objs[j]?, w.subvariableRange i, w.subvariableRange j with
  | some o, some p, some (a, n), some (b, k) =>
    some (decide (o.super i = p.super j) && (decide (a ≤ b) && decide (b < a + n)) && decide (a + n ≥ b + k))
  | _, _, _, _ => none

/-- `Variable::intersects` (Variable.cpp, lines 183-184, with Range.h, lines 35 and 44) -/
def World.intersects (w : World V) (i j : Nat) : Option Bool :=
  match w.objs[i]?, w.objs[j]?, w.subvariableRange i, w.subvariableRange j with
  | some o, some p, some (a, n), some (b, k) =>
    some (decide (o.super i = p.super j) &&
      ((decide (a ≤ b) && decide (b < a + n)) || (decide (b ≤ a) && decide (a < b + k))))
  | _, _, _, _ => none

/-- `operator==` (Variable.h, lines 327-328) -/
def World.eq (w : World V) (i j : Nat) : Option Bool :=
  match w.objs[i]?, w.objs[j]? with
  | some o, some p => some (decide (o.block = p.block ∧ o.off = p.off) && decide (o.size = p.size))
  | _, _ => none

end Verif.Var
