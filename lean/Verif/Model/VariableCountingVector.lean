import Verif.Model.RangeCounting
/-!
# Model of `tvm::internal::VariableCountingVector`
(include/tvm/internal/VariableCountingVector.h and src/internal/VariableCountingVector.cpp)

Variables are described by what the class reads of them: the root (super) variable, the shift and the space
(three sizes each: manifold, representation, tangent).

Simplification: `variables_` is the list of the variables given to `VariableVector::add`; that this `add` accepts
each of them follows from their being disjoint (see the model of `VariableVector`).
-/
set_option autoImplicit false

namespace Verif.VCV
open Verif Verif.RC

/-- The three sizes of `tvm::Space` (include/tvm/Space.h, lines 108-110). -/
structure Sizes where
  m : Int
  r : Int
  t : Int
deriving Repr, DecidableEq

/-- What is read of a super variable: `id()` (the key order of `count_`, include/tvm/utils/internal/map.h,
lines 11-19), `space()` and `isBasePrimitive()`. -/
structure Root where
  id : Nat
  space : Sizes
  basePrimitive : Bool
deriving Repr, DecidableEq

/-- `Variable::size()` (src/Variable.cpp, line 76): the size of the buffer, `rSize` for a base primitive (line 205),
`tSize` for a derivative (line 213). -/
def Root.size (v : Root) : Int := if v.basePrimitive then v.space.r else v.space.t

/-- What is read of a variable: `superVariable()`, `spaceShift()` and `space()`. -/
structure Var where
  root : Root
  start : Sizes
  dim : Sizes
deriving Repr, DecidableEq

/-- `VariableCountingVector::SpaceRangeCounting` (VariableCountingVector.h, lines 74-84) together with the counter
that it is paired with in `count_` (line 88). -/
structure Entry where
  m : RC.State := {}
  r : RC.State := {}
  t : RC.State := {}
  counter : Nat := 0
deriving Repr, DecidableEq

/-- An element of `variables_`: either the root variable itself or a new subvariable with given space and shift. -/
inductive Item where
  | whole (v : Root)
  | sub (v : Root) (dim start : Sizes)
deriving Repr, DecidableEq

/-- The part of the root variable that an element stands for. -/
def Item.var : Item → Var
  | .whole v => ⟨v, ⟨0, 0, 0⟩, v.space⟩
  | .sub v d s => ⟨v, s, d⟩

/-- Members of `VariableCountingVector` (VariableCountingVector.h, lines 88-92). `count_` is an ordered map: the list
of its elements by increasing key. -/
structure State where
  count : List (Root × Entry) := []
  split : Bool := false
  upToDate : Bool := false
  variables : List Item := []
  simple : List Bool := []
deriving Repr, DecidableEq

/-- `SpaceRangeCounting::add` (VariableCountingVector.cpp, lines 141-146) and lines 18-20 of `add`. -/
def Entry.add (e : Entry) (v : Var) : Outcome Entry Bool :=
  match e.r.add ⟨v.start.r, v.dim.r⟩ with
  | .ub => .ub
  | .throw r => .throw { e with r := r }
  | .ok r _ =>
    match e.t.add ⟨v.start.t, v.dim.t⟩ with
    | .ub => .ub
    | .throw t => .throw { e with r := r, t := t }
    | .ok t _ =>
      match e.m.add ⟨v.start.m, v.dim.m⟩ with
      | .ub => .ub
      | .throw m => .throw { e with r := r, t := t, m := m }
      | .ok m change => .ok ⟨m, r, t, if change then e.counter + 1 else e.counter⟩ change

/-- `SpaceRangeCounting::remove` (VariableCountingVector.cpp, lines 148-153) and lines 37-50 of `remove`. -/
def Entry.remove (e : Entry) (v : Var) : Outcome Entry Bool :=
  match e.r.remove ⟨v.start.r, v.dim.r⟩ with
  | .ub => .ub
  | .throw r => .throw { e with r := r }
  | .ok r _ =>
    match e.t.remove ⟨v.start.t, v.dim.t⟩ with
    | .ub => .ub
    | .throw t => .throw { e with r := r, t := t }
    | .ok t _ =>
      match e.m.remove ⟨v.start.m, v.dim.m⟩ with
      | .ub => .ub
      | .throw m => .throw { e with r := r, t := t, m := m }
      | .ok m change =>
        .ok ⟨m, r, t, if change then (if m.empty then 0 else e.counter + 10) else e.counter⟩ change

/-- `count_.find` by the id of the key. -/
def find (id : Nat) : List (Root × Entry) → Option Entry
  | [] => none
  | (v, e) :: l => if v.id = id then some e else find id l

/-- Write the value of the key `v` in the ordered map, inserting the key if needed. -/
def put (v : Root) (e : Entry) : List (Root × Entry) → List (Root × Entry)
  | [] => [(v, e)]
  | (w, x) :: l =>
    if v.id < w.id then (v, e) :: (w, x) :: l
    else if v.id = w.id then (w, e) :: l
    else (w, x) :: put v e l

/-- `VariableCountingVector::add(VariablePtr)` (VariableCountingVector.cpp, lines 11-23). -/
def State.add (s : State) (v : Var) : Outcome State Bool :=
  match ((find v.root.id s.count).getD {}).add v with
  | .ub => .ub
  | .throw e => .throw { s with count := put v.root e s.count }
  | .ok e change =>
    .ok { s with count := put v.root e s.count, upToDate := s.upToDate && !change } change

/-- `VariableCountingVector::remove(const Variable &)` (VariableCountingVector.cpp, lines 31-53). `count_.at` throws
if the key is absent (line 36). -/
def State.remove (s : State) (v : Var) : Outcome State Bool :=
  match find v.root.id s.count with
  | none => .throw s
  | some e =>
    match e.remove v with
    | .ub => .ub
    | .throw e => .throw { s with count := put v.root e s.count }
    | .ok e change =>
      .ok { s with count := put v.root e s.count, upToDate := s.upToDate && !change } change

/-- `VariableCountingVector::clear` (VariableCountingVector.cpp, lines 61-65). -/
def State.clear (s : State) : State := { s with upToDate := false, count := [] }

/-- The subvariables built from the ranges (VariableCountingVector.cpp, lines 127-134). -/
def subs (v : Root) : List Range → List Range → List Range → List Item
  | a :: ms, b :: rs, c :: ts =>
    .sub v ⟨a.dim, b.dim, c.dim⟩ ⟨a.start, b.start, c.start⟩ :: subs v ms rs ts
  | _, _, _ => []

/-- Elements of `variables_` for one key (VariableCountingVector.cpp, lines 108-135). `none` is a failing assertion
(lines 108 and 121). -/
def itemsOf (v : Root) (ms rs ts : List Range) : Option (List Item) :=
  if ms.length = rs.length ∧ ms.length = ts.length then
    match ms, rs, ts with
    | [a], [b], [c] =>
      if (v.basePrimitive = true ∧ b.dim = v.size) ∨ (v.basePrimitive = false ∧ c.dim = v.size) then
        if a.start = 0 then some [.whole v] else none
      else some (subs v ms rs ts)
    | _, _, _ => some (subs v ms rs ts)
  else none

/-- The loop of `VariableCountingVector::update` (VariableCountingVector.cpp, lines 103-137): new content of the map
(lazily evaluated members of the counters), `variables_`, `simple_`. -/
def updateLoop (split : Bool) : List (Root × Entry) → Option (List (Root × Entry) × List Item × List Bool)
  | [] => some ([], [], [])
  | (v, e) :: l =>
    let m := e.m.ranges split
    let r := e.r.ranges split
    let t := e.t.ranges split
    match itemsOf v m.2 r.2 t.2, updateLoop split l with
    | some items, some (l', vs, ss) =>
      some ((v, { e with m := m.1, r := r.1, t := t.1 }) :: l', items ++ vs,
        items.map (fun _ => decide (e.counter = m.2.length)) ++ ss)
    | _, _ => none

/-- `VariableCountingVector::update` (VariableCountingVector.cpp, lines 97-140). -/
def State.update (s : State) : Option State :=
  if s.upToDate then some s
  else
    match updateLoop s.split s.count with
    | none => none
    | some (c, vs, ss) => some { s with count := c, variables := vs, simple := ss, upToDate := true }

/-- `VariableCountingVector::variables` (VariableCountingVector.cpp, lines 73-77). -/
def State.getVariables (s : State) : Outcome State (List Item) :=
  match s.update with
  | none => .ub
  | some s' => .ok s' s'.variables

/-- `VariableCountingVector::simple` (VariableCountingVector.cpp, lines 79-85). -/
def State.getSimple (s : State) : Outcome State (List Bool) :=
  if s.split then .throw s
  else
    match s.update with
    | none => .ub
    | some s' => .ok s' s'.simple

/-- `VariableCountingVector::isDisjointUnion` (VariableCountingVector.cpp, lines 87-95). -/
def State.isDisjointUnion (s : State) : Bool := s.count.all (fun p => !decide (p.2.m.maxCount > 1))

end Verif.VCV
