/-!
# Objects with an identifier, and the maps ordered by it

include/tvm/internal/ObjWithId.h, include/tvm/internal/IdProvider.h, and the maps whose keys are pointers to such objects, ordered by
the identifiers (include/tvm/utils/internal/map.h): the constraints of the tasks of a `LinearizedControlProblem`, the callback tokens of
a `ControlProblem`, the assignments of the constraints of the solvers, the counts of a `VariableCountingVector`.

Simplified: identifiers do not overflow; one thread (the counter is protected by a mutex); an object is a number, that is not
reused; a map is a binary search tree, whose shape is not specified: operations that change the content give a comb, and an operation
`shape` replaces the tree by any other one with the same content in the same order. The search is the usual one: the lower bound goes to the
right of a node whose key is less, otherwise to the left.
-/
set_option autoImplicit false

namespace Verif.IM

/-- A pointer used as a key: null or an object. -/
abbrev Key := Option Nat

/-- The tree of a `std::map`. -/
inductive Tree where
  | leaf
  | node (l : Tree) (k : Key) (v : Nat) (r : Tree)

/-- The content in order, as iterated on. -/
def Tree.toList : Tree → List (Key × Nat)
  | .leaf => []
  | .node l k v r => l.toList ++ (k, v) :: r.toList

/-- Number of entries. -/
def Tree.size : Tree → Nat
  | .leaf => 0
  | .node l _ _ r => l.size + 1 + r.size

/-- A tree with a given content. -/
def Tree.comb : List (Key × Nat) → Tree
  | [] => .leaf
  | (k, v) :: l => .node .leaf k v (.comb l)

/-- The objects and their `id_` (`none`: there is no such object, ObjWithId.h, 33), the counter (IdProvider.h, 24), a map. -/
structure St where
  objs : Nat → Option Int := fun _ => none
  next : Int := 0
  tree : Tree := .leaf

/-- `IdLess` (map.h, 12-20): `lhs && rhs && lhs->id() < rhs->id()`; `none` when an object that does not exist is read. -/
def St.less (s : St) : Key → Key → Option Bool
  | some a, some b => match s.objs a, s.objs b with
    | some i, some j => some (decide (i < j))
    | _, _ => none
  | _, _ => some false

/-- `lower_bound`: number of the entries before the place found. -/
def Tree.lower (lt : Key → Key → Option Bool) (k : Key) : Tree → Option Nat
  | .leaf => some 0
  | .node l x _ r => match lt x k with
    | none => none
    | some true => (r.lower lt k).map (l.size + 1 + ·)
    | some false => l.lower lt k

/-- `upper_bound`. -/
def Tree.upper (lt : Key → Key → Option Bool) (k : Key) : Tree → Option Nat
  | .leaf => some 0
  | .node l x _ r => match lt k x with
    | none => none
    | some true => l.upper lt k
    | some false => (r.upper lt k).map (l.size + 1 + ·)

/-- The entry equivalent to a key: the one at the lower bound, unless the key is less. The outer option is for undefined
behaviour. -/
def St.search (s : St) (k : Key) : Option (Option (Key × Nat)) :=
  match s.tree.lower s.less k with
  | none => none
  | some n => match (s.tree.toList.drop n).head? with
    | none => some none
    | some e => match s.less k e.1 with
      | none => none
      | some true => some none
      | some false => some (some e)

/-- What a call does: a new state and, for a search, the value found; or undefined behaviour. -/
inductive Out where
  | ok (s : St) (ans : Option Nat)
  | ub

/-- The calls. -/
inductive Op where
  /-- Constructor (ObjWithId.h, 29). -/
  | create (h : Nat)
  /-- Move constructor (17): `h` is made from `f`. -/
  | moveNew (h f : Nat)
  /-- Move assignment (19-24): `h = std::move(f)`. -/
  | moveAssign (h f : Nat)
  /-- Destructor. -/
  | destroy (h : Nat)
  /-- `find` (and `at`, `count`). -/
  | find (k : Key)
  /-- `map[k] = v`. -/
  | assign (k : Key) (v : Nat)
  /-- `insert({k, v})` (and `emplace`): nothing is done if there is an equivalent key. -/
  | insert (k : Key) (v : Nat)
  /-- `erase(k)`: all the entries equivalent to `k`. -/
  | erase (k : Key)
  /-- Another tree with the same content. -/
  | shape (t : Tree)

/-- The identifier of an object is changed. -/
def St.set (s : St) (h : Nat) (i : Option Int) : St := { s with objs := fun x => if x = h then i else s.objs x }

/-- The entries from the place `n` to the place `m` are replaced. -/
def St.splice (s : St) (n m : Nat) (l : List (Key × Nat)) : St :=
  { s with tree := .comb (s.tree.toList.take n ++ l ++ s.tree.toList.drop m) }

/-- A call. -/
def St.step (s : St) : Op → Out
  | .create h => match s.objs h with
    | none => .ok { s.set h (some s.next) with next := s.next + 1 } none
    | some _ => .ub
  | .moveNew h f => match s.objs h, s.objs f with
    | none, some i => .ok ((s.set h (some i)).set f (some (-1))) none
    | _, _ => .ub
  | .moveAssign h f => match s.objs h, s.objs f with
    | some _, some i => .ok ((s.set h (some i)).set f (some (-1))) none
    | _, _ => .ub
  | .destroy h => match s.objs h with
    | some _ => .ok (s.set h none) none
    | none => .ub
  | .find k => match s.search k with
    | none => .ub
    | some e => .ok s (e.map (·.2))
  | .assign k v => match s.tree.lower s.less k, s.search k with
    | some n, some none => .ok (s.splice n n [(k, v)]) none
    | some n, some (some e) => .ok (s.splice n (n + 1) [(e.1, v)]) none
    | _, _ => .ub
  | .insert k v => match s.tree.lower s.less k, s.search k with
    | some n, some none => .ok (s.splice n n [(k, v)]) none
    | some _, some (some _) => .ok s none
    | _, _ => .ub
  | .erase k => match s.tree.lower s.less k, s.tree.upper s.less k with
    | some n, some m => .ok (s.splice n m []) none
    | _, _ => .ub
  | .shape t => .ok { s with tree := t } none

end Verif.IM
