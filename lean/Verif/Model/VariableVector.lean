import Verif.Model.Outcome
import Verif.Model.Range
import Verif.Model.Variable
/-!
# Model of `tvm::VariableVector`
(include/tvm/VariableVector.h, src/VariableVector.cpp, include/tvm/internal/ObjWithId.h, and the cache of the mappings kept by the
variables, src/Variable.cpp, lines 191-201)

A program has variables (numbered objects with a fixed geometry: super variable, start and size of the range in it) and vectors
(C++ objects, numbered by handles). A vector that is moved from keeps its handle.

Not modelled: the overflow of the counters, the lifetime of the variables.
-/
set_option autoImplicit false

namespace Verif.VV
open Verif

/-- What a variable object is for a vector: its super variable and its range in it (`Variable::superVariable` and
`Variable::subvariableRange`, src/Variable.cpp, lines 152-170). Pointers to data compare like (super variable, start). -/
structure Geo where
  root : Nat
  start : Int
  size : Nat
deriving Repr, DecidableEq

/-- The range in the super variable -/
def Geo.range (g : Geo) : Range := ⟨g.start, g.size⟩

/-- `Variable::contains` (src/Variable.cpp, lines 180-181) -/
def Geo.contains (a b : Geo) : Bool := decide (a.root = b.root) && a.range.contains b.range

/-- `Variable::intersects` (src/Variable.cpp, lines 183-184) -/
def Geo.intersects (a b : Geo) : Bool := decide (a.root = b.root) && a.range.intersects b.range

/-- `operator==` (include/tvm/Variable.h, lines 327-328) -/
def Geo.eqv (a b : Geo) : Bool := decide (a.root = b.root) && decide (a.start = b.start) && decide (a.size = b.size)

/-- Members of `VariableVector` (VariableVector.h, lines 200-204) and its id (ObjWithId.h, line 33) -/
structure Vec where
  id : Int
  stamp : Int
  size : Int
  vars : List Nat
deriving Repr, DecidableEq

/-- The vectors, by handle; the caches `startIn_` of the variables (Variable.h, line 288: start and stamp for a vector id); the
counter of stamps (VariableVector.cpp, line 9); the next id (IdProvider.h, line 24). -/
structure St where
  vecs : Nat → Option Vec
  startIn : Nat → Int → Option (Int × Int)
  counter : Int
  nextId : Int

/-- No vector -/
def St.empty : St := ⟨fun _ => none, fun _ _ => none, 0, 0⟩

/-- The vector `h` replaced -/
def St.setVec (s : St) (h : Nat) (v : Option Vec) : St := { s with vecs := fun k => if k = h then v else s.vecs k }

/-- `startIn_[id]` of the variable `v` replaced -/
def St.setStart (s : St) (v : Nat) (id : Int) (x : Option (Int × Int)) : St :=
  { s with startIn := fun u i => if u = v ∧ i = id then x else s.startIn u i }

/-- `getNewStamp` (VariableVector.cpp, lines 227-231), on the vector `c` that becomes the content of `h` -/
def St.stampVec (s : St) (h : Nat) (c : Vec) : St :=
  { (s.setVec h (some { c with stamp := s.counter })) with counter := s.counter + 1 }

/-- Default constructor (VariableVector.cpp, line 11, and ObjWithId.h, line 29) -/
def St.create (s : St) (h : Nat) : St :=
  { (s.stampVec h ⟨s.nextId, 0, 0, []⟩) with nextId := s.nextId + 1 }

section
variable (geo : Nat → Geo)

/-- `VariableVector::contains` (VariableVector.cpp, lines 166-170) -/
def Vec.contains (c : Vec) (v : Nat) : Bool := c.vars.any fun x => (geo x).contains (geo v)

/-- `VariableVector::intersects` (VariableVector.cpp, lines 172-176) -/
def Vec.intersects (c : Vec) (v : Nat) : Bool := c.vars.any fun x => (geo x).intersects (geo v)

/-- `VariableVector::indexOf` (VariableVector.cpp, lines 178-189) -/
def Vec.indexOf (c : Vec) (v : Nat) : Int :=
  match c.vars.findIdx? fun x => (geo x).contains (geo v) with
  | none => -1
  | some k =>
    match c.vars[k]? with
    | none => -1
    | some x => if (geo x).eqv (geo v) then (k : Int) else -1

/-- `add_` (VariableVector.cpp, lines 208-214) -/
def St.addRaw (s : St) (h : Nat) (c : Vec) (v : Nat) : St :=
  (s.setStart v c.id (some (c.size, -1))).stampVec h { c with size := c.size + (geo v).size, vars := c.vars ++ [v] }

/-- The loop of `add` (VariableVector.cpp, lines 30-41): `some false` is the return, `none` the exception, `some true` means that
the loop ends. -/
def addLoop (v : Nat) : List Nat → Option Bool
  | [] => some true
  | x :: l => if (geo x).contains (geo v) then some false else if (geo x).intersects (geo v) then none else addLoop v l

/-- `VariableVector::add(VariablePtr)` (VariableVector.cpp, lines 24-44) -/
def St.add (s : St) (h : Nat) (v : Nat) : Outcome St Bool :=
  match s.vecs h with
  | none => .ub
  | some c =>
    if c.contains geo v then .ok s false
    else
      match addLoop geo v c.vars with
      | some false => .ok s false
      | none => .throw s
      | some true => .ok (s.addRaw geo h c v) true

/-- `VariableVector::add(const std::vector<VariablePtr> &)` (VariableVector.cpp, lines 48-52) -/
def St.addList (s : St) (h : Nat) : List Nat → Outcome St Unit
  | [] => .ok s ()
  | v :: l =>
    match s.add geo h v with
    | .ok s' _ => s'.addList h l
    | .throw s' => .throw s'
    | .ub => .ub

/-- `VariableVector::addAndGetIndex` (VariableVector.cpp, lines 56-84) -/
def St.addAndGetIndex (s : St) (h : Nat) (v : Nat) (containingIndex : Bool) : Outcome St Int :=
  match s.vecs h with
  | none => .ub
  | some c =>
    match c.vars.findIdx? fun x => (geo x).contains (geo v) || (geo x).intersects (geo v) with
    | none => .ok (s.addRaw geo h c v) c.vars.length
    | some k =>
      match c.vars[k]? with
      | none => .ub
      | some x =>
        if (geo x).eqv (geo v) then .ok s k
        else if (geo x).contains (geo v) then (if containingIndex then .ok s k else .ok s (-1))
        else .throw s

/-- The loop of `remove_` (VariableVector.cpp, lines 219-220) -/
def St.decrement (s : St) (id : Int) (si : Int) : List Nat → St
  | [] => s
  | x :: l =>
    (s.setStart x id (some (((s.startIn x id).getD (0, 0)).1 - si, ((s.startIn x id).getD (0, 0)).2))).decrement id si l

/-- `remove_` (VariableVector.cpp, lines 216-225), for the variable `v` at index `k` -/
def St.removeRaw (s : St) (h : Nat) (c : Vec) (k v : Nat) : St :=
  ((s.decrement c.id (geo v).size (c.vars.drop (k + 1))).setStart v c.id none).stampVec h
    { c with size := c.size - (geo v).size, vars := c.vars.eraseIdx k }

/-- `VariableVector::remove(const Variable &)` (VariableVector.cpp, lines 86-99) -/
def St.remove (s : St) (h : Nat) (v : Nat) : Outcome St Bool :=
  match s.vecs h with
  | none => .ub
  | some c =>
    match c.vars.findIdx? fun x => (geo x).eqv (geo v) with
    | none => .ok s false
    | some k =>
      match c.vars[k]? with
      | none => .ub
      | some x => .ok (s.removeRaw geo h c k x) true

/-- `VariableVector::remove(int)` (VariableVector.cpp, lines 101-110) -/
def St.removeAt (s : St) (h : Nat) (i : Int) : Outcome St Unit :=
  match s.vecs h with
  | none => .ub
  | some c =>
    if i < 0 ∨ i ≥ c.vars.length then .throw s
    else
      match c.vars[i.toNat]? with
      | none => .ub
      | some x => .ok (s.removeRaw geo h c i.toNat x) ()

/-- `v->startIn_.erase(id)` for all the variables of a list (VariableVector.cpp, lines 114-115) -/
def St.eraseAll (s : St) (id : Int) : List Nat → St
  | [] => s
  | x :: l => (s.setStart x id none).eraseAll id l

/-- `VariableVector::clear` (VariableVector.cpp, lines 112-119) -/
def St.clear (s : St) (h : Nat) : Outcome St Unit :=
  match s.vecs h with
  | none => .ub
  | some c => .ok ((s.eraseAll c.id c.vars).stampVec h { c with size := 0, vars := [] }) ()

/-- The destructor (VariableVector.cpp, line 22) -/
def St.destroy (s : St) (h : Nat) : Outcome St Unit :=
  match s.clear h with
  | .ok s' _ => .ok (s'.setVec h none) ()
  | .throw s' => .throw s'
  | .ub => .ub

/-- `operator=(const VariableVector &)` (VariableVector.cpp, lines 15-20). `other.variables()` is read after `clear()`. -/
def St.copyAssign (s : St) (h h' : Nat) : Outcome St Unit :=
  match s.clear h with
  | .ok s' _ =>
    match s'.vecs h' with
    | none => .ub
    | some c' => s'.addList geo h c'.vars
  | .throw s' => .throw s'
  | .ub => .ub

/-- Copy constructor (VariableVector.cpp, line 13, VariableVector.h, lines 208-217) -/
def St.copyCtor (s : St) (h h' : Nat) : Outcome St Unit :=
  match s.vecs h' with
  | none => .ub
  | some c' => (s.create h).addList geo h c'.vars

/-- What is left of a vector after a move (VariableVector.h, lines 61 and 64, ObjWithId.h, lines 17-24): the integers are copied, the
container is emptied. -/
def Vec.movedFrom (c : Vec) : Vec := { c with id := -1, vars := [] }

/-- Move constructor (VariableVector.h, line 61) and move assignment (line 64) of `h` from `h'`: the previous content of `h` is
dropped without any update of the variables. -/
def St.move (s : St) (h h' : Nat) : Outcome St Unit :=
  match s.vecs h' with
  | none => .ub
  | some c' => .ok ((s.setVec h' (some c'.movedFrom)).setVec h (some c')) ()

/-- The loop of `getMappingOf` (VariableVector.cpp, lines 193-201): the start of the mapping -/
def mappingLoop (s : St) (id : Int) (v : Nat) : List Nat → Option Int
  | [] => none
  | x :: l =>
    if (geo x).contains (geo v) then some (((s.startIn x id).getD (0, 0)).1 + ((geo v).start - (geo x).start))
    else mappingLoop s id v l

/-- `VariableVector::getMappingOf` (VariableVector.cpp, lines 191-204). The expression `xi->startIn_[id()]` of line 197 creates a null
entry when there is none; this creation is left out (there always is an entry, see the properties). -/
def St.getMappingOf (s : St) (h : Nat) (v : Nat) : Outcome St Range :=
  match s.vecs h with
  | none => .ub
  | some c =>
    match mappingLoop geo s c.id v c.vars with
    | none => .throw s
    | some start => .ok (s.setStart v c.id (some (start, c.stamp))) ⟨start, (geo v).size⟩

/-- `Variable::getMappingIn` (Variable.cpp, lines 191-201) -/
def St.getMappingIn (s : St) (v h : Nat) : Outcome St Range :=
  match s.vecs h with
  | none => .ub
  | some c =>
    match s.startIn v c.id with
    | some (start, stamp) =>
      if stamp = -1 ∨ stamp = c.stamp then .ok s ⟨start, (geo v).size⟩ else s.getMappingOf geo h v
    | none => s.getMappingOf geo h v

/-! ## Values -/

variable {V : Type}

/-- `Variable::value` (Variable.cpp, line 84) -/
def valueOf (mem : Nat → Int → V) (v : Nat) : List V :=
  (List.range (geo v).size).map fun k => mem (geo v).root ((geo v).start + (k : Nat))

/-- `Variable::set` for a vector of the right size (Variable.cpp, lines 86-92) -/
def setVar (mem : Nat → Int → V) (v : Nat) (x : List V) : Nat → Int → V :=
  fun r k => if r = (geo v).root ∧ (geo v).start ≤ k then x.getD (k - (geo v).start).toNat (mem r k) else mem r k

/-- Sum of the sizes -/
def sumSizes : List Nat → Int
  | [] => 0
  | x :: l => (geo x).size + sumSizes l

/-- `VariableVector::value` (VariableVector.cpp, lines 133-144); `none` when the segments do not fill the buffer exactly. -/
def Vec.value (c : Vec) (mem : Nat → Int → V) : Option (List V) :=
  if sumSizes geo c.vars = c.size then some (c.vars.flatMap (valueOf geo mem)) else none

/-- The loop of `set` (VariableVector.cpp, lines 150-155) on the rest of the vector -/
def setLoop (mem : Nat → Int → V) : List Nat → List V → (Nat → Int → V)
  | [], _ => mem
  | x :: l, val => setLoop (setVar geo mem x (val.take (geo x).size)) l (val.drop (geo x).size)

/-- `VariableVector::set` (VariableVector.cpp, lines 146-156); `none` is a failing assertion. -/
def Vec.set (c : Vec) (mem : Nat → Int → V) (val : List V) : Option (Nat → Int → V) :=
  if (val.length : Int) = c.size then some (setLoop geo mem c.vars val) else none

/-- `VariableVector::setZero` (VariableVector.cpp, lines 158-164) -/
def Vec.setZero (z : V) (c : Vec) (mem : Nat → Int → V) : Nat → Int → V :=
  c.vars.foldl (fun m x => setVar geo m x (List.replicate (geo x).size z)) mem

end
end Verif.VV
