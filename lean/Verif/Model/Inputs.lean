import Verif.Model.Outcome
/-!
# Model of `tvm::graph::internal::Inputs`
(include/tvm/graph/internal/Inputs.h, include/tvm/graph/internal/Inputs.hpp and src/graph/Inputs.cpp)

Sources are natural numbers standing for their addresses, outputs are the integers their enumerations are converted to. Maps are functions to `Option`, sets of integers are
lists without duplicates whose order is irrelevant. `static_assert`s (the output is part of the class of the source) are met by any program that compiles. The logger is not
modelled.
-/
set_option autoImplicit false

namespace Verif.Inp
open Verif

/-- Data members of `Inputs` (Inputs.h, lines 80-81): `inputs_`, the outputs used for each source, and `store_`, the sources kept alive. -/
structure St where
  inputs : Nat → Option (List Nat) := fun _ => none
  store : Nat → Bool := fun _ => false

/-- Change of the value of a map for one key -/
def upd {α : Type} (m : Nat → α) (k : Nat) (v : α) : Nat → α := fun j => if j = k then v else m j

/-- `std::set<int>::insert` -/
def insert (i : Nat) (l : List Nat) : List Nat := if i ∈ l then l else i :: l

/-- `std::set<int>::erase(i)`, when the element is there -/
def erase (i : Nat) (l : List Nat) : List Nat := l.filter fun j => j ≠ i

/-- `addInput(T *, EnumI)` (Inputs.hpp, lines 66-82). `en` is `isOutputEnabled` of the source; the exceptions it throws (OutputSelector.h, lines 147-148) are not told from the one
of `check_output_enabled` (Inputs.hpp, lines 20-30). -/
def addOne (en : Nat → Bool) (s i : Nat) (st : St) : Outcome St Unit :=
  if en i then
    match st.inputs s with
    | some l => .ok { st with inputs := upd st.inputs s (some (insert i l)) } ()
    | none => .ok { st with inputs := upd st.inputs s (some [i]) } ()
  else .throw st

/-- `addInput(T &, EnumI, Args...)` (Inputs.hpp, lines 53-64), for the list of the outputs -/
def addRef (en : Nat → Bool) (s : Nat) : List Nat → St → Outcome St Unit
  | [], st => .ok st ()
  | i :: is, st =>
    match addOne en s i st with
    | .ok st () => addRef en s is st
    | .throw st => .throw st
    | .ub => .ub

/-- `addInput(std::shared_ptr<T>, EnumI, Args...)` (Inputs.hpp, lines 46-51) -/
def addShared (en : Nat → Bool) (s : Nat) (is : List Nat) (st : St) : Outcome St Unit :=
  match addRef en s is st with
  | .ok st () => .ok { st with store := upd st.store s true } ()
  | .throw st => .throw st
  | .ub => .ub

/-- The private `removeInput(Iterator, Outputs *)` (Inputs.cpp, lines 18-27) -/
def drop (s : Nat) (st : St) : St := ⟨upd st.inputs s none, if st.store s then upd st.store s false else st.store⟩

/-- `removeInput(T *)` (Inputs.hpp, lines 84-96) -/
def removeAll (s : Nat) (st : St) : Outcome St Unit :=
  match st.inputs s with
  | none => .throw st
  | some _ => .ok (drop s st) ()

/-- Insertion in an increasing list -/
def insertSorted (i : Nat) : List Nat → List Nat
  | [] => [i]
  | j :: l => if i < j then i :: j :: l else if i = j then j :: l else j :: insertSorted i l

/-- The order in which the elements of a `std::set<int>` are visited -/
def sorted : List Nat → List Nat
  | [] => []
  | i :: l => insertSorted i (sorted l)

/-- The loop of lines 111-115 of Inputs.hpp: the elements are erased until one is not there. The result tells if the loop ran to its end. -/
def eraseAll : List Nat → List Nat → List Nat × Bool
  | [], l => (l, true)
  | i :: is, l => if i ∈ l then eraseAll is (erase i l) else (l, false)

/-- `removeInput(T *, Args...)` (Inputs.hpp, lines 98-121) -/
def removeSome (s : Nat) (args : List Nat) (st : St) : Outcome St Unit :=
  match st.inputs s with
  | none => .throw st
  | some l =>
    let (l', ok) := eraseAll (sorted args) l
    let st' := { st with inputs := upd st.inputs s (some l') }
    if ok then
      if l'.length = 0 then .ok (drop s st') () else .ok st' ()
    else .throw st'

/-- `getInput` followed by the conversion of the iterator to `bool` (Inputs.hpp, lines 123-136, Inputs.cpp, line 16) -/
def getInput (s : Nat) (st : St) : Bool := (st.inputs s).isSome

/-- The calls of the public functions -/
inductive Op where
  | addRef (en : Nat → Bool) (s i : Nat) (args : List Nat)
  | addShared (en : Nat → Bool) (s i : Nat) (args : List Nat)
  | removeAll (s : Nat)
  | removeSome (s i : Nat) (args : List Nat)

def step (op : Op) (st : St) : Outcome St Unit :=
  match op with
  | .addRef en s i args => addRef en s (i :: args) st
  | .addShared en s i args => addShared en s (i :: args) st
  | .removeAll s => removeAll s st
  | .removeSome s i args => removeSome s (i :: args) st

end Verif.Inp
