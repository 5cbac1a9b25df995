import Verif.Model.VariableCountingVector
/-!
# Model of the pointers of `tvm::internal::VariableCountingVector` to the variables
(include/tvm/internal/VariableCountingVector.h and src/internal/VariableCountingVector.cpp)

The keys of `count_` are raw pointers to super variables, which do not keep them alive (VariableCountingVector.h, line 88). The elements of `variables_` are shared pointers (line 91). The comparison
of keys reads the identifiers in the variables (include/tvm/utils/internal/map.h, lines 11-19).

A super variable is designated by its identifier. `fam` gives, for each one, the variable the control block of which its pointers have (its base primitive): the pointers to a derivative keep the base
primitive and conversely (see the model of the pointers to variables).

Simplification: a search in `count_` reads all the keys. It reads in fact those on a path from the root of the tree, among which the root: all of them when there is one key.
-/
set_option autoImplicit false

namespace Verif.CL
open Verif Verif.RC Verif.VCV

/-- The counting vector, and the super variables to which the rest of the program has pointers (one element for each pointer; a pointer to a subvariable counts for its super variable) -/
structure State where
  vcv : VCV.State
  users : List Nat

/-- Calls of the program. `hold` makes a copy of a pointer, `release` drops one. -/
inductive Op where
  | hold (id : Nat)
  | release (id : Nat)
  | add (v : Var)
  | remove (v : Var)
  | clear
  | variables

/-- Kept alive by the pointers of the rest of the program -/
def State.heldByUsers (fam : Nat → Nat) (s : State) (id : Nat) : Bool := s.users.any fun u => fam u == fam id

/-- Kept alive by `variables_`. A subvariable keeps its super variable. -/
def State.heldByVector (fam : Nat → Nat) (s : State) (id : Nat) : Bool := s.vcv.variables.any fun x => fam x.var.root.id == fam id

/-- The keys of `count_` -/
def State.keys (s : State) : List Nat := s.vcv.count.map (·.1.id)

/-- The variables that a call reads through `count_` or through its argument (VariableCountingVector.cpp, lines 13-17, 33-36 and 97-140), with whether they exist then. `variables_.clear()` (line 101)
comes before the loop: at that time `variables_` keeps nothing. -/
def State.reads (fam : Nat → Nat) (s : State) : Op → List (Nat × Bool)
  | .hold id => [(id, s.heldByUsers fam id || s.heldByVector fam id)]
  | .release _ => []
  | .add v => (v.root.id :: s.keys).map fun id => (id, s.heldByUsers fam id || s.heldByVector fam id)
  | .remove v => (v.root.id :: s.keys).map fun id => (id, s.heldByUsers fam id || s.heldByVector fam id)
  | .clear => []
  | .variables =>
    if s.vcv.upToDate then []
    else (s.vcv.count.filter fun p => !(p.2.m.ranges s.vcv.split).2.isEmpty).map fun p => (p.1.id, s.heldByUsers fam p.1.id)

/-- State after an outcome; `none` when it is undefined -/
def left {α : Type} : Outcome VCV.State α → Option VCV.State
  | .ok s _ => some s
  | .throw s => some s
  | .ub => none

/-- Effect of a call, exceptions included -/
def State.step (s : State) : Op → Option State
  | .hold id => some { s with users := id :: s.users }
  | .release id => some { s with users := s.users.erase id }
  | .add v => (left (s.vcv.add v)).map fun c => { s with vcv := c }
  | .remove v => (left (s.vcv.remove v)).map fun c => { s with vcv := c }
  | .clear => some { s with vcv := s.vcv.clear }
  | .variables => (left s.vcv.getVariables).map fun c => { s with vcv := c }

end Verif.CL
