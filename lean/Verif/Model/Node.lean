import Verif.Model.Inputs
/-!
# Model of `tvm::graph::abstract::Node` and `tvm::graph::internal::AbstractNode`
(include/tvm/graph/abstract/Node.h, include/tvm/graph/abstract/Node.hpp and include/tvm/graph/internal/AbstractNode.h)

Updates and outputs are the integers their enumerations are converted to, functions are natural numbers. Maps are functions to `Option`. Calls made by different classes of a
hierarchy see different sets of enabled updates and outputs (template parameter `U`): these sets are arguments of the calls. `static_assert`s are met by any program that
compiles. The logger is not modelled.
-/
set_option autoImplicit false

namespace Verif.Nd
open Verif Inp

/-- Data members of `AbstractNode` (AbstractNode.h, lines 113-123) and of its base `Inputs` -/
structure St where
  ins : Inp.St := {}
  /-- `updates_` -/
  updates : Nat → Option Nat := fun _ => none
  /-- `outputDependencies_` -/
  outputDeps : Nat → Option (List Nat) := fun _ => none
  /-- `internalDependencies_` -/
  internalDeps : Nat → Option (List Nat) := fun _ => none
  /-- `inputDependencies_` -/
  inputDeps : Nat → Option (Nat → Option (List Nat)) := fun _ => none
  /-- `directDependencies_` -/
  directDeps : Nat → Option (Nat × Nat) := fun _ => none

/-- `registerUpdates(EnumT, void (U::*)())` (Node.hpp, lines 47-65). `enU` is `U::UpdateStaticallyEnabled`. -/
def registerUpdate (enU : Nat → Bool) (u f : Nat) (st : St) : Outcome St Unit :=
  if enU u then
    if (st.updates u).isSome then .throw st
    else .ok { st with updates := upd st.updates u (some f) } ()
  else .throw st

/-- `registerUpdates(EnumT, void (U::*)(), Args...)` (Node.hpp, lines 36-45) -/
def registerUpdates (enU : Nat → Bool) : List (Nat × Nat) → St → Outcome St Unit
  | [], st => .ok st ()
  | (u, f) :: l, st =>
    match registerUpdate enU u f st with
    | .ok st () => registerUpdates enU l st
    | .throw st => .throw st
    | .ub => .ub

/-- `addOutputDependency(EnumO, EnumU)` (Node.hpp, lines 67-90). `enO` is `U::OutputStaticallyEnabled`. -/
def addOutputDependency (enO : Nat → Bool) (o u : Nat) (st : St) : Outcome St Unit :=
  if enO o then
    if (st.directDeps o).isSome then .throw st
    else .ok { st with outputDeps := upd st.outputDeps o (some ((st.outputDeps o).getD [] ++ [u])) } ()
  else .throw st

/-- `addOutputDependency(std::initializer_list<EnumO>, EnumU)` (Node.hpp, lines 92-100) -/
def addOutputDependencies (enO : Nat → Bool) : List Nat → Nat → St → Outcome St Unit
  | [], _, st => .ok st ()
  | o :: os, u, st =>
    match addOutputDependency enO o u st with
    | .ok st () => addOutputDependencies enO os u st
    | .throw st => .throw st
    | .ub => .ub

/-- `addInternalDependency` (Node.hpp, lines 102-125) -/
def addInternalDependency (enU : Nat → Bool) (uDependent u : Nat) (st : St) : Outcome St Unit :=
  if enU uDependent then
    if enU u then
      .ok { st with internalDeps := upd st.internalDeps uDependent (some ((st.internalDeps uDependent).getD [] ++ [u])) } ()
    else .throw st
  else .throw st

/-- The private `addInputDependency(EnumU, S *, EnumO)` (Node.hpp, lines 170-194) -/
def addInputDep (u s i : Nat) (st : St) : St :=
  match st.inputDeps u with
  | some m =>
    match m s with
    | none => { st with inputDeps := upd st.inputDeps u (some (upd m s (some [i]))) }
    | some l => { st with inputDeps := upd st.inputDeps u (some (upd m s (some (Inp.insert i l)))) }
  | none => { st with inputDeps := upd st.inputDeps u (some (upd (fun _ => none) s (some [i]))) }

/-- The private `addInputDependency(EnumU, S *, EnumO, Args...)` (Node.hpp, lines 196-205) -/
def addInputDeps (u s : Nat) : List Nat → St → St
  | [], st => st
  | i :: is, st => addInputDeps u s is (addInputDep u s i st)

/-- `addInput` of the base class, for one output of a source given by shared pointer or by reference -/
def addInput (shared : Bool) (en : Nat → Bool) (s i : Nat) (st : St) : Outcome St Unit :=
  match (if shared then addShared en s [i] st.ins else addRef en s [i] st.ins) with
  | .ok ins () => .ok { st with ins := ins } ()
  | .throw ins => .throw { st with ins := ins }
  | .ub => .ub

/-- `addInputDependency(EnumU, std::shared_ptr<S>, EnumO, Args...)` and `addInputDependency(EnumU, S &, EnumO, Args...)` (Node.hpp, lines 127-168): only the first output is
added to the inputs. `en` is `isOutputEnabled` of the source. -/
def addInputDependency (shared : Bool) (enU en : Nat → Bool) (u s i : Nat) (args : List Nat) (st : St) : Outcome St Unit :=
  if enU u then
    match addInput shared en s i st with
    | .ok st () => .ok (addInputDeps u s (i :: args) st) ()
    | .throw st => .throw st
    | .ub => .ub
  else .throw st

/-- `addDirectDependency` (Node.hpp, lines 207-269) -/
def addDirectDependency (shared : Bool) (enO en : Nat → Bool) (o s i : Nat) (st : St) : Outcome St Unit :=
  if enO o then
    if (st.directDeps o).isSome then .throw st
    else if (st.outputDeps o).isSome then .throw st
    else
      match addInput shared en s i st with
      | .ok st () => .ok { st with directDeps := upd st.directDeps o (some (s, i)) } ()
      | .throw st => .throw st
      | .ub => .ub
  else .throw st

/-- `AbstractNode::update` (AbstractNode.h, lines 104-109): the function called. The assertion of line 107 is undefined behaviour in the model. -/
def update (u : Nat) (st : St) : Outcome St Nat :=
  match st.updates u with
  | some f => .ok st f
  | none => .ub

/-- The calls that change a node -/
inductive Op where
  | register (enU : Nat → Bool) (l : List (Nat × Nat))
  | output (enO : Nat → Bool) (os : List Nat) (u : Nat)
  | internal (enU : Nat → Bool) (uDependent u : Nat)
  | input (shared : Bool) (enU en : Nat → Bool) (u s i : Nat) (args : List Nat)
  | direct (shared : Bool) (enO en : Nat → Bool) (o s i : Nat)
  | inputs (op : Inp.Op)

def step (op : Op) (st : St) : Outcome St Unit :=
  match op with
  | .register enU l => registerUpdates enU l st
  | .output enO os u => addOutputDependencies enO os u st
  | .internal enU u1 u2 => addInternalDependency enU u1 u2 st
  | .input sh enU en u s i args => addInputDependency sh enU en u s i args st
  | .direct sh enO en o s i => addDirectDependency sh enO en o s i st
  | .inputs op =>
    match Inp.step op st.ins with
    | .ok ins () => .ok { st with ins := ins } ()
    | .throw ins => .throw { st with ins := ins }
    | .ub => .ub

end Verif.Nd
