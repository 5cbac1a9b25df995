import Verif.Model.CallGraph
import Verif.Model.Node
/-!
# Model of the pointers of the computation graph to its nodes
(include/tvm/graph/internal/Inputs.h and Inputs.hpp, include/tvm/graph/internal/AbstractNode.h, include/tvm/graph/CallGraph.h,
src/graph/CallGraph.cpp, include/tvm/ControlProblem.h lines 76-97 and 148-160, src/ControlProblem.cpp lines 88-101)

A source exists as long as a shared pointer refers to it. Such pointers are in the program, in `store_` of the inputs of the updater of a
problem, and, for the nodes that exist, in their `store_` (Inputs.h, line 81) and in their other data members, as `f_` in
`LinearizedTaskConstraint` or `JointsSelector`. The keys of `inputs_` (Inputs.h, line 80), the sources in `inputDependencies_` and
`directDependencies_` (AbstractNode.h, lines 119-123) and the nodes of the plan (CallGraph.h, lines 39-44) are raw pointers, which keep
nothing.

A source is designated by its address. The program may create a source at any address that is free.

Simplifications. There is one updater, whose `inputs_` lives as long as it. All the sources are nodes: a source that is not one is a node
without dependencies. Nodes that keep each other alive by a cycle of pointers are counted as destroyed when nothing else refers to them;
in the code they stay.
-/
set_option autoImplicit false

namespace Verif.NL
open Verif

/-- The sources, their other data members, the pointers of the program, one element for each, and the updater: `inputs_`, the nodes of the
plan in `updateGraph_`, and `upToDate_` (ControlProblem.h, lines 94-96). -/
structure World where
  node : Nat → Nd.St := fun _ => {}
  member : Nat → List Nat := fun _ => []
  prog : List Nat := []
  root : Inp.St := {}
  plan : List Nat := []
  upToDate : Bool := false

/-- The source exists. -/
inductive World.Exists (w : World) : Nat → Prop where
  | prog (n : Nat) : n ∈ w.prog → w.Exists n
  | root (n : Nat) : w.root.store n = true → w.Exists n
  | store (m n : Nat) : w.Exists m → (w.node m).ins.store n = true → w.Exists n
  | member (m n : Nat) : w.Exists m → n ∈ w.member m → w.Exists n

/-- What a program does. `make` creates a source, `copy` makes a pointer, `release` drops one, `hold` and `drop` do it for the data members
of a node. `declare` calls a function of a node, in general in its constructor. `addInput`, `removeInput` and `refresh` are the functions
of the updater. For `refresh`, `net` describes the nodes, and `reqs` the content of `inputs_`. -/
inductive Op where
  | make (n : Nat)
  | copy (n : Nat)
  | release (n : Nat)
  | hold (n s : Nat)
  | drop (n s : Nat)
  | declare (n : Nat) (op : Nd.Op)
  | addInput (en : Nat → Bool) (s i : Nat) (args : List Nat)
  | removeInput (s : Nat)
  | refresh (net : CG.Net) (f : Nat) (reqs : List (Nat × Nat))

/-- The source given to a function of `Inputs` -/
def inpSource : Inp.Op → Nat
  | .addRef _ s _ _ => s
  | .addShared _ s _ _ => s
  | .removeAll s => s
  | .removeSome s _ _ => s

/-- The source given to a function of a node -/
def ndSource : Nd.Op → Option Nat
  | .input _ _ _ _ s _ _ => some s
  | .direct _ _ _ _ s _ => some s
  | .inputs op => some (inpSource op)
  | _ => none

/-- `net` describes the nodes: the dependencies in `net` are those in the maps of the nodes (AbstractNode.h, lines 116-123). -/
structure World.Agrees (w : World) (net : CG.Net) : Prop where
  direct : ∀ n o s i, net.directDeps n o = some (s, i) → (w.node n).directDeps o = some (s, i)
  input : ∀ n u s os, (s, os) ∈ net.inputDeps n u → ∃ m, (w.node n).inputDeps u = some m ∧ m s = some os

/-- The program can do this: it creates sources at free addresses, and refers to sources that exist. -/
def World.Can (w : World) : Op → Prop
  | .make n => ¬ w.Exists n
  | .copy n => w.Exists n
  | .release n => n ∈ w.prog
  | .hold n s => w.Exists n ∧ w.Exists s
  | .drop n s => w.Exists n ∧ s ∈ w.member n
  | .declare n op => w.Exists n ∧ ∀ s, ndSource op = some s → w.Exists s
  | .addInput _ s _ _ => w.Exists s
  | .removeInput s => w.Exists s
  | .refresh net _ reqs => w.Agrees net ∧ ∀ p ∈ reqs, ∃ l, w.root.inputs p.1 = some l ∧ p.2 ∈ l

/-- State after an outcome, exceptions included -/
def left {σ α : Type} : Outcome σ α → Option σ
  | .ok s _ => some s
  | .throw s => some s
  | .ub => none

/-- `Updater::addInput` (ControlProblem.h, lines 148-153): `upToDate_` is not reset when an exception is thrown. -/
def World.addInput (w : World) (en : Nat → Bool) (s i : Nat) (args : List Nat) : Option World :=
  match Inp.addShared en s (i :: args) w.root with
  | .ok r () => some { w with root := r, upToDate := false }
  | .throw r => some { w with root := r }
  | .ub => none

/-- `Updater::removeInput` (ControlProblem.h, lines 155-160) -/
def World.removeInput (w : World) (s : Nat) : Option World :=
  match Inp.removeAll s w.root with
  | .ok r () => some { w with root := r, upToDate := false }
  | .throw r => some { w with root := r }
  | .ub => none

/-- `Updater::refresh` (ControlProblem.cpp, lines 90-99). The plan is empty when its computation throws. -/
def World.refresh (w : World) (net : CG.Net) (f : Nat) (reqs : List (Nat × Nat)) : Option World :=
  if w.upToDate then some w
  else
    match CG.addInputs net f reqs (CG.clear {}) with
    | .error _ => none
    | .ok st =>
      match CG.update st with
      | .ok st () => some { w with plan := st.plan.map (·.1), upToDate := true }
      | .throw st => some { w with plan := st.plan.map (·.1) }
      | .ub => none

/-- Effect of what the program does. `Updater::run` changes nothing here: it calls the nodes of the plan (ControlProblem.cpp, line 101). -/
def World.step (w : World) : Op → Option World
  | .make n => some { w with node := Inp.upd w.node n {}, member := Inp.upd w.member n [], prog := n :: w.prog }
  | .copy n => some { w with prog := n :: w.prog }
  | .release n => some { w with prog := w.prog.erase n }
  | .hold n s => some { w with member := Inp.upd w.member n (s :: w.member n) }
  | .drop n s => some { w with member := Inp.upd w.member n ((w.member n).erase s) }
  | .declare n op => (left (Nd.step op (w.node n))).map fun st => { w with node := Inp.upd w.node n st }
  | .addInput en s i args => w.addInput en s i args
  | .removeInput s => w.removeInput s
  | .refresh net f reqs => w.refresh net f reqs

end Verif.NL
