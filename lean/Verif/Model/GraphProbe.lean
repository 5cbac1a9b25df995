import Verif.Model.GraphLog

/-!
# The probe of the computation graph

Model of `GraphProbe::followUp` (`src/diagnostic/GraphProbe.cpp`).

Simplifications.  The values of the outputs and the test given by the user appear only through `sel o`, which says
whether one of the values registered for `o` passes the test (`any(outputVal(o), select)`; `none` is its negation, and an
output for which nothing is registered has no value, so that `sel o` is false).  Messages and printing are left out.
-/

set_option autoImplicit false

namespace Verif.GP
open Verif.GL

/-- `ProbeNode::val` (`GraphProbe.h:43-52`). -/
inductive PV where
  | out (o : Out)
  | upd (u : Upd)
deriving DecidableEq

/-- A list of `ProbeNode`s, each with its children: first node, its children, the nodes after it. -/
inductive Forest where
  | nil
  | node (v : PV) (children rest : Forest)
deriving DecidableEq

/-- One list after the other. -/
def Forest.append : Forest → Forest → Forest
  | .nil, g => g
  | .node v c r, g => .node v c (r.append g)

/-- `GraphProbe::Processed` (`GraphProbe.h:132-140`), the keys mapped to `true`. -/
structure Proc where
  outs : List Out
  upds : List Upd

/-- The outcome of a visit: the children of the node and what has been processed, an exception, or not finished. -/
inductive PRes where
  | done (f : Forest) (p : Proc)
  | throw
  | more

/-- A loop `for(d : deps) if(sel d) node->children.push_back(followUp(find(d), select, processed));`
(`GraphProbe.cpp:251-258`). -/
def children {D : Type} (visit : PV → Proc → PRes) (sel : D → Bool) (res : D → Option PV) : List D → Proc → PRes
  | [], p => .done .nil p
  | d :: ds, p =>
    if sel d = true then
      match res d with
      | none => .throw
      | some v =>
        match visit v p with
        | .done c p1 =>
          match children visit sel res ds p1 with
          | .done r p2 => .done (.node v c r) p2
          | .throw => .throw
          | .more => .more
        | .throw => .throw
        | .more => .more
    else children visit sel res ds p

/-- Two loops in a row. -/
def andThen (x : PRes) (k : Proc → PRes) : PRes :=
  match x with
  | .done f p =>
    match k p with
    | .done g p' => .done (f.append g) p'
    | .throw => .throw
    | .more => .more
  | .throw => .throw
  | .more => .more

/-- `followUp(o, select, processed)` (`GraphProbe.cpp:231-267`) and `followUp(u, select, processed)`
(`GraphProbe.cpp:269-294`), with calls nested at most `n` deep. -/
def visit (l : Log) (all : List Out) (sel : Out → Bool) : Nat → PV → Proc → PRes
  | 0, _, _ => .more
  | n + 1, .out o, p =>
    if o ∈ p.outs ∨ sel o = false then .done .nil p
    else
      andThen (children (visit l all sel n) (fun d : DirDep => decide (d.owner = o.owner ∧ d.output = o.id))
        (fun d => (resD l all d).map .out) l.dirDeps ⟨o :: p.outs, p.upds⟩) fun p1 =>
      children (visit l all sel n) (fun d : OutDep => decide (d.owner = o.owner ∧ d.output = o.id))
        (fun d => (findUpdate l.updates d).map .upd) l.outDeps p1
  | n + 1, .upd u, p =>
    if u ∈ p.upds then .done .nil p
    else
      andThen (children (visit l all sel n) (fun d : InDep => decide (d.owner = u.owner ∧ d.update = u.id))
        (fun d => (resI l all d).map .out) l.inDeps ⟨p.outs, u :: p.upds⟩) fun p1 =>
      children (visit l all sel n) (fun d : IntDep => decide (d.owner = u.owner ∧ d.dst = u.id))
        (fun d => (findFromUpdate l.updates d).map .upd) l.intDeps p1

/-- Deep enough (see `C92_terminates`). -/
def depth (l : Log) : Nat := l.size + 1

/-- `GraphProbe::followUp(o, select)` (`GraphProbe.cpp:111-117`): the children of the root. -/
def followUp (l : Log) (sel : Out → Bool) (o : Out) : PRes :=
  visit l (allOutputs l) sel (depth l) (.out o) ⟨[], []⟩

/-- The loop over the starting points (`GraphProbe.cpp:144-150`): each one starts anew. -/
def roots (l : Log) (sel : Out → Bool) : List Out → Option Forest
  | [] => some .nil
  | o :: os =>
    if sel o = true then
      match followUp l sel o with
      | .done c _ => (roots l sel os).map fun r => .node (.out o) c r
      | .throw => none
      | .more => none
    else roots l sel os

/-- `GraphProbe::followUp(g, select)` (`GraphProbe.cpp:119-153`); `none` is an exception. -/
def followUpGraph (l : Log) (sel : Out → Bool) (g : Nat) : Option Forest :=
  match l.graphs g with
  | none => none
  | some ps =>
    match starts l ps with
    | none => none
    | some ss => roots l sel ss

end Verif.GP
