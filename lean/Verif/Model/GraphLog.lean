/-!
# The log of the computation graph

Model of `src/graph/Log.cpp`, `include/tvm/graph/internal/Log.h`, `include/tvm/graph/internal/Logger.h` and
`src/graph/Logger.cpp`, with the places where nodes, inputs and call graphs write to the log
(`include/tvm/graph/abstract/Node.hpp`, `include/tvm/graph/internal/Inputs.hpp`, `src/graph/CallGraph.cpp`).

Simplifications.
* An address is a natural number.  The address of the `Inputs` part of a node is taken to be the address of the node:
  in `include/tvm/graph/internal/AbstractNode.h:36` it is the first base.
* The names and the types of the logged objects are left out: no comparison of `Log.h:85-183` looks at them.
* A loop that throws is `none`: its partial results are local variables and are lost.
* The checks of `Node.hpp` on disabled outputs or updates come before any change and any log: a call they refuse is not
  in the history.
-/

set_option autoImplicit false

namespace Verif.GL

/-- `Log::EnumValue` (`Log.h:59-70`): the type of an enumeration and a value; both are compared. -/
structure EnumVal where
  ty : Nat
  val : Int
deriving DecidableEq, Repr

/-- `Log::Update` (`Log.h:90-100`). -/
structure Upd where
  id : EnumVal
  fn : Nat
  owner : Nat
deriving DecidableEq, Repr

/-- `Log::Output` (`Log.h:103-110`). -/
structure Out where
  id : EnumVal
  owner : Nat
deriving DecidableEq, Repr

/-- `Log::Input` (`Log.h:113-122`). -/
structure Inp where
  id : EnumVal
  source : Nat
  owner : Nat
deriving DecidableEq, Repr

/-- `Log::InputDependency` (`Log.h:125-141`). -/
structure InDep where
  input : EnumVal
  update : EnumVal
  source : Nat
  owner : Nat
deriving DecidableEq, Repr

/-- `Log::OutputDependency` (`Log.h:144-153`). -/
structure OutDep where
  update : EnumVal
  output : EnumVal
  owner : Nat
deriving DecidableEq, Repr

/-- `Log::InternalDependency` (`Log.h:156-165`): `from` is `src`, `to` is `dst`. -/
structure IntDep where
  src : EnumVal
  dst : EnumVal
  owner : Nat
deriving DecidableEq, Repr

/-- `Log::DirectDependency` (`Log.h:168-184`). -/
structure DirDep where
  input : EnumVal
  output : EnumVal
  source : Nat
  owner : Nat
deriving DecidableEq, Repr

/-- The raw logs (`Log.h:211-222`); `graphs` is `graphOutputs_`, `none` when the graph has no entry. -/
structure Log where
  updates : List Upd
  inputs : List Inp
  outputs : List Out
  inDeps : List InDep
  outDeps : List OutDep
  intDeps : List IntDep
  dirDeps : List DirDep
  graphs : Nat → Option (List Nat)

/-! ## Searching the log -/

/-- `findInput` for an input dependency (`Log.cpp:131-142`): the first match, or throw. -/
def findInputI (s : List Inp) (d : InDep) : Option Inp :=
  s.find? fun i => decide (i.owner = d.owner ∧ i.id = d.input ∧ i.source = d.source)

/-- `findInput` for a direct dependency (`Log.cpp:145-156`). -/
def findInputD (s : List Inp) (d : DirDep) : Option Inp :=
  s.find? fun i => decide (i.owner = d.owner ∧ i.id = d.input ∧ i.source = d.source)

/-- `findUpdate` for an output dependency (`Log.cpp:172-183`). -/
def findUpdate (s : List Upd) (d : OutDep) : Option Upd :=
  s.find? fun u => decide (u.owner = d.owner ∧ u.id = d.update)

/-- `findFromUpdate` (`Log.cpp:186-197`). -/
def findFromUpdate (s : List Upd) (d : IntDep) : Option Upd :=
  s.find? fun u => decide (u.owner = d.owner ∧ u.id = d.src)

/-- `findOutput` for an input (`Log.cpp:239-249`). -/
def findOutput (v : List Out) (i : Inp) : Option Out :=
  v.find? fun o => decide (o.owner = i.source ∧ o.id = i.id)

/-! ## `Log::followUpDependency` -/

/-- A loop `for(d : deps) if(sel d) stack.push_back(find(d));` as in `Log.cpp:631-637`; the head of the list is the back
of the vector. -/
def pushAll {D V : Type} (sel : D → Bool) (res : D → Option V) : List D → List V → Option (List V)
  | [], st => some st
  | d :: ds, st =>
    if sel d = true then
      match res d with
      | none => none
      | some v => pushAll sel res ds (v :: st)
    else pushAll sel res ds st

/-- The output an input or direct dependency leads to: `findOutput(allOutputs, findInput(inputs_, d))`
(`Log.cpp:642-643`). -/
def resD (l : Log) (all : List Out) (d : DirDep) : Option Out :=
  (findInputD l.inputs d).bind (findOutput all)

/-- Same for an input dependency (`Log.cpp:661-662`). -/
def resI (l : Log) (all : List Out) (d : InDep) : Option Out :=
  (findInputI l.inputs d).bind (findOutput all)

/-- The local variables of `followUpDependency` (`Log.cpp:613-619`); the heads of `ostk` and `ustk` are the backs of the
stacks, `pO` and `pU` are the keys mapped to `true`. -/
structure St where
  outs : List Out
  upds : List Upd
  ostk : List Out
  ustk : List Upd
  pO : List Out
  pU : List Upd

/-- First half of an iteration (`Log.cpp:624-648`). -/
def outStep (l : Log) (all : List Out) (st : St) : Option St :=
  match st.ostk with
  | [] => some st
  | o :: os =>
    if o ∈ st.pO then some ⟨st.outs, st.upds, os, st.ustk, st.pO, st.pU⟩
    else
      (pushAll (fun d => decide (d.owner = o.owner ∧ d.output = o.id)) (findUpdate l.updates) l.outDeps st.ustk).bind
        fun us =>
      (pushAll (fun d => decide (d.owner = o.owner ∧ d.output = o.id)) (resD l all) l.dirDeps os).bind fun os' =>
      some ⟨st.outs ++ [o], st.upds, os', us, o :: st.pO, st.pU⟩

/-- Second half of an iteration (`Log.cpp:650-674`). -/
def updStep (l : Log) (all : List Out) (st : St) : Option St :=
  match st.ustk with
  | [] => some st
  | u :: us =>
    if u ∈ st.pU then some ⟨st.outs, st.upds, st.ostk, us, st.pO, st.pU⟩
    else
      (pushAll (fun d => decide (d.owner = u.owner ∧ d.update = u.id)) (resI l all) l.inDeps st.ostk).bind fun os =>
      (pushAll (fun d => decide (d.owner = u.owner ∧ d.dst = u.id)) (findFromUpdate l.updates) l.intDeps us).bind
        fun us' =>
      some ⟨st.outs, st.upds ++ [u], os, us', st.pO, u :: st.pU⟩

/-- The result of a search: the two lists, an exception, or not finished. -/
inductive Res where
  | done (outs : List Out) (upds : List Upd)
  | throw
  | more
deriving DecidableEq

/-- At most `n` iterations of the `while` (`Log.cpp:622-676`). -/
def loop (l : Log) (all : List Out) : Nat → St → Res
  | 0, st => if st.ostk = [] ∧ st.ustk = [] then .done st.outs st.upds else .more
  | n + 1, st =>
    if st.ostk = [] ∧ st.ustk = [] then .done st.outs st.upds
    else
      match (outStep l all st).bind (updStep l all) with
      | none => .throw
      | some st' => loop l all n st'

/-- The number of dependencies in the log. -/
def Log.size (l : Log) : Nat := l.outDeps.length + l.dirDeps.length + l.inDeps.length + l.intDeps.length

/-- The variables before the loop (`Log.cpp:613-619`): the back of the stack is the last starting point. -/
def initSt (starts : List Out) : St := ⟨[], [], starts.reverse, [], [], []⟩

/-- `Log::followUpDependency` (`Log.cpp:608-677`), with enough iterations (see `C91_terminates`). -/
def followUpDependency (l : Log) (all starts : List Out) : Res :=
  loop l all (starts.length + l.size) (initSt starts)

/-- The outputs of the log and those referred to as sources only (`Log.cpp:275-280`, `:299-304`). -/
def allOutputs (l : Log) : List Out := l.outputs ++ l.inputs.map fun i => ⟨i.id, i.source⟩

/-- The starting points of one `Inputs` object (`Log.cpp:286-292`). -/
def startsOf (l : Log) (p : Nat) : List Inp → Option (List Out)
  | [] => some []
  | i :: is =>
    if i.owner = p then
      (findOutput (allOutputs l) i).bind fun o => (startsOf l p is).map fun os => o :: os
    else startsOf l p is

/-- The starting points of a graph (`Log.cpp:283-293`). -/
def starts (l : Log) : List Nat → Option (List Out)
  | [] => some []
  | p :: ps => (startsOf l p l.inputs).bind fun os => (starts l ps).map fun os' => os ++ os'

/-- `Log::subGraph(g)` (`Log.cpp:267-295`). -/
def subGraph (l : Log) (g : Nat) : Res :=
  match l.graphs g with
  | none => .done [] []
  | some ps =>
    match starts l ps with
    | none => .throw
    | some ss => followUpDependency l (allOutputs l) ss

/-- `Log::subGraph(out)` (`Log.cpp:297-308`). -/
def subGraphOut (l : Log) (o : Out) : Res := followUpDependency l (allOutputs l) [o]

/-! ## What is logged -/

/-- What a node holds: its inputs (`Inputs::inputs_`), its updates and its dependencies (`AbstractNode.h`). -/
structure NodeS where
  inputs : List (Nat × EnumVal)
  updates : List (EnumVal × Nat)
  outDeps : List (EnumVal × EnumVal)
  intDeps : List (EnumVal × EnumVal)
  inDeps : List (EnumVal × Nat × EnumVal)
  dirDeps : List (EnumVal × Nat × EnumVal)

/-- A new node. -/
def NodeS.empty : NodeS := ⟨[], [], [], [], [], []⟩

/-- The nodes by address, the inputs objects added to each graph (`CallGraph::inputs_`), the log and
`Logger::disabled_`. -/
structure World where
  nodes : Nat → NodeS
  graphs : Nat → List Nat
  log : Log
  off : Bool

/-- Nothing logged yet.  `disabled_` is `false`: `new Logger()` (`Logger.cpp:18`) value-initialises an object whose
constructor is defaulted in the class (`Logger.h:66`), which zero-initialises it. -/
def World.init : World := ⟨fun _ => .empty, fun _ => [], ⟨[], [], [], [], [], [], [], fun _ => none⟩, false⟩

/-- Replace one value of a function. -/
def upd {α : Type} (f : Nat → α) (a : Nat) (x : α) : Nat → α := fun b => if b = a then x else f b

/-- Write to the log unless the logger is disabled (`Logger.h:86`, and the other methods). -/
def World.write (w : World) (f : Log → Log) : World :=
  ⟨w.nodes, w.graphs, if w.off = true then w.log else f w.log, w.off⟩

/-- Replace a node. -/
def World.set (w : World) (a : Nat) (n : NodeS) : World := ⟨upd w.nodes a n, w.graphs, w.log, w.off⟩

/-- `Logger::registerUpdate` (`Logger.h:83-92`). -/
def Log.registerUpdate (a : Nat) (u : EnumVal) (fn : Nat) (l : Log) : Log :=
  ⟨l.updates ++ [⟨u, fn, a⟩], l.inputs, l.outputs, l.inDeps, l.outDeps, l.intDeps, l.dirDeps, l.graphs⟩

/-- `Logger::addInput` (`Logger.h:94-104`). -/
def Log.addInput (a s : Nat) (i : EnumVal) (l : Log) : Log :=
  ⟨l.updates, l.inputs ++ [⟨i, s, a⟩], l.outputs, l.inDeps, l.outDeps, l.intDeps, l.dirDeps, l.graphs⟩

/-- `Logger::addOutputDependency` (`Logger.h:106-118`). -/
def Log.addOutputDependency (a : Nat) (o u : EnumVal) (l : Log) : Log :=
  ⟨l.updates, l.inputs, l.outputs ++ [⟨o, a⟩], l.inDeps, l.outDeps ++ [⟨u, o, a⟩], l.intDeps, l.dirDeps, l.graphs⟩

/-- `Logger::addInternalDependency` (`Logger.h:120-129`). -/
def Log.addInternalDependency (a : Nat) (uDependent u : EnumVal) (l : Log) : Log :=
  ⟨l.updates, l.inputs, l.outputs, l.inDeps, l.outDeps, l.intDeps ++ [⟨u, uDependent, a⟩], l.dirDeps, l.graphs⟩

/-- `Logger::addInputDependency` (`Logger.h:131-141`). -/
def Log.addInputDependency (a : Nat) (u : EnumVal) (s : Nat) (i : EnumVal) (l : Log) : Log :=
  ⟨l.updates, l.inputs, l.outputs, l.inDeps ++ [⟨i, u, s, a⟩], l.outDeps, l.intDeps, l.dirDeps, l.graphs⟩

/-- `Logger::addDirectDependency` (`Logger.h:143-156`). -/
def Log.addDirectDependency (a : Nat) (o : EnumVal) (s : Nat) (i : EnumVal) (l : Log) : Log :=
  ⟨l.updates, l.inputs, l.outputs ++ [⟨o, a⟩], l.inDeps, l.outDeps, l.intDeps, l.dirDeps ++ [⟨i, o, s, a⟩], l.graphs⟩

/-- `Logger::addGraphOutput` (`Logger.cpp:26-32`): `operator[]` creates the entry. -/
def Log.addGraphOutput (g a : Nat) (l : Log) : Log :=
  ⟨l.updates, l.inputs, l.outputs, l.inDeps, l.outDeps, l.intDeps, l.dirDeps,
    upd l.graphs g (some ((l.graphs g).getD [] ++ [a]))⟩

/-- `Inputs::addInput(T * source, i)` (`Inputs.hpp:66-81`): only an input that was not there is logged. -/
def World.addInput (w : World) (a s : Nat) (i : EnumVal) : World :=
  let n := w.nodes a
  if (s, i) ∈ n.inputs then w
  else (w.set a ⟨n.inputs ++ [(s, i)], n.updates, n.outDeps, n.intDeps, n.inDeps, n.dirDeps⟩).write
    (Log.addInput a s i)

/-- What can happen to the nodes, the graphs and the logger. -/
inductive Op where
  | disable
  | enable
  | registerUpdate (a : Nat) (u : EnumVal) (fn : Nat)
  | addInput (a s : Nat) (i : EnumVal)
  | removeInput (a s : Nat) (i : EnumVal)
  | addOutputDependency (a : Nat) (o u : EnumVal)
  | addInternalDependency (a : Nat) (uDependent u : EnumVal)
  | addInputDependency (a : Nat) (u : EnumVal) (s : Nat) (i : EnumVal)
  | addDirectDependency (a : Nat) (o : EnumVal) (s : Nat) (i : EnumVal)
  | addGraph (g a : Nat)
  | destroy (a : Nat)

/-- The effect of each on the world.
* `disable`, `enable`: `Logger.cpp:22-24`.
* `registerUpdate`: `Node.hpp:46-66`, throws when the update is registered already.
* `addInput`: `Inputs.hpp:66-81`; `removeInput`: `Inputs.hpp:98-`, which does not log.
* `addOutputDependency`: `Node.hpp:68-92`, throws when the output has a direct dependency.
* `addInternalDependency`: `Node.hpp:103-128`.
* `addInputDependency`: `Node.hpp:142-196`, adds the input first.
* `addDirectDependency`: `Node.hpp:206-266`, throws when the output has a dependency, then adds the input.
* `addGraph`: `CallGraph.cpp:14-27`.
* `destroy`: the end of a node: its address can be used again, the log is not told. -/
def step (w : World) : Op → World
  | .disable => ⟨w.nodes, w.graphs, w.log, true⟩
  | .enable => ⟨w.nodes, w.graphs, w.log, false⟩
  | .registerUpdate a u fn =>
    let n := w.nodes a
    if n.updates.any (fun p => decide (p.1 = u)) = true then w
    else (w.set a ⟨n.inputs, n.updates ++ [(u, fn)], n.outDeps, n.intDeps, n.inDeps, n.dirDeps⟩).write
      (Log.registerUpdate a u fn)
  | .addInput a s i => w.addInput a s i
  | .removeInput a s i =>
    let n := w.nodes a
    w.set a ⟨n.inputs.filter fun p => decide (p ≠ (s, i)), n.updates, n.outDeps, n.intDeps, n.inDeps, n.dirDeps⟩
  | .addOutputDependency a o u =>
    let n := w.nodes a
    if n.dirDeps.any (fun p => decide (p.1 = o)) = true then w
    else (w.set a ⟨n.inputs, n.updates, n.outDeps ++ [(o, u)], n.intDeps, n.inDeps, n.dirDeps⟩).write
      (Log.addOutputDependency a o u)
  | .addInternalDependency a v u =>
    let n := w.nodes a
    (w.set a ⟨n.inputs, n.updates, n.outDeps, n.intDeps ++ [(v, u)], n.inDeps, n.dirDeps⟩).write
      (Log.addInternalDependency a v u)
  | .addInputDependency a u s i =>
    let w' := w.addInput a s i
    let n := w'.nodes a
    (w'.set a ⟨n.inputs, n.updates, n.outDeps, n.intDeps, n.inDeps ++ [(u, s, i)], n.dirDeps⟩).write
      (Log.addInputDependency a u s i)
  | .addDirectDependency a o s i =>
    if (w.nodes a).dirDeps.any (fun p => decide (p.1 = o)) = true then w
    else if (w.nodes a).outDeps.any (fun p => decide (p.1 = o)) = true then w
    else
      let w' := w.addInput a s i
      let n := w'.nodes a
      (w'.set a ⟨n.inputs, n.updates, n.outDeps, n.intDeps, n.inDeps, n.dirDeps ++ [(o, s, i)]⟩).write
        (Log.addDirectDependency a o s i)
  | .addGraph g a =>
    World.write ⟨w.nodes, upd w.graphs g (w.graphs g ++ [a]), w.log, w.off⟩ (Log.addGraphOutput g a)
  | .destroy a => w.set a .empty

/-- A history. -/
def run (ops : List Op) : World := ops.foldl step .init

end Verif.GL
