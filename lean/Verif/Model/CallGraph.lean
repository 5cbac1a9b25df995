import Verif.Model.DependencyGraph
/-!
# Model of `tvm::graph::CallGraph`
(include/tvm/graph/CallGraph.h and src/graph/CallGraph.cpp)

The nodes are described by their dependency maps, which do not change while the graph is built. Pointers to sources are
natural numbers. The maps are lists in the order in which they are iterated on: nothing is assumed on this order, that
depends on addresses in the code.
-/
set_option autoImplicit false

namespace Verif.CG
open Verif Verif.DG

/-- `CallGraph::Call` (CallGraph.h, lines 39-44): node and id of the update. -/
abbrev Call := Nat × Nat

/-- The dependencies of all the sources: data members of `abstract::Outputs` and `internal::AbstractNode`
(AbstractNode.h, lines 116-123). -/
structure Net where
  /-- `Outputs::is_node_` -/
  isNode : Nat → Bool
  /-- `outputDependencies_`: updates needed by an output -/
  outputDeps : Nat → Nat → Option (List Nat)
  /-- `directDependencies_`: an output that is the output of another source -/
  directDeps : Nat → Nat → Option (Nat × Nat)
  /-- `internalDependencies_`: updates of the same node needed by an update -/
  internalDeps : Nat → Nat → List Nat
  /-- `inputDependencies_`: sources and their outputs needed by an update -/
  inputDeps : Nat → Nat → List (Nat × List Nat)

/-- Members of `CallGraph` (CallGraph.h, lines 94-107), except `inputs_` that is only used to keep the objects alive. -/
structure CSt where
  callId : Call → Option Nat := fun _ => none
  calls : List Call := []
  graph : Graph := {}
  visited : Nat × Nat → Option (List Nat) := fun _ => none
  plan : List Call := []

inductive CErr where
  /-- undefined behaviour -/
  | ub
  /-- too many nested calls -/
  | fuel
deriving Repr, DecidableEq

/-- The argument of one of the two mutually recursive functions. -/
inductive Item where
  | out (source output : Nat)
  | call (c : Call)

/-- `dependencyGraph_.addEdge(id, cId)` for all the `cId` in a list. -/
def addEdges (id : Nat) : List Nat → CSt → Except CErr CSt
  | [], st => .ok st
  | cId :: l, st =>
    match st.graph.addEdge id cId with
    | .ok g _ => addEdges id l { st with graph := g }
    | _ => .error .ub

/-- Loop on the updates of an output in `CallGraph::addOutput` (CallGraph.cpp, lines 53-56) -/
def addUpdates (rec : Item → CSt → Except CErr (CSt × List Nat)) (node : Nat) : List Nat → CSt →
    Except CErr (CSt × List Nat)
  | [], st => .ok (st, [])
  | u :: us, st =>
    match rec (.call (node, u)) st with
    | .error e => .error e
    | .ok (st, ids) =>
      match addUpdates rec node us st with
      | .error e => .error e
      | .ok (st, ids') => .ok (st, ids ++ ids')

/-- `CallGraph::addOutput` (CallGraph.cpp, lines 40-70) -/
def addOutput (net : Net) (rec : Item → CSt → Except CErr (CSt × List Nat)) (source output : Nat) (st : CSt) :
    Except CErr (CSt × List Nat) :=
  match st.visited (source, output) with
  | some ids => .ok (st, ids)
  | none =>
    let r :=
      if net.isNode source then
        match net.outputDeps source output with
        | some us => addUpdates rec source us st
        | none =>
          match net.directDeps source output with
          | some (s, o) => rec (.out s o) st
          | none => .ok (st, [])
      else .ok (st, [])
    match r with
    | .error e => .error e
    | .ok (st, ids) =>
      .ok ({ st with visited := fun p => if p = (source, output) then some ids else st.visited p }, ids)

/-- Loop on the elements `l` an update depends on: internal dependencies (CallGraph.cpp, lines 83-87), then outputs of
inputs (lines 91-101) -/
def addDeps (rec : Item → CSt → Except CErr (CSt × List Nat)) (id : Nat) : List Item → CSt → Except CErr CSt
  | [], st => .ok st
  | i :: is, st =>
    match rec i st with
    | .error e => .error e
    | .ok (st, ids) =>
      match addEdges id ids st with
      | .error e => .error e
      | .ok st => addDeps rec id is st

/-- The elements an update depends on, in the order they are handled by `addCall` (CallGraph.cpp, lines 83, 91-93). -/
def depItems (net : Net) (c : Call) : List Item :=
  (net.internalDeps c.1 c.2).map (fun u => .call (c.1, u)) ++
    (net.inputDeps c.1 c.2).flatMap (fun i => i.2.map (fun o => .out i.1 o))

/-- `CallGraph::addCall` (CallGraph.cpp, lines 72-104) -/
def addCall (net : Net) (rec : Item → CSt → Except CErr (CSt × List Nat)) (c : Call) (st : CSt) :
    Except CErr (CSt × List Nat) :=
  match st.callId c with
  | some id => .ok (st, [id])
  | none =>
    let id := st.graph.addNode.2
    let st := { st with graph := st.graph.addNode.1, callId := fun c' => if c' = c then some id else st.callId c',
                        calls := st.calls ++ [c] }
    match addDeps rec id (depItems net c) st with
    | .error e => .error e
    | .ok st => .ok (st, [id])

/-- The recursion between `addOutput` and `addCall`. -/
def go (net : Net) : Nat → Item → CSt → Except CErr (CSt × List Nat)
  | 0, _, _ => .error .fuel
  | f + 1, .out s o, st => addOutput net (go net f) s o st
  | f + 1, .call c, st => addCall net (go net f) c st

/-- `CallGraph::add` (CallGraph.cpp, lines 14-27): `reqs` are the pairs (source, output) of the inputs. -/
def addInputs (net : Net) (f : Nat) : List (Nat × Nat) → CSt → Except CErr CSt
  | [], st => .ok st
  | p :: l, st =>
    match go net f (.out p.1 p.2) st with
    | .error e => .error e
    | .ok (st, _) => addInputs net f l st

/-- `graph.calls_[i]` for all the `i` of the order (CallGraph.cpp, lines 111-114) -/
def callsAt (calls : List Call) : List Nat → Option (List Call)
  | [] => some []
  | i :: l =>
    match calls[i]? with
    | none => none
    | some c =>
      match callsAt calls l with
      | none => none
      | some cs => some (c :: cs)

/-- `CallGraph::update` and `Plan::build` (CallGraph.cpp, lines 29 and 106-115): the former plan is cleared before the
computation of the order, that may throw. The outcome `fuel` of `order`, which never happens, is counted as undefined
behaviour. -/
def update (st : CSt) : Outcome CSt Unit :=
  match st.graph.order with
  | .error .fuel => .ub
  | .error _ => .throw { st with plan := [] }
  | .ok order =>
    match callsAt st.calls order with
    | none => .ub
    | some plan => .ok { st with plan := plan } ()

/-- `CallGraph::clear` (CallGraph.cpp, lines 31-38) -/
def clear (_ : CSt) : CSt := {}

/-- Content of the caches: what each update has computed last. -/
abbrev Store (V : Type) := Call → V

/-- `CallGraph::execute` and `Plan::execute` (CallGraph.h, lines 32 and 63-69); `F c` is what the update `c` computes from
the content of the caches. -/
def execute {V : Type} (F : Call → Store V → V) : List Call → Store V → Store V
  | [], v => v
  | c :: l, v => execute F l (fun c' => if c' = c then F c v else v c')

end Verif.CG
