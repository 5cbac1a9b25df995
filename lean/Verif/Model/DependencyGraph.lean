import Verif.Model.Outcome
/-!
# Model of `tvm::graph::internal::DependencyGraph`
(include/tvm/graph/internal/DependencyGraph.h and src/graph/DependencyGraph.cpp)

Simplifications:
* `std::set` of edges: strictly increasing list for the lexicographic order;
* the work vectors of fixed size of the traversals are functions of the index;
* a recursive C++ function takes as additional argument the number of nested calls that it may still do. Running out of
  it is the outcome `fuel` (stack overflow), which is proved not to happen.
-/
set_option autoImplicit false

namespace Verif.DG
open Verif

/-- Write in a work vector. -/
def upd {α : Type} (f : Nat → α) (i : Nat) (a : α) : Nat → α := fun j => if j = i then a else f j

/-! ## The disjoint-set structure -/

/-- `DependencyGraph::DisjointSet` (DependencyGraph.h, lines 60-100) -/
structure DS where
  parent : Nat → Nat
  rank : Nat → Nat

/-- `DisjointSet::resize` (DependencyGraph.cpp, lines 19-25) -/
def DS.init : DS := ⟨fun i => i, fun _ => 0⟩

/-- `DisjointSet::root` (DependencyGraph.cpp, lines 27-35). `none`: too many nested calls. -/
def DS.root (d : DS) : Nat → Nat → Option Nat
  | 0, _ => none
  | f + 1, node => if node ≠ d.parent node then d.root f (d.parent node) else some (d.parent node)

/-- `DisjointSet::rootCompr` (DependencyGraph.cpp, lines 37-45). `none`: too many nested calls. -/
def DS.rootCompr (d : DS) : Nat → Nat → Option (DS × Nat)
  | 0, _ => none
  | f + 1, node =>
    if node ≠ d.parent node then
      match d.rootCompr f (d.parent node) with
      | none => none
      | some (d', r) => some ({ d' with parent := upd d'.parent node r }, r)
    else some (d, d.parent node)

/-- `DisjointSet::unify` (DependencyGraph.cpp, lines 47-70) -/
def DS.unify (d : DS) (f node1 node2 : Nat) : Option DS :=
  match d.rootCompr f node1 with
  | none => none
  | some (d, root1) =>
    match d.rootCompr f node2 with
    | none => none
    | some (d, root2) =>
      if root1 = root2 then some d
      else if d.rank root1 < d.rank root2 then some { d with parent := upd d.parent root1 root2 }
      else if d.rank root1 > d.rank root2 then some { d with parent := upd d.parent root2 root1 }
      else some { parent := upd d.parent root2 root1, rank := upd d.rank root1 (d.rank root1 + 1) }

/-- `DisjointSet::isRoot` (DependencyGraph.cpp, lines 72-76) -/
def DS.isRoot (d : DS) (i : Nat) : Bool := d.parent i == i

/-! ## The graph -/

/-- Members of `DependencyGraph` (DependencyGraph.h, lines 145-147) -/
structure Graph where
  roots : List Bool := []
  children : List (List Nat) := []
  edges : List (Nat × Nat) := []
deriving Repr, DecidableEq

/-- `DependencyGraph::size` (DependencyGraph.cpp, line 187) -/
def Graph.size (g : Graph) : Nat := g.roots.length

/-- `children_[v]` -/
def Graph.kids (g : Graph) (v : Nat) : List Nat := g.children.getD v []

/-- Lexicographic order on edges. -/
def edgeLt (a b : Nat × Nat) : Bool := decide (a.1 < b.1) || (decide (a.1 = b.1) && decide (a.2 < b.2))

/-- `std::set::insert`. -/
def insertEdge (e : Nat × Nat) : List (Nat × Nat) → List (Nat × Nat)
  | [] => [e]
  | x :: l => if edgeLt e x then e :: x :: l else if e = x then x :: l else x :: insertEdge e l

/-- `DependencyGraph::addNode` (DependencyGraph.cpp, lines 78-83) -/
def Graph.addNode (g : Graph) : Graph × Nat :=
  ({ g with roots := g.roots ++ [true], children := g.children ++ [[]] }, g.roots.length)

/-- `DependencyGraph::addEdge` (DependencyGraph.cpp, lines 136-153). A failing assertion (lines 138-139) is undefined
behaviour. -/
def Graph.addEdge (g : Graph) (f t : Nat) : Outcome Graph Bool :=
  if f < g.roots.length ∧ t < g.roots.length then
    if (f, t) ∈ g.edges then .ok g false
    else .ok { roots := g.roots.set t false, children := g.children.modify f (· ++ [t]),
               edges := insertEdge (f, t) g.edges } true
  else .ub

/-- New id of a node when the node `id` is removed. -/
def shift (id i : Nat) : Nat := if i > id then i - 1 else i

/-- The new set of edges (DependencyGraph.cpp, lines 90-100) -/
def removeEdges (id : Nat) (edges : List (Nat × Nat)) : List (Nat × Nat) :=
  edges.foldl (fun acc e => if e.1 = id ∨ e.2 = id then acc else insertEdge (shift id e.1, shift id e.2) acc) []

/-- Promotion of the children of `id` to roots (DependencyGraph.cpp, lines 103-111) -/
def promote (id : Nat) (newEdges : List (Nat × Nat)) (kids : List Nat) (roots : List Bool) : List Bool :=
  kids.foldl (fun r c =>
    if newEdges.any (fun e => if c > id then e.2 + 1 == c else e.2 == c) then r else r.set c true) roots

/-- Update of a list of children (DependencyGraph.cpp, lines 121-130) -/
def removeKid (id : Nat) (kids : List Nat) : List Nat :=
  kids.filterMap (fun j => if j > id then some (j - 1) else if j = id then none else some j)

/-- `DependencyGraph::removeNode` (DependencyGraph.cpp, lines 85-134) -/
def Graph.removeNode (g : Graph) (id : Nat) : Outcome Graph Unit :=
  if id < g.roots.length then
    let newEdges := removeEdges id g.edges
    let roots := promote id newEdges (g.kids id) g.roots
    .ok { roots := roots.eraseIdx id, children := (g.children.eraseIdx id).map (removeKid id), edges := newEdges } ()
  else .ub

/-- `DependencyGraph::clear` (DependencyGraph.cpp, lines 191-196) -/
def Graph.clear (_ : Graph) : Graph := {}

/-! ## Ordering -/

inductive Err where
  /-- `throw` of line 342 -/
  | cycle
  /-- `throw` of lines 315-316 -/
  | noRoot
  /-- too many nested calls -/
  | fuel
deriving Repr, DecidableEq

/-- Arguments passed by reference to `orderUtil` (DependencyGraph.cpp, lines 322-326) -/
structure St where
  order : List Nat := []
  visited : Nat → Bool := fun _ => false
  stack : Nat → Bool := fun _ => false
  comps : DS := DS.init

/-- Loop of `orderUtil` on the children of `v` (DependencyGraph.cpp, lines 333-344); `rec` is the recursive call, `n` the
number of nested calls allowed in the disjoint-set structure. -/
def visitKids (n : Nat) (rec : Nat → St → Except Err St) (v : Nat) : List Nat → St → Except Err St
  | [], st => .ok st
  | i :: is, st =>
    match st.comps.unify n v i with
    | none => .error .fuel
    | some c =>
      if !st.visited i then
        match rec i { st with comps := c } with
        | .ok st' => visitKids n rec v is st'
        | .error e => .error e
      else if st.stack i then .error .cycle
      else visitKids n rec v is { st with comps := c }

/-- `DependencyGraph::orderUtil` (DependencyGraph.cpp, lines 322-348) -/
def visit (g : Graph) : Nat → Nat → St → Except Err St
  | 0, _, _ => .error .fuel
  | f + 1, v, st =>
    let r :=
      if !st.visited v then
        visitKids (g.size + 1) (visit g f) v (g.kids v)
          { st with visited := upd st.visited v true, stack := upd st.stack v true }
      else .ok st
    match r with
    | .ok st => .ok { st with stack := upd st.stack v false, order := st.order ++ [v] }
    | .error e => .error e

/-- Loop of `order_` on the roots (DependencyGraph.cpp, lines 304-311) -/
def visitRoots (g : Graph) : List Nat → St → Except Err St
  | [], st => .ok st
  | i :: is, st =>
    if g.roots.getD i false then
      match visit g (g.size + 1) i st with
      | .ok st' => visitRoots g is st'
      | .error e => .error e
    else visitRoots g is st

/-- `DependencyGraph::order_` (DependencyGraph.cpp, lines 294-320) -/
def Graph.order_ (g : Graph) : Except Err St :=
  match visitRoots g (List.range g.size) {} with
  | .ok st => if !(g.roots.any id) && g.size != 0 then .error .noRoot else .ok st
  | .error e => .error e

/-- `DependencyGraph::order` (DependencyGraph.cpp, line 155) -/
def Graph.order (g : Graph) : Except Err (List Nat) :=
  match g.order_ with
  | .ok st => .ok st.order
  | .error e => .error e

/-- The map from a root of the disjoint-set structure to a group number (DependencyGraph.cpp, lines 168-176): number of
roots with a smaller index. -/
def groupMap (d : DS) : List Nat → (Nat → Nat) → Nat → (Nat → Nat) × Nat
  | [], m, k => (m, k)
  | i :: is, m, k => if d.isRoot i then groupMap d is (upd m i k) (k + 1) else groupMap d is m k

/-- Population of the groups (DependencyGraph.cpp, lines 179-182) -/
def populate (d : DS) (n : Nat) (m : Nat → Nat) : List Nat → List (List Nat) → Option (List (List Nat))
  | [], gs => some gs
  | i :: is, gs =>
    match d.root n i with
    | none => none
    | some r => populate d n m is (gs.modify (m r) (· ++ [i]))

/-- `DependencyGraph::groupedOrder` (DependencyGraph.cpp, lines 157-185) -/
def Graph.groupedOrder (g : Graph) : Except Err (List (List Nat)) :=
  match g.order_ with
  | .error e => .error e
  | .ok st =>
    let (m, k) := groupMap st.comps (List.range g.size) (fun _ => 0) 0
    match populate st.comps (g.size + 1) m st.order (List.replicate k []) with
    | none => .error .fuel
    | some gs => .ok gs

/-! ## Strongly connected components -/

inductive SErr where
  /-- access to the top of an empty stack -/
  | ub
  /-- too many nested calls -/
  | fuel
deriving Repr, DecidableEq

/-- Arguments passed by reference to `SCCUtil` (DependencyGraph.cpp, lines 243-249) -/
structure TSt where
  ret : List (List Nat) := []
  disc : Nat → Int := fun _ => -1
  low : Nat → Int := fun _ => -1
  /-- the top comes first -/
  st : List Nat := []
  stackMember : Nat → Bool := fun _ => false
  time : Int := 0

/-- The loop emptying the stack down to `u`, included (DependencyGraph.cpp, lines 281-289): elements put in the component,
rest of the stack. -/
def popTo (u : Nat) : List Nat → Option (List Nat × List Nat)
  | [] => none
  | x :: st => if x = u then some ([x], st) else
      match popTo u st with
      | none => none
      | some (c, r) => some (x :: c, r)

/-- Loop of `SCCUtil` on the children of `u` (DependencyGraph.cpp, lines 259-276) -/
def sccKids (rec : Nat → TSt → Except SErr TSt) (u : Nat) : List Nat → TSt → Except SErr TSt
  | [], s => .ok s
  | v :: vs, s =>
    if s.disc v = -1 then
      match rec v s with
      | .ok s' => sccKids rec u vs { s' with low := upd s'.low u (min (s'.low u) (s'.low v)) }
      | .error e => .error e
    else if s.stackMember v then
      sccKids rec u vs { s with low := upd s.low u (min (s.low u) (s.disc v)) }
    else sccKids rec u vs s

/-- `DependencyGraph::SCCUtil` (DependencyGraph.cpp, lines 243-292) -/
def sccUtil (g : Graph) : Nat → Nat → TSt → Except SErr TSt
  | 0, _, _ => .error .fuel
  | f + 1, u, s =>
    let s := { s with disc := upd s.disc u (s.time + 1), low := upd s.low u (s.time + 1), time := s.time + 1,
                      st := u :: s.st, stackMember := upd s.stackMember u true }
    match sccKids (sccUtil g f) u (g.kids u) s with
    | .error e => .error e
    | .ok s =>
      if s.low u = s.disc u then
        match popTo u s.st with
        | none => .error .ub
        | some (c, r) => .ok { s with ret := s.ret ++ [c], st := r,
                                      stackMember := fun x => if x ∈ c then false else s.stackMember x }
      else .ok s

/-- Loop of `reduce` calling `SCCUtil` (DependencyGraph.cpp, lines 209-211) -/
def sccAll (g : Graph) : List Nat → TSt → Except SErr TSt
  | [], s => .ok s
  | i :: is, s =>
    if s.disc i = -1 then
      match sccUtil g (g.size + 1) i s with
      | .ok s' => sccAll g is s'
      | .error e => .error e
    else sccAll g is s

/-- Map from a vertex to its component (DependencyGraph.cpp, lines 218-227) -/
def vert2SCC : Nat → List (List Nat) → (Nat → Nat) → Nat → Nat
  | _, [], m => m
  | i, c :: cs, m => vert2SCC (i + 1) cs (c.foldl (fun m j => upd m j i) m)

/-- Edges of the reduced graph (DependencyGraph.cpp, lines 230-238) -/
def reduceEdges (m : Nat → Nat) : List (Nat × Nat) → Graph → Option Graph
  | [], g => some g
  | (a, b) :: l, g =>
    if m a ≠ m b then
      match g.addEdge (m a) (m b) with
      | .ok g' _ => reduceEdges m l g'
      | _ => none
    else reduceEdges m l g

/-- `addNode` called `n` times. -/
def addNodes : Nat → Graph → Graph
  | 0, g => g
  | n + 1, g => addNodes n g.addNode.1

/-- `DependencyGraph::reduce` (DependencyGraph.cpp, lines 198-241) -/
def Graph.reduce (g : Graph) : Except SErr (List (List Nat) × Graph) :=
  match sccAll g (List.range g.size) {} with
  | .error e => .error e
  | .ok s =>
    match reduceEdges (vert2SCC 0 s.ret (fun _ => 0)) g.edges (addNodes s.ret.length {}) with
    | some r => .ok (s.ret, r)
    | none => .error .ub

end Verif.DG
