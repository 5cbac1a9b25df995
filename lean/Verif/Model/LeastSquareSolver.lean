import Verif.Model.SolverEvents
/-!
# Model of `LeastSquareSolver` (src/solver/LeastSquareSolver.cpp) and of the layout part of its four derived classes
(src/solver/{LSSOL,LexLS,QLD,Quadprog}LeastSquareSolver.cpp)

What is modelled: the maps from constraints to their assignments, the rows given to each assignment, the counters of
rows, and the buffer (matrix, vector) each assignment writes in. What is not: the content of the matrices, the weights
(see the model of assignments) and the resolution.

A matrix buffer is an allocation identity with a shape: `resize` of an Eigen matrix reallocates when the number of
coefficients changes and only then; a reference (`Eigen::Ref`) taken on the matrix keeps the allocation and the shape
it was built with.
-/
set_option autoImplicit false

namespace Verif.LS
open Verif.SE

/-- The four solvers deriving from `LeastSquareSolver`. -/
inductive Kind where
  | lssol | lexls | qld | quadprog
deriving DecidableEq, Repr

/-- `handleDoubleSidedConstraint_` (LSSOLLeastSquareSolver.h 56, LexLSLeastSquareSolver.h 44, QLDLeastSquareSolver.h 49,
QuadprogLeastSquareSolver.h 50). -/
def Kind.handleDoubleSided : Kind → Bool
  | .lssol => true
  | .lexls => true
  | .qld => false
  | .quadprog => false

/-- Do equality and inequality constraints share the same rows? `next*ConstraintRange_` of LSSOL (165-169) and LexLS
(204-208) start at `eqSize_ + ineqSize_`, those of QLD (158-162) and Quadprog (218-223) at `eqSize_` and `ineqSize_`. -/
def Kind.joint : Kind → Bool
  | .lssol => true
  | .lexls => true
  | .qld => false
  | .quadprog => false

/-- `constraintSize` (LeastSquareSolver.cpp 171-181). -/
def constraintSize (k : Kind) (c : Cstr) : Nat :=
  if c.type ≠ .doubleSided ∨ k.handleDoubleSided = true then c.size else 2 * c.size

/-- A matrix or vector: identity of its allocation and shape. -/
structure Buf where
  alloc : Nat
  rows : Nat
  cols : Nat
deriving DecidableEq, Repr

/-- `ImpactFromChanges::willReallocate` (LeastSquareSolver.h, end of file). -/
def Buf.willReallocate (b : Buf) (rows cols : Nat) : Bool := b.rows * b.cols ≠ rows * cols

/-- Eigen's `resize`, `fresh` being the identity of the next allocation. -/
def Buf.resize (b : Buf) (rows cols fresh : Nat) : Buf :=
  ⟨if b.willReallocate rows cols then fresh else b.alloc, rows, cols⟩

/-- The data an assignment target refers to: matrix, vector, first row or coefficient of the block in the buffer and
number of rows of the block. -/
structure View where
  mat : Buf
  vec : Buf
  off : Nat
  rows : Nat
deriving DecidableEq, Repr

/-- The data of an assignment relevant here: start of the range of its target and view of its target. -/
structure Asg where
  start : Int
  view : View
deriving DecidableEq, Repr

/-- `MapToAssignment`, a `std::map` ordered by the identity of the constraints. -/
abbrev AMap := List (Cstr × List Asg)

/-- `target[cstr].push_back(a)` (`AutoMap`, LeastSquareSolver.cpp 21-30). Each `add*_` creates one assignment. -/
def AMap.push : AMap → Cstr → Asg → AMap
  | [], c, a => [(c, [a])]
  | (d, l) :: m, c, a =>
    if d = c then (d, l ++ [a]) :: m
    else if c.id < d.id then (c, [a]) :: (d, l) :: m
    else (d, l) :: AMap.push m c a

/-- `map.erase(c)`. -/
def AMap.erase (m : AMap) (c : Cstr) : AMap := m.filter (fun e => e.1 ≠ c)

/-- `ImpactFromChanges`. -/
structure Impact where
  equality : Bool := false
  inequality : Bool := false
  bounds : Bool := false
  objectives : Bool := false
deriving DecidableEq, Repr

/-- `ImpactFromChanges::operator||` (428-433). -/
def Impact.or (a b : Impact) : Impact :=
  ⟨a.equality || b.equality, a.inequality || b.inequality, a.bounds || b.bounds, a.objectives || b.objectives⟩

/-- `applyImpactLogic`: LSSOL (192-198), LexLS (231-237), QLD (185-189), Quadprog (246-252). -/
def Kind.impactLogic (k : Kind) (i : Impact) : Impact :=
  match k with
  | .lssol | .lexls =>
    let i := if i.equality then { i with inequality := true } else i
    if i.inequality then { i with equality := true } else i
  | .qld => if i.equality then { i with inequality := true } else i
  | .quadprog =>
    let i := if i.equality then { i with inequality := true } else i
    if i.inequality then { i with bounds := true } else i

/-- The buffers of the derived class: `objM`, `objV` matrix and vector of the objectives, `cstM`, `cstV` those of the
constraints, `bnd` that of the bounds.
LSSOL: `A_`, `b_`, `C_`, `l_` (bounds in `l_` too); LexLS: `data2_`, -, `data1_`, -, `data0_`; QLD: `D_`, `e_`, `A_`,
`b_`, `xl_`; Quadprog: `D_`, `e_`, `A_`, `b_` (bounds in `b_` too). `u_`, `xu_` have the shapes of `l_`, `xl_`.
`fresh` is the number of allocations so far. -/
structure Bufs where
  objM : Buf
  objV : Buf
  cstM : Buf
  cstV : Buf
  bnd : Buf
  fresh : Nat
deriving DecidableEq, Repr

/-- The views of the four categories of targets. -/
structure Views where
  eq : View
  ineq : View
  bnd : View
  obj : View
deriving DecidableEq, Repr

/-- Number of rows of `D_` for QLD (34-46) and Quadprog (38-50), with the option `cholesky_`. -/
def objRows (cholesky : Bool) (nObj n : Nat) : Nat := if cholesky ∧ nObj < n then nObj + n else nObj

/-- Number of rows of `A_` for Quadprog (55-81). -/
def quadprogRows (nEq nIneq n : Nat) (useBounds : Bool) : Nat := if useBounds then nEq + nIneq + 2 * n else nEq + nIneq

/-- `resize_`, buffers: LSSOL 64-91, LexLS 53-114, QLD 24-74, Quadprog 28-99. -/
def resizeBufs (k : Kind) (cholesky : Bool) (b : Bufs) (n nObj nEq nIneq : Nat) (useBounds : Bool) : Bufs :=
  match k with
  | .lssol =>
    ⟨b.objM.resize nObj n b.fresh, b.objV.resize nObj 1 (b.fresh + 1), b.cstM.resize (nEq + nIneq) n (b.fresh + 2),
      b.cstV.resize (nEq + nIneq + n) 1 (b.fresh + 3), b.bnd, b.fresh + 5⟩
  | .lexls =>
    ⟨b.objM.resize nObj (n + 2) b.fresh, b.objV, b.cstM.resize (nEq + nIneq) (n + 2) (b.fresh + 2), b.cstV,
      b.bnd.resize n 2 (b.fresh + 4), b.fresh + 5⟩
  | .qld =>
    ⟨b.objM.resize (objRows cholesky nObj n) n b.fresh, b.objV.resize nObj 1 (b.fresh + 1),
      b.cstM.resize (nEq + nIneq) n (b.fresh + 2), b.cstV.resize (nEq + nIneq) 1 (b.fresh + 3),
      b.bnd.resize n 1 (b.fresh + 4), b.fresh + 5⟩
  | .quadprog =>
    ⟨b.objM.resize (objRows cholesky nObj n) n b.fresh, b.objV.resize nObj 1 (b.fresh + 1),
      b.cstM.resize (quadprogRows nEq nIneq n useBounds) n (b.fresh + 2),
      b.cstV.resize (quadprogRows nEq nIneq n useBounds) 1 (b.fresh + 3), b.bnd, b.fresh + 5⟩

/-- `resize_`, returned impact, computed on the former buffers (same lines). -/
def resizeImpact (k : Kind) (cholesky : Bool) (b : Bufs) (n nObj nEq nIneq : Nat) (useBounds : Bool) : Impact :=
  match k with
  | .lssol =>
    let eq := b.cstM.willReallocate (nEq + nIneq) n
    ⟨eq, eq, b.cstV.willReallocate (nEq + nIneq + n) 1 || eq, b.objM.willReallocate nObj n⟩
  | .lexls =>
    let eq := b.cstM.willReallocate (nEq + nIneq) (n + 2)
    ⟨eq, eq, b.bnd.willReallocate n 2, b.objM.willReallocate nObj (n + 2)⟩
  | .qld =>
    let eq := b.cstM.willReallocate (nEq + nIneq) n
    ⟨eq, eq, b.bnd.willReallocate n 1, b.objM.willReallocate (objRows cholesky nObj n) n⟩
  | .quadprog =>
    let eq := b.cstM.willReallocate (quadprogRows nEq nIneq n useBounds) n
    ⟨eq, eq, eq, b.objM.willReallocate (objRows cholesky nObj n) n⟩

/-- The blocks given to the targets (`add*_` and `update*TargetData` of each class): LSSOL 93-120 and 180-190 with
`cl_ = l_.tail(nCstr)` (81), LexLS 116-143 and 219-229 with columns `n`, `n+1` (80-81), QLD 76-102 and 173-183 with
`Aineq_ = A_.bottomRows(nIneq)` (58-59), Quadprog 101-134 and 234-244 with `Aineq_ = A_.middleRows(nEq, nIneq)` (82-83)
and `xl_ = b_.segment(nCstr, n)` (67-80). -/
def viewsOf (k : Kind) (b : Bufs) (n nObj nEq nIneq : Nat) (useBounds : Bool) : Views :=
  match k with
  | .lssol =>
    ⟨⟨b.cstM, b.cstV, n, nEq + nIneq⟩, ⟨b.cstM, b.cstV, n, nEq + nIneq⟩, ⟨b.cstV, b.cstV, 0, nEq + nIneq + n⟩,
      ⟨b.objM, b.objV, 0, nObj⟩⟩
  | .lexls =>
    ⟨⟨b.cstM, b.cstM, n, nEq + nIneq⟩, ⟨b.cstM, b.cstM, n, nEq + nIneq⟩, ⟨b.bnd, b.bnd, 0, n⟩,
      ⟨b.objM, b.objM, n, nObj⟩⟩
  | .qld =>
    ⟨⟨b.cstM, b.cstV, 0, nEq + nIneq⟩, ⟨b.cstM, b.cstV, nEq, nIneq⟩, ⟨b.bnd, b.bnd, 0, n⟩,
      ⟨b.objM, b.objV, 0, nObj⟩⟩
  | .quadprog =>
    ⟨⟨b.cstM, b.cstV, 0, quadprogRows nEq nIneq n useBounds⟩, ⟨b.cstM, b.cstV, nEq, nIneq⟩,
      ⟨b.cstV, b.cstV, nEq + nIneq, if useBounds then n else 0⟩, ⟨b.objM, b.objV, 0, nObj⟩⟩

/-- The members of `LeastSquareSolver` and of the derived class. -/
structure Solver where
  kind : Kind
  cholesky : Bool
  nEq : Int := 0
  nIneq : Int := 0
  nObj : Int := 0
  eqSize : Int := -1
  ineqSize : Int := -1
  objSize : Int := -1
  eq : AMap := []
  ineq : AMap := []
  bnd : AMap := []
  obj : AMap := []
  bufs : Bufs
  views : Views
deriving DecidableEq, Repr

/-- The call to `resize_` (arguments converted to naturals: the counters are nonnegative, see the properties). -/
def Solver.resize (s : Solver) (n nObj nEq nIneq : Nat) (useBounds : Bool) : Solver :=
  let b := resizeBufs s.kind s.cholesky s.bufs n nObj nEq nIneq useBounds
  { s with bufs := b, views := viewsOf s.kind b n nObj nEq nIneq useBounds }

/-- `startBuild` (46-75), on `n = x.totalSize()`. -/
def Solver.startBuild (s : Solver) (n nObj nEq nIneq : Nat) (useBounds : Bool) : Solver :=
  { s.resize n nObj nEq nIneq useBounds with
      eq := [], ineq := [], bnd := [], obj := [], nEq := nEq, nIneq := nIneq, nObj := nObj,
      eqSize := 0, ineqSize := 0, objSize := 0 }

/-- Start of `nextEqualityConstraintRange_`. -/
def Solver.nextEq (s : Solver) : Int := if s.kind.joint then s.eqSize + s.ineqSize else s.eqSize

/-- Start of `nextInequalityConstraintRange_`. -/
def Solver.nextIneq (s : Solver) : Int := if s.kind.joint then s.eqSize + s.ineqSize else s.ineqSize

/-- `addBound` (85-94); `vs` gives the start of the mapping of the variable of the bound. -/
def Solver.addBound (s : Solver) (vs : Cstr → Int) (c : Cstr) : Solver :=
  { s with bnd := s.bnd.push c ⟨vs c, s.views.bnd⟩ }

/-- `addConstraint` (96-112). -/
def Solver.addConstraint (s : Solver) (c : Cstr) : Solver :=
  if c.isEquality then
    { s with eq := s.eq.push c ⟨s.nextEq, s.views.eq⟩, eqSize := s.eqSize + constraintSize s.kind c }
  else
    { s with ineq := s.ineq.push c ⟨s.nextIneq, s.views.ineq⟩, ineqSize := s.ineqSize + constraintSize s.kind c }

/-- `addObjective` (114-127). The checks on the requirements are in the model of the scheme. -/
def Solver.addObjective (s : Solver) (o : Objective) : Solver :=
  { s with obj := s.obj.push o.c ⟨s.objSize, s.views.obj⟩, objSize := s.objSize + o.c.size }

/-- One iteration of the loop on the removed constraints (332-350). -/
def Solver.removeConstraint (s : Solver) (c : Cstr) : Solver :=
  if c.isEquality then { s with nEq := s.nEq - constraintSize s.kind c, eq := s.eq.erase c }
  else { s with nIneq := s.nIneq - constraintSize s.kind c, ineq := s.ineq.erase c }

/-- One iteration of the loop on the removed objectives (352-359). -/
def Solver.removeObjective (s : Solver) (c : Cstr) : Solver :=
  { s with nObj := s.nObj - c.size, obj := s.obj.erase c }

/-- One iteration of the loop on the removed bounds (361-367). -/
def Solver.removeBound (s : Solver) (c : Cstr) : Solver := { s with bnd := s.bnd.erase c }

/-- `processRemovedConstraints` (330-378): state. -/
def Solver.processRemoved (s : Solver) (se : SolverEvents) : Solver :=
  let s := se.removedConstraints.foldl Solver.removeConstraint s
  let s := se.removedObjectives.foldl Solver.removeObjective s
  se.removedBounds.foldl Solver.removeBound s

/-- `processRemovedConstraints`: returned impact (374-377). -/
def impactRemove (k : Kind) (se : SolverEvents) : Impact :=
  k.impactLogic ⟨!se.removedConstraints.isEmpty, !se.removedConstraints.isEmpty, !se.removedBounds.isEmpty,
    !se.removedObjectives.isEmpty⟩

/-- One iteration of the loop on the added constraints in `previewAddedConstraints` (388-394). -/
def Solver.previewConstraint (s : Solver) (c : Cstr) : Solver :=
  if c.isEquality then { s with nEq := s.nEq + constraintSize s.kind c }
  else { s with nIneq := s.nIneq + constraintSize s.kind c }

/-- `previewAddedConstraints` (380-402): state. -/
def Solver.previewAdded (s : Solver) (se : SolverEvents) : Solver :=
  let s := { s with eqSize := s.nEq, ineqSize := s.nIneq, objSize := s.nObj }
  let s := se.addedConstraints.foldl Solver.previewConstraint s
  se.addedObjectives.foldl (fun s o => { s with nObj := s.nObj + o.c.size }) s

/-- `previewAddedConstraints`: returned impact (399-401), `s` being the state after the loops. -/
def impactAdd (s : Solver) (se : SolverEvents) : Impact :=
  s.kind.impactLogic ⟨s.nEq ≠ s.eqSize, s.nIneq ≠ s.ineqSize, false, !se.addedObjectives.isEmpty⟩

/-- `updateTargetRange` (202-210): the new accumulated size and the map with its starts updated. `start` is the start of
the range provided for an accumulated size. -/
def retarget (start : Int → Int) (size : Cstr → Int) : Int → AMap → Int × AMap
  | cum, [] => (cum, [])
  | cum, (c, l) :: m =>
    let r := retarget start size (cum + size c) m
    (r.1, (c, l.map (fun a => { a with start := start cum })) :: r.2)

/-- `updateTargetRange` for bounds (232-235). -/
def retargetBounds (vs : Cstr → Int) (m : AMap) : AMap :=
  m.map (fun e => (e.1, e.2.map (fun a => { a with start := vs e.1 })))

/-- `updateTargetData` (243-249). -/
def redirect (v : View) (m : AMap) : AMap := m.map (fun e => (e.1, e.2.map (fun a => { a with view := v })))

/-- `process`, lines 212-218: reset of the accumulators. -/
def Solver.resetSizes (s : Solver) (i : Impact) : Solver :=
  { s with eqSize := if i.equality then 0 else s.eqSize, ineqSize := if i.inequality then 0 else s.ineqSize,
           objSize := if i.objectives then 0 else s.objSize }

/-- `process`, lines 220-223. -/
def Solver.retargetEq (s : Solver) (i : Impact) : Solver :=
  if i.equality then
    let r := retarget (fun x => if s.kind.joint then x + s.ineqSize else x) (fun c => constraintSize s.kind c)
      s.eqSize s.eq
    { s with eqSize := r.1, eq := r.2 }
  else s

/-- `process`, lines 225-229. -/
def Solver.retargetIneq (s : Solver) (i : Impact) : Solver :=
  if i.inequality then
    let r := retarget (fun x => if s.kind.joint then s.eqSize + x else x) (fun c => constraintSize s.kind c)
      s.ineqSize s.ineq
    { s with ineqSize := r.1, ineq := r.2 }
  else s

/-- `process`, lines 232-235. -/
def Solver.retargetBnd (s : Solver) (i : Impact) (needMapping : Bool) (vs : Cstr → Int) : Solver :=
  if i.bounds || needMapping then { s with bnd := retargetBounds vs s.bnd } else s

/-- `process`, lines 237-240. -/
def Solver.retargetObj (s : Solver) (i : Impact) : Solver :=
  if i.objectives then
    let r := retarget (fun x => x) (fun c => c.size) s.objSize s.obj
    { s with objSize := r.1, obj := r.2 }
  else s

/-- `process`, lines 253-263. -/
def Solver.redirectAll (s : Solver) (i : Impact) : Solver :=
  { s with eq := if i.equality then redirect s.views.eq s.eq else s.eq,
           ineq := if i.inequality then redirect s.views.ineq s.ineq else s.ineq,
           bnd := if i.bounds then redirect s.views.bnd s.bnd else s.bnd,
           obj := if i.objectives then redirect s.views.obj s.obj else s.obj }

/-- `processAddedConstraints` (404-420). -/
def Solver.processAdded (s : Solver) (vs : Cstr → Int) (se : SolverEvents) : Solver :=
  let s := se.addedConstraints.foldl Solver.addConstraint s
  let s := se.addedBounds.foldl (fun s c => s.addBound vs c) s
  se.addedObjectives.foldl Solver.addObjective s

/-- The assertions at the end of `processAddedConstraints` (416-418) and of `finalizeBuild` (79-81). -/
def Solver.assertSizes (s : Solver) : Prop := s.nObj = s.objSize ∧ s.nEq = s.eqSize ∧ s.nIneq = s.ineqSize

/-- `process` (183-292) up to `processAddedConstraints`. `n` is the total size of the variables and `vs` the mapping of
the variables of the bounds, both after the changes of variables. Updates of weights and of the mappings inside the
assignments are not modelled here. -/
def Solver.processExisting (s : Solver) (se : SolverEvents) (n : Nat) (vs : Cstr → Int) : Solver :=
  let iR := impactRemove s.kind se
  let s1 := s.processRemoved se
  let needMapping := needMappingUpdate se
  let s2 := s1.previewAdded se
  let iA := impactAdd s2 se
  let useBounds := !s2.bnd.isEmpty || !se.addedBounds.isEmpty
  let iZ := resizeImpact s2.kind s2.cholesky s2.bufs n s2.nObj.toNat s2.nEq.toNat s2.nIneq.toNat useBounds
  let s3 := s2.resize n s2.nObj.toNat s2.nEq.toNat s2.nIneq.toNat useBounds
  let i := iR.or iA
  let s4 := ((((s3.resetSizes i).retargetEq i).retargetIneq i).retargetBnd i needMapping vs).retargetObj i
  s4.redirectAll (s.kind.impactLogic (i.or iZ))

/-- `process` (183-292). -/
def Solver.process (s : Solver) (se : SolverEvents) (n : Nat) (vs : Cstr → Int) : Solver :=
  (s.processExisting se n vs).processAdded vs se

/-- One of the additions made by a scheme between `startBuild` and `finalizeBuild`. -/
inductive Add where
  | cstr (c : Cstr)
  | obj (o : Objective)
  | bnd (c : Cstr)
deriving DecidableEq, Repr

/-- One addition. -/
def Solver.add (vs : Cstr → Int) (s : Solver) : Add → Solver
  | .cstr c => s.addConstraint c
  | .obj o => s.addObjective o
  | .bnd c => s.addBound vs c

/-- The calls made by a scheme to build the problem: `startBuild`, additions, `finalizeBuild`. -/
def Solver.build (s : Solver) (n nObj nEq nIneq : Nat) (useBounds : Bool) (adds : List Add) (vs : Cstr → Int) : Solver :=
  adds.foldl (Solver.add vs) (s.startBuild n nObj nEq nIneq useBounds)

/-- A solver just constructed: empty matrices. -/
def Solver.new (k : Kind) (cholesky : Bool) : Solver :=
  let z : Buf := ⟨0, 0, 0⟩
  let v : View := ⟨z, z, 0, 0⟩
  ⟨k, cholesky, 0, 0, 0, -1, -1, -1, [], [], [], [], ⟨z, z, z, z, z, 1⟩, ⟨v, v, v, v⟩⟩

end Verif.LS
