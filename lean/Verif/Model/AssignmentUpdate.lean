import Verif.Model.Assignment
/-!
# Model of what an `Assignment` records to be redirected, and of its updates
(src/scheme/Assignment.cpp, include/tvm/scheme/internal/Assignment.hpp, src/scheme/MatrixAssignment.cpp,
include/tvm/scheme/internal/MatrixAssignment.h, src/scheme/AssignmentTarget.cpp)

`Verif.Model.Assignment` gives the compiled assignments as they are just after the construction. Here each compiled assignment also has
what is stored beside it: for a matrix assignment the variable, the column range and the method of the target giving the block; for a
vector assignment the method of the target giving the segment (null when the destination is a temporary vector of the assignment). The
destination is a block or segment of a numbered buffer, since the matrices and vectors of a target can be exchanged.

Simplified: a buffer is a number and holds infinitely many values (the sizes of the matrices of the target are not checked here; Eigen
checks them in debug only); the assertions of the setters are left out (they are absent in release); the range of a target is held by
value (it is shared by pointer in the code, so that a change of range made from outside is seen as well).
-/
set_option autoImplicit false

namespace Verif.AU
open Verif Verif.AS Verif.CA

/-- An `AssignmentTarget` (AssignmentTarget.h, lines 105-123): conventions and range, and the buffers `A_`, `b_`, `l_`, `u_` refer to -/
structure Tgt where
  T : Target
  A : Nat
  b : Nat
  l : Nat
  u : Nat
deriving Repr, DecidableEq

/-- The buffer of a vector of the target; the temporary vectors are not in a numbered buffer. -/
def Tgt.buf (G : Tgt) : Cell → Nat
  | .b => G.b
  | .l => G.l
  | .u => G.u
  | _ => 0

/-- Whether a cell is a vector of the target (as opposed to a temporary vector of the assignment) -/
def ext : Cell → Bool
  | .b => true
  | .l => true
  | .u => true
  | _ => false

/-- A block of a matrix: buffer, rows and columns (start and number) -/
structure MDst where
  buf : Nat
  rows : Nat × Nat
  cols : Nat × Nat
deriving Repr, DecidableEq

/-- A segment of a vector: buffer and segment -/
structure VDst where
  buf : Nat
  seg : Seg
deriving Repr, DecidableEq

/-- `(target.*M)(start, dim)` (AssignmentTarget.cpp, lines 67-71 and 86-96) -/
def Tgt.mat (G : Tgt) (M : MatFun) (cols : Nat × Nat) : MDst := ⟨G.A, G.T.rows M, cols⟩

/-- `(target.*v)()` (AssignmentTarget.cpp, lines 75-82 and 98-108) -/
def Tgt.vec (G : Tgt) (v : VecFun) : VDst := ⟨G.buf (G.T.seg v).cell, G.T.seg v⟩

/-- `MatrixAssignment` (MatrixAssignment.h, lines 18-42): the compiled assignment, `x`, `colRange`, `getTargetMatrix` -/
structure MA where
  assign : AssignType
  wt : Wt
  src : MFrom
  dst : MDst
  x : Nat
  colRange : Nat × Nat
  M : MatFun
deriving Repr, DecidableEq

/-- `VectorAssignment` and `VectorSubstitutionAssignement` (MatrixAssignment.h, lines 44-88): the compiled assignment and
`getTargetVector`, `none` for the null pointer -/
structure VA (K : Type) where
  assign : AssignType
  wt : Wt
  mult : VMult
  src : VFrom K
  dst : VDst
  v : Option VecFun

/-- The four lists of an `Assignment` -/
structure Asg (K : Type) where
  mat : List MA
  matSub : List MA
  vec : List (VA K)
  vecSub : List (VA K)

/-- No assignment -/
def Asg.nil {K : Type} : Asg K := ⟨[], [], [], []⟩

/-- Assignments added at the end of the lists -/
def Asg.app {K : Type} (a b : Asg K) : Asg K := ⟨a.mat ++ b.mat, a.matSub ++ b.matSub, a.vec ++ b.vec, a.vecSub ++ b.vecSub⟩

section
variable {K : Type}

/-! ## Building -/

/-- `addVectorAssignment(f, v, flip)` for a method `f` of the source and a method `v` of the target (Assignment.hpp, lines 179-207) -/
def addVec (S : Src) (G : Tgt) (fl : Flags) (A : AssignType) (f : RhsFun) (v : VecFun) (flip : Bool) : List (VA K) :=
  if S.rhs ≠ .zero then
    let flip := if S.rhs = .opposite then !flip else flip
    let flip := if G.T.rhs = .opposite then !flip else flip
    [⟨A, fl.wt flip, .none, .rhs f, G.vec v, some v⟩]
  else if G.T.rhs ≠ .zero then [⟨A, .none, .none, .zero, G.vec v, some v⟩]
  else []

/-- `addVectorAssignment(d, v, flip)` for a constant (Assignment.hpp, lines 244-250) -/
def addConst (G : Tgt) (fl : Flags) (A : AssignType) (d : K) (v : VecFun) (flip : Bool) : List (VA K) :=
  [⟨A, fl.wt flip, .none, .const d, G.vec v, some v⟩]

/-- `addMatrixAssignment` (Assignment.cpp, lines 414-421) -/
def addMat (G : Tgt) (V : Vars) (fl : Flags) (x : Nat) (M : MatFun) (flip : Bool) : MA :=
  ⟨.copy, fl.wt flip, .jac x, G.mat M (V.col x, V.dim x), x, (V.col x, V.dim x), M⟩

/-- `addZeroAssignment` (Assignment.cpp, lines 511-517) -/
def addZero (G : Tgt) (V : Vars) (x : Nat) (M : MatFun) : MA :=
  ⟨.copy, .none, .zero, G.mat M (V.col x, V.dim x), x, (V.col x, V.dim x), M⟩

/-- The body of the loop of `addMatrixSubstitutionAssignments` (Assignment.cpp, lines 430-463): the variable recorded is the variable
`y` of the substitution (line 462). -/
def addMatSub1 (S : Src) (G : Tgt) (V : Vars) (fl : Flags) (x : Nat) (M : MatFun) (flip : Bool) (y : Nat) : MA :=
  match S.prop x with
  | .identity => ⟨if flip then .sub else .add, fl.wt false, .sub x y, G.mat M (V.col y, V.dim y), y, (V.col y, V.dim y), M⟩
  | .minusIdentity => ⟨if flip then .add else .sub, fl.wt false, .sub x y, G.mat M (V.col y, V.dim y), y, (V.col y, V.dim y), M⟩
  | .other => ⟨if flip then .sub else .add, fl.wt false, .prod x y, G.mat M (V.col y, V.dim y), y, (V.col y, V.dim y), M⟩

/-- `addVectorSubstitutionAssignments` (Assignment.cpp, lines 466-509) -/
def addVecSub (S : Src) (G : Tgt) (fl : Flags) (i : SubInfo) (v : VecFun) (x : Nat) (flip : Bool) : List (VA K) :=
  if i.useB then
    let flip := if G.T.rhs = .asGiven then !flip else flip
    match S.prop x with
    | .identity => [⟨if flip then .sub else .add, fl.wt false, .none, .subB x, G.vec v, some v⟩]
    | .minusIdentity => [⟨if flip then .add else .sub, fl.wt false, .none, .subB x, G.vec v, some v⟩]
    | .other => [⟨if flip then .sub else .add, fl.wt false, .jac x, .subB x, G.vec v, some v⟩]
  else []

/-- The vector assignments of a substitution into the second vector, if any (Assignment.cpp, lines 590-591) -/
def addVecSub2 (S : Src) (G : Tgt) (fl : Flags) (i : SubInfo) (v2 : Option VecFun) (x : Nat) (flip : Bool) : List (VA K) :=
  match v2 with
  | some v => addVecSub S G fl i v x flip
  | none => []

/-- The last loop of `addAssignments` (Assignment.cpp, lines 580-598) -/
def addParts (S : Src) (G : Tgt) (V : Vars) (fl : Flags) (M : MatFun) (v1 : VecFun) (v2 : Option VecFun) (flip : Bool) :
    List Nat → Asg K
  | [] => .nil
  | x :: l =>
    if V.dim x = 0 then addParts S G V fl M v1 v2 flip l
    else
      match S.sub x with
      | some i =>
        Asg.app ⟨[], i.vars.map (addMatSub1 S G V fl x M flip), [],
            addVecSub S G fl i v1 x flip ++ addVecSub2 S G fl i v2 x flip⟩
          (addParts S G V fl M v1 v2 flip l)
      | none => Asg.app ⟨[addMat G V fl x M flip], [], [], []⟩ (addParts S G V fl M v1 v2 flip l)

/-- The vector assignment of the second right hand side, if any (Assignment.cpp, lines 551-555) -/
def addVec2 (S : Src) (G : Tgt) (fl : Flags) (second : Option (RhsFun × VecFun)) (flip : Bool) : List (VA K) :=
  match second with
  | some (f2, v2) => addVec S G fl .copy f2 v2 flip
  | none => []

/-- `addAssignments` (Assignment.cpp, lines 519-599) -/
def addAssignments (S : Src) (G : Tgt) (V : Vars) (fl : Flags) (M : MatFun) (f1 : RhsFun) (v1 : VecFun)
    (second : Option (RhsFun × VecFun)) (flip : Bool) : Asg K :=
  Asg.app
    ⟨(intoVars S).map fun y => addZero G V y M, [],
      addVec S G fl .copy f1 v1 flip ++ addVec2 S G fl second flip, []⟩
    (addParts S G V fl M v1 (second.map (·.2)) flip S.parts)

/-- `build(variables)` (Assignment.cpp, lines 190-294). `none` is the exception. -/
def build [Neg K] (big : K) (S : Src) (G : Tgt) (V : Vars) (fl : Flags) : Option (Asg K) :=
  match S.type with
  | .equal =>
    match G.T.type with
    | .equal => some (addAssignments S G V fl .A .e .b none false)
    | .doubleSided => some (addAssignments S G V fl .A .e .l (some (.e, .u)) false)
    | _ => none
  | .doubleSided =>
    match G.T.type with
    | .doubleSided => some (addAssignments S G V fl .A .l .l (some (.u, .u)) false)
    | .greaterThan =>
      some ((addAssignments S G V fl .AFirstHalf .l .bFirstHalf none false).app
        (addAssignments S G V fl .ASecondHalf .u .bSecondHalf none true))
    | _ =>
      some ((addAssignments S G V fl .AFirstHalf .u .bFirstHalf none false).app
        (addAssignments S G V fl .ASecondHalf .l .bSecondHalf none true))
  | ty =>
    let flip := decide (ty = .lowerThan)
    let f := if ty = .lowerThan then RhsFun.u else RhsFun.l
    match G.T.type with
    | .equal => none
    | .greaterThan => some (addAssignments S G V fl .A f .b none flip)
    | .lowerThan => some (addAssignments S G V fl .A f .b none (!flip))
    | .doubleSided =>
      if ty = .greaterThan then
        some ((addAssignments S G V fl .A f .l none false).app ⟨[], [], addConst G fl .copy big .u false, []⟩)
      else
        some ((addAssignments S G V fl .A f .u none false).app ⟨[], [], addConst G fl .copy (-big) .l false, []⟩)

/-- The constructor for linear constraints (Assignment.cpp, lines 20-36), for given flags. `none` is an exception. `reprocess`
(lines 50-53) is this constructor with the source and the target of another assignment. -/
def create [Neg K] (big : K) (S : Src) (G : Tgt) (V : Vars) (fl : Flags) : Option (Asg K) :=
  if checkTarget S G.T && mapped S V then build big S G V fl else none

/-! ## Building, bounds -/

/-- A temporary vector of size `n` as destination: `VectorRef(data_->tmp)`, without method of the target (Assignment.hpp, lines 162 and
173) -/
def tmp (c : Cell) (n : Nat) : VDst := ⟨0, ⟨c, 0, n⟩⟩

/-- `addVectorAssignment(f, v, flip)` for a side of a bound (Assignment.hpp, lines 179-207 and 244-250) -/
def addSide (S : Src) (G : Tgt) (A : AssignType) (f : Side K) (v : VecFun) (flip : Bool) : List (VA K) :=
  match f with
  | .rhs f => addVec S G boundFlags A f v flip
  | .const c => addConst G boundFlags A c v flip

/-- `addVectorAssignment(f, VectorRef(tmp), J, false, true, false)` for a side (Assignment.hpp, lines 209-242 and 252-258): the
method of the target is null. -/
def addSideD (S : Src) (G : Tgt) (f : Side K) (x : Nat) (d : VDst) : List (VA K) :=
  match f with
  | .rhs f =>
    if S.rhs ≠ .zero then
      [⟨.copy, boundFlags.wt (decide (S.rhs = .opposite)), .invJac x, .rhs f, d, none⟩]
    else if G.T.rhs ≠ .zero then [⟨.copy, .none, .none, .zero, d, none⟩]
    else []
  | .const c => [⟨.copy, boundFlags.wt false, .jac x, .const c, d, none⟩]

/-- `addVectorAssignment(VectorConstRef(tmp), to, false, false, useTRHS)` (Assignment.hpp, lines 179-207) -/
def addCell (A : AssignType) (c : Cell) (d : VDst) (v : Option VecFun) (flip : Bool) : List (VA K) :=
  [⟨A, boundFlags.wt flip, .none, .cell c, d, v⟩]

/-- `addBounds` (Assignment.hpp, lines 7-76) for a variable that is not substituted -/
def addBounds (S : Src) (G : Tgt) (x n : Nat) (p : BProp) (l u : Side K) (first : Bool) : List (VA K) :=
  match p with
  | .identity =>
    if first then addSide S G .copy l .l false ++ addSide S G .copy u .u false
    else addSide S G .max l .l false ++ addSide S G .min u .u false
  | .minusIdentity =>
    if first then addSide S G .copy l .u true ++ addSide S G .copy u .l true
    else addSide S G .max u .l true ++ addSide S G .min l .u true
  | .diagonal =>
    addSideD S G l x (tmp .tmp1 n) ++ addSideD S G u x (tmp .tmp2 n) ++
      addCell .copy .tmp1 (tmp .tmp3 n) none false ++ addCell .copy .tmp2 (tmp .tmp4 n) none false ++
      addCell .min .tmp2 (tmp .tmp3 n) none false ++ addCell .max .tmp1 (tmp .tmp4 n) none false ++
      (if first then
        addCell .copy .tmp3 (G.vec .l) (some .l) (decide (G.T.rhs = .opposite)) ++
          addCell .copy .tmp4 (G.vec .u) (some .u) (decide (G.T.rhs = .opposite))
      else
        addCell .max .tmp3 (G.vec .l) (some .l) (decide (G.T.rhs = .opposite)) ++
          addCell .min .tmp4 (G.vec .u) (some .u) (decide (G.T.rhs = .opposite)))

/-- `build(variable, first)` (Assignment.cpp, lines 296-336) for a double sided target; there is no matrix. -/
def buildBounds [Neg K] (big : K) (S : Src) (G : Tgt) (x n : Nat) (p : BProp) (first : Bool) : Asg K :=
  ⟨[], [],
    match S.type with
    | .equal => addBounds S G x n p (.rhs .e) (.rhs .e) first
    | .greaterThan => addBounds S G x n p (.rhs .l) (.const big) first
    | .lowerThan => addBounds S G x n p (.const (-big)) (.rhs .u) first
    | .doubleSided => addBounds S G x n p (.rhs .l) (.rhs .u) first, []⟩

/-! ## Updates -/

/-- `changeData(A, b)` for a linear target (AssignmentTarget.cpp, lines 159-171) -/
def Tgt.change2 (G : Tgt) (A b : Nat) : Tgt := { G with A := A, b := b }

/-- `changeData(A, l, u)` (AssignmentTarget.cpp, lines 173-178) -/
def Tgt.change3 (G : Tgt) (A l u : Nat) : Tgt := { G with A := A, l := l, u := u }

/-- `changeData(l, u)` (AssignmentTarget.cpp, lines 180-184) -/
def Tgt.changeB (G : Tgt) (l u : Nat) : Tgt := { G with l := l, u := u }

/-- `target().range().start = s` (LeastSquareSolver.cpp, line 207) -/
def Tgt.move (G : Tgt) (s : Nat) : Tgt := { G with T := { G.T with start := s } }

/-- `MatrixAssignment::updateTarget` (MatrixAssignment.cpp, lines 8-9) -/
def MA.updateTarget (G : Tgt) (a : MA) : MA := { a with dst := G.mat a.M a.colRange }

/-- `a.assignment.to((target_.*a.getTargetVector)())` (Assignment.cpp, lines 76 and 78): `none` is the call through a null pointer to
member. -/
def VA.updateTarget (G : Tgt) (a : VA K) : Option (VA K) :=
  match a.v with
  | some v => some { a with dst := G.vec v }
  | none => none

/-- A loop of updates of vector assignments -/
def updateVecs (G : Tgt) : List (VA K) → Option (List (VA K))
  | [] => some []
  | a :: l =>
    match a.updateTarget G with
    | none => none
    | some a =>
      match updateVecs G l with
      | none => none
      | some l => some (a :: l)

/-- `Assignment::onUpdatedTarget` (Assignment.cpp, lines 69-79); `none` is undefined behaviour. -/
def onUpdatedTarget (G : Tgt) (a : Asg K) : Option (Asg K) :=
  match updateVecs G a.vec with
  | none => none
  | some vec =>
    match updateVecs G a.vecSub with
    | none => none
    | some vecSub => some ⟨a.mat.map (MA.updateTarget G), a.matSub.map (MA.updateTarget G), vec, vecSub⟩

/-- `MatrixAssignment::updateMapping` (MatrixAssignment.cpp, lines 11-32); `none` is the exception. -/
def MA.updateMapping (V : Vars) (G : Tgt) (now : Bool) (a : MA) : Option MA :=
  if V.known a.x then
    let a := if (V.col a.x, V.dim a.x) ≠ a.colRange then { a with colRange := (V.col a.x, V.dim a.x) } else a
    some (if now then a.updateTarget G else a)
  else none

/-- A loop of `updateMapping`: what the list becomes, and whether the loop ends without exception -/
def updateMappings (V : Vars) (G : Tgt) (now : Bool) : List MA → List MA × Bool
  | [] => ([], true)
  | a :: l =>
    match a.updateMapping V G now with
    | none => (a :: l, false)
    | some a => (a :: (updateMappings V G now l).1, (updateMappings V G now l).2)

/-- `Assignment::onUpdatedMapping` (Assignment.cpp, lines 81-87): the assignments before the one that throws are already changed. -/
def onUpdatedMapping (V : Vars) (G : Tgt) (now : Bool) (a : Asg K) : Outcome (Asg K) Unit :=
  match updateMappings V G now a.mat with
  | (m, false) => .throw { a with mat := m }
  | (m, true) =>
    match updateMappings V G now a.matSub with
    | (ms, false) => .throw { a with mat := m, matSub := ms }
    | (ms, true) => .ok { a with mat := m, matSub := ms } ()

/-! ## Running -/

/-- The buffers of matrices, the buffers of vectors, and the temporary vectors of the assignment -/
structure Bufs (K : Type) where
  A : Nat → Nat → Nat → K
  v : Nat → Nat → K
  tmp : Cell → Nat → K

/-- The compiled assignment of a matrix assignment -/
def MA.op (a : MA) : MOp := ⟨a.assign, a.wt, a.src, a.dst.rows, a.dst.cols⟩

/-- The compiled assignment of a vector assignment -/
def VA.op (a : VA K) : VOp K := ⟨a.assign, a.wt, a.mult, a.src, a.dst.seg⟩

/-- The compiled assignments -/
def Asg.ops (a : Asg K) : Ops K := ⟨a.mat.map MA.op, a.matSub.map MA.op, a.vec.map VA.op, a.vecSub.map VA.op⟩

variable [Field K] [LinearOrder K]

/-- The run of a matrix assignment (Assignment.cpp, lines 117-121) -/
def MA.run (V : Vars) (D : Data K) (a : MA) (m : Bufs K) : Bufs K :=
  { m with A := fun i => if i = a.dst.buf then a.op.run V D (m.A i) else m.A i }

/-- The vector a cell stands for, when the cells of the target are in given buffers -/
def Bufs.cell (m : Bufs K) (b l u : Nat) : Cell → Nat → K
  | .b => m.v b
  | .l => m.v l
  | .u => m.v u
  | c => m.tmp c

/-- The run of a vector assignment (Assignment.cpp, lines 123-127). What it reads is never a vector of the target. -/
def VA.run (V : Vars) (D : Data K) (a : VA K) (m : Bufs K) : Bufs K :=
  let out := fun (old : Nat → K) =>
    (a.op.run V D ⟨fun _ _ => 0, fun c => if c = a.dst.seg.cell then old else m.tmp c⟩).vec a.dst.seg.cell
  if ext a.dst.seg.cell then { m with v := fun i => if i = a.dst.buf then out (m.v i) else m.v i }
  else { m with tmp := fun c => if c = a.dst.seg.cell then out (m.tmp c) else m.tmp c }

/-- `Assignment::run` (Assignment.cpp, lines 115-128) -/
def Asg.run (V : Vars) (D : Data K) (a : Asg K) (m : Bufs K) : Bufs K :=
  let m := (a.mat ++ a.matSub).foldl (fun m op => op.run V D m) m
  (a.vec ++ a.vecSub).foldl (fun m op => op.run V D m) m

end
end Verif.AU
