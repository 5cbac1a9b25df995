import Verif.Model.Outcome
import Verif.Model.CompiledAssignment
/-!
# Model of `Assignment` and `AssignmentTarget`
(src/scheme/Assignment.cpp, include/tvm/scheme/internal/Assignment.h, include/tvm/scheme/internal/Assignment.hpp,
src/scheme/AssignmentTarget.cpp, include/tvm/scheme/internal/MatrixAssignment.h)

An assignment is built once from what is fixed (conventions, sizes, variables, properties of the Jacobians) and gives four lists of
compiled assignments. They hold references: what they read (Jacobians, right hand sides, weights) is looked up at each run.

The variables are numbered. `parts` is the list of variables visited by the iteration on the partition of the variables of the source
by the substituted variables (Assignment.cpp, lines 542-548); different numbers are variables without common element.

Not modelled: quadratic targets (nothing assigns to them), the allocations. `onUpdatedTarget` and `onUpdatedMapping` are in
`Verif.Model.AssignmentUpdate`.
-/
set_option autoImplicit false

namespace Verif.AS
open Verif Verif.CA

/-- `constraint::Type` (include/tvm/constraint/enums.h, lines 12-26) -/
inductive CType where
  | equal | greaterThan | lowerThan | doubleSided
deriving Repr, DecidableEq

/-- `constraint::RHS` (include/tvm/constraint/enums.h, lines 29-37) -/
inductive Rhs where
  | zero | asGiven | opposite
deriving Repr, DecidableEq

/-- What `J.properties()` says about a Jacobian, as far as the assignments ask (Assignment.cpp, lines 436-455 and 486-505) -/
inductive JProp where
  | identity | minusIdentity | other
deriving Repr, DecidableEq

/-- `RHSFunction`: `e()`, `l()` or `u()` of a constraint (MatrixAssignment.h, lines 74-77) -/
inductive RhsFun where
  | e | l | u
deriving Repr, DecidableEq

/-- `MatrixFunction` (MatrixAssignment.h, lines 23-26) -/
inductive MatFun where
  | A | AFirstHalf | ASecondHalf
deriving Repr, DecidableEq

/-- `VectorFunction` (MatrixAssignment.h, lines 51-56) -/
inductive VecFun where
  | b | bFirstHalf | bSecondHalf | l | u
deriving Repr, DecidableEq

/-- The vectors in memory: those of the target, and the temporary vectors of the assignment (Assignment.h, `ReferenceableData`) -/
inductive Cell where
  | b | l | u | tmp1 | tmp2 | tmp3 | tmp4
deriving Repr, DecidableEq

/-- Members of `AssignmentTarget` that matter (AssignmentTarget.h, lines 105-120): the conventions and the row range. The matrix and the
vectors are in the memory. -/
structure Target where
  type : CType
  rhs : Rhs
  start : Nat
  size : Nat
deriving Repr, DecidableEq

/-- The constructors for linear constraints (AssignmentTarget.cpp, lines 16-34) refuse a double sided target with a zero right hand
side. -/
def Target.valid (T : Target) : Bool := !(decide (T.type = .doubleSided) && decide (T.rhs = .zero))

/-- A segment of a vector: cell, start, length -/
structure Seg where
  cell : Cell
  start : Nat
  len : Nat
deriving Repr, DecidableEq

/-- `l()`, `u()`, `b()`, `bFirstHalf()`, `bSecondHalf()` (AssignmentTarget.cpp, lines 75-82 and 98-108) -/
def Target.seg (T : Target) : VecFun → Seg
  | .b => ⟨.b, T.start, T.size⟩
  | .bFirstHalf => ⟨.b, T.start, T.size / 2⟩
  | .bSecondHalf => ⟨.b, T.start + T.size / 2, T.size / 2⟩
  | .l => ⟨.l, T.start, T.size⟩
  | .u => ⟨.u, T.start, T.size⟩

/-- The rows of `A(...)`, `AFirstHalf(...)`, `ASecondHalf(...)`: start and number (AssignmentTarget.cpp, lines 67-71 and 86-96) -/
def Target.rows (T : Target) : MatFun → Nat × Nat
  | .A => (T.start, T.size)
  | .AFirstHalf => (T.start, T.size / 2)
  | .ASecondHalf => (T.start + T.size / 2, T.size / 2)

/-- The variables: their sizes, whether they are in the vector of variables of the problem, and their first column
(`Variable::getMappingIn`, which throws for a variable that is not in the vector) -/
structure Vars where
  dim : Nat → Nat
  known : Nat → Bool
  col : Nat → Nat

/-- What a substitution `x = Σ A_i y_i + b` is for the building of an assignment: the `y_i`, and whether `b` is possibly non-zero
(Assignment.cpp, lines 150-151 and 471) -/
structure SubInfo where
  vars : List Nat
  useB : Bool
deriving Repr, DecidableEq

/-- The source constraint, and the substitutions as given by `substitutedVariables_` and `variableSubstitutions_`. -/
structure Src where
  type : CType
  rhs : Rhs
  size : Nat
  parts : List Nat
  prop : Nat → JProp
  subs : List (Nat × SubInfo)

/-- `xs.indexOf(*x)` and the substitution at this index (Assignment.cpp, lines 584-587) -/
def Src.sub (S : Src) (x : Nat) : Option SubInfo := (S.subs.find? fun p => p.1 == x).map (·.2)

/-! ## Compiled assignments -/

/-- The reference to a weight: none, minus, `±scalarWeight_`, `±anisotropicWeight_` -/
inductive Wt where
  | none | minus | scalar (neg : Bool) | diagonal (neg : Bool)
deriving Repr, DecidableEq

/-- The flags `useDefaultScalarWeight_` and `useDefaultAnisotropicWeight_` -/
structure Flags where
  defScalar : Bool
  defAniso : Bool
deriving Repr, DecidableEq

/-- The choice of the weight in `createAssignment` and `createMultiplicationAssignment` (Assignment.hpp, lines 85-108 and 121-144) -/
def Flags.wt (f : Flags) (flip : Bool) : Wt :=
  if f.defAniso then
    if f.defScalar then (if flip then .minus else .none)
    else .scalar flip
  else .diagonal flip

/-- What a vector assignment reads -/
inductive VFrom (K : Type) where
  | zero
  | rhs (f : RhsFun)
  | const (c : K)
  | cell (c : Cell)
  | subB (x : Nat)

/-- The multiplier of a vector assignment: none, the Jacobian of `x`, the inverse of the (diagonal) Jacobian of `x` -/
inductive VMult where
  | none | jac (x : Nat) | invJac (x : Nat)
deriving Repr, DecidableEq

/-- A compiled vector assignment -/
structure VOp (K : Type) where
  assign : AssignType
  wt : Wt
  mult : VMult
  src : VFrom K
  dst : Seg

/-- What a matrix assignment reads: nothing, the Jacobian of `x`, the matrix of `y` in the substitution of `x`, or the product of both -/
inductive MFrom where
  | zero | jac (x : Nat) | sub (x y : Nat) | prod (x y : Nat)
deriving Repr, DecidableEq

/-- A compiled matrix assignment; the target block is given by its rows and its columns (start and number). -/
structure MOp where
  assign : AssignType
  wt : Wt
  src : MFrom
  rows : Nat × Nat
  cols : Nat × Nat
deriving Repr, DecidableEq

/-- `matrixAssignments_`, `matrixSubstitutionAssignments_`, `vectorAssignments_`, `vectorSubstitutionAssignments_` -/
structure Ops (K : Type) where
  mat : List MOp
  matSub : List MOp
  vec : List (VOp K)
  vecSub : List (VOp K)

/-- No assignment -/
def Ops.nil {K : Type} : Ops K := ⟨[], [], [], []⟩

/-- Assignments added at the end of the lists -/
def Ops.app {K : Type} (a b : Ops K) : Ops K := ⟨a.mat ++ b.mat, a.matSub ++ b.matSub, a.vec ++ b.vec, a.vecSub ++ b.vecSub⟩

section
variable {K : Type}

/-! ## Building, general case -/

/-- `addVectorAssignment(f, v, flip)` for a method `f` of the source and a method of the target (Assignment.hpp, lines 179-207) -/
def addVec (S : Src) (T : Target) (fl : Flags) (A : AssignType) (f : RhsFun) (dst : Seg) (flip : Bool) : List (VOp K) :=
  if S.rhs ≠ .zero then
    let flip := if S.rhs = .opposite then !flip else flip
    let flip := if T.rhs = .opposite then !flip else flip
    [⟨A, fl.wt flip, .none, .rhs f, dst⟩]
  else if T.rhs ≠ .zero then [⟨A, .none, .none, .zero, dst⟩]
  else []

/-- `addVectorAssignment(d, v, flip)` for a constant (Assignment.hpp, lines 244-250): the conventions are ignored. -/
def addConst (fl : Flags) (A : AssignType) (d : K) (dst : Seg) (flip : Bool) : List (VOp K) :=
  [⟨A, fl.wt flip, .none, .const d, dst⟩]

/-- `addMatrixAssignment` (Assignment.cpp, lines 414-421) -/
def addMat (T : Target) (V : Vars) (fl : Flags) (x : Nat) (M : MatFun) (flip : Bool) : MOp :=
  ⟨.copy, fl.wt flip, .jac x, T.rows M, (V.col x, V.dim x)⟩

/-- `addZeroAssignment` (Assignment.cpp, lines 511-517) -/
def addZero (T : Target) (V : Vars) (x : Nat) (M : MatFun) : MOp :=
  ⟨.copy, .none, .zero, T.rows M, (V.col x, V.dim x)⟩

/-- The body of the loop of `addMatrixSubstitutionAssignments` (Assignment.cpp, lines 430-463), for the substitution of `x` and the
variable `y` in it -/
def addMatSub1 (S : Src) (T : Target) (V : Vars) (fl : Flags) (x : Nat) (M : MatFun) (flip : Bool) (y : Nat) : MOp :=
  match S.prop x with
  | .identity => ⟨if flip then .sub else .add, fl.wt false, .sub x y, T.rows M, (V.col y, V.dim y)⟩
  | .minusIdentity => ⟨if flip then .add else .sub, fl.wt false, .sub x y, T.rows M, (V.col y, V.dim y)⟩
  | .other => ⟨if flip then .sub else .add, fl.wt false, .prod x y, T.rows M, (V.col y, V.dim y)⟩

/-- `addVectorSubstitutionAssignments` (Assignment.cpp, lines 466-509) -/
def addVecSub (S : Src) (T : Target) (fl : Flags) (i : SubInfo) (dst : Seg) (x : Nat) (flip : Bool) : List (VOp K) :=
  if i.useB then
    let flip := if T.rhs = .asGiven then !flip else flip
    match S.prop x with
    | .identity => [⟨if flip then .sub else .add, fl.wt false, .none, .subB x, dst⟩]
    | .minusIdentity => [⟨if flip then .add else .sub, fl.wt false, .none, .subB x, dst⟩]
    | .other => [⟨if flip then .sub else .add, fl.wt false, .jac x, .subB x, dst⟩]
  else []

/-- The variables that are substituted into but are not variables of the source (Assignment.cpp, lines 559-575); the vector
`substitutedInto` does not hold a variable twice. -/
def intoVars (S : Src) : List Nat :=
  ((S.parts.flatMap fun x => match S.sub x with | some i => i.vars | none => []).eraseDups).filter fun y => !(S.parts.contains y)

/-- The last loop of `addAssignments` (Assignment.cpp, lines 580-598) -/
def addParts (S : Src) (T : Target) (V : Vars) (fl : Flags) (M : MatFun) (v1 : VecFun) (v2 : Option VecFun) (flip : Bool) :
    List Nat → Ops K
  | [] => .nil
  | x :: l =>
    if V.dim x = 0 then addParts S T V fl M v1 v2 flip l
    else
      match S.sub x with
      | some i =>
        Ops.app ⟨[], i.vars.map (addMatSub1 S T V fl x M flip), [],
            addVecSub S T fl i (T.seg v1) x flip ++
              (match v2 with | some v => addVecSub S T fl i (T.seg v) x flip | none => [])⟩
          (addParts S T V fl M v1 v2 flip l)
      | none => Ops.app ⟨[addMat T V fl x M flip], [], [], []⟩ (addParts S T V fl M v1 v2 flip l)

/-- `addAssignments` (Assignment.cpp, lines 519-599); `second` is the pair `f2`, `v2`. -/
def addAssignments (S : Src) (T : Target) (V : Vars) (fl : Flags) (M : MatFun) (f1 : RhsFun) (v1 : VecFun)
    (second : Option (RhsFun × VecFun)) (flip : Bool) : Ops K :=
  Ops.app
    ⟨(intoVars S).map fun y => addZero T V y M, [],
      addVec S T fl .copy f1 (T.seg v1) flip ++
        (match second with | some (f2, v2) => addVec S T fl .copy f2 (T.seg v2) flip | none => []), []⟩
    (addParts S T V fl M v1 (second.map (·.2)) flip S.parts)

/-- Whether all the calls to `getMappingIn` of `addAssignments` succeed (Assignment.cpp, lines 432, 572, 595); otherwise the constructor
throws. -/
def mapped (S : Src) (V : Vars) : Bool :=
  (intoVars S).all V.known &&
    S.parts.all fun x => decide (V.dim x = 0) || (match S.sub x with | some i => i.vars.all V.known | none => V.known x)

/-- `checkTarget` (Assignment.cpp, lines 130-180): whether it returns -/
def checkTarget (S : Src) (T : Target) : Bool :=
  (if S.type = .equal then decide (T.type = .equal ∨ T.type = .doubleSided) else decide (T.type ≠ .equal)) &&
  !(decide (S.rhs ≠ .zero ∨ S.subs.any (·.2.useB) = true) && decide (T.rhs = .zero)) &&
  (if S.type = .doubleSided then
      if T.type = .doubleSided then decide (T.size = S.size) else decide (T.size = 2 * S.size)
    else decide (T.size = S.size))

/-- `build(variables)` (Assignment.cpp, lines 190-294); `big` is `big_`. `none` is the exception. -/
def buildOps [Neg K] (big : K) (S : Src) (T : Target) (V : Vars) (fl : Flags) : Option (Ops K) :=
  match S.type with
  | .equal =>
    match T.type with
    | .equal => some (addAssignments S T V fl .A .e .b none false)
    | .doubleSided => some (addAssignments S T V fl .A .e .l (some (.e, .u)) false)
    | _ => none
  | .doubleSided =>
    match T.type with
    | .doubleSided => some (addAssignments S T V fl .A .l .l (some (.u, .u)) false)
    | .greaterThan =>
      some ((addAssignments S T V fl .AFirstHalf .l .bFirstHalf none false).app
        (addAssignments S T V fl .ASecondHalf .u .bSecondHalf none true))
    | _ =>
      some ((addAssignments S T V fl .AFirstHalf .u .bFirstHalf none false).app
        (addAssignments S T V fl .ASecondHalf .l .bSecondHalf none true))
  | ty =>
    let flip := decide (ty = .lowerThan)
    let f := if ty = .lowerThan then RhsFun.u else RhsFun.l
    match T.type with
    | .equal => none
    | .greaterThan => some (addAssignments S T V fl .A f .b none flip)
    | .lowerThan => some (addAssignments S T V fl .A f .b none (!flip))
    | .doubleSided =>
      if ty = .greaterThan then
        some ((addAssignments S T V fl .A f .l none false).app ⟨[], [], addConst fl .copy big (T.seg .u) false, []⟩)
      else
        some ((addAssignments S T V fl .A f .u none false).app ⟨[], [], addConst fl .copy (-big) (T.seg .l) false, []⟩)

/-- The constructor for linear constraints (Assignment.cpp, lines 20-36), for given flags (see `processRequirements`). `none` is an
exception. -/
def create [Neg K] (big : K) (S : Src) (T : Target) (V : Vars) (fl : Flags) : Option (Ops K) :=
  if checkTarget S T && mapped S V then buildOps big S T V fl else none

/-! ## Running -/

/-- The four weights of `ReferenceableData` -/
structure Weights (K : Type) where
  s : K
  ms : K
  a : Nat → K
  ma : Nat → K

/-- What the references of the compiled assignments point to, at the time of a run: the Jacobians and right hand sides of the source, the
matrices and vectors of the substitutions, the weights. -/
structure Data (K : Type) where
  jac : Nat → Nat → Nat → K
  e : Nat → K
  l : Nat → K
  u : Nat → K
  subA : Nat → Nat → Nat → Nat → K
  subB : Nat → Nat → K
  w : Weights K

/-- The target matrix and all the vectors -/
structure Mem (K : Type) where
  A : Nat → Nat → K
  vec : Cell → Nat → K

variable [Field K] [LinearOrder K]

/-- The `WeightMult` of a compiled assignment -/
def Wt.kind : Wt → WeightMult
  | .none => .none
  | .minus => .minus
  | .scalar _ => .scalar
  | .diagonal _ => .diagonal

/-- The scalar a compiled assignment refers to -/
def Wt.scal (w : Weights K) : Wt → K
  | .scalar neg => if neg then w.ms else w.s
  | _ => 0

/-- The diagonal a compiled assignment refers to -/
def Wt.diag (w : Weights K) : Wt → Nat → K
  | .diagonal neg => if neg then w.ma else w.a
  | _ => fun _ => 0

/-- The `Source` of a vector assignment, with the constant and the vector -/
def VFrom.get (D : Data K) (m : Mem K) : VFrom K → Source × K × (Nat → K)
  | .zero => (.zero, 0, fun _ => 0)
  | .rhs .e => (.external, 0, D.e)
  | .rhs .l => (.external, 0, D.l)
  | .rhs .u => (.external, 0, D.u)
  | .const c => (.constant, c, fun _ => 0)
  | .cell c => (.external, 0, m.vec c)
  | .subB x => (.external, 0, D.subB x)

/-- The `MatrixMult` of a vector assignment, with the matrix and its number of columns -/
def VMult.get (D : Data K) (V : Vars) : VMult → MatrixMult × (Nat → Nat → K) × Nat
  | .none => (.identity, fun _ _ => 0, 0)
  | .jac x => (.general, D.jac x, V.dim x)
  | .invJac x => (.inverseDiagonal, D.jac x, V.dim x)

/-- The run of a vector assignment. (The compiled assignment always exists: no custom multiplier is used.) -/
def VOp.run (V : Vars) (D : Data K) (op : VOp K) (m : Mem K) : Mem K :=
  { m with vec := fun c => if c = op.dst.cell then
      writeSeg (m.vec c) op.dst.start op.dst.len fun out =>
        (runV op.assign op.wt.kind (op.mult.get D V).1 (op.src.get D m).1 (op.wt.scal D.w) (op.wt.diag D.w) (op.mult.get D V).2.1
          (op.mult.get D V).2.2 (op.src.get D m).2.1 (op.src.get D m).2.2 out).getD out
    else m.vec c }

/-- The `Source` of a matrix assignment and the matrix, its `MatrixMult` and the multiplier with its number of rows -/
def MFrom.get (D : Data K) (V : Vars) : MFrom → (Source × (Nat → Nat → K)) × (MatrixMult × (Nat → Nat → K) × Nat)
  | .zero => ((.zero, fun _ _ => 0), (.identity, fun _ _ => 0, 0))
  | .jac x => ((.external, D.jac x), (.identity, fun _ _ => 0, 0))
  | .sub x y => ((.external, D.subA x y), (.identity, fun _ _ => 0, 0))
  | .prod x y => ((.external, D.jac x), (.general, D.subA x y, V.dim x))

/-- The run of a matrix assignment -/
def MOp.run (V : Vars) (D : Data K) (op : MOp) (A : Nat → Nat → K) : Nat → Nat → K :=
  writeBlock A op.rows.1 op.cols.1 op.rows.2 op.cols.2 fun out =>
    (runM op.assign op.wt.kind (op.src.get D V).2.1 (op.src.get D V).1.1 (op.wt.scal D.w) (op.wt.diag D.w) (op.src.get D V).2.2.1
      (op.src.get D V).2.2.2 (op.src.get D V).1.2 out).getD out

/-- `Assignment::run` (Assignment.cpp, lines 115-128) -/
def Ops.run (V : Vars) (D : Data K) (o : Ops K) (m : Mem K) : Mem K :=
  let A := (o.mat ++ o.matSub).foldl (fun A op => op.run V D A) m.A
  (o.vec ++ o.vecSub).foldl (fun m op => op.run V D m) { m with A := A }

/-! ## Weights -/

/-- `requirements::ViolationEvaluationType` (include/tvm/requirements/ViolationEvaluation.h) -/
inductive Violation where
  | l1 | l2 | linf
deriving Repr, DecidableEq

/-- What `SolvingRequirements` holds for an assignment: the weights with their `isDefault` (include/tvm/requirements/abstract/SingleSolvingRequirement.h,
lines 26-77); the default weight is 1, the default anisotropic weight is an empty vector. -/
structure Req (K : Type) where
  violation : Violation
  weight : K
  weightDefault : Bool
  aniso : Nat → K
  anisoSize : Nat
  anisoDefault : Bool

/-- `processRequirements` (Assignment.cpp, lines 370-412): the flags and the weights. `sqrt` is `std::sqrt`. `none` is the exception. -/
def processRequirements (sqrt : K → K) (req : Option (Req K)) (scal : K) : Option (Flags × Weights K) :=
  let init : Weights K := ⟨1, -1, fun _ => 0, fun _ => 0⟩
  match req with
  | none => some (⟨true, true⟩, init)
  | some r =>
    match r.violation with
    | .l1 => none
    | .linf => none
    | .l2 =>
      let (ds, w) :=
        if r.weightDefault = true ∧ scal = 1 then (true, (⟨1, -1, init.a, init.ma⟩ : Weights K))
        else (false, ⟨sqrt r.weight * scal, -(sqrt r.weight * scal), init.a, init.ma⟩)
      if r.anisoDefault then some (⟨ds, true⟩, w)
      else some (⟨ds, false⟩, ⟨w.s, w.ms, fun i => sqrt (r.aniso i) * w.s, fun i => -(sqrt (r.aniso i) * w.s)⟩)

/-- `onUpdateWeights` (Assignment.cpp, lines 89-113): the new weights. `throw` is the exception (with the weights it leaves), the
undefined behaviour is the use of null requirements. `isConstant(1)` is taken exactly. -/
def onUpdateWeights (sqrt : K → K) (req : Option (Req K)) (scal : K) (T : Target) (fl : Flags) (w : Weights K) (scalar vector : Bool) :
    Outcome (Weights K) Unit :=
  match req with
  | none => if scalar || vector then .ub else .ok w ()
  | some r =>
    if scalar ∧ fl.defScalar ∧ r.weight ≠ 1 then .throw w
    else
      let w := if scalar then (⟨sqrt r.weight * scal, -(sqrt r.weight * scal), w.a, w.ma⟩ : Weights K) else w
      if vector then
        if r.anisoDefault = false ∧ r.anisoSize ≠ T.size then .throw w
        else if fl.defAniso ∧ r.anisoDefault = false ∧ ¬ (∀ i < r.anisoSize, r.aniso i = 1) then .throw w
        else .ok ⟨w.s, w.ms, fun i => sqrt (r.aniso i) * w.s, fun i => -(sqrt (r.aniso i) * w.s)⟩ ()
      else .ok w ()

/-- The part of `LeastSquareSolver::updateWeights` on one assignment (src/solver/LeastSquareSolver.cpp, lines 311-323): the flags the
assignment is built with, and its weights; `reprocess` is the constructor again (Assignment.cpp, lines 50-53 and 60-62). -/
def updateWeights (sqrt : K → K) (req : Option (Req K)) (scal : K) (T : Target) (fl : Flags) (w : Weights K) (scalar vector : Bool) :
    Outcome (Flags × Weights K) Unit :=
  if (scalar && fl.defScalar) || (vector && fl.defAniso) then
    match processRequirements sqrt req scal with
    | none => .throw (fl, w)
    | some (fl', w') => .ok (fl', w') ()
  else
    match onUpdateWeights sqrt req scal T fl w scalar vector with
    | .ok w' _ => .ok (fl, w') ()
    | .throw w' => .throw (fl, w')
    | .ub => .ub

/-! ## Bounds -/

/-- The matrix of a bound: identity, minus identity, or diagonal -/
inductive BProp where
  | identity | minusIdentity | diagonal
deriving Repr, DecidableEq

/-- A side of a bound: a method of the source or a constant -/
inductive Side (K : Type) where
  | rhs (f : RhsFun)
  | const (c : K)

/-- The flags for bounds (Assignment.cpp, lines 42-43) -/
def boundFlags : Flags := ⟨true, true⟩

/-- `addVectorAssignment(f, v, flip)` for a side (Assignment.hpp, lines 179-207 and 244-250); `T` is the target, always `AS_GIVEN` for the
bounds of a solver (AssignmentTarget.cpp, lines 36-39). -/
def addSide (S : Src) (T : Target) (A : AssignType) (f : Side K) (dst : Seg) (flip : Bool) : List (VOp K) :=
  match f with
  | .rhs f => addVec S T boundFlags A f dst flip
  | .const c => addConst boundFlags A c dst flip

/-- `addVectorAssignment(f, v, D, flip, true, false)` for a side and a temporary vector (Assignment.hpp, lines 209-242): the source is
divided by the diagonal. For a constant (lines 252-258) the kind of multiplication is left to its default (Assignment.h,
`createMultiplicationAssignment`), which is the product. -/
def addSideD (S : Src) (T : Target) (f : Side K) (x : Nat) (dst : Seg) : List (VOp K) :=
  match f with
  | .rhs f =>
    if S.rhs ≠ .zero then
      [⟨.copy, boundFlags.wt (decide (S.rhs = .opposite)), .invJac x, .rhs f, dst⟩]
    else if T.rhs ≠ .zero then [⟨.copy, .none, .none, .zero, dst⟩]
    else []
  | .const c => [⟨.copy, boundFlags.wt false, .jac x, .const c, dst⟩]

/-- `addVectorAssignment(VectorConstRef(tmp), v, false, false, useTRHS)` (Assignment.hpp, lines 179-207); `flip` is the effect of the
convention of the target. -/
def addCell (A : AssignType) (c : Cell) (dst : Seg) (flip : Bool) : List (VOp K) :=
  [⟨A, boundFlags.wt flip, .none, .cell c, dst⟩]

/-- `addBounds` (Assignment.hpp, lines 7-76) for a variable `x` that is not substituted (the constructor for bounds has no
substitution), of size `n` -/
def addBounds (S : Src) (T : Target) (x n : Nat) (p : BProp) (l u : Side K) (first : Bool) : List (VOp K) :=
  match p with
  | .identity =>
    if first then addSide S T .copy l (T.seg .l) false ++ addSide S T .copy u (T.seg .u) false
    else addSide S T .max l (T.seg .l) false ++ addSide S T .min u (T.seg .u) false
  | .minusIdentity =>
    if first then addSide S T .copy l (T.seg .u) true ++ addSide S T .copy u (T.seg .l) true
    else addSide S T .max u (T.seg .l) true ++ addSide S T .min l (T.seg .u) true
  | .diagonal =>
    addSideD S T l x ⟨.tmp1, 0, n⟩ ++ addSideD S T u x ⟨.tmp2, 0, n⟩ ++
      addCell .copy .tmp1 ⟨.tmp3, 0, n⟩ false ++ addCell .copy .tmp2 ⟨.tmp4, 0, n⟩ false ++
      addCell .min .tmp2 ⟨.tmp3, 0, n⟩ false ++ addCell .max .tmp1 ⟨.tmp4, 0, n⟩ false ++
      (if first then
        addCell .copy .tmp3 (T.seg .l) (decide (T.rhs = .opposite)) ++ addCell .copy .tmp4 (T.seg .u) (decide (T.rhs = .opposite))
      else
        addCell .max .tmp3 (T.seg .l) (decide (T.rhs = .opposite)) ++ addCell .min .tmp4 (T.seg .u) (decide (T.rhs = .opposite)))

/-- `build(variable, first)` (Assignment.cpp, lines 296-336) for a double sided target -/
def buildBounds (big : K) (S : Src) (T : Target) (x n : Nat) (p : BProp) (first : Bool) : List (VOp K) :=
  match S.type with
  | .equal => addBounds S T x n p (.rhs .e) (.rhs .e) first
  | .greaterThan => addBounds S T x n p (.rhs .l) (.const big) first
  | .lowerThan => addBounds S T x n p (.const (-big)) (.rhs .u) first
  | .doubleSided => addBounds S T x n p (.rhs .l) (.rhs .u) first

/-- `addBound` (Assignment.cpp, lines 601-646) for a one sided target that is not substituted: the list of assignments. The constructor
of such a target (AssignmentTarget.cpp, lines 41-49) stores the vector in `b_`, not in `l_` or `u_`; the methods `l()` and `u()` take
a segment of an empty vector, which is out of range as soon as the target is not empty: `none`. -/
def addBound (S : Src) (T : Target) (x : Nat) (p : BProp) (f : RhsFun) (first : Bool) : Option (List (VOp K)) :=
  let gt := decide (T.type = .greaterThan)
  let v := if gt then VecFun.l else VecFun.u
  let A := if first then AssignType.copy else if gt then .max else .min
  match p with
  | .identity => if T.size = 0 then some (addVec S T boundFlags A f (T.seg v) false) else none
  | .minusIdentity => some []
  | .diagonal =>
    if T.size = 0 then some [⟨A, boundFlags.wt (decide (S.rhs = .opposite)), .invJac x, .rhs f, T.seg v⟩] else none

end
end Verif.AS
