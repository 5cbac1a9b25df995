import Verif.Model.Assignment
/-!
# Model of `AssignmentTarget`
(src/scheme/AssignmentTarget.cpp, include/tvm/scheme/internal/AssignmentTarget.h)

The matrices and vectors are those of a solver: a reference is an address and sizes. The row ranges are objects shared with the solver,
which changes them (`LeastSquareSolver`): they are in a memory `R`.

`none` stands for what has no defined result: a failing assertion (of the class, or of Eigen for a block out of the matrix), a null
pointer that is dereferenced, a member read though no constructor wrote it. The exceptions of the constructors are told apart.

Simplified: `Ref` of the vectors without inner stride; the template `Ref` objects are the references themselves (`new(&A_) MatrixRef(A)`
replaces the reference).
-/
set_option autoImplicit false

namespace Verif.AT
open Verif.AS (CType Rhs)

/-- `TargetType` (AssignmentTarget.h, lines 23-27) -/
inductive Kind where
  | linear | quadratic
deriving Repr, DecidableEq

/-- `MatrixRef`: address of the matrix (none: `nullptr`) and sizes -/
structure MRef where
  addr : Option Nat
  rows : Nat
  cols : Nat
deriving Repr, DecidableEq

/-- `VectorRef` -/
structure VRef where
  addr : Option Nat
  size : Nat
deriving Repr, DecidableEq

/-- `Eigen::Map<Eigen::MatrixXd>(nullptr, 0, 0)` (AssignmentTarget.h, lines 115-116) -/
def MRef.null : MRef := ⟨none, 0, 0⟩

/-- `Eigen::Map<Eigen::VectorXd>(nullptr, 0)` (AssignmentTarget.h, lines 117-120) -/
def VRef.null : VRef := ⟨none, 0⟩

/-- `Range` (include/tvm/Range.h), with the non-negative values that a solver gives it -/
structure Rows where
  start : Nat
  dim : Nat
deriving Repr, DecidableEq

/-- The members (AssignmentTarget.h, lines 105-120). `type` and `rhs` are `none` if no constructor wrote them, `range` is `none` for a null
pointer. -/
structure Tgt where
  kind : Kind
  type : Option CType
  rhs : Option Rhs
  range : Option Nat
  A : MRef := .null
  Q : MRef := .null
  l : VRef := .null
  u : VRef := .null
  b : VRef := .null
  q : VRef := .null
deriving Repr, DecidableEq

/-! ## Constructors: `none` is an exception -/

/-- `Ax = ±b`, `Ax <= ±b`, `Ax >= ±b` (lines 20-25) -/
def mkAb (range : Nat) (A : MRef) (b : VRef) (ct : CType) (cr : Rhs) : Option Tgt :=
  if ct = .doubleSided then none else some { kind := .linear, type := some ct, rhs := some cr, range := some range, A := A, b := b }

/-- `Ax = 0`, `Ax <= 0`, `Ax >= 0` (lines 16-18) -/
def mkA (range : Nat) (A : MRef) (ct : CType) : Option Tgt := mkAb range A .null ct .zero

/-- `l <= Ax <= u` (lines 27-34) -/
def mkAlu (range : Nat) (A : MRef) (l u : VRef) (cr : Rhs) : Option Tgt :=
  if cr = .zero then none
  else some { kind := .linear, type := some .doubleSided, rhs := some cr, range := some range, A := A, l := l, u := u }

/-- `l <= x <= u` (lines 36-39) -/
def mkLu (range : Nat) (l u : VRef) : Tgt :=
  { kind := .linear, type := some .doubleSided, rhs := some .asGiven, range := some range, l := l, u := u }

/-- `x >= b`, `x <= b` (lines 41-49): `constraintRhs_` is not in the list of initializers, and has no default value. -/
def mkBound (range : Nat) (lu : VRef) (ct : CType) : Option Tgt :=
  if ct = .greaterThan ∨ ct = .lowerThan then
    some { kind := .linear, type := some ct, rhs := none, range := some range, b := lu }
  else none

/-- Quadratic function (lines 51-53): `cstrType_` and `range_` are not written. -/
def mkQ (Q : MRef) (q : VRef) (cr : Rhs) : Tgt := { kind := .quadratic, type := none, rhs := some cr, range := none, Q := Q, q := q }

/-! ## Accessors -/

/-- The rows of the range, at present -/
def Tgt.rows (T : Tgt) (R : Nat → Rows) : Option Rows := T.range.map R

/-- `size()` (line 61) -/
def Tgt.size (T : Tgt) (R : Nat → Rows) : Option Nat := (T.rows R).map (·.dim)

/-- A block of a matrix: address, first row, number of rows, first column, number of columns -/
structure Block where
  addr : Option Nat
  row : Nat
  rows : Nat
  col : Nat
  cols : Nat
deriving Repr, DecidableEq

/-- `M.block(i, j, m, n)` of Eigen, which asserts that the block is in the matrix -/
def MRef.block (M : MRef) (i j m n : Nat) : Option Block :=
  if i + m ≤ M.rows ∧ j + n ≤ M.cols then some ⟨M.addr, i, m, j, n⟩ else none

/-- A segment of a vector -/
structure Segment where
  addr : Option Nat
  start : Nat
  len : Nat
deriving Repr, DecidableEq

/-- `v.segment(i, n)` of Eigen -/
def VRef.segment (v : VRef) (i n : Nat) : Option Segment := if i + n ≤ v.size then some ⟨v.addr, i, n⟩ else none

/-- `A(colStart, colDim)` (lines 67-71) -/
def Tgt.getA (T : Tgt) (R : Nat → Rows) (c d : Nat) : Option Block :=
  match T.rows R with
  | none => none
  | some r => T.A.block r.start c r.dim d

/-- `AFirstHalf(colStart, colDim)` (lines 86-90) -/
def Tgt.getAFirst (T : Tgt) (R : Nat → Rows) (c d : Nat) : Option Block :=
  match T.rows R with
  | none => none
  | some r => T.A.block r.start c (r.dim / 2) d

/-- `ASecondHalf(colStart, colDim)` (lines 92-96) -/
def Tgt.getASecond (T : Tgt) (R : Nat → Rows) (c d : Nat) : Option Block :=
  match T.rows R with
  | none => none
  | some r => T.A.block (r.start + r.dim / 2) c (r.dim / 2) d

/-- `l()` (lines 75-76) -/
def Tgt.getl (T : Tgt) (R : Nat → Rows) : Option Segment :=
  match T.rows R with
  | none => none
  | some r => T.l.segment r.start r.dim

/-- `u()` (lines 78-79) -/
def Tgt.getu (T : Tgt) (R : Nat → Rows) : Option Segment :=
  match T.rows R with
  | none => none
  | some r => T.u.segment r.start r.dim

/-- `b()` (lines 81-82) -/
def Tgt.getb (T : Tgt) (R : Nat → Rows) : Option Segment :=
  match T.rows R with
  | none => none
  | some r => T.b.segment r.start r.dim

/-- `bFirstHalf()` (lines 98-102) -/
def Tgt.getbFirst (T : Tgt) (R : Nat → Rows) : Option Segment :=
  match T.rows R with
  | none => none
  | some r => T.b.segment r.start (r.dim / 2)

/-- `bSecondHalf()` (lines 104-108) -/
def Tgt.getbSecond (T : Tgt) (R : Nat → Rows) : Option Segment :=
  match T.rows R with
  | none => none
  | some r => T.b.segment (r.start + r.dim / 2) (r.dim / 2)

/-! ## Changing the data -/

/-- `constraintRhs_ != constraint::RHS::ZERO`: undefined if it was not written -/
def Tgt.rhsNotZero (T : Tgt) : Bool := match T.rhs with | none => false | some r => decide (r ≠ .zero)

/-- `setA` (lines 110-115) -/
def Tgt.setA (T : Tgt) (A : MRef) : Option Tgt := if T.kind = .linear then some { T with A := A } else none

/-- `setQ` (lines 117-122) -/
def Tgt.setQ (T : Tgt) (Q : MRef) : Option Tgt := if T.kind = .quadratic then some { T with Q := Q } else none

/-- `setl` (lines 124-131) -/
def Tgt.setl (T : Tgt) (l : VRef) : Option Tgt :=
  if T.kind = .linear ∧ T.type = some .doubleSided ∧ T.rhsNotZero = true then some { T with l := l } else none

/-- `setu` (lines 133-140) -/
def Tgt.setu (T : Tgt) (u : VRef) : Option Tgt :=
  if T.kind = .linear ∧ T.type = some .doubleSided ∧ T.rhsNotZero = true then some { T with u := u } else none

/-- `setb` (lines 142-149) -/
def Tgt.setb (T : Tgt) (b : VRef) : Option Tgt :=
  if T.kind = .linear ∧ T.type.isSome = true ∧ T.type ≠ some .doubleSided ∧ T.rhsNotZero = true then some { T with b := b } else none

/-- `setq` (lines 151-157) -/
def Tgt.setq (T : Tgt) (q : VRef) : Option Tgt :=
  if T.kind = .quadratic ∧ T.rhsNotZero = true then some { T with q := q } else none

/-- `changeData(AQ, bq)` (lines 159-171) -/
def Tgt.changeAb (T : Tgt) (AQ : MRef) (bq : VRef) : Option Tgt :=
  match T.kind with
  | .linear => (T.setA AQ).bind (·.setb bq)
  | .quadratic => (T.setQ AQ).bind (·.setq bq)

/-- `changeData(A, l, u)` (lines 173-178) -/
def Tgt.changeAlu (T : Tgt) (A : MRef) (l u : VRef) : Option Tgt := ((T.setA A).bind (·.setl l)).bind (·.setu u)

/-- `changeData(l, u)` (lines 180-184) -/
def Tgt.changeLu (T : Tgt) (l u : VRef) : Option Tgt := (T.setl l).bind (·.setu u)

/-- What `Assignment` sees of a target when it is built (Assignment.cpp, lines 130-180 and 190-294): it reads the conventions and the size. -/
def Tgt.view (T : Tgt) (R : Nat → Rows) : Option AS.Target :=
  match T.type, T.rhs, T.rows R with
  | some t, some r, some w => some ⟨t, r, w.start, w.dim⟩
  | _, _, _ => none

end Verif.AT
