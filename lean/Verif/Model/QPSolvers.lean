import Verif.Model.Outcome
import Mathlib.Algebra.Field.Basic
import Mathlib.Algebra.BigOperators.Group.Finset.Basic
import Mathlib.Order.Lattice
import Mathlib.Order.Defs.LinearOrder
/-!
# Model of the least-squares solvers (src/solver/QLDLeastSquareSolver.cpp, QuadprogLeastSquareSolver.cpp, LSSOLLeastSquareSolver.cpp, LexLSLeastSquareSolver.cpp)

The data that each of the four classes keeps, and the problem it hands to the underlying solver at the end of `LeastSquareSolver::solve`
(src/solver/LeastSquareSolver.cpp, lines 139-167). Matrices and vectors are functions of their indices, with their sizes kept aside; what
Eigen leaves uninitialised after a `resize` is an arbitrary content (`Junk`). The entries are in a field `K` instead of floating-point numbers.

The assignments of the objectives, constraints and bounds (Model/Assignment.lean, C34 to C38) are summed up by what they write: in its rows, a constraint writes
the entries of the columns of its variables, with a sign that depends on the convention of the target, and the right-hand side. The other
entries are left as they are. The bounds are intersected with what is present.
-/
set_option autoImplicit false

namespace Verif.QP

variable {K : Type} [Field K] [LinearOrder K]

/-- Uninitialised content -/
structure Junk (K : Type) where
  vec : Nat → K
  mat : Nat → Nat → K

/-- What the constraints and objectives hold at the time of a resolution, by row. `none`: the row has no assignment for the column, or for the right-hand side. The rows `eq` ask for `a x = eqRhs`,
the rows `ineq` for `a x ≥ ineqRhs` (a double-sided constraint giving two rows), and `lo`, `up` are the lists of the bounds put on a component of `x`. -/
structure Data (K : Type) where
  obj : Nat → Nat → Option K
  objRhs : Nat → Option K
  eq : Nat → Nat → Option K
  eqRhs : Nat → K
  ineq : Nat → Nat → Option K
  ineqRhs : Nat → K
  lo : Nat → List K
  up : Nat → List K

/-- The types of target used by the solvers (include/tvm/constraint/enums.h) -/
inductive Ty where
  | equal | greater | lower
deriving DecidableEq, Repr

/-- The conventions of the right-hand side used by the solvers (include/tvm/constraint/enums.h) -/
inductive Rhs where
  | asGiven | opposite
deriving DecidableEq, Repr

/-- Sign with which a row `a x = b` or `a x ≥ b` is written (src/scheme/Assignment.cpp, lines 190-294): the row is changed into its opposite for a target `LOWER_THAN`. -/
def coefSign : Ty → K
  | .lower => -1
  | _ => 1

/-- Sign with which the right-hand side is written (src/scheme/Assignment.cpp, lines 190-294) -/
def rhsSign (t : Ty) : Rhs → K
  | .asGiven => coefSign t
  | .opposite => -coefSign t

/-- The assignments of `m` rows starting at the row `off`: matrix -/
def putRows (off m : Nat) (t : Ty) (w : Nat → Nat → Option K) (M : Nat → Nat → K) : Nat → Nat → K :=
  fun i j => if off ≤ i ∧ i < off + m then (match w (i - off) j with | some v => coefSign t * v | none => M i j) else M i j

/-- The assignments of `m` rows starting at the row `off`: right-hand side -/
def putVec (off m : Nat) (t : Ty) (r : Rhs) (w : Nat → K) (v : Nat → K) : Nat → K :=
  fun i => if off ≤ i ∧ i < off + m then rhsSign t r * w (i - off) else v i

/-- The assignments of `m` rows of which some may have none: right-hand side -/
def putRhs (off m : Nat) (t : Ty) (r : Rhs) (w : Nat → Option K) (v : Nat → K) : Nat → K :=
  fun i => if off ≤ i ∧ i < off + m then (match w (i - off) with | some b => rhsSign t r * b | none => v i) else v i

/-- The assignments of the lower bounds in the segment of size `n` starting at `off` (src/scheme/internal/CompiledAssignment.h, assignment type `MAX`) -/
def putLo (off n : Nat) (l : Nat → List K) (v : Nat → K) : Nat → K :=
  fun i => if off ≤ i ∧ i < off + n then (l (i - off)).foldl max (v i) else v i

/-- The assignments of the upper bounds (assignment type `MIN`) -/
def putUp (off n : Nat) (l : Nat → List K) (v : Nat → K) : Nat → K :=
  fun i => if off ≤ i ∧ i < off + n then (l (i - off)).foldl min (v i) else v i

/-- `segment(off, n).setConstant(k)` -/
def setSeg (off n : Nat) (k : K) (v : Nat → K) : Nat → K := fun i => if off ≤ i ∧ i < off + n then k else v i

/-- The matrix `D_` after `resize_` (QLDLeastSquareSolver.cpp, lines 34-46; QuadprogLeastSquareSolver.cpp, lines 38-50): zero, or with `k` on the diagonal of the last `n` rows -/
def freshD (damped : Bool) (nObj n : Nat) (k : K) : Nat → Nat → K :=
  fun i j => if damped = true ∧ nObj ≤ i ∧ i < nObj + n ∧ i = nObj + j then k else 0

/-- `Mᵀ N` for `m` rows -/
def tMul (m : Nat) (M N : Nat → Nat → K) : Nat → Nat → K := fun i j => ∑ k ∈ Finset.range m, M k i * N k j

/-- `Mᵀ v` for `m` rows -/
def tMulVec (m : Nat) (M : Nat → Nat → K) (v : Nat → K) : Nat → K := fun i => ∑ k ∈ Finset.range m, M k i * v k

/-- Identity matrix -/
def one : Nat → Nat → K := fun i j => if i = j then 1 else 0

/-- Options of the solvers (QLDLeastSquareSolver.h, lines 18-28; QuadprogLeastSquareSolver.h, lines 20-30) -/
structure Opts (K : Type) where
  big : K
  cholesky : Bool
  choleskyDamping : K
  damping : K

/-- `HouseholderQR::compute` followed by `matrixQR().topRows(n)`: a function of the number of rows, the number of columns and the matrix -/
abbrev QR (K : Type) := Nat → Nat → (Nat → Nat → K) → Nat → Nat → K

/-- What gives the quadratic part of the cost: the matrix, its Cholesky factor `R` (in the upper triangle) or the inverse of this factor. With the size of the matrix -/
inductive Quad (K : Type) where
  | full (n : Nat) (Q : Nat → Nat → K)
  | factor (n : Nat) (R : Nat → Nat → K)
  | inverse (n : Nat) (J : Nat → Nat → K)

/-! ## QLD -/

/-- The members of `QLDLeastSquareSolver` (QLDLeastSquareSolver.h, lines 71-97) and the sizes of its base class. `nQ` is the size of `Q_`. -/
structure Qld (K : Type) where
  n : Nat
  nObj : Nat
  nEq : Nat
  nIneq : Nat
  under : Bool
  autoMin : Bool
  D : Nat → Nat → K
  e : Nat → K
  nQ : Nat
  Q : Nat → Nat → K
  nC : Nat
  c : Nat → K
  A : Nat → Nat → K
  b : Nat → K
  xl : Nat → K
  xu : Nat → K

/-- The object when it is constructed (QLDLeastSquareSolver.cpp, lines 14-18): empty matrices -/
def Qld.new (j : Junk K) : Qld K := ⟨0, 0, 0, 0, false, false, j.mat, j.vec, 0, j.mat, 0, j.vec, j.mat, j.vec, j.vec, j.vec⟩

/-- `resize_` (QLDLeastSquareSolver.cpp, lines 27-74), with the members of the base class set around its call (LeastSquareSolver.cpp, lines 68-71 and 188-189). A `resize` that does
not change the size keeps the content. -/
def Qld.resize (o : Opts K) (n nObj nEq nIneq : Nat) (j : Junk K) (s : Qld K) : Qld K :=
  let under := decide (nObj < n)
  { s with
    n := n, nObj := nObj, nEq := nEq, nIneq := nIneq, under := under
    D := freshD (o.cholesky && under) nObj n o.choleskyDamping
    e := j.vec
    nQ := if o.cholesky then s.nQ else n
    Q := if o.cholesky || decide (s.nQ = n) then s.Q else j.mat
    nC := n
    c := if s.nC = n then s.c else j.vec
    A := fun _ _ => 0
    b := j.vec
    xl := fun _ => -o.big
    xu := fun _ => o.big }

/-- `initializeBuild_` (QLDLeastSquareSolver.cpp, lines 20-25) -/
def Qld.build (o : Opts K) (n nObj nEq nIneq : Nat) (j : Junk K) (s : Qld K) : Qld K :=
  { s.resize o n nObj nEq nIneq j with autoMin := false }

/-- `setMinimumNorm_` (QLDLeastSquareSolver.cpp, lines 104-109) -/
def Qld.setMinimumNorm (s : Qld K) : Qld K := { s with autoMin := true, Q := one, c := fun _ => 0 }

/-- `resetBounds_` (QLDLeastSquareSolver.cpp, lines 111-115) -/
def Qld.resetBounds (o : Opts K) (s : Qld K) : Qld K := { s with xl := fun _ => -o.big, xu := fun _ => o.big }

/-- The assignments, with the targets of `addBound_`, `addEqualityConstraint_`, `addIneqalityConstraint_` and `addObjective_` (QLDLeastSquareSolver.cpp, lines 76-102); `Aineq_` and `bineq_`
are the last `nIneq` rows (lines 58-59) -/
def Qld.assign (d : Data K) (s : Qld K) : Qld K :=
  { s with
    D := putRows 0 s.nObj .equal d.obj s.D
    e := putRhs 0 s.nObj .equal .opposite d.objRhs s.e
    A := putRows (s.nEq + s.nIneq - s.nIneq) s.nIneq .greater d.ineq (putRows 0 s.nEq .equal d.eq s.A)
    b := putVec (s.nEq + s.nIneq - s.nIneq) s.nIneq .greater .opposite d.ineqRhs (putVec 0 s.nEq .equal .opposite d.eqRhs s.b)
    xl := putLo 0 s.n d.lo s.xl
    xu := putUp 0 s.n d.up s.xu }

/-- Number of rows of `D_` -/
def Qld.rowsD (o : Opts K) (s : Qld K) : Nat := if o.cholesky && s.under then s.nObj + s.n else s.nObj

/-- `postAssignmentProcess_` (QLDLeastSquareSolver.cpp, lines 119-141), the factorization being made by `solve_` -/
def Qld.post (o : Opts K) (s : Qld K) : Qld K :=
  if s.autoMin then s
  else
    { s with
      c := tMulVec s.nObj s.D s.e
      Q := if o.cholesky then s.Q else tMul (s.rowsD o) s.D s.D }

/-- What is given to `QLDDirect::solve` -/
structure QldCall (K : Type) where
  quad : Quad K
  c : Nat → K
  nEq : Nat
  nIneq : Nat
  A : Nat → Nat → K
  b : Nat → K
  xl : Nat → K
  xu : Nat → K

/-- `solve_` (QLDLeastSquareSolver.cpp, lines 143-154): the call to the solver -/
def Qld.call (o : Opts K) (qr : QR K) (s : Qld K) : QldCall K :=
  ⟨if o.cholesky && !s.autoMin then .factor s.n (qr (s.rowsD o) s.n s.D) else .full s.nQ s.Q, s.c, s.nEq, s.nIneq, s.A, s.b, s.xl, s.xu⟩

/-- `LeastSquareSolver::solve` (LeastSquareSolver.cpp, lines 146-150): the members when the solver is called. QLD changes none of them. -/
def Qld.prepare (o : Opts K) (d : Data K) (s : Qld K) : Qld K := ((s.resetBounds o).assign d).post o

/-! ## Quadprog -/

/-- The members of `QuadprogLeastSquareSolver` (QuadprogLeastSquareSolver.h, lines 70-98) and the sizes of its base class. The segments `xl_` and `xu_` are parts of `b_`. -/
structure Qpd (K : Type) where
  n : Nat
  nObj : Nat
  nEq : Nat
  nIneq : Nat
  bounds : Bool
  under : Bool
  autoMin : Bool
  D : Nat → Nat → K
  e : Nat → K
  nQ : Nat
  Q : Nat → Nat → K
  nC : Nat
  c : Nat → K
  A : Nat → Nat → K
  b : Nat → K

/-- The object when it is constructed (QuadprogLeastSquareSolver.cpp, lines 14-19) -/
def Qpd.new (j : Junk K) : Qpd K := ⟨0, 0, 0, 0, false, false, false, j.mat, j.vec, 0, j.mat, 0, j.vec, j.mat, j.vec⟩

/-- Number of components of `xl_` and `xu_` (QuadprogLeastSquareSolver.cpp, lines 67-68 and 79-80) -/
def Qpd.nB (s : Qpd K) : Nat := if s.bounds then s.n else 0

/-- Index of the first component of `xl_` in `b_` -/
def Qpd.offL (s : Qpd K) : Nat := s.nEq + s.nIneq

/-- Index of the first component of `xu_` in `b_` -/
def Qpd.offU (s : Qpd K) : Nat := if s.bounds then s.nEq + s.nIneq + s.n else s.nEq + s.nIneq

/-- `nIneqInclBounds_` (QuadprogLeastSquareSolver.cpp, lines 61 and 75) -/
def Qpd.nIneqB (s : Qpd K) : Nat := if s.bounds then s.nIneq + 2 * s.n else s.nIneq

/-- `resize_` (QuadprogLeastSquareSolver.cpp, lines 28-99), with the members of the base class -/
def Qpd.resize (o : Opts K) (n nObj nEq nIneq : Nat) (bounds : Bool) (j : Junk K) (s : Qpd K) : Qpd K :=
  let under := decide (nObj < n)
  let nCstr := nEq + nIneq
  { s with
    n := n, nObj := nObj, nEq := nEq, nIneq := nIneq, bounds := bounds, under := under
    D := freshD (o.cholesky && under) nObj n o.choleskyDamping
    e := j.vec
    nQ := if o.cholesky then s.nQ else n
    Q := if o.cholesky || decide (s.nQ = n) then s.Q else j.mat
    nC := n
    c := if s.nC = n then s.c else j.vec
    A := fun i k =>
      if bounds = true ∧ nCstr ≤ i ∧ i < nCstr + n ∧ i = nCstr + k then -1
      else if bounds = true ∧ nCstr + n ≤ i ∧ i < nCstr + 2 * n ∧ i = nCstr + n + k then 1
      else 0
    b := if bounds then setSeg (nCstr + n) n o.big (setSeg nCstr n (-o.big) j.vec) else j.vec }

/-- `initializeBuild_` (QuadprogLeastSquareSolver.cpp, lines 21-26) -/
def Qpd.build (o : Opts K) (n nObj nEq nIneq : Nat) (bounds : Bool) (j : Junk K) (s : Qpd K) : Qpd K :=
  { s.resize o n nObj nEq nIneq bounds j with autoMin := false }

/-- `setMinimumNorm_` (QuadprogLeastSquareSolver.cpp, lines 136-141) -/
def Qpd.setMinimumNorm (s : Qpd K) : Qpd K := { s with autoMin := true, Q := one, c := fun _ => 0 }

/-- `resetBounds_` (QuadprogLeastSquareSolver.cpp, lines 143-147) -/
def Qpd.resetBounds (o : Opts K) (s : Qpd K) : Qpd K :=
  { s with b := setSeg s.offU s.nB o.big (setSeg s.offL s.nB (-o.big) s.b) }

/-- `preAssignmentProcess_` (QuadprogLeastSquareSolver.cpp, lines 149-166) -/
def Qpd.pre (o : Opts K) (s : Qpd K) : Qpd K :=
  { s with
    b := setSeg s.offL s.nB (-o.big) s.b
    D := if !s.autoMin && o.cholesky then freshD s.under s.nObj s.n o.choleskyDamping else s.D }

/-- The assignments, with the targets of lines 101-134 of QuadprogLeastSquareSolver.cpp; `Aineq_` and `bineq_` are the rows from `nEq` (lines 82-83) -/
def Qpd.assign (d : Data K) (s : Qpd K) : Qpd K :=
  { s with
    D := putRows 0 s.nObj .equal d.obj s.D
    e := putRhs 0 s.nObj .equal .opposite d.objRhs s.e
    A := putRows s.nEq s.nIneq .lower d.ineq (putRows 0 s.nEq .equal d.eq s.A)
    b := putUp s.offU s.nB d.up (putLo s.offL s.nB d.lo
      (putVec s.nEq s.nIneq .lower .asGiven d.ineqRhs (putVec 0 s.nEq .equal .asGiven d.eqRhs s.b))) }

/-- Number of rows of `D_` -/
def Qpd.rowsD (o : Opts K) (s : Qpd K) : Nat := if o.cholesky && s.under then s.nObj + s.n else s.nObj

/-- One column of `triangularView<Upper>().solveInPlace` (QuadprogLeastSquareSolver.cpp, line 189): the `m` last components of the solution of `R x = v`, from the last one -/
def backSub (n : Nat) (R : Nat → Nat → K) (v : Nat → K) : Nat → Nat → K
  | 0 => fun _ => 0
  | m + 1 => fun i =>
    let x := backSub n R v m
    if i = n - 1 - m then (v i - ∑ k ∈ Finset.range n, if i < k then R i k * x k else 0) / R i i else x i

/-- `postAssignmentProcess_` (QuadprogLeastSquareSolver.cpp, lines 168-199) -/
def Qpd.post (o : Opts K) (qr : QR K) (s : Qpd K) : Qpd K :=
  { s with
    b := fun i => if s.offL ≤ i ∧ i < s.offL + s.nB then -s.b i else s.b i
    c := if s.autoMin then s.c else tMulVec s.nObj s.D s.e
    D := if s.autoMin || !o.cholesky then s.D
      else fun i j => if i < s.n then backSub s.n (qr (s.rowsD o) s.n s.D) (fun k => one k j) s.n i else s.D i j
    Q := if s.autoMin || o.cholesky then s.Q else fun i j => tMul (s.rowsD o) s.D s.D i j + if i = j then o.damping else 0 }

/-- What is given to `QuadProgDense::solve` -/
structure QpdCall (K : Type) where
  quad : Quad K
  c : Nat → K
  nEq : Nat
  Aeq : Nat → Nat → K
  beq : Nat → K
  nIneq : Nat
  Aineq : Nat → Nat → K
  bineq : Nat → K

/-- Number of rows of `A_` -/
def Qpd.rowsA (s : Qpd K) : Nat := if s.bounds then s.nEq + s.nIneq + 2 * s.n else s.nEq + s.nIneq

/-- `solve_` (QuadprogLeastSquareSolver.cpp, lines 201-214): the call to the solver -/
def Qpd.call (o : Opts K) (s : Qpd K) : QpdCall K :=
  ⟨if o.cholesky && !s.autoMin then .inverse s.n s.D else .full s.nQ s.Q, s.c, s.nEq, s.A, s.b, s.nIneqB,
    fun i => s.A (s.rowsA - s.nIneqB + i), fun i => s.b (s.rowsA - s.nIneqB + i)⟩

/-- `LeastSquareSolver::solve` (LeastSquareSolver.cpp, lines 146-150): the members when the solver is called. `D_.topRows(n)` is given to Quadprog as a constant. -/
def Qpd.prepare (o : Opts K) (qr : QR K) (d : Data K) (s : Qpd K) : Qpd K := (((s.resetBounds o).pre o).assign d).post o qr

/-! ## LSSOL -/

/-- What the constraints and objectives hold at the time of a resolution, for the solvers with double-sided rows: the rows `cstr` ask for `cl ≤ a x ≤ cu`, equal for an equality; for a constraint with a
single side, the other one is the constant of the assignments. -/
structure DataDS (K : Type) where
  obj : Nat → Nat → Option K
  objRhs : Nat → Option K
  cstr : Nat → Nat → Option K
  cl : Nat → K
  cu : Nat → K
  lo : Nat → List K
  up : Nat → List K

/-- The members of `LSSOLLeastSquareSolver` (LSSOLLeastSquareSolver.h, lines 77-90) and the sizes of its base class, `nC` being the number of rows of the constraints -/
structure Lss (K : Type) where
  n : Nat
  nObj : Nat
  nC : Nat
  autoMin : Bool
  A : Nat → Nat → K
  b : Nat → K
  C : Nat → Nat → K
  l : Nat → K
  u : Nat → K

/-- The object when it is constructed -/
def Lss.new (j : Junk K) : Lss K := ⟨0, 0, 0, false, j.mat, j.vec, j.mat, j.vec, j.vec⟩

/-- `resize_` (LSSOLLeastSquareSolver.cpp, lines 64-91) with the members of the base class -/
def Lss.resize (o : Opts K) (n nObj nC : Nat) (s : Lss K) : Lss K :=
  { s with
    n := n, nObj := nObj, nC := nC
    A := fun _ _ => 0
    b := fun _ => 0
    C := fun _ _ => 0
    l := fun _ => -o.big
    u := fun _ => o.big }

/-- `initializeBuild_` (LSSOLLeastSquareSolver.cpp, lines 57-62) -/
def Lss.build (o : Opts K) (n nObj nC : Nat) (s : Lss K) : Lss K := { s.resize o n nObj nC with autoMin := false }

/-- `setMinimumNorm_` (LSSOLLeastSquareSolver.cpp, lines 122-126) -/
def Lss.setMinimumNorm (s : Lss K) : Lss K := { s with autoMin := true, b := fun _ => 0 }

/-- `resetBounds_` (LSSOLLeastSquareSolver.cpp, lines 128-133) -/
def Lss.resetBounds (o : Opts K) (s : Lss K) : Lss K := { s with l := setSeg 0 s.n (-o.big) s.l, u := setSeg 0 s.n o.big s.u }

/-- `preAssignmentProcess_` (LSSOLLeastSquareSolver.cpp, lines 135-141) -/
def Lss.pre (s : Lss K) : Lss K := { s with A := if s.autoMin then s.A else fun _ _ => 0 }

/-- The assignments, with the targets of lines 93-120 of LSSOLLeastSquareSolver.cpp; `cl_` and `cu_` are the last `nC` components (lines 81-82) -/
def Lss.assign (d : DataDS K) (s : Lss K) : Lss K :=
  { s with
    A := putRows 0 s.nObj .equal d.obj s.A
    b := putRhs 0 s.nObj .equal .asGiven d.objRhs s.b
    C := putRows 0 s.nC .equal d.cstr s.C
    l := putLo 0 s.n d.lo (putVec (s.nC + s.n - s.nC) s.nC .equal .asGiven d.cl s.l)
    u := putUp 0 s.n d.up (putVec (s.nC + s.n - s.nC) s.nC .equal .asGiven d.cu s.u) }

/-- `postAssignmentProcess_` (LSSOLLeastSquareSolver.cpp, lines 143-147) -/
def Lss.post (s : Lss K) : Lss K := { s with A := if s.autoMin then one else s.A }

/-- `LeastSquareSolver::solve` (LeastSquareSolver.cpp, lines 146-150): the members when the solver is called -/
def Lss.prepare (o : Opts K) (d : DataDS K) (s : Lss K) : Lss K := ((s.resetBounds o).pre.assign d).post

/-- What is given to `LSSOL_LS::solve`, or to `LSSOL_FP::solve` when there are no rows in `A` -/
structure LssCall (K : Type) where
  nObj : Nat
  A : Nat → Nat → K
  b : Nat → K
  nC : Nat
  C : Nat → Nat → K
  l : Nat → K
  u : Nat → K

/-- `solve_` (LSSOLLeastSquareSolver.cpp, lines 149-155) -/
def Lss.call (s : Lss K) : LssCall K := ⟨s.nObj, s.A, s.b, s.nC, s.C, s.l, s.u⟩

/-- LSSOL overwrites `A_` (LSSOLLeastSquareSolver.cpp, lines 137-138). -/
def Lss.solved (j : Junk K) (s : Lss K) : Lss K := { s with A := if s.nObj = 0 then s.A else j.mat }

/-! ## LexLS -/

/-- The members of `LexLSLeastSquareSolver` (LexLSLeastSquareSolver.h) that hold the problem: the columns of `data0_`, `data1_` and `data2_`. The warm start, which gives the solver a guess only, is left out. -/
structure Lxl (K : Type) where
  n : Nat
  nObj : Nat
  nC : Nat
  autoMin : Bool
  A2 : Nat → Nat → K
  l2 : Nat → K
  u2 : Nat → K
  A1 : Nat → Nat → K
  l1 : Nat → K
  u1 : Nat → K
  xl : Nat → K
  xu : Nat → K

/-- The object when it is constructed -/
def Lxl.new (j : Junk K) : Lxl K := ⟨0, 0, 0, false, j.mat, j.vec, j.vec, j.mat, j.vec, j.vec, j.vec, j.vec⟩

/-- `resize_` (LexLSLeastSquareSolver.cpp, lines 53-114) with the members of the base class -/
def Lxl.resize (o : Opts K) (n nObj nC : Nat) (s : Lxl K) : Lxl K :=
  { s with
    n := n, nObj := nObj, nC := nC
    A2 := if s.autoMin then one else fun _ _ => 0
    l2 := if s.autoMin then fun _ => 0 else fun _ => -o.big
    u2 := if s.autoMin then fun _ => 0 else fun _ => o.big
    A1 := fun _ _ => 0
    l1 := fun _ => -o.big
    u1 := fun _ => o.big
    xl := fun _ => -o.big
    xu := fun _ => o.big }

/-- `initializeBuild_` (LexLSLeastSquareSolver.cpp, lines 46-51): `autoMinNorm_` is reset after `resize_` -/
def Lxl.build (o : Opts K) (n nObj nC : Nat) (s : Lxl K) : Lxl K := { s.resize o n nObj nC with autoMin := false }

/-- `setMinimumNorm_` (LexLSLeastSquareSolver.cpp, lines 145-151) -/
def Lxl.setMinimumNorm (s : Lxl K) : Lxl K := { s with autoMin := true, A2 := one, l2 := fun _ => 0, u2 := fun _ => 0 }

/-- `resetBounds_` (LexLSLeastSquareSolver.cpp, lines 153-158) -/
def Lxl.resetBounds (o : Opts K) (s : Lxl K) : Lxl K := { s with xl := fun _ => -o.big, xu := fun _ => o.big }

/-- The assignments, with the targets of lines 116-143 of LexLSLeastSquareSolver.cpp: the two sides of an objective are its right-hand side. -/
def Lxl.assign (d : DataDS K) (s : Lxl K) : Lxl K :=
  { s with
    A2 := putRows 0 s.nObj .equal d.obj s.A2
    l2 := putRhs 0 s.nObj .equal .asGiven d.objRhs s.l2
    u2 := putRhs 0 s.nObj .equal .asGiven d.objRhs s.u2
    A1 := putRows 0 s.nC .equal d.cstr s.A1
    l1 := putVec 0 s.nC .equal .asGiven d.cl s.l1
    u1 := putVec 0 s.nC .equal .asGiven d.cu s.u1
    xl := putLo 0 s.n d.lo s.xl
    xu := putUp 0 s.n d.up s.xu }

/-- `LeastSquareSolver::solve` (LeastSquareSolver.cpp, lines 146-150) and the calls to `setData` (LexLSLeastSquareSolver.cpp, lines 164-167): the three levels given to the solver are the members -/
def Lxl.prepare (o : Opts K) (d : DataDS K) (s : Lxl K) : Lxl K := (s.resetBounds o).assign d

end Verif.QP
