import Verif.Model.LeastSquareSolver
import Verif.Model.QPSolvers
import Verif.Model.Assignment
import Verif.Properties.C38_Bounds
/-!
# Model of a resolution: the assignments held by a least-squares solver are run on its matrices
(src/solver/LeastSquareSolver.cpp, lines 139-167, with the targets of src/solver/{LSSOL,LexLS,QLD,Quadprog}LeastSquareSolver.cpp)

The other models look at one part each: `Verif.Model.LeastSquareSolver` at the rows given to the assignments, `Verif.Model.Assignment` at what an assignment writes,
`Verif.Model.QPSolvers` at the matrices of each solver, with the assignments summed up by what they should write. Here the parts are put together: the assignments of the former are run, by the
second, on the matrices of the latter.

Simplified: an assignment is the one its constructor would build for the present target and variables (C90 is about the assignments that are updated instead); the run of a bound is that of
`Verif.C38.Bound`. An assignment whose target is not on the present matrices writes elsewhere: its run is left out (C60 tells when this happens). The assignments write in
different rows for the objectives, the equality constraints, the inequality constraints and the bounds: the four groups are run one after the other, each in any order.
-/
set_option autoImplicit false

namespace Verif.ASM
open Verif

/-- What is fixed between two resizings: the variables of the problem with their columns, and the source of each constraint -/
structure Env where
  V : AS.Vars
  src : SE.Cstr → AS.Src

/-- What may change from a resolution to the next: the kind of weights (the assignment is rebuilt when it changes, LeastSquareSolver.cpp, lines 311-323), the data the assignments refer to,
the bounds -/
structure Now (K : Type) where
  fl : SE.Cstr → AS.Flags
  dat : SE.Cstr → AS.Data K
  bnd : SE.Cstr → C38.Bound K

/-- An assignment for a constraint or an objective -/
structure Job where
  c : SE.Cstr
  S : AS.Src
  T : AS.Target

/-- Categories of assignments -/
inductive Cat where
  | obj | eq | ineq
deriving DecidableEq, Repr

/-- The conventions of the targets: LSSOLLeastSquareSolver.cpp, lines 102, 109, 118; LexLSLeastSquareSolver.cpp, lines 125, 132, 141; QLDLeastSquareSolver.cpp, lines 85, 92-93, 100;
QuadprogLeastSquareSolver.cpp, lines 116, 123, 132 -/
def convention : LS.Kind → Cat → AS.CType × AS.Rhs
  | .lssol, .obj => (.equal, .asGiven)
  | .lssol, _ => (.doubleSided, .asGiven)
  | .lexls, _ => (.doubleSided, .asGiven)
  | .qld, .eq => (.equal, .opposite)
  | .qld, .ineq => (.greaterThan, .opposite)
  | .qld, .obj => (.equal, .opposite)
  | .quadprog, .eq => (.equal, .asGiven)
  | .quadprog, .ineq => (.lowerThan, .asGiven)
  | .quadprog, .obj => (.equal, .opposite)

/-- The assignments of a map that refer to the block `v`, with the ranges of their targets -/
def jobsOf (v : LS.View) (m : LS.AMap) (env : Env) (conv : AS.CType × AS.Rhs) (size : SE.Cstr → Nat) : List Job :=
  m.flatMap fun e => (e.2.filter fun a => decide (a.view = v)).map fun a => ⟨e.1, env.src e.1, ⟨conv.1, conv.2, a.start.toNat, size e.1⟩⟩

/-- The assignments of the objectives -/
def objJobs (s : LS.Solver) (env : Env) : List Job := jobsOf s.views.obj s.obj env (convention s.kind .obj) (·.size)
/-- The assignments of the equality constraints -/
def eqJobs (s : LS.Solver) (env : Env) : List Job := jobsOf s.views.eq s.eq env (convention s.kind .eq) (LS.constraintSize s.kind)
/-- The assignments of the inequality constraints -/
def ineqJobs (s : LS.Solver) (env : Env) : List Job := jobsOf s.views.ineq s.ineq env (convention s.kind .ineq) (LS.constraintSize s.kind)

/-- The bounds, each at the range of its target -/
def bndJobs {K : Type} (s : LS.Solver) (now : Now K) : List (C38.Bound K) :=
  s.bnd.flatMap fun e => (e.2.filter fun a => decide (a.view = s.views.bnd)).map fun a => { now.bnd e.1 with start := a.start.toNat, n := e.1.size }

/-- The assignments run by a resolution -/
structure Run (K : Type) where
  V : AS.Vars
  now : Now K
  obj : List Job
  eq : List Job
  ineq : List Job
  bnd : List (C38.Bound K)

/-- The assignments are those held by the solver, in any order. -/
structure Runs {K : Type} (s : LS.Solver) (env : Env) (now : Now K) (r : Run K) : Prop where
  vars : r.V = env.V
  cur : r.now = now
  obj : r.obj.Perm (objJobs s env)
  eq : r.eq.Perm (eqJobs s env)
  ineq : r.ineq.Perm (ineqJobs s env)
  bnd : r.bnd.Perm (bndJobs s now)

section
variable {K : Type} [Field K] [LinearOrder K]

/-- The run of an assignment; without effect if its constructor throws. -/
def Job.run (big : K) (V : AS.Vars) (now : Now K) (j : Job) (m : AS.Mem K) : AS.Mem K :=
  match AS.create big j.S j.T V (now.fl j.c) with
  | some o => o.run V (now.dat j.c) m
  | none => m

/-- The runs of some assignments (LeastSquareSolver.cpp, lines 148-149) -/
def runJobs (big : K) (V : AS.Vars) (now : Now K) (js : List Job) (m : AS.Mem K) : AS.Mem K := js.foldl (fun m j => j.run big V now m) m

/-- The runs of the bounds, built with `first = false` (LeastSquareSolver.cpp, line 93) -/
def runBounds (big : K) (bs : List (C38.Bound K)) (m : AS.Mem K) : AS.Mem K := bs.foldl (fun m b => b.run big false m) m

/-- A block of a matrix and of a vector, from the row `off` -/
def block (off : Nat) (A : Nat → Nat → K) (b : Nat → K) : AS.Mem K := ⟨fun r => A (off + r), fun c => if c = .b then fun r => b (off + r) else fun _ => 0⟩

/-- A matrix and blocks of two vectors, from the component `off` -/
def block2 (A : Nat → Nat → K) (off : Nat) (l u : Nat → K) : AS.Mem K :=
  ⟨A, fun c => if c = .l then fun r => l (off + r) else if c = .u then fun r => u (off + r) else fun _ => 0⟩

/-- The rows from `off` are replaced. -/
def back {α : Type} (off : Nat) (new old : Nat → α) : Nat → α := fun i => if off ≤ i then new (i - off) else old i

/-- The `n` components from `off` are replaced. -/
def backSeg (off n : Nat) (new old : Nat → K) : Nat → K := fun i => if off ≤ i ∧ i < off + n then new (i - off) else old i

/-! ## QLD -/

/-- The run of the assignments: `A_` and `b_` for the equality constraints, their last rows for the inequality constraints, `D_` and `e_` for the objectives, `xl_` and `xu_` for the bounds
(QLDLeastSquareSolver.cpp, lines 58-59 and 76-102) -/
def qldAssign (big : K) (r : Run K) (s : QP.Qld K) : QP.Qld K :=
  let mo := runJobs big r.V r.now r.obj (block 0 s.D s.e)
  let me := runJobs big r.V r.now r.eq (block 0 s.A s.b)
  let off := s.nEq + s.nIneq - s.nIneq
  let mi := runJobs big r.V r.now r.ineq (block off me.A (me.vec .b))
  let mb := runBounds big r.bnd (block2 (fun _ _ => 0) 0 s.xl s.xu)
  { s with
    D := mo.A
    e := mo.vec .b
    A := back off mi.A me.A
    b := back off (mi.vec .b) (me.vec .b)
    xl := mb.vec .l
    xu := mb.vec .u }

/-- The members when QLD is called (LeastSquareSolver.cpp, lines 146-150) -/
def qldPrepare (o : QP.Opts K) (r : Run K) (s : QP.Qld K) : QP.Qld K := (qldAssign o.big r (s.resetBounds o)).post o

/-! ## Quadprog -/

/-- The run of the assignments (QuadprogLeastSquareSolver.cpp, lines 67-83 and 101-134): `xl_` and `xu_` are segments of `b_`. -/
def qpdAssign (big : K) (r : Run K) (s : QP.Qpd K) : QP.Qpd K :=
  let mo := runJobs big r.V r.now r.obj (block 0 s.D s.e)
  let me := runJobs big r.V r.now r.eq (block 0 s.A s.b)
  let mi := runJobs big r.V r.now r.ineq (block s.nEq me.A (me.vec .b))
  let b1 := back s.nEq (mi.vec .b) (me.vec .b)
  let mb := runBounds big r.bnd ⟨fun _ _ => 0, fun c => if c = .l then fun k => b1 (s.offL + k) else if c = .u then fun k => b1 (s.offU + k) else fun _ => 0⟩
  { s with
    D := mo.A
    e := mo.vec .b
    A := back s.nEq mi.A me.A
    b := backSeg s.offU s.nB (mb.vec .u) (backSeg s.offL s.nB (mb.vec .l) b1) }

/-- The members when Quadprog is called (LeastSquareSolver.cpp, lines 146-150) -/
def qpdPrepare (o : QP.Opts K) (qr : QP.QR K) (r : Run K) (s : QP.Qpd K) : QP.Qpd K := (qpdAssign o.big r ((s.resetBounds o).pre o)).post o qr

/-! ## LSSOL -/

/-- The run of the assignments (LSSOLLeastSquareSolver.cpp, lines 81-82 and 93-120): `cl_` and `cu_` are the last components of `l_` and `u_`, the bounds are put in the first ones. -/
def lssAssign (big : K) (r : Run K) (s : QP.Lss K) : QP.Lss K :=
  let mo := runJobs big r.V r.now r.obj (block 0 s.A s.b)
  let off := s.nC + s.n - s.nC
  let mc := runJobs big r.V r.now (r.eq ++ r.ineq) (block2 s.C off s.l s.u)
  let mb := runBounds big r.bnd (block2 (fun _ _ => 0) 0 (back off (mc.vec .l) s.l) (back off (mc.vec .u) s.u))
  { s with
    A := mo.A
    b := mo.vec .b
    C := mc.A
    l := mb.vec .l
    u := mb.vec .u }

/-- The members when LSSOL is called (LeastSquareSolver.cpp, lines 146-150) -/
def lssPrepare (o : QP.Opts K) (r : Run K) (s : QP.Lss K) : QP.Lss K := (lssAssign o.big r (s.resetBounds o).pre).post

/-! ## LexLS -/

/-- The run of the assignments (LexLSLeastSquareSolver.cpp, lines 80-81 and 116-143) -/
def lxlAssign (big : K) (r : Run K) (s : QP.Lxl K) : QP.Lxl K :=
  let mo := runJobs big r.V r.now r.obj (block2 s.A2 0 s.l2 s.u2)
  let mc := runJobs big r.V r.now (r.eq ++ r.ineq) (block2 s.A1 0 s.l1 s.u1)
  let mb := runBounds big r.bnd (block2 (fun _ _ => 0) 0 s.xl s.xu)
  { s with
    A2 := mo.A
    l2 := mo.vec .l
    u2 := mo.vec .u
    A1 := mc.A
    l1 := mc.vec .l
    u1 := mc.vec .u
    xl := mb.vec .l
    xu := mb.vec .u }

/-- The members when LexLS is called (LeastSquareSolver.cpp, lines 146-150) -/
def lxlPrepare (o : QP.Opts K) (r : Run K) (s : QP.Lxl K) : QP.Lxl K := lxlAssign o.big r (s.resetBounds o)

/-! ## The four classes as machines driven by the base class -/

/-- What the base class asks of a derived class with members `Q`: construction, `initializeBuild_`, `resize_`, `setMinimumNorm_`, and a resolution -/
structure Machine (K Q : Type) where
  new : QP.Junk K → Q
  build : (n nObj nEq nIneq : Nat) → Bool → QP.Junk K → Q → Q
  resize : (n nObj nEq nIneq : Nat) → Bool → QP.Junk K → Q → Q
  minNorm : Q → Q
  solve : Run K → QP.Junk K → Q → Q

/-- `QLDLeastSquareSolver` -/
def qldM (o : QP.Opts K) : Machine K (QP.Qld K) :=
  ⟨QP.Qld.new, fun n a b c _ j q => q.build o n a b c j, fun n a b c _ j q => q.resize o n a b c j, QP.Qld.setMinimumNorm, fun r _ q => qldPrepare o r q⟩

/-- `QuadprogLeastSquareSolver` -/
def qpdM (o : QP.Opts K) (qr : QP.QR K) : Machine K (QP.Qpd K) :=
  ⟨QP.Qpd.new, fun n a b c ub j q => q.build o n a b c ub j, fun n a b c ub j q => q.resize o n a b c ub j, QP.Qpd.setMinimumNorm, fun r _ q => qpdPrepare o qr r q⟩

/-- `LSSOLLeastSquareSolver`, which LSSOL leaves with an overwritten matrix -/
def lssM (o : QP.Opts K) : Machine K (QP.Lss K) :=
  ⟨QP.Lss.new, fun n a b c _ _ q => q.build o n a (b + c), fun n a b c _ _ q => q.resize o n a (b + c), QP.Lss.setMinimumNorm, fun r j q => (lssPrepare o r q).solved j⟩

/-- `LexLSLeastSquareSolver` -/
def lxlM (o : QP.Opts K) : Machine K (QP.Lxl K) :=
  ⟨QP.Lxl.new, fun n a b c _ _ q => q.build o n a (b + c), fun n a b c _ _ q => q.resize o n a (b + c), QP.Lxl.setMinimumNorm, fun r _ q => lxlPrepare o r q⟩

end

/-- What `process` gives to `resize_` (LeastSquareSolver.cpp, lines 186-189): numbers of rows of the objectives, of the equality and inequality constraints, presence of bounds -/
def resizeArgs (s : LS.Solver) (se : SE.SolverEvents) : Nat × Nat × Nat × Bool :=
  let s2 := (s.processRemoved se).previewAdded se
  (s2.nObj.toNat, s2.nEq.toNat, s2.nIneq.toNat, !s2.bnd.isEmpty || !se.addedBounds.isEmpty)

end Verif.ASM
