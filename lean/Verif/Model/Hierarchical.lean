import Verif.Model.SchemeAbilities
import Verif.Model.Outcome
import Mathlib.Algebra.Field.Basic
import Mathlib.Algebra.BigOperators.Group.Finset.Basic
import Mathlib.Order.Lattice
import Mathlib.Order.Defs.LinearOrder
/-!
# Model of the hierarchical least-squares scheme (src/scheme/HierarchicalLeastSquares.cpp, src/solver/HierarchicalLeastSquareSolver.cpp, src/solver/LexLSHierarchicalLeastSquareSolver.cpp)

From the list of the constraints of a problem to the levels handed to LexLS: `processProblem`, the functions of `HierarchicalLeastSquareSolver` it calls, those of `LexLSHierarchicalLeastSquareSolver`, and `solve`.
The reaction of the scheme to the events of the problem is in Model/HierarchicalEvents.lean.

Matrices and vectors are functions of their indices, with their sizes kept aside. The entries are in a field `K` instead of floating-point numbers. Failing assertions of the code and of Eigen are the outcome `ub`.

The assignments (Model/Assignment.lean, C34 to C38) are summed up by what they write: in its rows, a constraint writes the entries of the columns of its variables, once substitutions and weights are applied, and the two sides of the right-hand side.
The other entries are left as they are. The bounds are intersected with what is present. The warm start, which gives LexLS a guess only, is left out.
-/
set_option autoImplicit false

namespace Verif.HLS

variable {K : Type} [Field K] [LinearOrder K]

/-- `constraint::Type` (include/tvm/constraint/enums.h) -/
inductive Ty where
  | equal | greater | lower | both
deriving DecidableEq, Repr

/-- What is fixed of a constraint for a given build: an identity, its requirements (priority and evaluation of the violation), whether it can be used as a bound (`canBeUsedAsBound(…, DOUBLE_SIDED)`), whether it is used by a substitution, its type and
size, the first row of its variable in the unknowns (for a bound), the columns that its assignment writes (for a constraint). -/
structure Cstr where
  id : Nat
  prio : Nat
  vet : SA.VET
  asBound : Bool
  used : Bool
  ty : Ty
  size : Nat
  start : Nat
  cols : Nat → Bool

/-- `LinearConstraint::isEquality` -/
def Cstr.isEq (c : Cstr) : Bool := decide (c.ty = .equal)

/-- What a constraint holds at the time of a resolution: its rows, and its two sides. `lo` is the right-hand side of an equality or the lower side, `up` the upper side. -/
structure Val (K : Type) where
  a : Nat → Nat → K
  lo : Nat → K
  up : Nat → K

/-- A problem: size of the unknowns, constraints, and additional constraints of the substitutions, which are equalities -/
structure Pb where
  n : Nat
  cstrs : List Cstr
  extra : List Cstr

/-- The options: `big_number` and `feasibleFirstLevel` (LexLSHierarchicalLeastSquareSolver.h, lines 18-23), `autoDamping` (HierarchicalLeastSquares.h, line 21). `big_number` is also taken for the constant of the scheme given to the assignments
(HierarchicalLeastSquares.cpp, line 170; both have the same default value). -/
structure Opts (K : Type) where
  big : K
  feasibleFirst : Bool
  damping : Bool

/-! ## The solver -/

/-- A matrix `data_[i]`: its rows, its `n` first columns, its last two columns. `A_[i]`, `l_[i]` and `u_[i]` are the rows from `off` (LexLSHierarchicalLeastSquareSolver.cpp, lines 100-102 and 109-111). -/
structure Level (K : Type) where
  rows : Nat
  off : Nat
  M : Nat → Nat → K
  l : Nat → K
  u : Nat → K

/-- An assignment of a constraint: target (level and range) and what the assignment writes -/
structure Asg where
  id : Nat
  lvl : Nat
  start : Nat
  size : Nat
  ty : Ty
  cols : Nat → Bool

/-- An assignment of a bound -/
structure BAsg where
  id : Nat
  start : Nat
  size : Nat
  ty : Ty

/-- Members of the two classes. `xl`, `xu` are the columns of `boundData_`. -/
structure Solver (K : Type) where
  n : Nat
  bounds : Bool
  nEq : List Nat
  nIneq : List Nat
  eqSize : List Nat
  ineqSize : List Nat
  data : Nat → Level K
  xl : Nat → K
  xu : Nat → K
  autoMin : Bool
  asg : List Asg
  basg : List BAsg

/-- `v[i] += k` -/
def bump (v : List Nat) (i k : Nat) : List Nat := v.modify i (· + k)

/-- First row of `A_[i]` in `data_[i]` (LexLSHierarchicalLeastSquareSolver.cpp, lines 91 and 100): the bounds are the `n` first rows of the first level if they have no level of their own. -/
def offset (o : Opts K) (n : Nat) (bounds : Bool) (i : Nat) : Nat := if i = 0 ∧ bounds = true ∧ o.feasibleFirst = false then n else 0

/-- A level after `resize_` (LexLSHierarchicalLeastSquareSolver.cpp, lines 88-118) -/
def freshLevel (o : Opts K) (n : Nat) (bounds : Bool) (i m : Nat) : Level K :=
  ⟨offset o n bounds i + m, offset o n bounds i, fun r j => if r < offset o n bounds i ∧ r = j then 1 else 0, fun _ => -o.big, fun _ => o.big⟩

/-- `startBuild` (HierarchicalLeastSquareSolver.cpp, lines 45-77) on a new solver, with `initializeBuild_` and `resize_` (LexLSHierarchicalLeastSquareSolver.cpp, lines 46-155) -/
def startBuild (o : Opts K) (n : Nat) (nEq nIneq : List Nat) (bounds : Bool) : Solver K :=
  ⟨n, bounds, nEq, nIneq, List.replicate nEq.length 0, List.replicate nEq.length 0, fun i => freshLevel o n bounds i (nEq.getD i 0 + nIneq.getD i 0), fun _ => -o.big, fun _ => o.big, false, [], []⟩

/-- `addConstraint` (HierarchicalLeastSquareSolver.cpp, lines 97-116) for a constraint at a level, with `addEqualityConstraint_`, `addIneqalityConstraint_`, `nextEqualityConstraintRange_` and `nextInequalityConstraintRange_`
(LexLSHierarchicalLeastSquareSolver.cpp, lines 163-177 and 238-254). LexLS handles the double-sided constraints, so that the size for the solver is the size of the constraint. -/
def Solver.addConstraint (s : Solver K) (lvl : Nat) (c : Cstr) : Outcome Unit (Solver K) :=
  if s.nEq.length ≤ lvl then .ub
  else
    let r := s.eqSize.getD lvl 0 + s.ineqSize.getD lvl 0
    if s.nEq.getD lvl 0 + s.nIneq.getD lvl 0 < r + c.size then .ub
    else .ok () { s with
      asg := s.asg ++ [⟨c.id, lvl, r, c.size, c.ty, c.cols⟩]
      eqSize := if c.isEq then bump s.eqSize lvl c.size else s.eqSize
      ineqSize := if c.isEq then s.ineqSize else bump s.ineqSize lvl c.size }

/-- The loop of additions (HierarchicalLeastSquares.cpp, lines 176-179) -/
def Solver.addConstraints (s : Solver K) : List (Nat × Cstr) → Outcome Unit (Solver K)
  | [] => .ok () s
  | e :: l => match s.addConstraint e.1 e.2 with
    | .ok _ s => s.addConstraints l
    | .throw _ => .throw ()
    | .ub => .ub

/-- `A_.back().setIdentity()`, `l_.back().setZero()` and `u_.back().setZero()` -/
def Level.minNorm (d : Level K) : Level K :=
  { d with
    M := fun r j => if d.off ≤ r then (if r = d.off + j then 1 else 0) else d.M r j
    l := fun r => if d.off ≤ r then 0 else d.l r
    u := fun r => if d.off ≤ r then 0 else d.u r }

/-- `setMinimumNorm` (HierarchicalLeastSquareSolver.cpp, lines 118-128) and `setMinimumNorm_` (LexLSHierarchicalLeastSquareSolver.cpp, lines 179-186) -/
def Solver.setMinimumNorm (s : Solver K) : Outcome Unit (Solver K) :=
  let i := s.nEq.length - 1
  if s.nEq.length = 0 then .ub
  else if s.nEq.getD i 0 = s.n ∧ s.nIneq.getD i 0 = 0 then
    .ok () { s with
      autoMin := true
      data := fun p => if p = i then (s.data p).minNorm else s.data p
      eqSize := s.eqSize.set i s.n }
  else .ub

/-- `addBound` (HierarchicalLeastSquareSolver.cpp, lines 86-95) and `addBound_` (LexLSHierarchicalLeastSquareSolver.cpp, lines 157-161) -/
def Solver.addBound (s : Solver K) (c : Cstr) : Solver K := { s with basg := s.basg ++ [⟨c.id, c.start, c.size, c.ty⟩] }

/-- `finalizeBuild` (HierarchicalLeastSquareSolver.cpp, lines 79-84) -/
def Solver.finalizeBuild (s : Solver K) : Outcome Unit (Solver K) :=
  if s.nEq = s.eqSize ∧ s.nIneq = s.ineqSize then .ok () s else .ub

/-! ## The scheme -/

/-- `abilities_` (HierarchicalLeastSquares.cpp, lines 21-23) -/
def abilities : SA.SchemeAbilities := ⟨-1, false, [(SA.generalLevel, ⟨true, [.l2]⟩)]⟩

/-- `abilities_.check(c.constraint, c.requirements)` returns. -/
def accepted (c : Cstr) : Bool := abilities.check c.prio c.isEq c.vet == .ok

/-- What is accumulated when scanning the constraints (HierarchicalLeastSquares.cpp, lines 115-120) -/
structure Scan where
  constr : List (Nat × Cstr)
  bounds : List Cstr
  nEq : List Nat
  nIneq : List Nat

/-- `v.resize(p + 1, 0)` if `p >= v.size()` (HierarchicalLeastSquares.cpp, lines 137-141) -/
def grow (v : List Nat) (p : Nat) : List Nat := if v.length ≤ p then v ++ List.replicate (p + 1 - v.length) 0 else v

/-- One iteration of the loop of `processProblem` (HierarchicalLeastSquares.cpp, lines 121-148): `none` when an exception is thrown -/
def scanOne (a : Scan) (c : Cstr) : Option Scan :=
  if c.used then some a
  else if accepted c = false then none
  else if c.asBound = true ∧ c.prio = 0 then some { a with bounds := a.bounds ++ [c] }
  else
    let nEq := grow a.nEq c.prio
    let nIneq := grow a.nIneq c.prio
    some ⟨a.constr ++ [(c.prio, c)], a.bounds, if c.isEq then bump nEq c.prio c.size else nEq, if c.isEq then nIneq else bump nIneq c.prio c.size⟩

/-- The loop -/
def scanAll : List Cstr → Scan → Option Scan
  | [], a => some a
  | c :: l, a => match scanOne a c with
    | none => none
    | some a => scanAll l a

/-- The additional constraints of the substitutions, at the level 0 (HierarchicalLeastSquares.cpp, lines 149-161) -/
def addExtra (extra : List Cstr) (a : Scan) : Scan :=
  let nEq := if extra.length > 0 ∧ a.nEq.length = 0 then a.nEq ++ [0] else a.nEq
  let nIneq := if extra.length > 0 ∧ a.nEq.length = 0 then a.nIneq ++ [0] else a.nIneq
  ⟨a.constr ++ extra.map (fun c => (0, c)), a.bounds, extra.foldl (fun v c => bump v 0 c.size) nEq, nIneq⟩

/-- The level of the damping (HierarchicalLeastSquares.cpp, lines 163-167) -/
def addDamping (damping : Bool) (n : Nat) (a : Scan) : Scan :=
  { a with
    nEq := if damping then a.nEq ++ [n] else a.nEq
    nIneq := if damping then a.nIneq ++ [0] else a.nIneq }

/-- `processProblem` (HierarchicalLeastSquares.cpp, lines 107-191) with a new solver -/
def processProblem (o : Opts K) (p : Pb) : Outcome Unit (Solver K) :=
  match scanAll p.cstrs ⟨[], [], [], []⟩ with
  | none => .throw ()
  | some a =>
    let a := addDamping o.damping p.n (addExtra p.extra a)
    match (startBuild o p.n a.nEq a.nIneq (!a.bounds.isEmpty)).addConstraints a.constr with
    | .ok _ s =>
      match (if o.damping then s.setMinimumNorm else .ok () s) with
      | .ok _ s => (a.bounds.foldl Solver.addBound s).finalizeBuild
      | .throw _ => .throw ()
      | .ub => .ub
    | .throw _ => .throw ()
    | .ub => .ub

/-! ## Resolution -/

/-- Lower side written by the assignment of a constraint (src/scheme/Assignment.cpp; the constant when there is none) -/
def lower (o : Opts K) (t : Ty) (v : Val K) (i : Nat) : K := match t with | .lower => -o.big | _ => v.lo i

/-- Upper side -/
def upper (o : Opts K) (t : Ty) (v : Val K) (i : Nat) : K := match t with | .equal => v.lo i | .greater => o.big | _ => v.up i

/-- Run of the assignment of a constraint on its level -/
def Level.put (o : Opts K) (v : Val K) (a : Asg) (d : Level K) : Level K :=
  { d with
    M := fun r j => if d.off + a.start ≤ r ∧ r < d.off + a.start + a.size ∧ a.cols j = true then v.a (r - (d.off + a.start)) j else d.M r j
    l := fun r => if d.off + a.start ≤ r ∧ r < d.off + a.start + a.size then lower o a.ty v (r - (d.off + a.start)) else d.l r
    u := fun r => if d.off + a.start ≤ r ∧ r < d.off + a.start + a.size then upper o a.ty v (r - (d.off + a.start)) else d.u r }

/-- Run of the assignments of the constraints -/
def runAsg (o : Opts K) (v : Nat → Val K) : List Asg → (Nat → Level K) → Nat → Level K
  | [], d => d
  | a :: l, d => runAsg o v l (fun p => if p = a.lvl then (d p).put o (v a.id) a else d p)

/-- Run of the assignment of a bound on the lower bounds: it has one but for a type `LOWER_THAN`. -/
def putLo (v : Val K) (a : BAsg) (x : Nat → K) : Nat → K :=
  fun r => if a.start ≤ r ∧ r < a.start + a.size ∧ a.ty ≠ .lower then max (x r) (v.lo (r - a.start)) else x r

/-- Run of the assignment of a bound on the upper bounds -/
def putUp (v : Val K) (a : BAsg) (x : Nat → K) : Nat → K :=
  fun r => if a.start ≤ r ∧ r < a.start + a.size ∧ a.ty ≠ .greater then min (x r) (if a.ty = .equal then v.lo (r - a.start) else v.up (r - a.start)) else x r

/-- Run of the assignments of the bounds on the lower bounds -/
def runLo (v : Nat → Val K) (l : List BAsg) (x : Nat → K) : Nat → K := l.foldl (fun x a => putLo (v a.id) a x) x

/-- Run of the assignments of the bounds on the upper bounds -/
def runUp (v : Nat → Val K) (l : List BAsg) (x : Nat → K) : Nat → K := l.foldl (fun x a => putUp (v a.id) a x) x

/-- `v.head(n).setConstant(k)` -/
def setHead (n : Nat) (k : K) (v : Nat → K) : Nat → K := fun r => if r < n then k else v r

/-- An objective of LexLS: simple bounds on the unknowns, or rows -/
inductive Obj (K : Type) where
  | simple (xl xu : Nat → K)
  | general (d : Level K)

/-- Has `solver_.resize` been called (LexLSHierarchicalLeastSquareSolver.cpp, lines 78, 93, 107 and 120-136)? On a new solver `boundData_` has size 1 and the matrices `data_[i]` size 0. -/
def Solver.sized (o : Opts K) (s : Solver K) : Bool := (s.bounds && o.feasibleFirst) || (List.range s.nEq.length).any (fun i => (s.data i).rows ≠ 0)

/-- `resetBounds_` (LexLSHierarchicalLeastSquareSolver.cpp, lines 188-193): `xl_` and `xu_` refer to `boundData_` or to the first rows of the first level (lines 80-81 and 95-96). Without bounds they refer to the initial value of `boundData_`, which is not used. -/
def Solver.resetBounds (o : Opts K) (s : Solver K) : Solver K :=
  { s with
    xl := fun _ => -o.big
    xu := fun _ => o.big
    data := fun p => { s.data p with
      l := setHead (offset o s.n s.bounds p) (-o.big) (s.data p).l
      u := setHead (offset o s.n s.bounds p) o.big (s.data p).u } }

/-- The assignments of the bounds are run on `xl_` and `xu_`. -/
def Solver.runBounds (o : Opts K) (v : Nat → Val K) (s : Solver K) : Solver K :=
  { s with
    xl := if o.feasibleFirst then runLo v s.basg s.xl else s.xl
    xu := if o.feasibleFirst then runUp v s.basg s.xu else s.xu
    data := fun p => { s.data p with
      l := if p = 0 ∧ o.feasibleFirst = false then runLo v s.basg (s.data p).l else (s.data p).l
      u := if p = 0 ∧ o.feasibleFirst = false then runUp v s.basg (s.data p).u else (s.data p).u } }

/-- `postAssignmentProcess_` (LexLSHierarchicalLeastSquareSolver.cpp, lines 197-208): the objectives given to LexLS -/
def Solver.objectives (o : Opts K) (s : Solver K) : List (Obj K) :=
  (if s.bounds && o.feasibleFirst then [.simple s.xl s.xu] else []) ++ (List.range s.nEq.length).map (fun i => .general (s.data i))

/-- The members when LexLS is called by `solve` (HierarchicalLeastSquareSolver.cpp, lines 130-158): the assignments are run in the order of their additions, constraints then bounds. LexLS changes none of the members. -/
def Solver.prepare (o : Opts K) (v : Nat → Val K) (s : Solver K) : Solver K :=
  let s := s.resetBounds o
  Solver.runBounds o v { s with data := runAsg o v s.asg s.data }

/-- `solve` up to the call to LexLS, with `setVariablesToSolution` (HierarchicalLeastSquares.cpp, lines 216-217): when LexLS was not given its sizes its solution is empty, against the assertion of `VariableVector::set`
(VariableVector.cpp, line 148). When there is no level and the bounds should be in the first one, they are moreover written out of `boundData_`. -/
def Solver.solve (o : Opts K) (v : Nat → Val K) (s : Solver K) : Outcome Unit (Solver K × List (Obj K)) :=
  if s.n ≠ 0 ∧ s.sized o = false then .ub
  else .ok () (s.prepare o v, (s.prepare o v).objectives o)

end Verif.HLS
