import Verif.Model.TaskDynamics
/-!
# Model of `tvm::Task` and `tvm::constraint::internal::LinearizedTaskConstraint`
(src/Task.cpp, src/constraint/LinearizedTaskConstraint.cpp, src/constraint/LinearConstraint.cpp)

A variable is given by its base primitive and its order of derivation. A function is given by what its outputs hold at the time of the update. The objects of
the task dynamics are described by their kind; the velocity damper (that keeps a state) and the dynamics of a user are covered by `Dyn.other`.

Not modelled: the computation graph (the dependencies declared by the constructor), the memory of the variables.
-/
set_option autoImplicit false
set_option linter.unusedSectionVars false

namespace Verif.LTask
open Verif TD

/-- A variable: its base primitive and its derivation number -/
structure VId where
  base : Nat
  order : Nat
deriving DecidableEq, Repr

/-- `dot(v, k)` (Variable.cpp, lines 12-40) -/
def VId.dot (v : VId) (k : Nat) : VId := ⟨v.base, v.order + k⟩

/-- `Variable::primitive<k>` (Variable.h, lines 297-319), and the variable itself for 0: `none` when it throws -/
def VId.primitive (v : VId) (k : Nat) : Option VId := if k ≤ v.order then some ⟨v.base, v.order - k⟩ else none

/-- The outputs of a function (`function::abstract::Function`, `LinearFunction`). `dim` is the size of a base primitive and of its derivatives (the variables in
spaces that are not Euclidean, that have a size different from that of their derivatives, are not modelled). `b` is `none` for a function that is not a `LinearFunction`. -/
structure Fn (K : Type) where
  size : Nat
  euclidean : Bool
  vars : List VId
  dim : Nat → Nat
  linearIn : VId → Bool
  value : Nat → K
  velocity : Nat → K
  normalAcc : Nat → K
  jac : VId → Nat → Nat → K
  b : Option (Nat → K)

/-- `task_dynamics::Order` (include/tvm/task_dynamics/enums.h) -/
inductive Order
  | zero
  | one
  | two
deriving DecidableEq, Repr

/-- The number of derivations -/
def Order.num : Order → Nat
  | .zero => 0
  | .one => 1
  | .two => 2

variable {K : Type} [Field K] [LinearOrder K] [IsStrictOrderedRing K]

/-- The task dynamics. The checks of their constructors that do not depend on the function (`OneStepToZero`, `Clamped`) are in `TaskDynamics.lean`. -/
inductive Dyn (K : Type)
  | constant
  | none
  | reference (o : Order) (ref : Vec K)
  | proportional (kp : Gain K)
  | pd (kp kv : Gain K)
  | oneStep (second : Bool) (dt : K)
  | feedForward (inner : Dyn K) (ff : Vec K)
  | clamped (inner : Dyn K) (lo hi : Vec K)
  | other (o : Order) (value : CType → Fn K → Vec K → Outcome Unit (Vec K))

/-- `TaskDynamics::order` and the order given to `TaskDynamicsImpl` (Constant.cpp, lines 21-24; None.cpp, lines 18-21; Reference.cpp, lines 20-23; Proportional.cpp,
ProportionalDerivative.cpp; OneStepToZero.cpp, lines 39-50). `FeedForward` and `Clamped` derive from the inner dynamics. -/
def Dyn.order : Dyn K → Order
  | .constant => .zero
  | .none => .zero
  | .reference o _ => o
  | .proportional _ => .one
  | .pd _ _ => .two
  | .oneStep second _ => if second then .two else .one
  | .feedForward d _ => d.order
  | .clamped d _ _ => d.order
  | .other o _ => o

/-- The constructors of the objects `Impl` (TaskDynamicsImpl.cpp, lines 18-31, and the files of the dynamics): `false` when one of them throws. The failing
assertions of `ProportionalDerivative::Impl` are counted as exceptions. -/
def Dyn.accepts (f : Fn K) (rhs : Vec K) : Dyn K → Bool
  | .none => implAccepts f.size rhs.n f.euclidean && f.b.isSome
  | .proportional kp => implAccepts f.size rhs.n f.euclidean && propAccepts f.size kp
  | .pd kp kv => implAccepts f.size rhs.n f.euclidean && gainFits f.size kp && gainFits f.size kv
  | .feedForward d ff => d.accepts f rhs && decide (ff.n = f.size)
  | .clamped d lo hi => d.accepts f rhs && (clampedImpl f.size (.vec lo.n lo.v) (.vec hi.n hi.v)).isSome
  | _ => implAccepts f.size rhs.n f.euclidean

/-- `updateValue` of the objects `Impl`. A sum of vectors of different sizes is an assertion of Eigen. -/
def Dyn.value (t : CType) (f : Fn K) (rhs : Vec K) : Dyn K → Outcome Unit (Vec K)
  | .constant => .ok () ⟨rhs.n, constantValue rhs.v⟩
  | .none =>
    match noneValue f.b rhs.v with
    | .none => .ub
    | some v => .ok () ⟨rhs.n, v⟩
  | .reference _ ref => .ok () ⟨ref.n, referenceValue ref.v⟩
  | .proportional kp => propValue kp f.size f.value rhs.v
  | .pd kp kv => pdValue kp kv f.size f.value f.velocity rhs.v
  | .oneStep second dt => .ok () ⟨rhs.n, oneStepValue (if second then 2 else 1) dt f.value f.velocity rhs.v⟩
  | .feedForward d ff =>
    match d.value t f rhs with
    | .ok _ x => if x.n = ff.n then .ok () ⟨x.n, feedForwardValue x.v ff.v⟩ else .ub
    | .throw _ => .throw ()
    | .ub => .ub
  | .clamped d lo hi =>
    match d.value t f rhs with
    | .ok _ x => if f.size ≤ x.n then .ok () ⟨x.n, clampValue f.size lo.v hi.v x.v⟩ else .ub
    | .throw _ => .throw ()
    | .ub => .ub
  | .other _ v => v t f rhs

/-- An object `TaskDynamicsImpl`: its dynamics, its type and its right-hand side -/
structure Impl (K : Type) where
  dyn : Dyn K
  type : CType
  rhs : Vec K

/-- `TaskDynamics::impl` (TaskDynamics.cpp): `none` when it throws -/
def Dyn.impl (d : Dyn K) (f : Fn K) (t : CType) (rhs : Vec K) : Option (Impl K) := if d.accepts f rhs then some ⟨d, t, rhs⟩ else .none

/-- Members of `Task` (Task.h), without the function -/
structure TaskObj (K : Type) where
  type : CType
  td : Impl K
  td2 : Option (Impl K)

/-- The constructor of `Task` with one right-hand side (Task.cpp, lines 24-34; with a vector of zeros, lines 11-18): `none` when it throws -/
def makeTask (f : Fn K) (t : CType) (d : Dyn K) (rhs : Vec K) : Option (TaskObj K) :=
  match d.impl f t rhs with
  | .none => .none
  | some td => if t = .doubleSided then .none else if !f.euclidean then .none else some ⟨t, td, .none⟩

/-- The constructor of `Task` with two right-hand sides (Task.cpp, lines 40-51): `none` when it throws -/
def makeTask2 (f : Fn K) (t : CType) (d : Dyn K) (l u : Vec K) : Option (TaskObj K) :=
  match d.impl f .greaterThan l, d.impl f .lowerThan u with
  | some td, some td2 => if t ≠ .doubleSided then .none else if !f.euclidean then .none else some ⟨t, td, some td2⟩
  | _, _ => .none

/-- Members of `LinearizedTaskConstraint` -/
structure LTC (K : Type) where
  type : CType
  td : Impl K
  td2 : Option (Impl K)
  vars : List VId

/-- `FirstOrderProvider::addVariable` (FirstOrderProvider.cpp, lines 42-51), on the list of variables -/
def addVar (l : List VId) (v : VId) : List VId := if v ∈ l then l else l ++ [v]

/-- The constructor of `LinearizedTaskConstraint` (LinearizedTaskConstraint.cpp, lines 18-89): `none` when it throws. The second dynamics of a double-sided task
is not null (`makeTask2`). -/
def makeLTC (f : Fn K) (T : TaskObj K) : Option (LTC K) :=
  if T.type = .doubleSided ∧ (T.td2.map fun d => d.dyn.order) ≠ some T.td.dyn.order then .none
  else
    match T.td.dyn.order with
    | .zero => if f.vars.all f.linearIn then some ⟨T.type, T.td, T.td2, f.vars.foldl addVar []⟩ else .none
    | .one => some ⟨T.type, T.td, T.td2, (f.vars.map fun v => v.dot 1).foldl addVar []⟩
    | .two => some ⟨T.type, T.td, T.td2, (f.vars.map fun v => v.dot 2).foldl addVar []⟩

/-- `LinearizedTaskConstraint::jacobian` (LinearizedTaskConstraint.cpp, lines 147-163) and `FirstOrderProvider::jacobian`, that throws for a variable the
function does not have -/
def LTC.jacobian (c : LTC K) (f : Fn K) (x : VId) : Outcome Unit (Nat → Nat → K) :=
  match x.primitive c.td.dyn.order.num with
  | .none => .throw ()
  | some v => if v ∈ f.vars then .ok () (f.jac v) else .throw ()

/-- `updateLKin` to `updateU2Dyn` (LinearizedTaskConstraint.cpp, lines 131-145): the vector from an object of the task dynamics, and the normal acceleration
at order 2 -/
def LTC.side (d : Impl K) (f : Fn K) : Outcome Unit (Vec K) :=
  match d.dyn.value d.type f d.rhs with
  | .ok _ x =>
    if d.dyn.order = .two then if x.n = f.size then .ok () ⟨x.n, fun i => x.v i - f.normalAcc i⟩ else .ub
    else .ok () x
  | .throw _ => .throw ()
  | .ub => .ub

/-- The vectors `l`, `u` and `e` of a constraint -/
structure Rhs (K : Type) where
  l : Option (Vec K)
  u : Option (Vec K)
  e : Option (Vec K)

/-- The updates registered by the constructor (LinearizedTaskConstraint.cpp, lines 37-62 and 106-128) -/
def LTC.update (c : LTC K) (f : Fn K) : Outcome Unit (Rhs K) :=
  match LTC.side c.td f with
  | .throw _ => .throw ()
  | .ub => .ub
  | .ok _ x =>
    match c.type with
    | .greaterThan => .ok () ⟨some x, .none, .none⟩
    | .lowerThan => .ok () ⟨.none, some x, .none⟩
    | .equal => .ok () ⟨.none, .none, some x⟩
    | .doubleSided =>
      match c.td2 with
      | .none => .ub
      | some d =>
        match LTC.side d f with
        | .ok _ y => .ok () ⟨some x, some y, .none⟩
        | .throw _ => .throw ()
        | .ub => .ub

/-- One turn of the loop of `LinearConstraint::updateValue` (LinearConstraint.cpp, lines 24-27), `val` being the values of the variables -/
def LTC.valueStep (c : LTC K) (f : Fn K) (val : VId → Nat → K) (s : Outcome Unit (Nat → K)) (x : VId) : Outcome Unit (Nat → K) :=
  match s, c.jacobian f x with
  | .ok _ s, .ok _ J => .ok () fun i => s i + ∑ k ∈ Finset.range (f.dim x.base), J i k * val x k
  | .ok _ _, .throw _ => .throw ()
  | .ok _ _, .ub => .ub
  | r, _ => r

/-- `LinearConstraint::updateValue` (LinearConstraint.cpp, lines 21-28) -/
def LTC.value (c : LTC K) (f : Fn K) (val : VId → Nat → K) : Outcome Unit (Nat → K) :=
  c.vars.foldl (LTC.valueStep c f val) (.ok () fun _ => 0)

end Verif.LTask
