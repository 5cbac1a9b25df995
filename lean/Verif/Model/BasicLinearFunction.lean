import Verif.Model.BasicLinearConstraint
/-!
# Functions and basic linear functions after their construction

Model of `tvm::function::abstract::Function` (src/function/Function.cpp), `LinearFunction` (src/function/LinearFunction.cpp), `BasicLinearFunction` (src/function/BasicLinearFunction.cpp,
include/tvm/function/BasicLinearFunction.h, lines 134-176) and `IdentityFunction` (src/function/IdentityFunction.cpp). The variables and the jacobians are those of the model of
`FirstOrderProvider`; `geo v` has for size `Variable::size()`, `euc v` is `Variable::isEuclidean`, `tr v` is the range in the tangent space, whose size is that of the derivative, `dt v` is
the variable `dot(v)`. What the memory holds after an allocation is a parameter. The constructors from expressions are those of `Verif.AF` (C53).

Not modelled: the properties of the matrices, the updates and outputs.
-/
set_option autoImplicit false

namespace Verif.BLF
open Verif Verif.VV Verif.Prov

abbrev Vec := BLC.Vec

/-- The members: those of `FirstOrderProvider`, `variablesDot_`, `JDot_`, `normalAcceleration_`, and `b_` of `LinearFunction` -/
structure Fn (K : Type) where
  P : Provider K
  vdots : List Nat
  jdot : VMap (Mat K)
  na : Vec K
  b : Vec K

variable {K : Type}

/-- What the memory holds when something is allocated: jacobians and their derivatives, by variable, and the two vectors -/
structure Memory (K : Type) where
  mat : Nat → Nat → Nat → K
  dmat : Nat → Nat → Nat → K
  na : Nat → K
  b : Nat → K

variable (geo : Nat → Geo) (tr : Nat → Range) (euc : Nat → Bool) (dt : Nat → Nat)

/-- The constructors of `Function` (Function.cpp, lines 16-23) and `LinearFunction` (LinearFunction.cpp, line 16) -/
def make (mem : Memory K) (m : Nat) : Fn K := ⟨Prov.make m, [], [], ⟨m, mem.na⟩, ⟨m, mem.b⟩⟩

/-- `addVariable` with `Function::addVariable_` (Function.cpp, lines 54-58), called when the variable was added (FirstOrderProvider.cpp, lines 41-47) -/
def Fn.addVar (F : Fn K) (mem : Memory K) (v : Nat) (linear : Bool) : Outcome (Fn K) Unit :=
  match F.P.add geo tr v linear (mem.mat v) with
  | .ub => .ub
  | .throw P => .throw { F with P := P }
  | .ok P _ =>
    if F.P.vars.any (fun x => (geo x).contains (geo v)) then .ok { F with P := P } ()
    else .ok { F with P := P, jdot := put F.jdot v ⟨F.P.m, (tr v).dim.toNat, mem.dmat v⟩, vdots := F.vdots ++ [dt v] } ()

/-- `removeVariable` with `Function::removeVariable_` (Function.cpp, lines 60-68). `variables_.remove` says whether there was something to remove, and nobody reads it; the erasure of the
end of the vector is undefined. -/
def Fn.removeVar (F : Fn K) (v : Nat) : Outcome (Fn K) Unit :=
  if dt v ∈ F.vdots then .ok { F with P := F.P.remove geo v, jdot := erase F.jdot v, vdots := F.vdots.erase (dt v) } () else .ub

/-- `JDot_[v].resize(...)` for each variable (Function.cpp, lines 45-52) -/
def resizeJDot (mem : Memory K) (m : Nat) (vars : List Nat) (j : VMap (Mat K)) : VMap (Mat K) :=
  vars.foldl (fun j v => put j v ⟨m, (tr v).dim.toNat, mem.dmat v⟩) j

/-- `resize` with `Function::resizeCache` (Function.cpp, lines 25-31) -/
def Fn.resize (F : Fn K) (mem : Memory K) (m : Nat) : Fn K :=
  { F with P := F.P.resize tr m mem.mat, jdot := resizeJDot tr mem m F.P.vars F.jdot, na := ⟨m, mem.na⟩ }

/-- `setZero` of an entry. `JDot_[v]` makes an empty one when there is none. -/
def zeroEntry [Zero K] (j : VMap (Mat K)) (v : Nat) : VMap (Mat K) :=
  match find j v with
  | none => put j v ⟨0, 0, fun _ _ => 0⟩
  | some M => put j v ⟨M.rows, M.cols, fun _ _ => 0⟩

/-- `setDerivativesToZero` (LinearFunction.cpp, lines 52-57) -/
def Fn.zeroDerivatives [Zero K] (F : Fn K) : Fn K := { F with na := ⟨F.na.size, fun _ => 0⟩, jdot := F.P.vars.foldl zeroEntry F.jdot }

/-- `resize` of a linear function, with `LinearFunction::resizeCache` (LinearFunction.cpp, lines 31-36) -/
def Fn.linResize [Zero K] (F : Fn K) (mem : Memory K) (m : Nat) : Fn K := ({ F.resize tr mem m with b := ⟨m, mem.b⟩ } : Fn K).zeroDerivatives

/-- `J += A` on the columns from `off` -/
def addCols [Add K] (J A : Mat K) (off : Nat) : Mat K := ⟨J.rows, J.cols, fun i c => if off ≤ c ∧ c < off + A.cols then J.at_ i c + A.at_ i (c - off) else J.at_ i c⟩

/-- `jacobian_.at(v, with_sub) += A` (BasicLinearFunction.h, lines 146-148; MapWithVariableAsKey.h, lines 46-80) -/
def accumulate [Add K] (j : VMap (Mat K)) (A : Mat K) (v : Nat) : Option (VMap (Mat K)) :=
  match find j v with
  | some J => some (put j v (addCols J A 0))
  | none =>
    match j.find? (fun e => (geo e.1).contains (geo v)) with
    | none => none
    | some e => some (put j e.1 (addCols e.2 A ((tr v).start - (tr e.1).start).toNat))

/-- `jacobian_.at(v) = A`: throws when there is no entry for this very variable -/
def Fn.atAssign (F : Fn K) (A : Mat K) (v : Nat) : Outcome (Fn K) Unit :=
  match find F.P.jac v with
  | none => .throw F
  | some _ => .ok { F with P := F.P.write v A } ()

/-- `add(A, x)` (BasicLinearFunction.h, lines 134-176) -/
def Fn.addTerm [Add K] (F : Fn K) (mem : Memory K) (A : Mat K) (v : Nat) : Outcome (Fn K) Unit :=
  if euc v = false then .throw F
  else if A.rows ≠ F.P.m then .throw F
  else if A.cols ≠ (geo v).size then .throw F
  else if F.P.vars.any (fun x => (geo x).contains (geo v)) then
    match accumulate geo tr F.P.jac A v with
    | none => .throw F
    | some j => .ok { F with P := { F.P with jac := j } } ()
  else
    match F.addVar geo tr dt mem v true with
    | .ub => .ub
    | .throw F' => .throw F'
    | .ok F' _ => F'.atAssign A v

/-- The loop of the constructor on the matrices and the variables (BasicLinearFunction.cpp, lines 33-38) -/
def addTerms [Add K] (mem : Memory K) (F : Fn K) : List (Mat K × Nat) → Outcome Unit (Fn K)
  | [] => .ok () F
  | t :: l =>
    match F.addTerm geo tr euc dt mem t.1 t.2 with
    | .ub => .ub
    | .throw _ => .throw ()
    | .ok F' _ => addTerms mem F' l

/-- `b(b)` (BasicLinearFunction.cpp, lines 74-83) -/
def Fn.setB (F : Fn K) (b : Vec K) : Outcome (Fn K) Unit := if b.size = F.P.m then .ok { F with b := b } () else .throw F

/-- `A(A, x)` (lines 54-63) -/
def Fn.setA (F : Fn K) (A : Mat K) (x : Nat) : Outcome (Fn K) Unit :=
  if A.rows = F.P.m ∧ A.cols = (geo x).size then F.atAssign A x else .throw F

/-- `A(A)` (lines 65-72) -/
def Fn.setA1 (F : Fn K) (A : Mat K) : Outcome (Fn K) Unit :=
  match F.P.vars with
  | [x] => F.setA geo A x
  | _ => .throw F

/-- A1 x1 + ... An xn + b (lines 25-41). `A.begin()` of an empty vector is dereferenced first. -/
def makeAB [Zero K] [Add K] (mem : Memory K) (As : List (Mat K)) (xs : List Nat) (b : Vec K) : Outcome Unit (Fn K) :=
  match As with
  | [] => .ub
  | A :: _ =>
    if As.length ≠ xs.length then .throw ()
    else
      match addTerms geo tr euc dt mem (make mem A.rows) (As.zip xs) with
      | .ub => .ub
      | .throw _ => .throw ()
      | .ok _ F =>
        match F.setB b with
        | .ub => .ub
        | .throw _ => .throw ()
        | .ok F' _ => .ok () F'.zeroDerivatives

/-- A1 x1 + ... An xn (lines 16-18) -/
def makeA [Zero K] [Add K] (mem : Memory K) (As : List (Mat K)) (xs : List Nat) : Outcome Unit (Fn K) :=
  match As with
  | [] => .ub
  | A :: _ => makeAB geo tr euc dt mem As xs ⟨A.rows, fun _ => 0⟩

/-- The loop of the constructor without data (lines 47-51): the call of `at` throws if there is no entry for this very variable -/
def allocVars (mem : Memory K) (F : Fn K) : List Nat → Outcome Unit (Fn K)
  | [] => .ok () F
  | v :: l =>
    match F.addVar geo tr dt mem v true with
    | .ub => .ub
    | .throw _ => .throw ()
    | .ok F' _ =>
      match find F'.P.jac v with
      | none => .throw ()
      | some _ => allocVars mem F' l

/-- Uninitialized data (lines 45-53) -/
def makeAlloc [Zero K] (mem : Memory K) (m : Nat) (xs : List Nat) : Outcome Unit (Fn K) :=
  match allocVars geo tr dt mem (make mem m) xs with
  | .ub => .ub
  | .throw _ => .throw ()
  | .ok _ F => .ok () F.zeroDerivatives

/-- The loops of `updateValue_` and `updateVelocity_` (LinearFunction.cpp, lines 41-42 and 48-49), on values of sizes `sz`. A product of matrices with sizes that do not fit is an assertion
of Eigen. -/
def sumLoop [CommRing K] (F : Fn K) (sz : Nat → Nat) (x : Nat → Nat → K) : List Nat → (Nat → K) → Outcome Unit (Nat → K)
  | [], acc => .ok () acc
  | v :: l, acc =>
    match F.P.jacobian geo tr v with
    | .ub => .ub
    | .throw _ => .throw ()
    | .ok _ M => if M.rows = F.P.m ∧ M.cols = sz v then sumLoop F sz x l (fun i => acc i + ∑ c ∈ Finset.range M.cols, M.at_ i c * x v c) else .ub

/-- `updateValue_` (lines 38-43); `x v` is the value of the variable `v` -/
def Fn.value [CommRing K] (F : Fn K) (x : Nat → Nat → K) : Outcome Unit (Vec K) :=
  match sumLoop geo tr F (fun v => (geo v).size) x F.P.vars F.b.v with
  | .ub => .ub
  | .throw _ => .throw ()
  | .ok _ r => .ok () ⟨F.b.size, r⟩

/-- `updateVelocity_` (lines 45-50); the value of `dot(v)` is that of the variable `dt v` -/
def Fn.velocity [CommRing K] (F : Fn K) (x : Nat → Nat → K) : Outcome Unit (Vec K) :=
  match sumLoop geo tr F (fun v => (tr v).dim.toNat) (fun v => x (dt v)) F.P.vars (fun _ => 0) with
  | .ub => .ub
  | .throw _ => .throw ()
  | .ok _ r => .ok () ⟨F.P.m, r⟩

/-- `IdentityFunction` (IdentityFunction.cpp, lines 13-15) -/
def makeIdentity [Zero K] [One K] [Add K] (mem : Memory K) (x : Nat) : Outcome Unit (Fn K) :=
  makeA geo tr euc dt mem [⟨(geo x).size, (geo x).size, fun i j => if i = j then 1 else 0⟩] [x]

/-- `updateValue_` (line 26) -/
def Fn.idValue (F : Fn K) (x : Nat → Nat → K) : Outcome Unit (Vec K) :=
  match F.P.vars with
  | [] => .ub
  | v :: _ => .ok () ⟨(geo v).size, x v⟩

/-- `updateVelocity_` (line 28) -/
def Fn.idVelocity (F : Fn K) (x : Nat → Nat → K) : Outcome Unit (Vec K) :=
  match F.P.vars with
  | [] => .ub
  | v :: _ => .ok () ⟨(tr v).dim.toNat, x (dt v)⟩

/-- The setters (lines 17-24) -/
def Fn.idSetA (F : Fn K) (_ : Mat K) (_ : Nat) : Outcome (Fn K) Unit := .throw F
/-- With one argument -/
def Fn.idSetA1 (F : Fn K) (_ : Mat K) : Outcome (Fn K) Unit := .throw F
/-- Of the constant -/
def Fn.idSetB (F : Fn K) (_ : Vec K) : Outcome (Fn K) Unit := .throw F

end Verif.BLF
