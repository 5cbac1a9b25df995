import Verif.Model.AffineFunction
import Verif.Model.LinearizedTask
/-!
# Model of the operators that form tasks (include/tvm/utils/ProtoTask.h, include/tvm/utils/internal/ProtoTaskDetails.h, src/Task.cpp, lines 53-71)

`ProtoTask` and `LinearProtoTask` differ by the type of the pointer to the function only: the definitions below are for any type `F` of functions, the operators on
`ProtoTaskLT`/`ProtoTaskGT` (lines 135-136) and on their linear versions (lines 137-138) are the same definitions. What the compiler does not accept is not typable here:
the operators on `EQ`, and `<=` on `LT`, `>=` on `GT`.

The image space of the functions is Euclidean (`rSize()` is `size()`).
-/
set_option autoImplicit false
set_option linter.unusedSectionVars false

namespace Verif.Proto
open Verif TD LTask

variable {K : Type} [Field K] [LinearOrder K] [IsStrictOrderedRing K] {F : Type}

/-- `utils::internal::RHS` (ProtoTaskDetails.h, lines 36-49) with its type -/
inductive RHS (K : Type) where
  | zero
  | double (d : K)
  | vector (n : Nat) (v : Nat → K)

/-- `RHS(double)` (ProtoTaskDetails.h, line 51) -/
def RHS.ofDouble (d : K) : RHS K := if d = 0 then .zero else .double d

/-- `RHS(Eigen::MatrixBase)` (ProtoTaskDetails.h, lines 53-55) -/
def RHS.ofVector (n : Nat) (v : Nat → K) : RHS K := .vector n v

/-- `RHS::toVector` (ProtoTaskDetails.h, lines 57-74). The assertion on line 67 is `ub`. -/
def RHS.toVector (n : Nat) : RHS K → Outcome Unit (TD.Vec K)
  | .zero => .ok () ⟨n, fun _ => 0⟩
  | .double d => .ok () ⟨n, fun _ => d⟩
  | .vector m v => if m = n then .ok () ⟨m, v⟩ else .ub

/-- The condition tested by the constructors (ProtoTask.h, lines 33, 53 and 57) -/
def RHS.fits (n : Nat) : RHS K → Bool
  | .vector m _ => decide (n = m)
  | _ => true

/-- `ProtoTaskEQ` (ProtoTask.h, lines 43-44 and 84) -/
structure EQ (F K : Type) where
  f : F
  rhs : RHS K

/-- `ProtoTaskLT` (ProtoTask.h, lines 43-44 and 90) -/
structure LT (F K : Type) where
  f : F
  rhs : RHS K

/-- `ProtoTaskGT` (ProtoTask.h, lines 43-44 and 96) -/
structure GT (F K : Type) where
  f : F
  rhs : RHS K

/-- `ProtoTaskDS` (ProtoTask.h, lines 67-69 and 102) -/
structure DS (F K : Type) where
  f : F
  l : RHS K
  u : RHS K

/-- Functions of which the size can be read -/
class Sized (F : Type) where
  size : F → Nat

instance : Sized (LTask.Fn K) := ⟨Fn.size⟩
instance : Sized (AF.Fn K) := ⟨AF.Fn.size⟩

variable [Sized F]

/-- The conversion from `LinearProtoTask` (ProtoTask.h, lines 39-41) -/
def EQ.map {G : Type} (g : F → G) (p : EQ F K) : EQ G K := ⟨g p.f, p.rhs⟩
@[inherit_doc EQ.map]
def LT.map {G : Type} (g : F → G) (p : LT F K) : LT G K := ⟨g p.f, p.rhs⟩
@[inherit_doc EQ.map]
def GT.map {G : Type} (g : F → G) (p : GT F K) : GT G K := ⟨g p.f, p.rhs⟩
/-- The conversion from `LinearProtoTask` (ProtoTask.h, lines 63-65) -/
def DS.map {G : Type} (g : F → G) (p : DS F K) : DS G K := ⟨g p.f, p.l, p.u⟩

/-! ## Constructors -/

/-- Constructor (ProtoTask.h, lines 31-37) -/
def EQ.make (f : F) (rhs : RHS K) : Outcome Unit (EQ F K) := if rhs.fits (Sized.size f) then .ok () ⟨f, rhs⟩ else .throw ()
/-- Constructor (ProtoTask.h, lines 31-37) -/
def LT.make (f : F) (rhs : RHS K) : Outcome Unit (LT F K) := if rhs.fits (Sized.size f) then .ok () ⟨f, rhs⟩ else .throw ()
/-- Constructor (ProtoTask.h, lines 31-37) -/
def GT.make (f : F) (rhs : RHS K) : Outcome Unit (GT F K) := if rhs.fits (Sized.size f) then .ok () ⟨f, rhs⟩ else .throw ()
/-- Constructor (ProtoTask.h, lines 51-61) -/
def DS.make (f : F) (l u : RHS K) : Outcome Unit (DS F K) :=
  if l.fits (Sized.size f) then if u.fits (Sized.size f) then .ok () ⟨f, l, u⟩ else .throw () else .throw ()

/-! ## Operators on functions (ProtoTask.h, lines 122-138). `FR` is for `f op rhs`, `RF` for `rhs op f`. -/

/-- Line 123 -/
def eqFR (f : F) (r : RHS K) := EQ.make f r
/-- Line 125 -/
def eqRF (r : RHS K) (f : F) := EQ.make f r
/-- Line 127 -/
def geFR (f : F) (r : RHS K) := GT.make f r
/-- Line 129 -/
def geRF (r : RHS K) (f : F) := LT.make f r
/-- Line 131 -/
def leFR (f : F) (r : RHS K) := LT.make f r
/-- Line 133 -/
def leRF (r : RHS K) (f : F) := GT.make f r

/-- `ptl >= rhs` (lines 135 and 137) -/
def geLT (p : LT F K) (r : RHS K) : Outcome Unit (DS F K) := DS.make p.f r p.rhs
/-- `ptg <= rhs` (lines 136 and 138) -/
def leGT (p : GT F K) (r : RHS K) : Outcome Unit (DS F K) := DS.make p.f p.rhs r

/-- Sequence of two calls -/
def andThen {α β : Type} (a : Outcome Unit α) (b : α → Outcome Unit β) : Outcome Unit β :=
  match a with
  | .ok _ x => b x
  | .throw _ => .throw ()
  | .ub => .ub

/-! ## Operators on variables (ProtoTask.h, lines 153-158) and on expressions (lines 177-202): `TVM_ID` and `TVM_LIN` make a function out of the operand, then the
operators on functions are called. -/

/-- `TVM_ID(x)`: constructor of `IdentityFunction` (src/function/IdentityFunction.cpp, lines 13-15), by that of `BasicLinearFunction` with one matrix (src/function/BasicLinearFunction.cpp,
lines 13-20). The value that it computes directly (IdentityFunction.cpp, line 26) is that of the product with the identity matrix. -/
def identityFn (x : AF.GVar) : Outcome Unit (AF.Fn K) :=
  andThen (AF.ofLists [(x.size, x.size, fun r c => if r = c then 1 else 0)] [x] ⟨x.size, fun _ => 0⟩) fun f =>
    .ok () ⟨f.size, f.blks.map fun b => ⟨b.v, b.J, .identity⟩, f.b⟩

/-- What stands for the function in the operators -/
inductive Operand (K : Type) where
  | var (x : AF.GVar)
  | lin (t : AF.Lin K)
  | aff (a : AF.Aff K)

/-- The macros `TVM_ID` (line 142) and `TVM_LIN` (line 163) -/
def Operand.fn : Operand K → Outcome Unit (AF.Fn K)
  | .var x => identityFn x
  | .lin t => AF.ofLin t
  | .aff a => AF.ofAff a

/-- Lines 153, 178 and 191 -/
def eqOR (o : Operand K) (r : RHS K) := andThen o.fn fun f => eqFR f r
/-- Lines 154, 180 and 193 -/
def eqRO (r : RHS K) (o : Operand K) := andThen o.fn fun f => eqFR f r
/-- Lines 155, 182 and 195 -/
def geOR (o : Operand K) (r : RHS K) := andThen o.fn fun f => geFR f r
/-- Lines 156, 184 and 197 -/
def geRO (r : RHS K) (o : Operand K) := andThen o.fn fun f => leFR f r
/-- Lines 157, 186 and 199 -/
def leOR (o : Operand K) (r : RHS K) := andThen o.fn fun f => leFR f r
/-- Lines 158, 188 and 201 -/
def leRO (r : RHS K) (o : Operand K) := andThen o.fn fun f => geFR f r

/-! ## Tasks -/

/-- `none` is an exception. -/
def ofOption {α : Type} : Option α → Outcome Unit α
  | some x => .ok () x
  | none => .throw ()

/-- Constructor of `Task` (Task.cpp, lines 53-55) -/
def EQ.task (p : EQ (LTask.Fn K) K) (d : Dyn K) : Outcome Unit (TaskObj K) :=
  andThen (p.rhs.toVector p.f.size) fun v => ofOption (makeTask p.f .equal d v)
/-- Constructor of `Task` (Task.cpp, lines 57-59) -/
def LT.task (p : LT (LTask.Fn K) K) (d : Dyn K) : Outcome Unit (TaskObj K) :=
  andThen (p.rhs.toVector p.f.size) fun v => ofOption (makeTask p.f .lowerThan d v)
/-- Constructor of `Task` (Task.cpp, lines 61-63) -/
def GT.task (p : GT (LTask.Fn K) K) (d : Dyn K) : Outcome Unit (TaskObj K) :=
  andThen (p.rhs.toVector p.f.size) fun v => ofOption (makeTask p.f .greaterThan d v)
/-- Constructor of `Task` (Task.cpp, lines 65-71) -/
def DS.task (p : DS (LTask.Fn K) K) (d : Dyn K) : Outcome Unit (TaskObj K) :=
  andThen (p.l.toVector p.f.size) fun l => andThen (p.u.toVector p.f.size) fun u => ofOption (makeTask2 p.f .doubleSided d l u)

/-- A `BasicLinearFunction` seen as a function (`FunctionPtr`): its variables are numbered by their positions, its outputs are computed for the values `val` of the super
variables and `vel` of their derivatives (src/function/LinearFunction.cpp, lines 38-50; the normal acceleration is zero, lines 52-57). -/
def view (f : AF.Fn K) (val vel : Nat → Nat → K) : LTask.Fn K :=
  ⟨f.size, true, (List.range f.blks.length).map fun j => ⟨j, 0⟩, fun j => (f.blks[j]?.map fun b => b.v.size).getD 0, fun _ => true,
    f.value val, f.velocity vel, fun _ => 0, fun v => (f.blks[v.base]?.map fun b => b.J).getD fun _ _ => 0, some f.b⟩

/-- The values of the variables of the function -/
def viewVal (f : AF.Fn K) (val : Nat → Nat → K) (v : VId) : Nat → K :=
  (f.blks[v.base]?.map fun b => b.v.value val).getD fun _ => 0

end Verif.Proto
