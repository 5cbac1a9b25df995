import Verif.Model.MatrixProperties
import Verif.Model.FirstOrderProvider
import Mathlib.Algebra.Group.Defs
/-!
# Model of matrices with properties

`tvm::internal::ObjectWithProperties` and `KeepProperties` (include/tvm/internal/MatrixWithProperties.h), the slices of the jacobians
(`slice_matrix`, include/tvm/internal/FirstOrderProvider.h, lines 83-98), and the functions that write jacobians with their properties.

`none` is a failed assertion. The values are those of C83 (`Prov.Mat`). A slice obtained from an object that is not const refers to the
columns and to the properties of the object: its operations are operations on the object.

Simplified: the aliasing of Eigen's expressions with the object they are assigned to.
-/
set_option autoImplicit false

namespace Verif.WP
open Verif Verif.MP Verif.Prov

variable {K : Type}

/-- The value (base class) and `properties_` (MatrixWithProperties.h, lines 52-144) -/
structure Obj (K : Type) where
  val : Mat K
  props : Props

/-- The constructor from an expression (lines 60-62) -/
def ofExpr (X : Mat K) : Obj K := ⟨X, MP.default⟩

/-- The constructor from an expression and properties (lines 64-68) -/
def ofExprP (X : Mat K) (p : Props) : Obj K := ⟨X, p⟩

/-- The constructors from an object with properties, and the implicit assignment of one of the same type (lines 70-77) -/
def copy (o : Obj K) : Obj K := ⟨o.val, o.props⟩

/-- The assertion on the sizes of the operands (lines 82, 93, 102 and 123) -/
def sameSize (X Y : Mat K) : Bool := decide (X.rows = Y.rows) && decide (X.cols = Y.cols)

/-- `M = X` (lines 79-88) -/
def Obj.assign (o : Obj K) (X : Mat K) : Option (Obj K) := if sameSize o.val X then some ⟨X, MP.default⟩ else none

/-- `M += X` (lines 90-97) -/
def Obj.addAssign [Add K] (o : Obj K) (X : Mat K) : Option (Obj K) :=
  if sameSize o.val X then some ⟨⟨o.val.rows, o.val.cols, fun i j => o.val.at_ i j + X.at_ i j⟩, MP.default⟩ else none

/-- `M -= X` (lines 99-106) -/
def Obj.subAssign [Sub K] (o : Obj K) (X : Mat K) : Option (Obj K) :=
  if sameSize o.val X then some ⟨⟨o.val.rows, o.val.cols, fun i j => o.val.at_ i j - X.at_ i j⟩, MP.default⟩ else none

/-- `M.assignKeepProperties(X)` (lines 120-128) -/
def Obj.assignKeep (o : Obj K) (X : Mat K) : Option (Obj K) := if sameSize o.val X then some ⟨X, o.props⟩ else none

/-- `M.keepProperties(keep) = X` (lines 140 and 146-160) -/
def Obj.keepAssign (o : Obj K) (keep : Bool) (X : Mat K) : Option (Obj K) := if keep then o.assignKeep X else o.assign X

/-- `M.properties(p)` (line 132) -/
def Obj.setProps (o : Obj K) (p : Props) : Obj K := ⟨o.val, p⟩

/-- A function inherited from Eigen that writes the coefficients or changes the sizes (`setZero`, `resize`, `<<`, `noalias() =`, ...): none
of them is redefined (line 53) -/
def Obj.raw (o : Obj K) (X : Mat K) : Obj K := ⟨X, o.props⟩

/-! ## Slices (FirstOrderProvider.h, lines 83-98) -/

/-- `slice_matrix::slice`; `none` is the exception of the constructor -/
def sliceProps (p : Props) : Option Props :=
  if p.isZero then make (some .zero) none (some p.isConstant) none else make none none (some p.isConstant) none

/-- `slice_matrix::get` of a const object (lines 96-97) -/
def Obj.constSlice (o : Obj K) (r : Range) : Option (Obj K) :=
  match o.val.middle r with
  | none => none
  | some X =>
    match sliceProps o.props with
    | none => none
    | some p => some (ofExprP X p)

/-- The properties read through a slice of an object that is not const (lines 94-95) -/
def Obj.refProps (o : Obj K) : Props := o.props

/-- The columns of the range replaced by those of `X` -/
def putCols (M : Mat K) (r : Range) (X : Mat K) : Mat K :=
  ⟨M.rows, M.cols, fun i j => if r.start ≤ (j : Int) ∧ (j : Int) < r.stop then X.at_ i (j - r.start.toNat) else M.at_ i j⟩

/-- `keepProperties(keep) = X` on a slice of an object that is not const; `= X` is with `keep` false -/
def Obj.refAssign (o : Obj K) (r : Range) (keep : Bool) (X : Mat K) : Option (Obj K) :=
  match o.val.middle r with
  | none => none
  | some V => if sameSize V X then some ⟨putCols o.val r X, if keep then o.props else MP.default⟩ else none

/-- `+= X` on such a slice -/
def Obj.refAdd [Add K] (o : Obj K) (r : Range) (X : Mat K) : Option (Obj K) :=
  match o.val.middle r with
  | none => none
  | some V => if sameSize V X then some ⟨putCols o.val r ⟨V.rows, V.cols, fun i j => V.at_ i j + X.at_ i j⟩, MP.default⟩ else none

/-- `properties(p)` on such a slice: the properties are those of the object -/
def Obj.refSetProps (o : Obj K) (p : Props) : Obj K := o.setProps p

/-! ## Functions that write a jacobian with its properties -/

/-- `BasicLinearFunction::A`, `BasicLinearConstraint::A` (src/function/BasicLinearFunction.cpp, lines 59-60;
src/constraint/BasicLinearConstraint.cpp, lines 120-121), after the test of the sizes -/
def Obj.setA (o : Obj K) (X : Mat K) (p : Props) : Option (Obj K) := (o.assign X).map fun o' => o'.setProps p

/-- `BasicLinearFunction::add` for a variable that is a part of a variable of the function
(include/tvm/function/BasicLinearFunction.h, lines 144-149) -/
def Obj.accumulate [Add K] (o : Obj K) (r : Range) (X : Mat K) : Option (Obj K) :=
  match o.refAdd r X, make none none (some true) none with
  | some o', some p => some (o'.refSetProps p)
  | _, _ => none

end Verif.WP
