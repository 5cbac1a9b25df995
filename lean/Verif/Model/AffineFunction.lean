import Verif.Model.VariableCountingVector
import Verif.Model.MatrixProperties
import Mathlib.Algebra.BigOperators.Group.Finset.Basic
import Mathlib.Algebra.Field.Defs
/-!
# Model of affine expressions and of `tvm::function::BasicLinearFunction`
(include/tvm/utils/AffineExpr.h, include/tvm/utils/internal/AffineExprOperators.h,
include/tvm/utils/internal/AffineExprDetail.h, include/tvm/function/BasicLinearFunction.h,
src/function/BasicLinearFunction.cpp, src/internal/FirstOrderProvider.cpp, lines 40-49,
include/tvm/utils/internal/MapWithVariableAsKey.h, src/function/LinearFunction.cpp, lines 38-50)

Simplifications: the variables are Euclidean (so that the test of BasicLinearFunction.h, line 137, does not throw and
the ranges in the three spaces are the same), numbers are exact, expressions are evaluated matrices (lifetimes are not
modelled). A vector of size `n` is a function on `Nat` of which the first `n` values are meaningful.
-/
set_option autoImplicit false

namespace Verif.AF
open Verif Verif.MP

variable {K : Type} [Field K]

/-- A Euclidean (sub)variable: `superVariable()`, start and size of `subvariableRange()` (src/Variable.cpp,
lines 152-170). -/
structure GVar where
  root : VCV.Root
  start : Nat
  size : Nat
deriving Repr, DecidableEq

/-- The variable seen by `VariableCountingVector`: the same range in the three spaces. -/
def GVar.var (x : GVar) : VCV.Var := ⟨x.root, ⟨x.start, x.start, x.start⟩, ⟨x.size, x.size, x.size⟩⟩

/-- The range in the super variable -/
def GVar.range (x : GVar) : Range := ⟨x.start, x.size⟩

/-- `Variable::contains` (src/Variable.cpp, lines 180-181) -/
def GVar.contains (x y : GVar) : Bool := decide (x.root = y.root) && x.range.contains y.range

/-- `Variable::intersects` (src/Variable.cpp, lines 183-184) -/
def GVar.intersects (x y : GVar) : Bool := decide (x.root = y.root) && x.range.intersects y.range

/-- An element of `VariableCountingVector::variables()` as a Euclidean variable. -/
def itemVar (i : VCV.Item) : GVar := ⟨i.var.root, i.var.start.t.toNat, i.var.dim.t.toNat⟩

/-- `Variable::value()`: the segment of the value of the super variable (src/Variable.cpp, line 93). -/
def GVar.value (x : GVar) (val : Nat → Nat → K) (k : Nat) : K := val x.root.id (x.start + k)

/-! ## Expressions -/

/-- The types of matrix expressions that are distinguished (AffineExprDetail.h, lines 17-22). -/
inductive Kind where
  | identity | minusIdentity | multIdentity | general
deriving Repr, DecidableEq

/-- `utils::LinearExpr` (AffineExpr.h, lines 24-56): a matrix expression and a variable. -/
structure Lin (K : Type) where
  rows : Nat
  cols : Nat
  A : Nat → Nat → K
  kind : Kind
  x : GVar

/-- `operator*(MatrixBase, VariablePtr)` for a matrix without special type (AffineExprOperators.h, lines 118-121); the
constructor asserts the number of columns (AffineExpr.h, line 30). -/
def Lin.mat (rows cols : Nat) (A : Nat → Nat → K) (x : GVar) : Option (Lin K) :=
  if cols = x.size then some ⟨rows, cols, A, .general, x⟩ else none

/-- The same with the matrix `MatrixXd::Identity(rows, cols)`, whose type is `IdentityType` whatever the sizes. -/
def Lin.idMat (rows cols : Nat) (x : GVar) : Option (Lin K) :=
  if cols = x.size then some ⟨rows, cols, fun r c => if r = c then 1 else 0, .identity, x⟩ else none

/-- A variable alone (AffineExpr.h, lines 32-35). -/
def Lin.ofVar (x : GVar) : Lin K := ⟨x.size, x.size, fun r c => if r = c then 1 else 0, .identity, x⟩

/-- `scalar * var` (AffineExprOperators.h, lines 127-132, AffineExpr.h, lines 37-41). The assertion is on line 130. -/
def Lin.scaleVar [DecidableEq K] (a : K) (x : GVar) : Option (Lin K) :=
  if a ≠ 0 then some ⟨x.size, x.size, fun r c => a * (if r = c then 1 else 0), .multIdentity, x⟩ else none

/-- `-var` (AffineExprOperators.h, lines 123-125, AffineExpr.h, lines 43-46). -/
def Lin.negVar (x : GVar) : Lin K := ⟨x.size, x.size, fun r c => -(if r = c then 1 else 0), .minusIdentity, x⟩

/-- `-Lin` (AffineExprOperators.h, lines 13-18); the opposite of an expression of type `IdentityType` has type
`MinusIdentityType`. -/
def Lin.neg (l : Lin K) : Lin K :=
  ⟨l.rows, l.cols, fun r c => -l.A r c, if l.kind = .identity then .minusIdentity else .general, l.x⟩

/-- `s * Lin` with a scalar (AffineExprOperators.h, lines 91-97); the product of a scalar and an expression of type
`IdentityType` has type `MultIdentityType`. -/
def Lin.scale (s : K) (l : Lin K) : Lin K :=
  ⟨l.rows, l.cols, fun r c => s * l.A r c, if l.kind = .identity then .multIdentity else .general, l.x⟩

/-- `M * Lin` with a matrix with `p` rows (AffineExprOperators.h, lines 91-97). Eigen asserts that the number of columns
of `M` is the number of rows of the expression. -/
def Lin.premul (p q : Nat) (M : Nat → Nat → K) (l : Lin K) : Option (Lin K) :=
  if q = l.rows then some ⟨p, l.cols, fun r c => ∑ j ∈ Finset.range q, M r j * l.A j c, .general, l.x⟩ else none

/-- A vector of given size. -/
structure Vec (K : Type) where
  size : Nat
  v : Nat → K

/-- `utils::AffineExpr` (AffineExpr.h, lines 69-114). `none` stands for `NoConstant`. -/
structure Aff (K : Type) where
  terms : List (Lin K)
  cst : Option (Vec K)

/-- Addition of constant parts (AffineExprDetail.h, lines 31-42, and the operator of Eigen, which asserts that the sizes
are the same). The outer option is the assertion. -/
def addCst : Option (Vec K) → Option (Vec K) → Option (Option (Vec K))
  | none, c => some c
  | some c, none => some (some c)
  | some c, some d => if c.size = d.size then some (some ⟨c.size, fun r => c.v r + d.v r⟩) else none

/-- A linear expression as an affine one (AffineExpr.h, lines 72-77). -/
def Aff.ofLin (l : Lin K) : Aff K := ⟨[l], none⟩

/-- `Lin + b` and `b + Lin` (AffineExprOperators.h, lines 38-48). -/
def Aff.linCst (l : Lin K) (c : Vec K) : Aff K := ⟨[l], some c⟩

/-- `Aff + Lin` (AffineExprOperators.h, lines 57-62). -/
def Aff.addLin (a : Aff K) (l : Lin K) : Aff K := ⟨a.terms ++ [l], a.cst⟩

/-- `Lin + Aff` (AffineExprOperators.h, lines 64-69). -/
def Aff.linAdd (l : Lin K) (a : Aff K) : Aff K := ⟨l :: a.terms, a.cst⟩

/-- `Aff + b` (AffineExprOperators.h, lines 71-75). -/
def Aff.addVec (a : Aff K) (c : Vec K) : Option (Aff K) := (addCst a.cst (some c)).map (⟨a.terms, ·⟩)

/-- `b + Aff` (AffineExprOperators.h, lines 77-81). -/
def Aff.vecAdd (c : Vec K) (a : Aff K) : Option (Aff K) := (addCst (some c) a.cst).map (⟨a.terms, ·⟩)

/-- `Aff + Aff` (AffineExprOperators.h, lines 83-89). -/
def Aff.add (a b : Aff K) : Option (Aff K) := (addCst a.cst b.cst).map (⟨a.terms ++ b.terms, ·⟩)

/-- `-Aff` (AffineExprOperators.h, lines 20-26; AffineExprDetail.h, lines 28 and 77-82). -/
def Aff.neg (a : Aff K) : Aff K := ⟨a.terms.map Lin.neg, a.cst.map fun c => ⟨c.size, fun r => -c.v r⟩⟩

/-- `s * Aff` with a scalar (AffineExprOperators.h, lines 28-37; AffineExprDetail.h, lines 44-47 and 84-89). -/
def Aff.scale (s : K) (a : Aff K) : Aff K :=
  ⟨a.terms.map (Lin.scale s), a.cst.map fun c => ⟨c.size, fun r => s * c.v r⟩⟩

/-- The loop over the terms of `M * Aff` -/
def premulAll (p q : Nat) (M : Nat → Nat → K) : List (Lin K) → Option (List (Lin K))
  | [] => some []
  | l :: ls => match l.premul p q M, premulAll p q M ls with
    | some l', some ls' => some (l' :: ls')
    | _, _ => none

/-- The product of the matrix and the constant part -/
def premulCst (p q : Nat) (M : Nat → Nat → K) : Option (Vec K) → Option (Option (Vec K))
  | none => some none
  | some c => if q = c.size then some (some ⟨p, fun r => ∑ j ∈ Finset.range q, M r j * c.v j⟩) else none

/-- `M * Aff` with a matrix (AffineExprOperators.h, lines 28-37). -/
def Aff.premul (p q : Nat) (M : Nat → Nat → K) (a : Aff K) : Option (Aff K) :=
  match premulCst p q M a.cst, premulAll p q M a.terms with
  | some c, some ls => some ⟨ls, c⟩
  | _, _ => none

/-- `a - b`, which is `a + -b` (AffineExprOperators.h, lines 99-114). -/
def Aff.sub (a b : Aff K) : Option (Aff K) := a.add b.neg

/-! ## The function -/

/-- A variable of the function with its Jacobian and the shape in the properties of it. -/
structure Blk (K : Type) where
  v : GVar
  J : Nat → Nat → K
  shape : Shape

/-- What is read of a `BasicLinearFunction`: `size()`, `variables()` with `jacobian_`, and `b_`. `jacobian_` is ordered
by the ids of the variables; it is kept here in the order of `variables()`. -/
structure Fn (K : Type) where
  size : Nat
  blks : List (Blk K)
  b : Nat → K

/-- `FirstOrderProvider::addVariable` (FirstOrderProvider.cpp, lines 40-49) with `VariableVector::add`
(VariableVector.cpp, lines 24-44): nothing if the variable is in one already present, exception if it meets one
without being in it. The new Jacobian has no defined content: it is given. -/
def addVariable (bs : List (Blk K)) (n : Blk K) : Outcome Unit (List (Blk K)) :=
  if bs.any (fun y => y.v.contains n.v) then .ok () bs
  else if bs.any (fun y => y.v.intersects n.v) then .throw ()
  else .ok () (bs ++ [n])

/-- `J += A` on the part of the Jacobian of `y` for its subvariable `x` (BasicLinearFunction.h, lines 146-148;
MapWithVariableAsKey.h, lines 58-75). The shape of the whole Jacobian is forgotten. -/
def Blk.accumulate (y : Blk K) (t : Lin K) : Blk K :=
  let off := t.x.start - y.v.start
  ⟨y.v, fun r c => if off ≤ c ∧ c < off + t.x.size then y.J r c + t.A r (c - off) else y.J r c, .general⟩

/-- `jacobian_.at(x, with_sub) += A`: the first block that contains the variable. -/
def accumulate (t : Lin K) : List (Blk K) → List (Blk K)
  | [] => []
  | y :: l => if y.v.contains t.x then y.accumulate t :: l else y :: accumulate t l

/-- The shape given to a new Jacobian (BasicLinearFunction.h, lines 155-173). The test of line 170 never succeeds: a
diagonal wrapper of Eigen is not a `MatrixBase`. -/
def Kind.shape : Kind → Shape
  | .identity => .identity
  | .minusIdentity => .minusIdentity
  | .multIdentity => .multiple
  | .general => .general

/-- `BasicLinearFunction::add(A, x)` (BasicLinearFunction.h, lines 134-176). -/
def Fn.add (f : Fn K) (t : Lin K) : Outcome Unit (Fn K) :=
  if t.rows ≠ f.size then .throw ()
  else if t.cols ≠ t.x.size then .throw ()
  else if f.blks.any (fun y => y.v.contains t.x) then .ok () ⟨f.size, accumulate t f.blks, f.b⟩
  else
    match addVariable f.blks ⟨t.x, t.A, t.kind.shape⟩ with
    | .ok _ bs => .ok () ⟨f.size, bs, f.b⟩
    | .throw _ => .throw ()
    | .ub => .ub

/-- The adds of all the terms (BasicLinearFunction.h, lines 178-184, and BasicLinearFunction.cpp, lines 33-38). -/
def Fn.addAll (f : Fn K) : List (Lin K) → Outcome Unit (Fn K)
  | [] => .ok () f
  | t :: l => match f.add t with
    | .ok _ f' => f'.addAll l
    | .throw _ => .throw ()
    | .ub => .ub

/-- `BasicLinearFunction::b` (BasicLinearFunction.cpp, lines 74-83). -/
def Fn.setB (f : Fn K) (c : Vec K) : Outcome Unit (Fn K) :=
  if c.size = f.size then .ok () ⟨f.size, f.blks, c.v⟩ else .throw ()

/-- `internal::addVar` (BasicLinearFunction.h, lines 83-85). -/
def addVars (s : VCV.State) : List (Lin K) → Outcome VCV.State Unit
  | [] => .ok s ()
  | t :: l => match s.add t.x.var with
    | .ok s' _ => addVars s' l
    | .throw s' => .throw s'
    | .ub => .ub

/-- The first loop of the constructor (BasicLinearFunction.h, lines 107-115) and the next one, which sets the Jacobians to zero
(lines 116-120). -/
def addComposite : List VCV.Item → List Bool → List (Blk K) → Outcome Unit (List (Blk K))
  | i :: is, b :: fl, bs =>
    if b then addComposite is fl bs
    else match addVariable bs ⟨itemVar i, fun _ _ => 0, .general⟩ with
      | .ok _ bs' => addComposite is fl bs'
      | .throw _ => .throw ()
      | .ub => .ub
  | _, _, bs => .ok () bs

/-- The constant of the function (BasicLinearFunction.h, lines 122-130). -/
def cstOf (m : Nat) : Option (Vec K) → Vec K
  | none => ⟨m, fun _ => 0⟩
  | some c => c

/-- Constructor from an affine expression (BasicLinearFunction.h, lines 98-132). There is no expression without term. -/
def ofAff (a : Aff K) : Outcome Unit (Fn K) :=
  match a.terms with
  | [] => .ub
  | t0 :: _ =>
    match addVars {} a.terms with
    | .ub => .ub
    | .throw _ => .throw ()
    | .ok s _ =>
      match s.getVariables with
      | .ub => .ub
      | .throw _ => .throw ()
      | .ok s1 vars =>
        match s1.getSimple with
        | .ub => .ub
        | .throw _ => .throw ()
        | .ok _ simple =>
          match addComposite vars simple [] with
          | .ub => .ub
          | .throw _ => .throw ()
          | .ok _ bs =>
            match (⟨t0.rows, bs, fun _ => 0⟩ : Fn K).addAll a.terms with
            | .ub => .ub
            | .throw _ => .throw ()
            | .ok _ f => f.setB (cstOf f.size a.cst)

/-- Constructor from a linear expression (BasicLinearFunction.h, lines 88-96). -/
def ofLin (l : Lin K) : Outcome Unit (Fn K) :=
  match (⟨l.rows, [], fun _ => 0⟩ : Fn K).add l with
  | .ub => .ub
  | .throw _ => .throw ()
  | .ok _ f => f.setB ⟨f.size, fun _ => 0⟩

/-- Matrices and variables taken by pairs (BasicLinearFunction.cpp, lines 33-38). The matrices have no special type. -/
def pairs : List (Nat × Nat × (Nat → Nat → K)) → List GVar → List (Lin K)
  | (r, c, A) :: l, x :: xs => ⟨r, c, A, .general, x⟩ :: pairs l xs
  | _, _ => []

/-- Constructor from lists of matrices (rows, columns, content) and variables (BasicLinearFunction.cpp, lines 25-41).
Without matrix `A.begin()` is dereferenced at the end of the list (line 28). -/
def ofLists (As : List (Nat × Nat × (Nat → Nat → K))) (xs : List GVar) (b : Vec K) : Outcome Unit (Fn K) :=
  match As with
  | [] => .ub
  | (m, _, _) :: _ =>
    if As.length ≠ xs.length then .throw ()
    else
      match (⟨m, [], fun _ => 0⟩ : Fn K).addAll (pairs As xs) with
      | .ub => .ub
      | .throw _ => .throw ()
      | .ok _ f => f.setB b

/-- The sum over the variables of the products with the Jacobians (LinearFunction.cpp, lines 41-42 and 48-49) -/
def sumBlks (bs : List (Blk K)) (val : Nat → Nat → K) (r : Nat) : K :=
  (bs.map fun y => ∑ k ∈ Finset.range y.v.size, y.J r k * y.v.value val k).sum

/-- `LinearFunction::updateValue_` (LinearFunction.cpp, lines 38-43). `val` gives the values of the super variables. -/
def Fn.value (f : Fn K) (val : Nat → Nat → K) (r : Nat) : K := f.b r + sumBlks f.blks val r

/-- `LinearFunction::updateVelocity_` (LinearFunction.cpp, lines 45-50). `vel` gives the values of the derivatives. -/
def Fn.velocity (f : Fn K) (vel : Nat → Nat → K) (r : Nat) : K := sumBlks f.blks vel r

end Verif.AF
