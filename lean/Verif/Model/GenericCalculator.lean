import Verif.Model.DiagonalCalculator
import Verif.Model.SubstitutionUnit
import Mathlib.Algebra.BigOperators.Group.Finset.Basic
/-!
# Model of `GenericCalculator` and of `SubstitutionCalculatorImpl`
(src/hint/GenericCalculator.cpp, include/tvm/hint/internal/GenericCalculator.h, src/hint/SubstitutionCalculatorImpl.cpp)

The calculator for any matrix, based on a rank-revealing QR factorization, and the choice made by `AutoCalculator`.

Simplifications.
* The factorization (`Eigen::ColPivHouseholderQR`) is a parameter: the matrices `Q` and `R`, the permutation and the rank. `setLength(nonzeroPivots())`
  (line 99) only leaves out the reflections that are the identity: `Q` is the product of all of them.
* The matrices are functions of their indices, with exact arithmetic. The triangular solver of Eigen is the back substitution.
* The variables are atomic and different, as in the model of `SubstitutionUnit`. `fillData_` and `fillA` are `SU.fillA`, that writes the blocks of
  the pairs for which the constraint depends on the variable in the persistent matrix `A_`.
* `invR1R2_` and `tmp_` are written before each use. The sizes are supposed to fit (the assertions of the base class).
-/
set_option autoImplicit false

namespace Verif.GC
open Verif Finset

/-- What `ColPivHouseholderQR` computes: `matrixQ()`, `matrixR()`, `colsPermutation().indices()`, `rank()` -/
structure QR (K : Type) where
  Q : Nat → Nat → K
  R : Nat → Nat → K
  P : Nat → Nat
  rank : Nat

/-- Members of `Impl` and of its base class (include/tvm/hint/abstract/SubstitutionCalculatorImpl.h, lines 101-126; GenericCalculator.h, lines 47-49).
A constraint comes with its index. -/
structure Impl (K : Type) where
  dim : Nat → Nat
  vars : List Nat
  cs : List SU.CInfo
  r : Nat
  constant : Bool
  init : Bool
  A : Nat → Nat → K
  qr : QR K
  N : Nat → Nat → K

/-- `m()` (SubstitutionCalculatorImpl.cpp, lines 135-138) -/
def Impl.m {K : Type} (I : Impl K) : Nat := (I.cs.map (·.shape.size)).sum

/-- `n()` (SubstitutionCalculatorImpl.cpp, lines 140-143) -/
def Impl.n {K : Type} (I : Impl K) : Nat := SU.total I.dim I.vars

section
variable {K : Type} [Field K]

/-- `triangularView<Upper>().solve`, in place, for the rows before `k` -/
def back (R : Nat → Nat → K) (r : Nat) : Nat → (Nat → K) → Nat → K
  | 0, x => x
  | k + 1, x => back R r k fun i => if i = k then (x k - ∑ j ∈ range (r - (k + 1)), R k (k + 1 + j) * x (k + 1 + j)) / R k k else x i

/-- The rows `P i`, for `i < k`, are written in turn. -/
def putRows (P : Nat → Nat) (f : Nat → Nat → K) (k : Nat) (M : Nat → Nat → K) : Nat → Nat → K :=
  (List.range k).foldl (fun M i => DC.setRow M (P i) (f i)) M

/-- The matrix `N_` (GenericCalculator.cpp, lines 66-83). `old` is what is in the memory before. -/
def nullspace (q : QR K) (n r : Nat) (old : Nat → Nat → K) : Nat → Nat → K :=
  let inv := fun i p => back q.R r r (fun k => q.R k (r + p)) i
  let N := putRows q.P (fun i p => -inv i p) r old
  (List.range (n - r)).foldl (fun M k =>
    let M := DC.setRow M (q.P (r + k)) fun _ => 0
    fun i j => if i = q.P (r + k) ∧ j = k then 1 else M i j) N

/-- The matrix that is factorized (GenericCalculator.cpp, lines 33-41) with the content of `A_` afterwards: the jacobian itself when there is one variable
and one constraint (`none` when the constraint does not depend on the variable, `jacobian` throwing), the matrix filled by `fillA` otherwise.
`jac i v` is the jacobian matrix of the constraint of index `i` with respect to the variable `v`. -/
def Impl.load (I : Impl K) (jac : Nat → Nat → Nat → Nat → K) : Option ((Nat → Nat → K) × (Nat → Nat → K)) :=
  match I.cs, I.vars with
  | [ci], [v] => if v ∈ ci.shape.vars then some (jac ci.idx v, I.A) else none
  | _, _ =>
    let A := SU.fillA I.dim jac I.vars I.cs 0 I.A
    some (A, A)

/-- `update_` (GenericCalculator.cpp, lines 31-84), `fac` being the factorization -/
def Impl.update_ (I : Impl K) (fac : (Nat → Nat → K) → QR K) (jac : Nat → Nat → Nat → Nat → K) : Outcome (Impl K) Unit :=
  match I.load jac with
  | none => .throw I
  | some (M, A) =>
    let q := fac M
    let I := { I with
      A := A
      qr := q }
    if q.rank ≠ I.r then .throw I
    else .ok { I with N := nullspace q I.n I.r I.N } ()

/-- `update` (SubstitutionCalculatorImpl.cpp, lines 24-37). The number of columns of `N_` never changes. -/
def Impl.update (I : Impl K) (fac : (Nat → Nat → K) → QR K) (jac : Nat → Nat → Nat → Nat → K) : Outcome (Impl K) Unit :=
  if !I.constant || I.init then
    match I.update_ fac jac with
    | .ok I _ => .ok { I with init := false } ()
    | .throw I => .throw I
    | .ub => .ub
  else .ok I ()

/-- The constructor (SubstitutionCalculatorImpl.cpp, lines 127-184; GenericCalculator.cpp, lines 25-29); `isConst i v` is the property of the jacobian
matrix of the constraint of index `i` with respect to `v`. The matrices that are not initialised are arbitrary. -/
def Impl.make (dim : Nat → Nat) (vars : List Nat) (cs : List SU.CInfo) (r : Nat) (isConst : Nat → Nat → Bool) (anyQ : QR K) (anyN : Nat → Nat → K) : Impl K :=
  ⟨dim, vars, cs, r, cs.all fun ci => vars.all fun v => if v ∈ ci.shape.vars then isConst ci.idx v else true, true, fun _ _ => 0, anyQ, anyN⟩

/-- `premultiplyByASharpAndSTranspose_` (GenericCalculator.cpp, lines 86-128). `outA` is what is in the memory before. -/
def Impl.premultiply (I : Impl K) (outA inp : Nat → Nat → K) (minus : Bool) : (Nat → Nat → K) × (Nat → Nat → K) :=
  let T := fun i j => ∑ k ∈ range I.m, I.qr.Q k i * inp k j
  let T := fun i j => if i < I.r then back I.qr.R I.r I.r (fun k => T k j) i else T i j
  let outA := putRows I.qr.P (fun i j => if minus then -T i j else T i j) I.r outA
  let outA := (List.range (I.n - I.r)).foldl (fun M k => DC.setRow M (I.qr.P (I.r + k)) fun _ => 0) outA
  (outA, fun i j => T (I.r + i) j)

/-- `postMultiplyByN_` (SubstitutionCalculatorImpl.cpp, lines 93-103); `out` is what is in the memory before. -/
def Impl.postN (I : Impl K) (out inp : Nat → Nat → K) (add : Bool) : Nat → Nat → K :=
  fun i p => if add then out i p + ∑ l ∈ range I.n, inp i l * I.N l p else ∑ l ∈ range I.n, inp i l * I.N l p

/-- `postMultiplyByN` with a range (SubstitutionCalculatorImpl.cpp, lines 73-91 and 105-115) -/
def Impl.postNRange (I : Impl K) (out inp : Nat → Nat → K) (start size : Nat) (add : Bool) : Nat → Nat → K :=
  if start = 0 ∧ size = I.n then I.postN out inp add
  else fun i p => if add then out i p + ∑ l ∈ range size, inp i l * I.N (start + l) p else ∑ l ∈ range size, inp i l * I.N (start + l) p

/-- What `AutoCalculator::impl_` chooses (AutoCalculator.cpp, lines 17-36) -/
inductive Kind
  | diagonal | generic
deriving Repr, DecidableEq

/-- `AutoCalculator::impl_` (AutoCalculator.cpp, lines 17-36), for lists that are not empty; the two flags are the properties of the jacobian matrix of the
only constraint with respect to the only variable. -/
def auto (nc nv : Nat) (isDiagonal isInvertible : Bool) : Kind :=
  if nc > 1 || nv > 1 then .generic
  else if isDiagonal && isInvertible then .diagonal
  else .generic

end
end Verif.GC
