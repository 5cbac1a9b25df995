import Mathlib.Algebra.Order.Group.Abs
/-!
# Model of the tests on matrices of the diagnostic tools
(include/tvm/diagnostic/matrix.h)

An address is an integer, in numbers of scalars. A matrix (or map, or block) is the address of its first coefficient, its sizes and its
strides.

Simplified: the difference of pointers to different arrays, which C++ leaves undefined, is the difference of the addresses.
-/
set_option autoImplicit false

namespace Verif.DM

/-- What `isInMatrix` reads of a column-major matrix: `data()`, `rows()`, `cols()`, `rowStride()`, `colStride()` -/
structure Layout where
  data : Int
  rows : Int
  cols : Int
  rowStride : Int
  colStride : Int
deriving Repr, DecidableEq

/-- `%` of C++ (the quotient is truncated); `none` is the division by zero. -/
def cmod (a b : Int) : Option Int := if b = 0 then none else some (a.tmod b)

/-- `isInMatrix(ptr, M)` (matrix.h, lines 17-41); `none` is a division by zero. -/
def isInMatrix (ptr : Int) (M : Layout) : Option Bool :=
  let d := ptr - M.data
  if d < 0 then some false
  else if d ≥ M.cols * M.colStride then some false
  else
    match cmod d M.colStride with
    | none => none
    | some r =>
      if r ≥ M.rows * M.rowStride then some false
      else
        match cmod r M.rowStride with
        | none => none
        | some s => some (decide (s = 0))

/-- `&A.coeff(i, j)` -/
def Layout.coeff (M : Layout) (i j : Int) : Int := M.data + i * M.rowStride + j * M.colStride

/-- `isInMatrix(A, i, j, M)` (matrix.h, lines 47-49) -/
def isInMatrix4 (A : Layout) (i j : Int) (M : Layout) : Option Bool := isInMatrix (A.coeff i j) M

/-- `hasElemAbsInRange(A, emin, emax)` (matrix.h, lines 52-56), for the list of the coefficients of `A` -/
def hasElemAbsInRange {K : Type} [AddCommGroup K] [LinearOrder K] (A : List K) (emin emax : K) : Bool :=
  A.any fun a => decide (|a| ≥ emin) && decide (|a| ≤ emax)

end Verif.DM
