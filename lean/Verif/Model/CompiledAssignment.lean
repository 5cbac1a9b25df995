import Mathlib.Algebra.BigOperators.Group.Finset.Basic
import Mathlib.Algebra.Order.Field.Basic
/-!
# Model of `CompiledAssignment` and `CompiledAssignmentWrapper`
(include/tvm/scheme/internal/CompiledAssignment.h, include/tvm/scheme/internal/CompiledAssignmentWrapper.h)

Matrices and vectors are functions of their indices, the sizes are given aside. The code is a template over
`MatrixType` (vector or matrix) and four enumerations; there is one definition for vectors and one for matrices.

Not modelled: the aliasing of the source and the target (`noalias`), the lifetime of the references, the change of references
(`from`, `to`), the resizing of the caches (Eigen resizes them as needed).
-/
set_option autoImplicit false

namespace Verif.CA
open Finset

/-- `AssignType` (CompiledAssignment.h, lines 21-28) -/
inductive AssignType where
  | copy | add | sub | min | max
deriving Repr, DecidableEq

/-- `WeightMult` (CompiledAssignment.h, lines 33-39) -/
inductive WeightMult where
  | none | minus | scalar | diagonal
deriving Repr, DecidableEq

/-- `MatrixMult` (CompiledAssignment.h, lines 44-54) -/
inductive MatrixMult where
  | identity | general | inverseDiagonal | custom
deriving Repr, DecidableEq

/-- `Source` (CompiledAssignment.h, lines 64-72) -/
inductive Source where
  | external | zero | constant
deriving Repr, DecidableEq

/-- `use_assign_cache` (CompiledAssignment.h, lines 216-235) -/
def useAssignCache (A : AssignType) (M : MatrixMult) (F : Source) : Bool :=
  match A, M, F with
  | .min, .general, .external => true
  | .max, .general, .external => true
  | _, .general, .constant => true
  | _, _, _ => false

/-- `use_product_cache` (CompiledAssignment.h, lines 240-253) -/
def useProductCache (W : WeightMult) (M : MatrixMult) (F : Source) : Bool :=
  match W, M, F with
  | .diagonal, .general, .external => true
  | .diagonal, .general, .constant => true
  | _, _, _ => false

/-- An expression in the vector case: the code has overloads for `double` and for Eigen expressions. -/
inductive Val (K : Type) where
  | scal (c : K)
  | vec (v : Nat → K)

section
variable {K : Type} [Field K] [LinearOrder K]

/-! ## Vectors -/

/-- `AssignBase::assign` (CompiledAssignment.h, lines 260-323): the new value of a coefficient -/
def assign1 (A : AssignType) (out inp : K) : K :=
  match A with
  | .copy => inp
  | .add => out + inp
  | .sub => out - inp
  | .min => Min.min out inp
  | .max => Max.max out inp

/-- `AssignBase::assign` (CompiledAssignment.h, lines 260-323) on a vector, for an Eigen expression or a double -/
def assignV (A : AssignType) (out : Nat → K) (inp : Val K) : Nat → K :=
  match inp with
  | .scal c => fun i => assign1 A (out i) c
  | .vec v => fun i => assign1 A (out i) (v i)

/-- `WeightMultBase::applyWeightMult` (CompiledAssignment.h, lines 330-414); `s` is the scalar, `d` the diagonal. -/
def applyWeightMult (W : WeightMult) (s : K) (d : Nat → K) (M : Val K) : Val K :=
  match W, M with
  | .none, M => M
  | .minus, .scal c => .scal (-c)
  | .minus, .vec v => .vec fun i => -v i
  | .scalar, .scal c => .scal (s * c)
  | .scalar, .vec v => .vec fun i => s * v i
  | .diagonal, .scal c => .vec fun i => c * d i
  | .diagonal, .vec v => .vec fun i => d i * v i

/-- `MatrixMultBase::applyMatrixMult` for vectors (CompiledAssignment.h, lines 421-516); `m` is the multiplier, with `cols` columns.
There is no such method for `CUSTOM` (lines 528-540): `none`, the code does not compile. -/
def applyMatrixMultV (M : MatrixMult) (m : Nat → Nat → K) (cols : Nat) (f : Val K) : Option (Val K) :=
  match M, f with
  | .identity, f => some f
  | .general, .vec v => some (.vec fun i => ∑ j ∈ range cols, m i j * v j)
  | .general, .scal c => some (.vec fun i => ∑ j ∈ range cols, m i j * c)
  | .inverseDiagonal, .vec v => some (.vec fun i => (m i i)⁻¹ * v i)
  | .inverseDiagonal, .scal c => some (.vec fun i => (m i i)⁻¹ * c)
  | .custom, _ => none

/-- `MatrixMultBase<GENERAL>::applyMatrixMultCached` for vectors (CompiledAssignment.h, lines 462-481): the product of a matrix and a
constant vector is the sum of the columns times the constant. The other multipliers do not reach the cached product. -/
def applyMatrixMultCachedV (m : Nat → Nat → K) (cols : Nat) (f : Val K) : Val K :=
  match f with
  | .vec v => .vec fun i => ∑ j ∈ range cols, m i j * v j
  | .scal c => .vec fun i => (∑ j ∈ range cols, m i j) * c

/-- `CachedResult::cache(M)` (CompiledAssignment.h, lines 167-211) applied to the product `M` before the weight: the special case of
lines 189-198 is for an unweighted product by a constant vector. -/
def cacheV (A : AssignType) (W : WeightMult) (M : MatrixMult) (F : Source) (m : Nat → Nat → K) (cols : Nat) (f M' : Val K) : Val K :=
  if useAssignCache A M F || useProductCache W M F then
    match W, M, f with
    | .none, .general, .scal c => .vec fun i => (∑ j ∈ range cols, m i j) * c
    | _, _, _ => M'
  else M'

/-- `CompiledAssignment::run` for vectors (CompiledAssignment.h, lines 628-651, and for a zero source lines 680, 707, 734, 756): the
coefficients of the target after the run. `none` when the code does not compile. -/
def runV (A : AssignType) (W : WeightMult) (M : MatrixMult) (F : Source) (s : K) (d : Nat → K) (m : Nat → Nat → K) (cols : Nat)
    (c : K) (v out : Nat → K) : Option (Nat → K) :=
  match F with
  | .zero =>
    match A with
    | .copy => some fun _ => 0
    | .min => some fun i => Min.min (out i) 0
    | .max => some fun i => Max.max (out i) 0
    | .add | .sub => some out
  | F =>
    let from_ : Val K := if F = .constant then .scal c else .vec v
    if useProductCache W M F then
      let cache := applyMatrixMultCachedV m cols from_
      if useAssignCache A M F then
        let cache := applyWeightMult W s d cache
        some (assignV A out cache)
      else some (assignV A out (applyWeightMult W s d cache))
    else
      match applyMatrixMultV M m cols from_ with
      | none => none
      | some p => some (assignV A out (cacheV A W M F m cols from_ (applyWeightMult W s d p)))

/-! ## Matrices -/

/-- `WeightMultBase::applyWeightMult` (CompiledAssignment.h, lines 330-414) for matrices -/
def applyWeightMultM (W : WeightMult) (s : K) (d : Nat → K) (M : Nat → Nat → K) : Nat → Nat → K :=
  match W with
  | .none => M
  | .minus => fun i j => -M i j
  | .scalar => fun i j => s * M i j
  | .diagonal => fun i j => d i * M i j

/-- `MatrixMultBase::applyMatrixMult` for matrices (CompiledAssignment.h, lines 421-512); `m` is the multiplier, with `rows` rows. -/
def applyMatrixMultM (M : MatrixMult) (m : Nat → Nat → K) (rows : Nat) (f : Nat → Nat → K) : Option (Nat → Nat → K) :=
  match M with
  | .identity => some f
  | .general => some fun i j => ∑ k ∈ range rows, f i k * m k j
  | .inverseDiagonal => some fun i j => f i j * (m j j)⁻¹
  | .custom => none

/-- `CompiledAssignment::run` for matrices (CompiledAssignment.h, lines 628-651, and for a zero source lines 680, 707, 734, 756). `none`
when the code does not compile, in particular for a constant source (line 626). -/
def runM (A : AssignType) (W : WeightMult) (M : MatrixMult) (F : Source) (s : K) (d : Nat → K) (m : Nat → Nat → K) (rows : Nat)
    (f out : Nat → Nat → K) : Option (Nat → Nat → K) :=
  match F with
  | .zero =>
    match A with
    | .copy => some fun _ _ => 0
    | .min => some fun i j => Min.min (out i j) 0
    | .max => some fun i j => Max.max (out i j) 0
    | .add | .sub => some out
  | .constant => none
  | .external =>
    match applyMatrixMultM M m rows f with
    | none => none
    | some p =>
      if useProductCache W M .external then
        let cache := p
        if useAssignCache A M .external then
          let cache := applyWeightMultM W s d cache
          some fun i j => assign1 A (out i j) (cache i j)
        else some fun i j => assign1 A (out i j) (applyWeightMultM W s d cache i j)
      else some fun i j => assign1 A (out i j) (applyWeightMultM W s d p i j)

/-! ## Writing in a block -/

/-- What the run leaves in the vector in which the target is a segment: `n` coefficients from `start`. -/
def writeSeg (mem : Nat → K) (start n : Nat) (f : (Nat → K) → Nat → K) : Nat → K :=
  fun k => if start ≤ k ∧ k < start + n then f (fun i => mem (start + i)) (k - start) else mem k

/-- What the run leaves in the matrix in which the target is a block: `n × p` coefficients from `(r, c)`. -/
def writeBlock (mem : Nat → Nat → K) (r c n p : Nat) (f : (Nat → Nat → K) → Nat → Nat → K) : Nat → Nat → K :=
  fun i j => if (r ≤ i ∧ i < r + n) ∧ (c ≤ j ∧ j < c + p) then f (fun i j => mem (r + i) (c + j)) (i - r) (j - c) else mem i j

end

/-! ## The wrapper -/

/-- `CompiledAssignmentWrapper::from` (CompiledAssignmentWrapper.h, lines 136-145 and 187-213): whether the call with a double
(`isDouble`) or with a reference is accepted, for a wrapper made for the source `F` -/
def wrapperFromOk (F : Source) (isDouble : Bool) : Bool := if F = .constant then isDouble else !isDouble

end Verif.CA
