import Verif.Model.Outcome
import Mathlib.Algebra.Field.Basic
/-!
# Model of `DiagonalCalculator` (src/hint/DiagonalCalculator.cpp, include/tvm/hint/internal/DiagonalCalculator.h)

The calculator for the matrices that are a selection of rows of a diagonal matrix. The matrices are functions of their indices. The model is
for a single variable and a single constraint (the other case is refused, lines 118-122 and 156-160).
-/
set_option autoImplicit false

namespace Verif.DC
open Verif

/-- `optionalMax` (DiagonalCalculator.cpp, lines 12-25), for sorted lists, the first one not empty -/
def optionalMax (a b : List Nat) : Nat := max (a.getLast?.getD 0) (b.getLast?.getD 0)

/-- The constructor from indices (DiagonalCalculator.cpp, lines 48-93): `none` when it throws, the two sorted lists otherwise. The table
`appear` is the list of the indices met. -/
def make (nnz zeros : List Int) : Option (List Nat × List Nat) :=
  let nnz := nnz.mergeSort
  let zeros := zeros.mergeSort
  let rec go (seen : List Int) : List Int → Option (List Int)
    | [] => some seen
    | i :: l => if i < 0 then none else if i ∈ seen then none else go (i :: seen) l
  if nnz = [] then none
  else
    match go [] nnz with
    | none => none
    | some seen =>
      match go seen zeros with
      | none => none
      | some _ => some (nnz.map Int.toNat, zeros.map Int.toNat)

/-- Members of `Impl` (DiagonalCalculator.h, lines 50-57), with `n` and `m` of the base class -/
structure Impl where
  m : Nat
  n : Nat
  nnz : List Nat
  innz : List Nat
  cnnz : List Nat
  zeros : List Nat
deriving Repr, DecidableEq

/-- The loop of `build` that fills `innz_` (DiagonalCalculator.cpp, lines 268-282), at the index `i` with the counter `k`; `f` is the number
of remaining turns. -/
def innzLoop (nnz zeros : List Nat) : Nat → Nat → Nat → List Nat
  | 0, _, _ => []
  | f + 1, i, k =>
    if i ∈ nnz then k :: innzLoop nnz zeros f (i + 1) (k + 1)
    else if i ∈ zeros then innzLoop nnz zeros f (i + 1) (k + 1)
    else innzLoop nnz zeros f (i + 1) k

/-- `build` (DiagonalCalculator.cpp, lines 250-285): an index not less than `n` is out of range of the tables. -/
def build (m n : Nat) (nnz cnnz zeros : List Nat) : Outcome Unit Impl :=
  if nnz.any (fun i => decide (n ≤ i)) || zeros.any (fun i => decide (n ≤ i)) then .ub
  else .ok () ⟨m, n, nnz, innzLoop nnz zeros n 0 0, cnnz, zeros⟩

/-- The indices of `[a, b)` -/
def between (a b : Nat) : List Nat := (List.range (b - a)).map (a + ·)

/-- The loops that fill `cnnz_` (DiagonalCalculator.cpp, lines 169-184): what is before the first index, between two consecutive ones, after the
last one -/
def cnnzLoop (n : Nat) : Nat → List Nat → List Nat
  | a, [] => between a n
  | a, i :: l => between a i ++ cnnzLoop n (i + 1) l

/-- The constructor of `Impl` from lists (DiagonalCalculator.cpp, lines 148-187) -/
def Impl.ofLists (m n rank : Nat) (nnz zeros : List Nat) : Outcome Unit Impl :=
  if n ≤ optionalMax nnz zeros then .throw ()
  else if nnz.length ≠ rank then .throw ()
  else build m n nnz (cnnzLoop n 0 nnz) zeros

/-- The constructor of `DiagonalCalculator` (lines 36-46) from a first row and a size, and that of `Impl` (lines 110-146) -/
def Impl.ofRange (m n rank : Nat) (first size : Int) : Outcome Unit Impl :=
  if first < 0 then .throw ()
  else if size < -1 then .throw ()
  else
    let size' : Int := if size = -1 then (n : Int) - first else size
    if size' ≠ rank then .throw ()
    else
      let a := first.toNat
      build m n (between a (a + rank)) (between 0 a ++ between (a + rank) n) []

section
variable {K : Type} [Field K]

/-- Writing a row -/
def setRow (M : Nat → Nat → K) (r : Nat) (v : Nat → K) : Nat → Nat → K := fun i j => if i = r then v j else M i j

/-- `update_` (DiagonalCalculator.cpp, lines 189-196), together with the pairing of the indices: the non-zero rows with their place in `A` and
the inverse of the coefficient -/
def Impl.inverses (I : Impl) (A : Nat → Nat → K) : List (Nat × Nat × K) := (I.nnz.zip I.innz).map fun p => (p.1, p.2, 1 / A p.2 p.1)

/-- `premultiplyByASharpAndSTranspose_` (DiagonalCalculator.cpp, lines 198-230), after `update_` on the matrix `A`. `outA` and `outS` are what
is in the memory before. A row of `inp` that does not exist is undefined behaviour. -/
def Impl.premultiply (I : Impl) (A outA outS inp : Nat → Nat → K) (minus : Bool) : Outcome Unit ((Nat → Nat → K) × (Nat → Nat → K)) :=
  if I.innz.any (fun i => decide (I.m ≤ i)) || I.zeros.any (fun i => decide (I.m ≤ i)) then .ub
  else
    let outA := (I.inverses A).foldl (fun M p => setRow M p.1 fun j => (if minus then -p.2.2 else p.2.2) * inp p.2.1 j) outA
    let outA := I.cnnz.foldl (fun M i => setRow M i fun _ => 0) outA
    let outS := I.zeros.zipIdx.foldl (fun M p => setRow M p.2 fun j => inp p.1 j) outS
    .ok () (outA, outS)

/-- `postMultiplyByN_` (DiagonalCalculator.cpp, lines 232-248); `out` is what is in the memory before. -/
def Impl.postN (I : Impl) (out inp : Nat → Nat → K) (add : Bool) : Nat → Nat → K :=
  I.cnnz.zipIdx.foldl (fun M p => fun i j => if j = p.2 then (if add then M i j + inp i p.1 else inp i p.1) else M i j) out

/-- `N_` (DiagonalCalculator.cpp, lines 252-256) -/
def Impl.N (I : Impl) : Nat → Nat → K :=
  I.cnnz.zipIdx.foldl (fun M p => fun i j => if i = p.1 ∧ j = p.2 then 1 else M i j) fun _ _ => 0

end
end Verif.DC
