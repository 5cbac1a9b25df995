import Verif.Model.Outcome
import Mathlib.Algebra.Field.Basic
import Mathlib.Algebra.BigOperators.Group.Finset.Basic
/-!
# Model of `SubstitutionUnit` (src/hint/SubstitutionUnit.cpp, include/tvm/hint/internal/SubstitutionUnit.h)

The substitutions of a unit are processed one after the other, each one expressing the variables it substitutes with the variables that are not
substituted (`y`) and new variables (`z`).

Simplifications.
* The variables are numbers, with a size. They are atomic: the partition of the variables into common parts (`VariableVectorPartition`, C14) is
  supposed to be done.
* The vectors of the class that have one element per constraint or per substitution (`sub2cstr_`, `constraintsY_`, `CXdependencies_`,
  `substitutionNRanges_`, ...) are gathered in one record per constraint and one per substitution.
* The columns of the matrices are designated by a variable (an index in `y_` or `z_`) and a column of this variable, instead of the sum of
  the start of the variable and of the column (`getMappingIn`, C13). The rows are those of the code.
* A calculator is the three matrices it works with; their update is not modelled (see C42).
-/
set_option autoImplicit false

namespace Verif.SU
open Verif Finset

/-- `constraint::RHS` -/
inductive RHS
  | zero | asGiven | opposite
deriving Repr, DecidableEq

/-- What is fixed in a linear constraint: its size, its variables, its convention for the right-hand side -/
structure CShape where
  size : Nat
  vars : List Nat
  rhs : RHS
deriving Repr, DecidableEq

/-- A substitution (include/tvm/hint/Substitution.h, lines 75-79) -/
structure SShape where
  vars : List Nat
  cstrs : List CShape
  rank : Nat
deriving Repr, DecidableEq

/-- What the unit knows of a constraint: its index in `constraints_`, `constraintsY_[i]`, `CXdependencies_[i]` -/
structure CInfo where
  idx : Nat
  shape : CShape
  ys : List Nat
  xs : List Nat
deriving Repr, DecidableEq

/-- What the unit knows of a substitution: its index, its variables, its constraints, the index in `x_` of its first variable, its range
`substitutionNRanges_[i]`, the size of its variable `z` -/
structure SInfo where
  idx : Nat
  vars : List Nat
  cs : List CInfo
  x0 : Nat
  n0 : Nat
  n : Nat
  zdim : Nat
deriving Repr, DecidableEq

/-- `x_`, `x2sub_`, the starts in `xRange_`, `y_`, the substitutions -/
structure Layout where
  x : List Nat
  x2sub : List Nat
  xr : List Nat
  y : List Nat
  subs : List SInfo
  nc : Nat
  n : Nat
deriving Repr, DecidableEq

/-- The classification of a variable of a constraint (SubstitutionUnit.cpp, lines 332-352) -/
def scanVar (s : SShape) (x : List Nat) (p : List Nat × List Nat × List Nat) (v : Nat) : List Nat × List Nat × List Nat :=
  if v ∈ x then
    if v ∈ s.vars then p else (p.1, p.2.1, p.2.2 ++ [x.idxOf v])
  else
    let y := if v ∈ p.1 then p.1 else p.1 ++ [v]
    (y, p.2.1 ++ [y.idxOf v], p.2.2)

/-- The body of the loop on the constraints of a substitution (SubstitutionUnit.cpp, lines 324-353) -/
def scanCstr (s : SShape) (x : List Nat) (p : List Nat × List CInfo × Nat) (c : CShape) : List Nat × List CInfo × Nat :=
  let q := c.vars.foldl (scanVar s x) (p.1, [], [])
  (q.1, p.2.1 ++ [⟨p.2.2, c, q.2.1, q.2.2⟩], p.2.2 + 1)

/-- The sizes before each element -/
def starts (dim : Nat → Nat) : Nat → List Nat → List Nat
  | _, [] => []
  | a, v :: l => a :: starts dim (a + dim v) l

/-- Sum of the sizes of variables -/
def total (dim : Nat → Nat) (l : List Nat) : Nat := (l.map dim).sum

/-- The body of the loop of `scanSubstitutions` (SubstitutionUnit.cpp, lines 302-361). The substituted variables are all different, so that
`x_.add(v)` appends. -/
def scanSub (dim : Nat → Nat) (L : Layout) (s : SShape) : Layout :=
  let x := L.x ++ s.vars
  let ni := total dim s.vars
  let q := s.cstrs.foldl (scanCstr s x) (L.y, [], L.nc)
  ⟨x, L.x2sub ++ s.vars.map (fun _ => L.subs.length), L.xr ++ starts dim 0 s.vars, q.1,
    L.subs ++ [⟨L.subs.length, s.vars, q.2.1, L.x.length, L.n, ni, ni - s.rank⟩], q.2.2, L.n + ni⟩

/-- `scanSubstitutions` (SubstitutionUnit.cpp, lines 289-362) -/
def scan (dim : Nat → Nat) (ss : List SShape) : Layout := ss.foldl (scanSub dim) ⟨[], [], [], [], [], 0, 0⟩

/-- `x2sub_[l]` -/
def Layout.sub (L : Layout) (l : Nat) : Nat := L.x2sub.getD l 0

/-- Size of the variable `z_[k]` -/
def Layout.zdim (L : Layout) (k : Nat) : Nat := ((L.subs[k]?).map (·.zdim)).getD 0

/-- `SYdependencies_` and `SZdependencies_` -/
structure Deps where
  sy : Nat → List Nat
  sz : Nat → List Nat

/-- `XYdependencies_[l]` (SubstitutionUnit.cpp, line 429) -/
def XY (L : Layout) (D : Deps) (l : Nat) : List Nat := D.sy (L.sub l)

/-- `XZdependencies_[l]` (SubstitutionUnit.cpp, lines 430-434) -/
def XZ (L : Layout) (D : Deps) (l : Nat) : List Nat := D.sz (L.sub l) ++ if 0 < L.zdim (L.sub l) then [L.sub l] else []

/-- The body of the loop of `computeDependencies` (SubstitutionUnit.cpp, lines 409-435). A `std::set` of indices is the increasing list of its
elements. -/
def depStep (L : Layout) (D : Deps) (s : SInfo) : Deps :=
  let sy := (List.range L.y.length).filter fun j => s.cs.any fun ci => decide (j ∈ ci.ys) || ci.xs.any fun l => decide (j ∈ XY L D l)
  let sz := (List.range L.subs.length).filter fun j => s.cs.any fun ci => ci.xs.any fun l => decide (j ∈ XZ L D l)
  ⟨fun k => if k = s.idx then sy else D.sy k, fun k => if k = s.idx then sz else D.sz k⟩

/-- `computeDependencies` (SubstitutionUnit.cpp, lines 407-436) -/
def deps (L : Layout) : Deps := L.subs.foldl (depStep L) ⟨fun _ => [], fun _ => []⟩

section
variable {K : Type} [Field K]

/-- The three matrices of a calculator: the generalized inverse, the basis of the nullspace, the transpose of the basis of the left nullspace -/
structure Calc (K : Type) where
  sharp : Nat → Nat → K
  N : Nat → Nat → K
  St : Nat → Nat → K

/-- What changes between two updates: the Jacobian matrix of a constraint for a variable, the vector `e()` of a constraint, the calculators -/
structure Data (K : Type) where
  jac : Nat → Nat → Nat → Nat → K
  e : Nat → Nat → K
  cal : Nat → Calc K

/-- The matrices of the unit, and `uIsZero_` -/
structure Mem (K : Type) where
  B : Nat → Nat → Nat → K
  Z : Nat → Nat → Nat → K
  c : Nat → K
  M : Nat → Nat → Nat → K
  AsZ : Nat → Nat → Nat → K
  u : Nat → K
  StB : Nat → Nat → Nat → Nat → K
  StZ : Nat → Nat → Nat → Nat → K
  Stc : Nat → Nat → K
  uz : Nat → Bool

/-- Setting or adding a block, according to the table of the blocks already written (SubstitutionUnit.cpp, lines 150-158, 163-178, and
`postMultiplyByN`, src/hint/SubstitutionCalculatorImpl.cpp, lines 93-115) -/
def addBlk (row size j : Nat) (V : Nat → Nat → K) (p : (Nat → Nat → Nat → K) × (Nat → Bool)) : (Nat → Nat → Nat → K) × (Nat → Bool) :=
  (fun r k c => if k = j ∧ row ≤ r ∧ r < row + size then (if p.2 j then V (r - row) c else p.1 r k c + V (r - row) c) else p.1 r k c,
    fun k => if k = j then false else p.2 k)

/-- Setting a block (SubstitutionUnit.cpp, lines 122-127) -/
def setBlk (row size j : Nat) (V : Nat → Nat → K) (p : (Nat → Nat → Nat → K) × (Nat → Bool)) : (Nat → Nat → Nat → K) × (Nat → Bool) :=
  (fun r k c => if k = j ∧ row ≤ r ∧ r < row + size then V (r - row) c else p.1 r k c, fun k => if k = j then false else p.2 k)

/-- `x_[l]->getMappingIn(x_).start` -/
def xstart (dim : Nat → Nat) (L : Layout) (l : Nat) : Nat := total dim (L.x.take l)

/-- The local variables of the processing of a constraint: the matrices with their tables, the vector `c_`, `cIsZero_[i]` -/
structure W (K : Type) where
  pB : (Nat → Nat → Nat → K) × (Nat → Bool)
  pZ : (Nat → Nat → Nat → K) × (Nat → Bool)
  c : Nat → K
  cz : Bool

/-- The matrix in front of `z_[j]` in the expression of `x_[l]`: rows of `N` or of `AsZ_` -/
def zcoef (dim : Nat → Nat) (L : Layout) (d : Data K) (AsZ : Nat → Nat → Nat → K) (l q j c : Nat) : K :=
  if j = L.sub l then (d.cal j).N (L.xr.getD l 0 + q) c else AsZ (xstart dim L l + q) j c

/-- The body of the loop on `CXdependencies_[i]` (SubstitutionUnit.cpp, lines 142-184) -/
def xStep (dim : Nat → Nat) (L : Layout) (D : Deps) (d : Data K) (U : Mem K) (row : Nat) (ci : CInfo) (w : W K) (l : Nat) : W K :=
  let v := L.x.getD l 0
  let A := d.jac ci.idx v
  let rx := xstart dim L l
  ⟨(XY L D l).foldl (fun p j => addBlk row ci.shape.size j (fun r c => ∑ q ∈ range (dim v), A r q * U.M (rx + q) j c) p) w.pB,
   (XZ L D l).foldl (fun p j => addBlk row ci.shape.size j (fun r c => ∑ q ∈ range (dim v), A r q * zcoef dim L d U.AsZ l q j c) p) w.pZ,
   fun r => if row ≤ r ∧ r < row + ci.shape.size then w.c r - ∑ q ∈ range (dim v), A (r - row) q * U.u (rx + q) else w.c r,
   w.cz && U.uz l⟩

/-- The vector `c_` of a constraint (SubstitutionUnit.cpp, lines 128-141) -/
def rhsOf (k : RHS) (e : Nat → K) (r : Nat) : K :=
  match k with
  | .zero => 0
  | .asGiven => e r
  | .opposite => -e r

/-- The body of the loop on the constraints of a substitution (SubstitutionUnit.cpp, lines 115-187), at the row `row = m + mk` -/
def cstrStep (dim : Nat → Nat) (L : Layout) (D : Deps) (d : Data K) (U : Mem K) (row : Nat) (ci : CInfo) : Mem K × Bool :=
  let pB := ci.ys.foldl (fun p j => setBlk row ci.shape.size j (d.jac ci.idx (L.y.getD j 0)) p) (U.B, fun _ => true)
  let c : Nat → K := fun r => if row ≤ r ∧ r < row + ci.shape.size then rhsOf ci.shape.rhs (d.e ci.idx) (r - row) else U.c r
  let w := ci.xs.foldl (xStep dim L D d U row ci) ⟨pB, (U.Z, fun _ => true), c, decide (ci.shape.rhs = .zero)⟩
  (⟨w.pB.1, w.pZ.1, w.c, U.M, U.AsZ, U.u, U.StB, U.StZ, U.Stc, U.uz⟩, w.cz)

/-- The loop on the constraints of a substitution (SubstitutionUnit.cpp, lines 113-188), from the row `row`: the state, the conjunction of the
`cIsZero_[i]`, the number of rows -/
def cstrLoop (dim : Nat → Nat) (L : Layout) (D : Deps) (d : Data K) : List CInfo → Mem K → Nat → Mem K × Bool × Nat
  | [], U, _ => (U, true, 0)
  | ci :: cs, U, row =>
    let p := cstrStep dim L D d U row ci
    let q := cstrLoop dim L D d cs p.1 (row + ci.shape.size)
    (q.1, p.2 && q.2.1, ci.shape.size + q.2.2)

/-- A product by the generalized inverse (src/hint/SubstitutionCalculatorImpl.cpp, lines 39-58) -/
def mulRow (S : Nat → Nat → K) (m : Nat) (v : Nat → K) (r : Nat) : K := ∑ i ∈ range m, S r i * v i

/-- The body of the loop on the substitutions (SubstitutionUnit.cpp, lines 111-209), at the row `m`: the state and the next row -/
def subStep (dim : Nat → Nat) (L : Layout) (D : Deps) (d : Data K) (U : Mem K) (m : Nat) (s : SInfo) : Mem K × Nat :=
  let q := cstrLoop dim L D d s.cs U m
  let V := q.1
  let mk := q.2.2
  let C := d.cal s.idx
  (⟨V.B, V.Z, V.c,
    fun r j c => if j ∈ D.sy s.idx ∧ s.n0 ≤ r ∧ r < s.n0 + s.n then -mulRow C.sharp mk (fun i => V.B (m + i) j c) (r - s.n0) else V.M r j c,
    fun r j c => if j ∈ D.sz s.idx ∧ s.n0 ≤ r ∧ r < s.n0 + s.n then -mulRow C.sharp mk (fun i => V.Z (m + i) j c) (r - s.n0) else V.AsZ r j c,
    fun r => if s.n0 ≤ r ∧ r < s.n0 + s.n then mulRow C.sharp mk (fun i => V.c (m + i)) (r - s.n0) else V.u r,
    fun k r j c => if k = s.idx ∧ j ∈ D.sy s.idx then mulRow C.St mk (fun i => V.B (m + i) j c) r else V.StB k r j c,
    fun k r j c => if k = s.idx ∧ j ∈ D.sz s.idx then mulRow C.St mk (fun i => V.Z (m + i) j c) r else V.StZ k r j c,
    fun k r => if k = s.idx then mulRow C.St mk (fun i => V.c (m + i)) r else V.Stc k r,
    fun k => if k = s.idx then q.2.1 else V.uz k⟩, m + mk)

/-- The loop on the substitutions, from the row `m` -/
def subLoop (dim : Nat → Nat) (L : Layout) (D : Deps) (d : Data K) : List SInfo → Mem K → Nat → Mem K
  | [], U, _ => U
  | s :: ss, U, m =>
    let p := subStep dim L D d U m s
    subLoop dim L D d ss p.1 p.2

/-- Are the indices in `cIsZero_`, whose size is the number of the substituted variables (line 321), and `uIsZero_`, whose size is the number of
substitutions (line 310), within these vectors? -/
def Layout.inRange (L : Layout) : Bool :=
  decide (L.nc ≤ L.x.length) && L.subs.all fun s => s.cs.all fun ci => ci.xs.all fun l => decide (l < L.subs.length)

/-- The functions and the constraints given to the problem: the matrices of the function of `x_[l]` in front of `y_[j]` and `z_[j]`, its
constant, whether this constant is declared zero; the matrices of the remaining constraint of the substitution `k`, its right-hand side -/
structure Out (K : Type) where
  fY : Nat → Nat → Nat → Nat → K
  fZ : Nat → Nat → Nat → Nat → K
  fb : Nat → Nat → K
  fzero : Nat → Bool
  rY : Nat → Nat → Nat → Nat → K
  rZ : Nat → Nat → Nat → Nat → K
  rb : Nat → Nat → K

/-- The copy of the results (SubstitutionUnit.cpp, lines 211-251) -/
def output (dim : Nat → Nat) (L : Layout) (d : Data K) (U : Mem K) : Out K :=
  ⟨fun l j q c => U.M (xstart dim L l + q) j c, fun l j q c => zcoef dim L d U.AsZ l q j c, fun l q => U.u (xstart dim L l + q),
    fun l => U.uz (L.sub l), fun k r j c => U.StB k r j c, fun k r j c => U.StZ k r j c, fun k r => U.Stc k r⟩

/-- `update` (SubstitutionUnit.cpp, lines 93-252), the calculators being updated -/
def update (dim : Nat → Nat) (ss : List SShape) (d : Data K) (U : Mem K) : Outcome Unit (Mem K × Out K) :=
  let L := scan dim ss
  if L.inRange then
    let V := subLoop dim L (deps L) d L.subs U 0
    .ok () (V, output dim L d V)
  else .ub

/-- `initializeMatrices` (SubstitutionUnit.cpp, lines 364-405): what is not set to zero is arbitrary (`any`). The loop sets the rows of each
substitution for the variables it depends on. -/
def initLoop (D : Deps) : List SInfo → Mem K → Nat → Mem K
  | [], U, _ => U
  | s :: ss, U, m =>
    let mk := (s.cs.map fun ci => ci.shape.size).sum
    initLoop D ss ⟨fun r j c => if j ∈ D.sy s.idx ∧ m ≤ r ∧ r < m + mk then 0 else U.B r j c,
      fun r j c => if j ∈ D.sz s.idx ∧ m ≤ r ∧ r < m + mk then 0 else U.Z r j c, U.c, U.M, U.AsZ, U.u, U.StB, U.StZ, U.Stc, U.uz⟩ (m + mk)

def init (dim : Nat → Nat) (ss : List SShape) (any : Mem K) : Mem K := initLoop (deps (scan dim ss)) (scan dim ss).subs any 0

/-- `fillA` (src/hint/SubstitutionCalculatorImpl.cpp, lines 117-123, and the constructor, lines 150-170): the matrix of the constraints of a
substitution in front of the variables it substitutes -/
def fillRow (dim : Nat → Nat) (jac : Nat → Nat → Nat → K) (vars cvars : List Nat) (row size : Nat) : Nat → List Nat → (Nat → Nat → K) → Nat → Nat → K
  | _, [], A => A
  | col, v :: vs, A => fillRow dim jac vars cvars row size (col + dim v) vs
      (if v ∈ cvars then fun r c => if row ≤ r ∧ r < row + size ∧ col ≤ c ∧ c < col + dim v then jac v (r - row) (c - col) else A r c else A)

def fillA (dim : Nat → Nat) (jac : Nat → Nat → Nat → Nat → K) (vars : List Nat) : List CInfo → Nat → (Nat → Nat → K) → Nat → Nat → K
  | [], _, A => A
  | ci :: cs, row, A => fillA dim jac vars cs (row + ci.shape.size) (fillRow dim (jac ci.idx) vars ci.shape.vars row ci.shape.size 0 vars A)

end
end Verif.SU
