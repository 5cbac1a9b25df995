import Mathlib.Order.Defs.LinearOrder
/-!
# Model of `tvm::internal::MatrixProperties`
(include/tvm/internal/MatrixProperties.h and src/internal/MatrixProperties.cpp)

A constructor that throws gives `none`.
-/
set_option autoImplicit false

namespace Verif.MP

/-- `MatrixProperties::Shape` (MatrixProperties.h, lines 19-41) -/
inductive Shape where
  | general | lower | upper | diagonal | multiple | identity | minusIdentity | zero
deriving Repr, DecidableEq

/-- Value of the enumerator, used by the comparisons of shapes. -/
def Shape.toNat : Shape → Nat
  | .general => 0 | .lower => 1 | .upper => 2 | .diagonal => 3 | .multiple => 4 | .identity => 5
  | .minusIdentity => 6 | .zero => 7

/-- `MatrixProperties::Positiveness` (MatrixProperties.h, lines 46-61) -/
inductive Pos where
  | na | psd | pd | nsd | nd | indef | nzIndef
deriving Repr, DecidableEq

/-- Members of `MatrixProperties` (MatrixProperties.h, lines 178-182) -/
structure Props where
  constant : Bool
  invertible : Bool
  shape : Shape
  symmetric : Bool
  pos : Pos
deriving Repr, DecidableEq

/-- The row `a`, column `b` of the table in `greaterThan` (MatrixProperties.cpp, lines 49-55) -/
def table : Pos → Pos → Int
  | .na, _ => -1
  | .psd, .na => 1
  | .psd, .psd => -1
  | .psd, .pd => -1
  | .psd, .nsd => 0
  | .psd, .nd => 0
  | .psd, .indef => 1
  | .psd, .nzIndef => 0
  | .pd, .na => 1
  | .pd, .psd => 1
  | .pd, .pd => -1
  | .pd, .nsd => 0
  | .pd, .nd => 0
  | .pd, .indef => 1
  | .pd, .nzIndef => 1
  | .nsd, .na => 1
  | .nsd, .psd => 0
  | .nsd, .pd => 0
  | .nsd, .nsd => 1
  | .nsd, .nd => -1
  | .nsd, .indef => 1
  | .nsd, .nzIndef => 1
  | .nd, .na => 1
  | .nd, .psd => 0
  | .nd, .pd => 0
  | .nd, .nsd => 1
  | .nd, .nd => -1
  | .nd, .indef => 1
  | .nd, .nzIndef => 1
  | .indef, .na => 1
  | .indef, _ => -1
  | .nzIndef, .na => 1
  | .nzIndef, .psd => 0
  | .nzIndef, .pd => -1
  | .nzIndef, .nsd => 0
  | .nzIndef, .nd => -1
  | .nzIndef, .indef => 1
  | .nzIndef, .nzIndef => 1

/-- `greaterThan` (MatrixProperties.cpp, lines 42-60); `none` is the exception of line 57 -/
def greaterThan (a b : Pos) : Option Bool := if table a b = 0 then none else some (decide (table a b > 0))

/-- `max` (MatrixProperties.cpp, lines 62-68) -/
def maxPos (a b : Pos) : Option Pos :=
  match greaterThan a b with
  | none => none
  | some true => some a
  | some false => some b

/-- `promote` (MatrixProperties.cpp, lines 70-91) -/
def promote (p : Pos) (invertible : Bool) : Pos :=
  if invertible then
    match p with
    | .psd => .pd
    | .nsd => .nd
    | .indef => .nzIndef
    | p => p
  else p

/-- `deduceConstance` (MatrixProperties.cpp, lines 93-94) -/
def deduceConstance (s : Shape) : Bool := s == .identity || s == .minusIdentity || s == .zero

/-- `deduceSymmetry` (MatrixProperties.cpp, lines 96-97) -/
def deduceSymmetry (s : Shape) (p : Pos) : Bool := decide (s.toNat ≥ Shape.diagonal.toNat) || p != .na

/-- `deduceInvertibility` (MatrixProperties.cpp, lines 99-103) -/
def deduceInvertibility (s : Shape) (p : Pos) : Bool :=
  s == .identity || s == .minusIdentity || p == .pd || p == .nd || p == .nzIndef

/-- `deduceShape` (MatrixProperties.cpp, lines 105-114) -/
def deduceShape (s : Shape) (p : Pos) : Shape :=
  if (s == .lower || s == .upper) && p != .na then .diagonal else s

/-- Default positiveness of a shape (MatrixProperties.cpp, lines 118-139) -/
def defaultPos : Shape → Pos
  | .diagonal => .indef
  | .multiple => .indef
  | .identity => .pd
  | .minusIdentity => .nd
  | .zero => .indef
  | _ => .na

/-- `deducePositiveness` (MatrixProperties.cpp, lines 116-143) -/
def deducePositiveness (s : Shape) (p : Pos) (invertible : Bool) : Option Pos :=
  maxPos (promote (defaultPos s) invertible) (promote p invertible)

/-- `MatrixProperties::build` (MatrixProperties.cpp, lines 158-187) -/
def build (s : Shape) (p : Pos) (c i : Bool) (checks : Bool × Bool) : Option Props :=
  if (s == .zero && p == .pd) || (s == .zero && p == .nd) || (s == .zero && p == .nzIndef)
      || (s == .identity && p == .nsd) || (s == .identity && p == .nd)
      || (s == .minusIdentity && p == .psd) || (s == .minusIdentity && p == .pd) then none
  else if checks.1 && !c && deduceConstance s then none
  else if checks.2 && !i && deduceInvertibility s p then none
  else if checks.2 && i && s == .zero then none
  else
    match deducePositiveness s p i with
    | none => none
    | some q =>
      some { constant := c || deduceConstance s
             invertible := i || deduceInvertibility s p
             shape := deduceShape s p
             symmetric := deduceSymmetry s p
             pos := q }

/-- The variadic constructor (MatrixProperties.h, lines 146-164 and 192-198): each argument is given or not. -/
def make (s : Option Shape) (p : Option Pos) (c i : Option Bool) : Option Props :=
  build (s.getD .general) (p.getD .na) (c.getD false) (i.getD false) (c.isSome, i.isSome)

/-- The default constructor (MatrixProperties.cpp, lines 153-156) -/
def default : Props := ⟨false, false, .general, false, .na⟩

/-! ## Queries (MatrixProperties.h, lines 217-252) -/

namespace Props
def isConstant (p : Props) : Bool := p.constant
def isInvertible (p : Props) : Bool := p.invertible
def isTriangular (p : Props) : Bool := decide (p.shape.toNat ≥ Shape.lower.toNat)
def isDiagonal (p : Props) : Bool := decide (p.shape.toNat ≥ Shape.diagonal.toNat)
def isLowerTriangular (p : Props) : Bool := p.shape == .lower || p.isDiagonal
def isUpperTriangular (p : Props) : Bool := decide (p.shape.toNat ≥ Shape.upper.toNat)
def isMultipleOfIdentity (p : Props) : Bool := decide (p.shape.toNat ≥ Shape.multiple.toNat)
def isIdentity (p : Props) : Bool := p.shape == .identity
def isMinusIdentity (p : Props) : Bool := p.shape == .minusIdentity
def isZero (p : Props) : Bool := p.shape == .zero
def isSymmetric (p : Props) : Bool := p.symmetric
def isPositiveDefinite (p : Props) : Bool := p.pos == .pd
def isPositiveSemiDefinite (p : Props) : Bool := p.pos == .psd || p.isPositiveDefinite || p.isZero
def isNegativeDefinite (p : Props) : Bool := p.pos == .nd
def isNegativeSemidefinite (p : Props) : Bool := p.pos == .nsd || p.isNegativeDefinite || p.isZero
def isIndefinite (p : Props) : Bool := p.pos != .na
def isNonZeroIndefinite (p : Props) : Bool := p.pos == .nzIndef || p.isPositiveDefinite || p.isNegativeDefinite
end Props

/-! ## Operators -/

/-- `operator-(Positiveness)` (MatrixProperties.cpp, lines 200-221) -/
def negPos : Pos → Pos
  | .na => .na | .psd => .nsd | .pd => .nd | .nsd => .psd | .nd => .pd | .indef => .indef | .nzIndef => .nzIndef

/-- `operator*(double, Positiveness)` (MatrixProperties.cpp, lines 223-233) -/
def scalePos {K : Type} [LinearOrder K] [Zero K] (d : K) (p : Pos) : Pos :=
  if d < 0 then negPos p else if d > 0 then p else if p = .na then p else .indef

/-- `operator+(Positiveness, Positiveness)` (MatrixProperties.cpp, lines 235-247) -/
def addPos (p q : Pos) : Option Pos :=
  if p == .na || q == .na then some .na
  else if (p == .psd || p == .pd) && (q == .psd || q == .pd) then maxPos p q
  else if (p == .nsd || p == .nd) && (q == .nsd || q == .nd) then maxPos p q
  else some .indef

/-- `operator-(Positiveness, Positiveness)` (MatrixProperties.cpp, line 249) -/
def subPos (p q : Pos) : Option Pos := addPos p (negPos q)

/-- `operator-(Shape)` (MatrixProperties.cpp, lines 257-265) -/
def negShape (s : Shape) : Shape := if s = .identity then .minusIdentity else if s = .minusIdentity then .identity else s

/-- `operator*(double, Shape)` (MatrixProperties.cpp, lines 267-275) -/
def scaleShape {K : Type} [LinearOrder K] [Zero K] (d : K) (s : Shape) : Shape :=
  if d < 0 then negShape s else if d > 0 then s else .zero

/-- `std::minmax` of two shapes -/
def minmax (s t : Shape) : Shape × Shape := if t.toNat < s.toNat then (t, s) else (s, t)

/-- `operator+(Shape, Shape)` (MatrixProperties.cpp, lines 277-317) -/
def addShape (s1 s2 : Shape) : Shape :=
  let s := minmax s1 s2
  match s.1 with
  | .general => .general
  | .lower => if s.2 = .upper then .general else .lower
  | .upper => .upper
  | .diagonal => .diagonal
  | .multiple => .multiple
  | .identity => if s.2 = .identity then .multiple else if s.2 = .minusIdentity then .zero else .identity
  | .minusIdentity => if s.2 = .minusIdentity then .multiple else .minusIdentity
  | .zero => .zero

/-- `operator-(Shape, Shape)` (MatrixProperties.cpp, line 319) -/
def subShape (s1 s2 : Shape) : Shape := addShape s1 (negShape s2)

/-- `operator*(Shape, Shape)` (MatrixProperties.cpp, lines 321-356). The `default` case of the `switch` (an exception) is only
for `s.first = ZERO`, for which `s.second = ZERO` as well. -/
def mulShape (s1 s2 : Shape) : Option Shape :=
  let s := minmax s1 s2
  if s.2 = .zero then some .zero
  else
    match s.1 with
    | .general => some .general
    | .lower => if s.2 = .upper then some .general else some .lower
    | .upper => some .upper
    | .diagonal => some .diagonal
    | .multiple => some .multiple
    | .identity => if s.2 = .identity then some .identity else some .minusIdentity
    | .minusIdentity => some .identity
    | .zero => none

/-- Construction from the four properties, all given (the braces of the operators, MatrixProperties.cpp, lines 358-380) -/
def make4 (s : Shape) (p : Pos) (c i : Bool) : Option Props := make (some s) (some p) (some c) (some i)

/-- `operator-(MatrixProperties)` (MatrixProperties.cpp, lines 358-359, with lines 189 and 194) -/
def neg (p : Props) : Option Props := make4 (negShape p.shape) (negPos p.pos) p.constant p.invertible

/-- `operator*(double, MatrixProperties)` (MatrixProperties.cpp, lines 361-362, with lines 190 and 195) -/
def scale {K : Type} [LinearOrder K] [Zero K] (d : K) (p : Props) : Option Props :=
  make4 (scaleShape d p.shape) (scalePos d p.pos) p.constant (if d = 0 then false else p.invertible)

/-- `operator+` (MatrixProperties.cpp, lines 364-368, with lines 191 and 196) -/
def add (p q : Props) : Option Props :=
  match addPos p.pos q.pos with
  | none => none
  | some r => make4 (addShape p.shape q.shape) r (p.constant && q.constant) false

/-- binary `operator-` (MatrixProperties.cpp, lines 370-374, with lines 192 and 197) -/
def sub (p q : Props) : Option Props :=
  match subPos p.pos q.pos with
  | none => none
  | some r => make4 (subShape p.shape q.shape) r (p.constant && q.constant) false

/-- `operator*` (MatrixProperties.cpp, lines 376-380, with lines 193, 198 and 251-255) -/
def mul (p q : Props) : Option Props :=
  match mulShape p.shape q.shape with
  | none => none
  | some s => make4 s .na (p.constant && q.constant) (p.invertible && q.invertible)

end Verif.MP
