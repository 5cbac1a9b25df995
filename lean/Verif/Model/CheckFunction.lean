import Mathlib.Algebra.BigOperators.Group.Finset.Basic
import Mathlib.Algebra.Order.Field.Basic
/-!
# Model of `tvm::utils::checkJacobian`, `checkVelocity`, `checkNormalAcceleration` and `checkFunction` (src/utils/checkFunction.cpp)

The wrapped function is given by its outputs for the concatenated values of its variables (C77), with exact arithmetic. The numbers that Eigen draws at random
(`setRandom`, `normalize`) are parameters: the model takes the list of the random vectors in the order in which they are drawn, and the theorems hold for all of them.
The configurations given by the caller have a size of their own.

The variables are supposed to be Euclidean, otherwise `checkJacobian` and `checkNormalAcceleration` throw (lines 154-162 and 395-399). What is printed is not modelled.
-/
set_option autoImplicit false

namespace Verif.Chk
open Finset

variable {K : Type} [Field K] [LinearOrder K]

/-- The outputs of the function: sizes of its variables, size of its value, value, jacobian (row, column of the concatenated jacobian), velocity and normal acceleration -/
structure Fn (K : Type) where
  sizes : List Nat
  m : Nat
  value : (Nat → K) → Nat → K
  jac : (Nat → K) → Nat → Nat → K
  vel : (Nat → K) → (Nat → K) → Nat → K
  nacc : (Nat → K) → (Nat → K) → Nat → K

/-- Total size of the variables -/
def Fn.n (f : Fn K) : Nat := f.sizes.sum

/-- `u.cwiseAbs2().sum()` or `u.squaredNorm()` for a vector of size `m` -/
def sq (m : Nat) (u : Nat → K) : K := ∑ r ∈ range m, u r * u r

/-- `a.isApprox(b, prec)` of Eigen -/
def isApprox (m : Nat) (prec : K) (a b : Nat → K) : Bool :=
  decide (sq m (fun r => a r - b r) ≤ prec * prec * min (sq m a) (sq m b))

/-- The column `i` of the finite differences (lines 110-112) -/
def Fn.ffd (f : Fn K) (h : K) (v0 : Nat → K) (i r : Nat) : K :=
  (f.value (fun k => if k = i then v0 k + h else v0 k) r - f.value v0 r) / h

/-- `norm2` (lines 105-117) -/
def Fn.norm2 (f : Fn K) (h : K) (v0 : Nat → K) : K :=
  (List.range f.n).foldl (fun a i => max a (min (sq f.m (f.ffd h v0 i)) (sq f.m (fun r => f.jac v0 r i)))) 0

/-- The test of line 125, for the column `i` -/
def Fn.bad (f : Fn K) (h prec : K) (v0 : Nat → K) (i : Nat) : Bool :=
  decide (prec * prec * f.norm2 h v0 < sq f.m (fun r => f.ffd h v0 i r - f.jac v0 r i))

/-- The inner loop over the coefficients of a variable (lines 123-134): the pair is `i`, `b` -/
def Fn.inner (f : Fn K) (h prec : K) (v0 : Nat → K) : Nat → Nat × Bool → Nat × Bool
  | 0, p => p
  | k + 1, p => f.inner h prec v0 k (p.1, if f.bad h prec v0 p.1 then false else p.2)

/-- The comparison of the two matrices (lines 120-135) -/
def Fn.compare (f : Fn K) (h prec : K) (v0 : Nat → K) : Bool :=
  (f.sizes.foldl (fun p k => f.inner h prec v0 k p) (0, true)).2

/-- A configuration (checkFunction.h, lines 47-53): vectors with their size -/
structure Config (K : Type) where
  value : Option (Nat × (Nat → K))
  velocity : Option (Nat × (Nat → K))
  samples : Nat

/-- The options (checkFunction.h, lines 31-62) -/
structure Options (K : Type) where
  step : K
  prec : K
  samples : Nat
  configs : List (Config K)

/-- `defaultOptions` (lines 21-27) -/
def Options.default (o : Options K) : Options K := if o.configs = [] ∧ o.samples = 0 then { o with samples := 1 } else o

/-- The value of a configuration of the caller, if it has one of the right size (lines 179-187) -/
def Config.keep (n : Nat) (c : Config K) : Option (Nat → K) := match c.value with | none => none | some v => if v.1 = n then some v.2 else none

/-- The configurations at which `checkJacobian` compares (lines 167-187): `samples` random ones, then those of the caller that have a value of the right size -/
def Options.points (o : Options K) (n : Nat) (rnd : Nat → Nat → K) : List (Nat → K) :=
  (List.range o.samples).map rnd ++
    o.configs.filterMap (Config.keep n)

/-- Number of configurations that fail (`failed + failed_fixed`, lines 166-187) -/
def Fn.failures (f : Fn K) (o : Options K) (rnd : Nat → Nat → K) : Nat :=
  ((o.points f.n rnd).map (fun v0 => if f.compare o.step o.prec v0 then 0 else 1)).sum

/-- `checkJacobian(f, opt)` (lines 146-215) -/
def Fn.checkJacobian (f : Fn K) (o : Options K) (rnd : Nat → Nat → K) : Bool :=
  f.failures o.default rnd == 0

/-- `checkVelocity` at one configuration (lines 220-254) -/
def Fn.checkVelocityAt (f : Fn K) (prec : K) (val vel : Nat → K) : Bool :=
  isApprox f.m prec (fun r => ∑ c ∈ range f.n, f.jac val r c * vel c) (f.vel val vel)

/-- `val1` (line 352) -/
def nextVal (dt : K) (val0 vel0 acc : Nat → K) (c : Nat) : K := val0 c + vel0 c * dt + 1 / 2 * (acc c * acc c) * dt * dt

/-- `checkNormalAcceleration` at one configuration (lines 341-385) -/
def Fn.checkNormalAt (f : Fn K) (dt prec : K) (val0 vel0 acc : Nat → K) : Bool :=
  let vel1 := fun c => vel0 c + acc c * dt
  let val1 := nextVal dt val0 vel0 acc
  let a := fun r => (f.vel val1 vel1 r - f.vel val0 vel0 r) / dt - ∑ c ∈ range f.n, f.jac val0 r c * acc c
  isApprox f.m prec (f.nacc val0 vel0) a

end Verif.Chk
