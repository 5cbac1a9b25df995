import Verif.Model.Outcome
import Mathlib.Algebra.Order.Field.Basic
import Mathlib.Algebra.BigOperators.Group.Finset.Basic
/-!
# Model of the task dynamics (src/task_dynamics/*.cpp, include/tvm/task_dynamics/*.h)

A vector is a function of the index, with its size where the code checks it. The functions of the task are given by their value and velocity
at the time of the update. The numbers are those of an ordered field: rounding is not modelled, and the square root is a parameter. A division
by zero gives a value that is not a number in the code; the model has no value there (`none`).
-/
set_option autoImplicit false
set_option linter.unusedSectionVars false

namespace Verif.TD
open Verif

/-- A vector with its size -/
structure Vec (K : Type) where
  n : Nat
  v : Nat → K

/-- `constraint::Type` (include/tvm/constraint/enums.h) -/
inductive CType
  | equal
  | greaterThan
  | lowerThan
  | doubleSided
deriving DecidableEq, Repr

/-- The constructor of `TaskDynamicsImpl` (TaskDynamicsImpl.cpp, lines 18-31): `false` when it throws. The computation graph is not part of
this model. -/
def implAccepts (fsize rhsSize : Nat) (euclidean : Bool) : Bool := decide (fsize = rhsSize) && euclidean

variable {K : Type} [Field K] [LinearOrder K] [IsStrictOrderedRing K]

/-! ## Constant, None, Reference, FeedForward -/

/-- `Constant::Impl::updateValue` (Constant.cpp, line 28) -/
def constantValue (rhs : Nat → K) : Nat → K := rhs

/-- The constructor and `updateValue` of `None::Impl` (None.cpp, lines 22-34): `b` is the constant of a linear function, `none` for the other
functions -/
def noneValue (b : Option (Nat → K)) (rhs : Nat → K) : Option (Nat → K) :=
  match b with
  | none => none
  | some b => some fun i => rhs i - b i

/-- `Reference::Impl::updateValue` (Reference.cpp, line 25) -/
def referenceValue (ref : Nat → K) : Nat → K := ref

/-- `FeedForward::Impl::updateValue` (FeedForward.h, lines 68-72), from the value of the inner dynamics -/
def feedForwardValue (inner ff : Nat → K) : Nat → K := fun i => inner i + ff i

/-! ## OneStepToZero -/

/-- `OneStepToZero::checkParam` (OneStepToZero.cpp, lines 17-37): `false` when it throws -/
def oneStepCheck (order : Nat) (dt : K) : Bool :=
  if order = 0 then false
  else if 2 < order then false
  else if dt ≤ 0 then false
  else true

/-- `OneStepToZero::Impl::updateValue` (OneStepToZero.cpp, lines 52-60) -/
def oneStepValue (order : Nat) (dt : K) (f vel rhs : Nat → K) : Nat → K := fun i =>
  let v := (rhs i - f i) / dt
  if order = 2 then (v - vel i) * (2 / dt) else v

/-! ## Gains, Proportional, ProportionalDerivative -/

/-- `Gain` (Proportional.h, line 26; ProportionalDerivative.h, line 27) -/
inductive Gain (K : Type)
  | scalar (k : K)
  | diag (n : Nat) (d : Nat → K)
  | matrix (rows cols : Nat) (M : Nat → Nat → K)

/-- The product of a gain and a vector. A product of incompatible sizes is an assertion of Eigen, and an access out of range without
assertions. -/
def Gain.mul (g : Gain K) (x : Vec K) : Outcome Unit (Vec K) :=
  match g with
  | .scalar k => .ok () ⟨x.n, fun i => k * x.v i⟩
  | .diag n d => if n = x.n then .ok () ⟨n, fun i => d i * x.v i⟩ else .ub
  | .matrix r c M => if c = x.n then .ok () ⟨r, fun i => ∑ j ∈ Finset.range c, M i j * x.v j⟩ else .ub

/-- The constructor of `Proportional::Impl` (Proportional.cpp, lines 28-37): `false` when it throws -/
def propAccepts (fsize : Nat) (g : Gain K) : Bool :=
  match g with
  | .scalar _ => true
  | .diag n _ => decide (n = fsize)
  | .matrix r c _ => !(decide (c ≠ fsize) && decide (r ≠ fsize))

/-- The checks of `Proportional::Impl::gain` and of `ProportionalDerivative::Impl::checkGainSize` (Proportional.cpp, lines 59-77;
ProportionalDerivative.cpp, lines 158-179), and of the assertions of the constructor of `ProportionalDerivative::Impl` (lines 71-81) -/
def gainFits (fsize : Nat) (g : Gain K) : Bool :=
  match g with
  | .scalar _ => true
  | .diag n _ => decide (n = fsize)
  | .matrix r c _ => decide (r = fsize) && decide (c = fsize)

/-- `Proportional::Impl::updateValue` (Proportional.cpp, lines 39-57) -/
def propValue (kp : Gain K) (n : Nat) (f rhs : Nat → K) : Outcome Unit (Vec K) :=
  match kp.mul ⟨n, fun i => f i - rhs i⟩ with
  | .ok _ x => .ok () ⟨x.n, fun i => -x.v i⟩
  | .throw _ => .throw ()
  | .ub => .ub

/-- `ProportionalDerivative::Impl::updateValue` (ProportionalDerivative.cpp, lines 84-114). The difference of vectors of different sizes is an
assertion of Eigen. -/
def pdValue (kp kv : Gain K) (n : Nat) (f vel rhs : Nat → K) : Outcome Unit (Vec K) :=
  match kv.mul ⟨n, vel⟩, kp.mul ⟨n, fun i => f i - rhs i⟩ with
  | .ok _ x, .ok _ y => if x.n = y.n then .ok () ⟨x.n, fun i => -x.v i - y.v i⟩ else .ub
  | _, _ => .ub

/-- What `Eigen::RealSchur` returns for a matrix of size `n`: `kp = U T Uᵀ` -/
structure Schur (K : Type) where
  U : Nat → Nat → K
  T : Nat → Nat → K

/-- `2 * U * T.diagonal().asDiagonal() * Uᵀ` (ProportionalDerivative.cpp, lines 54 and 155) -/
def schurDamping (n : Nat) (S : Schur K) : Nat → Nat → K := fun i j => ∑ k ∈ Finset.range n, 2 * S.U i k * S.T k k * S.U j k

/-- The gains `(kp, kv)` of the constructors of `ProportionalDerivative` from `kp` alone (ProportionalDerivative.cpp, lines 42-55). The decomposition is
given. -/
def pdCritical (sqrt : K → K) (schur : Schur K) (kp : Gain K) : Gain K × Gain K :=
  match kp with
  | .scalar k => (.scalar k, .scalar (2 * sqrt k))
  | .diag n d => (.diag n d, .diag n fun i => 2 * sqrt (d i))
  | .matrix r c M => (.matrix r c M, .matrix r c (schurDamping r schur))

/-- `ProportionalDerivative::Impl::gains` with two arguments (`gains_`, ProportionalDerivative.h, lines 200-207): `none` when it throws -/
def pdSetGains (n : Nat) (kp kv : Gain K) : Option (Gain K × Gain K) :=
  if gainFits n kp then if gainFits n kv then some (kp, kv) else none else none

/-- `ProportionalDerivative::Impl::gains(kp)` (ProportionalDerivative.cpp, lines 136-156), from the current gains `old`: `none` when it throws. The
version for matrices does not change `kp_`. -/
def pdSetCritical (sqrt : K → K) (schur : Schur K) (n : Nat) (old : Gain K × Gain K) (kp : Gain K) : Option (Gain K × Gain K) :=
  if gainFits n kp then
    match kp with
    | .scalar k => some (.scalar k, .scalar (2 * sqrt k))
    | .diag m d => some (.diag m d, .diag m fun i => 2 * sqrt (d i))
    | .matrix r c _ => some (old.1, .matrix r c (schurDamping r schur))
  else none

/-! ## Clamped -/

/-- `Clamped::Bounds` (Clamped.h, line 27) -/
inductive Bnd (K : Type)
  | scalar (k : K)
  | vec (n : Nat) (v : Nat → K)

/-- Some component of a vector of size `n` satisfies `p` (`.any()` of Eigen) -/
def anyB (n : Nat) (p : Nat → Bool) : Bool := (List.range n).any p

/-- The constructors of `Clamped` with two bounds (Clamped.h, lines 126-140 and 148-166): `false` when they throw. There is no constructor for
bounds of different kinds. -/
def clampedAccepts (lo hi : Bnd K) : Bool :=
  match lo, hi with
  | .scalar l, .scalar h => !decide (0 < l) && !decide (h < 0)
  | .vec n l, .vec m h => decide (n = m) && !anyB n (fun i => decide (0 < l i)) && !anyB m (fun i => decide (h i < 0))
  | _, _ => false

/-- The bounds given by the constructors with one argument (Clamped.h, lines 120-124 and 142-146) -/
def clampedSymmetric (hi : Bnd K) : Bnd K × Bnd K :=
  match hi with
  | .scalar h => (.scalar (-h), .scalar h)
  | .vec n h => (.vec n (fun i => -h i), .vec n h)

/-- The vector of a bound, `VectorXd::Constant(f->size(), k)` for a scalar (Clamped.h, lines 177-180) -/
def Bnd.toVec (n : Nat) : Bnd K → Vec K
  | .scalar k => ⟨n, fun _ => k⟩
  | .vec m v => ⟨m, v⟩

/-- The constructor of `Clamped::Impl` (Clamped.h, lines 168-195): `none` when it throws -/
def clampedImpl (n : Nat) (lo hi : Bnd K) : Option (Vec K × Vec K) :=
  let l := lo.toVec n
  let h := hi.toVec n
  if l.n ≠ n ∨ h.n ≠ n then none
  else if anyB n (fun i => decide (0 < l.v i)) then none
  else if anyB n (fun i => decide (h.v i < 0)) then none
  else some (l, h)

/-- `std::min` -/
def stdMin (a b : K) : K := if b < a then b else a

/-- One turn of the loop of `Clamped::Impl::updateValue` (Clamped.h, lines 204-213) -/
def clampStep (lo hi v : Nat → K) (s : K) (i : Nat) : K :=
  if hi i < v i then stdMin s (hi i / v i)
  else if v i < lo i then stdMin s (lo i / v i)
  else s

/-- `Clamped::Impl::updateValue` (Clamped.h, lines 197-216), from the value `v` of the inner dynamics -/
def clampFactor (n : Nat) (lo hi v : Nat → K) : K := (List.range n).foldl (clampStep lo hi v) 1

@[inherit_doc clampFactor]
def clampValue (n : Nat) (lo hi v : Nat → K) : Nat → K := fun i => v i * clampFactor n lo hi v

/-! ## VelocityDamper -/

/-- The constructor of `VelocityDamper::Config` (VelocityDamper.cpp, lines 14-33): `false` when it throws -/
def configAccepts (di ds xsi xsiOff : K) : Bool :=
  if di ≤ ds then false else if ds < 0 then false else if xsi < 0 then false else if xsiOff < 0 then false else true

/-- The constructor of `VelocityDamper::AnisotropicConfig` (VelocityDamper.cpp, lines 35-66): `false` when it throws -/
def anisoAccepts (di ds xsi xsiOff : Vec K) : Bool :=
  if di.n ≠ ds.n ∨ di.n ≠ xsi.n ∨ di.n ≠ xsiOff.n then false
  else if anyB di.n (fun i => decide (di.v i ≤ ds.v i)) then false
  else if anyB di.n (fun i => decide (ds.v i < 0)) then false
  else if anyB di.n (fun i => decide (xsi.v i < 0)) then false
  else if anyB di.n (fun i => decide (xsi.v i = 0)) && !(List.range di.n).all (fun i => decide (xsi.v i = 0)) then false
  else if anyB di.n (fun i => decide (xsiOff.v i < 0)) then false
  else true

/-- Members of `VelocityDamper::Impl` (VelocityDamper.h). `dt` is 0 for the first order. A component of `axsi` is `none` when it is not a
number. -/
structure VD (K : Type) where
  n : Nat
  order : Nat
  dt : K
  ds : Nat → K
  di : Nat → K
  xsiOff : Nat → K
  a : Nat → K
  big : K
  autoXsi : Bool
  axsi : Nat → Option K
  active : Nat → Bool

/-- `resizeParameter` (VelocityDamper.cpp, lines 140-153): `none` when it throws -/
def resizeParameter (n : Nat) (x : Vec K) : Option (Nat → K) :=
  if x.n = 1 then some fun _ => x.v 0
  else if x.n ≠ n then none
  else some x.v

/-- The check of the time step (VelocityDamper.cpp, lines 111-114), in the constructors with a time step only -/
def badStep : Option K → Bool
  | some dt => decide (dt ≤ 0)
  | none => false

/-- The constructors of `VelocityDamper` and of `VelocityDamper::Impl` (VelocityDamper.cpp, lines 75-133 and 157-203), for a configuration that
is accepted: `dt` is `none` for the constructors without time step. `config.xsi_[0]` of an empty configuration is undefined. -/
def makeVD (n : Nat) (dt : Option K) (di ds xsi xsiOff : Vec K) (big : K) : Outcome Unit (VD K) :=
  if xsi.n = 0 then .ub
  else
    let auto := decide (xsi.v 0 = 0)
    let x := if auto then xsiOff else xsi
    if badStep dt then .throw ()
    else if big ≤ 0 then .throw ()
    else
      match resizeParameter n ds, resizeParameter n di, resizeParameter n x with
      | some ds, some di, some x =>
        let a : Nat → K := fun i => -(di i - ds i)⁻¹
        .ok () {
          n := n, order := if dt.isSome then 2 else 1, dt := dt.getD 0, ds := ds, di := di,
          xsiOff := if auto then x else fun _ => 0, a := a, big := big, autoXsi := auto,
          axsi := if auto then fun _ => some 1 else fun i => some (a i * x i),
          active := fun _ => false }
      | _, _, _ => .throw ()

/-- The loop of `updateValue_` for the automatic damping (VelocityDamper.cpp, lines 233-248), one component: the new `axsi` and `active` -/
def autoStep (D : VD K) (s : K) (i : Nat) (d dv : K) : Option K × Bool :=
  if d ≤ D.di i ∧ D.active i = false then
    (if d = D.ds i then none else some (D.a i * (s * dv * (D.ds i - D.di i) / (d - D.ds i) + D.xsiOff i)), true)
  else if D.di i < d ∧ D.active i = true then (D.axsi i, false)
  else (D.axsi i, D.active i)

/-- `VelocityDamper::Impl::updateValue_` (VelocityDamper.cpp, lines 231-251): the new state and the value of each component -/
def updateVD_ (D : VD K) (s : K) (d dv : Nat → K) : VD K × (Nat → Option K) :=
  let D' : VD K :=
    if D.autoXsi then
      { D with axsi := fun i => if i < D.n then (autoStep D s i (d i) (dv i)).1 else D.axsi i,
               active := fun i => if i < D.n then (autoStep D s i (d i) (dv i)).2 else D.active i }
    else D
  (D', fun i => (D'.axsi i).map fun x => (d i - D'.ds i) * x)

/-- `VelocityDamper::Impl::updateValue` (VelocityDamper.cpp, lines 205-229) -/
def updateVD (t : CType) (D : VD K) (f vel rhs : Nat → K) : VD K × (Nat → Option K) :=
  if t = .lowerThan then
    let d : Nat → K := fun i => rhs i - f i
    let r := updateVD_ D (-1) d vel
    (r.1, fun i =>
      let v := (r.2 i).map fun x => if D.order = 2 then (x + vel i) / D.dt else x
      if D.di i < d i then some D.big else v.map fun x => -x)
  else
    let d : Nat → K := fun i => f i - rhs i
    let r := updateVD_ D 1 d vel
    (r.1, fun i =>
      let v := (r.2 i).map fun x => if D.order = 2 then (x - vel i) / D.dt else x
      if D.di i < d i then some (-D.big) else v)

end Verif.TD
