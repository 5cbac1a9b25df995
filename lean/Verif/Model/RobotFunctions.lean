import Verif.Model.FirstOrderProvider
import Verif.Model.Robot
import Verif.Model.Frame
import Mathlib.Algebra.BigOperators.Ring.Finset
/-!
# Functions of the state of a robot

Model of `src/robot/PositionFunction.cpp`, `src/robot/CoMFunction.cpp`, `src/robot/PostureFunction.cpp` and of the velocity and jacobian in `src/robot/GeometricContactFunction.cpp`.
The jacobians are kept by the class of `Verif.Prov`. What RBDyn computes (centre of mass, jacobians, velocities) and `sva::rotationError` are inputs.

The value of `GeometricContactFunction` is in `Verif.CV`, `OrientationFunction` in `Verif.OF`. Not modelled: the dependencies between updates.
-/
set_option autoImplicit false

namespace Verif.RF
open Verif Verif.Prov Verif.Sva

variable {K : Type} [CommRing K]

/-! ## GeometricContactFunction -/

/-- `dof_ * J` -/
def mulMat (D : Nat → Nat → K) (J : Mat K) : Mat K := ⟨6, J.cols, fun i c => ∑ k ∈ Finset.range 6, D i k * J.at_ k c⟩

/-- `-M` -/
def negMat (M : Mat K) : Mat K := ⟨M.rows, M.cols, fun i c => -M.at_ i c⟩

/-- `dof_ * v` -/
def mulVec6 (D : Nat → Nat → K) (v : Nat → K) (i : Nat) : K := ∑ k ∈ Finset.range 6, D i k * v k

/-- One of the two frames of the contact: the degrees of freedom of the robot (has_f1_, has_f2_, lines 35-36), the variables `q` of the robot -/
structure Side where
  dof : Nat
  q : List Nat

/-- `updateVelocity` (GeometricContactFunction.cpp, lines 77-88); the normal acceleration (lines 90-101) is the same computation -/
def contactVelocity (D : Nat → Nat → K) (s1 s2 : Side) (v1 v2 : Nat → K) (i : Nat) : K :=
  let a : K := if s1.dof > 0 then 0 + mulVec6 D v1 i else 0
  if s2.dof > 0 then a - mulVec6 D v2 i else a

/-- `updateJacobian` (lines 103-117) -/
def contactJacobian (tr : Nat → Range) (D : Nat → Nat → K) (s1 s2 : Side) (J1 J2 : Mat K) (P : Provider K) : Outcome (Provider K) Unit :=
  match (if s1.dof > 0 then P.split tr (mulMat D J1) s1.q else .ok P ()) with
  | .ub => .ub
  | .throw P' => .throw P'
  | .ok P' _ => if s2.dof > 0 then P'.split tr (negMat (mulMat D J2)) s2.q else .ok P' ()

/-! ## CoMFunction -/

/-- The members of `CoMFunction`: the target, the provider (value and jacobians), `JDot_` -/
structure CoM (K : Type) where
  target : V3 K
  P : Provider K
  jdot : VMap (Mat K)

/-- `reset` (CoMFunction.cpp, line 34) -/
def CoM.reset (f : CoM K) (com : V3 K) : CoM K := { f with target := com }

/-- `updateValue` (line 36) -/
def CoM.value (f : CoM K) (com : V3 K) : V3 K := com - f.target

/-- `updateJacobian` (line 40) -/
def CoM.updateJacobian (tr : Nat → Range) (f : CoM K) (J : Mat K) (q : List Nat) : Outcome (CoM K) Unit :=
  match f.P.split tr J q with
  | .ub => .ub
  | .throw P => .throw { f with P := P }
  | .ok P _ => .ok { f with P := P } ()

/-- `updateJDot` (line 45) -/
def CoM.updateJDot (tr : Nat → Range) (f : CoM K) (JD : Mat K) (q : List Nat) : Outcome (CoM K) Unit :=
  match f.P.split tr JD q with
  | .ub => .ub
  | .throw P => .throw { f with P := P }
  | .ok P _ => .ok { f with P := P } ()

/-! ## PositionFunction -/

/-- `updateValue` (PositionFunction.cpp, line 35) -/
def positionValue (target : V3 K) (xbf : PT K) (b : Fr.Body K) : V3 K := (Fr.position xbf b).r - target

/-- `updateVelocity` (line 37) -/
def positionVelocity (xbf : PT K) (b : Fr.Body K) : V3 K := (Fr.velocity xbf b).v

/-- `updateJacobian` (line 39), a column before the split -/
def positionJacobian (xbf : PT K) (b : Fr.Body K) (c : Nat) : V3 K := (Fr.jacobian xbf b c).v

/-! ## PostureFunction -/

/-- A joint of the robot in its state: `joint(jI).dof()`, `mbc().q[jI]`, `mbc().alpha[jI]`, `posture_[jI]` and the error of rotation of line 84 -/
structure PJoint (K : Type) where
  dof : Nat
  q : List K
  alpha : List K
  target : List K
  err : V3 K

/-- `value_(k) = a`; out of range is undefined -/
def set (v : Rob.EVec K) (k : Nat) (a : K) : Option (Rob.EVec K) := v.set k a

/-- The loop of `updateValue` (PostureFunction.cpp, lines 69-89) from the joint `j0_` -/
def postureValue : Nat → List (PJoint K) → Rob.EVec K → Option (Rob.EVec K)
  | _, [], v => some v
  | pos, j :: l, v =>
    if j.dof = 1 then
      match j.q[0]?, j.target[0]? with
      | some a, some b => (set v pos (a - b)).bind (postureValue (pos + 1) l)
      | _, _ => none
    else if j.dof = 4 then
      (set v pos j.err.x).bind fun v1 => (set v1 (pos + 1) j.err.y).bind fun v2 => (set v2 (pos + 2) j.err.z).bind (postureValue (pos + 3) l)
    else postureValue pos l v

/-- The inner loop of `updateVelocity` (lines 96-100) -/
def writeAll : Nat → List K → Rob.EVec K → Option (Rob.EVec K)
  | _, [], v => some v
  | pos, a :: l, v => (set v pos a).bind (writeAll (pos + 1) l)

/-- The loop of `updateVelocity` (lines 91-102) -/
def postureVelocity : Nat → List (PJoint K) → Rob.EVec K → Option (Rob.EVec K)
  | _, [], v => some v
  | pos, j :: l, v => (writeAll pos j.alpha v).bind (postureVelocity (pos + j.alpha.length) l)

/-- `reset` (line 33) -/
def postureReset (l : List (PJoint K)) : List (PJoint K) := l.map (fun j => { j with target := j.q })

/-- `posture(p)` (lines 63-67): the assertion on the sizes is `isValidPosture` -/
def postureSet (l : List (PJoint K)) (p : List (List K)) : Option (List (PJoint K)) :=
  if l.map (fun j => j.target.length) = p.map List.length then some (List.zipWith (fun j t => { j with target := t }) l p) else none

/-- `jacobian_` (line 24): the identity -/
def postureJacobian (n : Nat) : Mat K := ⟨n, n, fun i c => if i = c then 1 else 0⟩

end Verif.RF
