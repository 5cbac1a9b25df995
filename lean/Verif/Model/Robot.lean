import Verif.Model.Outcome
import Mathlib.Algebra.Ring.Defs
import Mathlib.Algebra.Group.Hom.Defs
/-!
# Robots

Model of `tvm::Robot` (src/Robot.cpp) and `tvm::Clock` (src/Clock.cpp): the sizes of the variables, the bounds, the integration and the normal accelerations.

The kinematic tree of RBDyn is a list of joints; `jointPosInParam` and `jointPosInDof` are the sums over the joints before. The integration of RBDyn is the parameter `euler`, motion vectors,
the transformations and the cross product are parameters. A vector of Eigen is a size and its coefficients; a coefficient out of range is undefined.

Not modelled: forward kinematics, inertia matrix, non-linear effects, centre of mass (RBDyn), the dependencies of the updates.
-/
set_option autoImplicit false

namespace Verif.Rob
open Verif

/-- `rbd::Joint`, as far as the sizes go -/
structure Joint where
  name : Nat
  params : Nat
  dof : Nat

/-- `jointPosInParam` for `f = params`, `jointPosInDof` for `f = dof` -/
def pos (f : Joint → Nat) (js : List Joint) (j : Nat) : Nat := ((js.take j).map f).sum

/-- `nrParams`, `nrDof` -/
def total (f : Joint → Nat) (js : List Joint) : Nat := (js.map f).sum

/-- `jointIndexByName` -/
def index (js : List Joint) (n : Nat) : Option Nat := js.findIdx? (fun j => decide (j.name = n))

/-- A vector of Eigen -/
structure EVec (K : Type) where
  size : Nat
  v : Nat → K

variable {K : Type}

/-- `out(k) = a` -/
def EVec.set (out : EVec K) (k : Int) (a : K) : Option (EVec K) :=
  if 0 ≤ k ∧ k < out.size then some ⟨out.size, fun n => if (n : Int) = k then a else out.v n⟩ else none

/-- The inner loop of `map2bound` (Robot.cpp, lines 61-64), from the position `p` -/
def writeVals [Mul K] (mul : K) : Int → List K → EVec K → Option (EVec K)
  | _, [], out => some out
  | p, a :: l, out =>
    match out.set p (mul * a) with
    | none => none
    | some out' => writeVals mul (p + 1) l out'

/-- `map2bound` (lines 50-66). `bound` is in the order of the map. `none`: undefined -/
def map2bound [Mul K] (js : List Joint) (f : Joint → Nat) (mul : K) (off : Nat) : List (Nat × List K) → EVec K → Option (EVec K)
  | [], out => some out
  | q :: l, out =>
    match index js q.1 with
    | none => map2bound js f mul off l out
    | some j =>
      match writeVals mul ((pos f js j : Int) - off) q.2 out with
      | none => none
      | some out' => map2bound js f mul off l out'

/-- `rbd::parsers::Limits` -/
structure Limits (K : Type) where
  lower : List (Nat × List K)
  upper : List (Nat × List K)
  velocity : List (Nat × List K)
  torque : List (Nat × List K)

/-- `mb.nrJoints() > 0 && mb.joint(0).type() == rbd::Joint::Free` (line 26): `free` is the type of the first joint -/
def floating (free : Bool) (js : List Joint) : Bool := !js.isEmpty && free

/-- The size of the value of `q_ff_` and the one of its tangent space (lines 28, 33): `Space(6, 7, 6)` or `Space(0)` -/
def ffSize (free : Bool) (js : List Joint) : Nat := if floating free js then 7 else 0
def ffT (free : Bool) (js : List Joint) : Nat := if floating free js then 6 else 0

/-- `q_joints_->size()` (lines 29, 34) -/
def jointsSize (free : Bool) (js : List Joint) : Nat := total Joint.params js - ffSize free js

/-- The size of the tangent space of `q_joints_` -/
def jointsT (free : Bool) (js : List Joint) : Nat := total Joint.dof js - ffT free js

/-- The size of `tau_` (line 24) -/
def tauSize (js : List Joint) : Nat := total Joint.dof js

/-- The bounds -/
structure Bounds (K : Type) where
  lQ : EVec K
  uQ : EVec K
  lV : EVec K
  uV : EVec K
  lT : EVec K
  uT : EVec K

/-- The bounds set by the constructor (lines 36-73); `big` is `constant::big_number` -/
def bounds [Ring K] (big : K) (free : Bool) (js : List Joint) (lim : Limits K) : Option (Bounds K) :=
  let n := jointsSize free js
  let low : EVec K := ⟨n, fun _ => -big⟩
  let up : EVec K := ⟨n, fun _ => - -big⟩
  let lowT : EVec K := ⟨n + ffT free js, fun k => if k < ffT free js then 0 else -big⟩
  let upT : EVec K := ⟨n + ffT free js, fun k => -(if k < ffT free js then 0 else -big)⟩
  match map2bound js Joint.params 1 (ffSize free js) lim.lower low with
  | none => none
  | some lQ =>
    match map2bound js Joint.params 1 (ffSize free js) lim.upper up with
    | none => none
    | some uQ =>
      match map2bound js Joint.dof (-1) (ffT free js) lim.velocity low with
      | none => none
      | some lV =>
        match map2bound js Joint.dof 1 (ffT free js) lim.velocity up with
        | none => none
        | some uV =>
          match map2bound js Joint.dof (-1) 0 lim.torque lowT with
          | none => none
          | some lT =>
            match map2bound js Joint.dof 1 0 lim.torque upT with
            | none => none
            | some uT => some ⟨lQ, uQ, lV, uV, lT, uT⟩

/-! ## Integration -/

/-- The clock and the members of the robot used by the integration: configuration, velocity and acceleration of `mbc_`, values of the variables `q_`, `dq_`, `ddq_` -/
structure State (Q V : Type) where
  ticks : Nat
  lastTick : Nat
  mq : Q
  malpha : V
  malphaD : V
  q : Q
  dq : V
  ddq : V

variable {Q V : Type}

/-- The constructor (lines 22, 75-84). `paramToVector` is seen as the identity. -/
def start (ticks : Nat) (q : Q) (alpha alphaD zero : V) : State Q V := ⟨ticks, ticks, q, alpha, alphaD, q, zero, zero⟩

/-- `Clock::advance` (Clock.cpp, line 12) -/
def State.advance (s : State Q V) : State Q V := { s with ticks := s.ticks + 1 }

/-- The solver sets the value of `ddq` -/
def State.setDdq (s : State Q V) (a : V) : State Q V := { s with ddq := a }

/-- `updateTimeDependency` (lines 138-153) -/
def State.update (euler : Q → V → V → Q × V) (s : State Q V) : State Q V :=
  if s.lastTick ≠ s.ticks then
    let r := euler s.mq s.malpha s.ddq
    { s with malphaD := s.ddq, mq := r.1, malpha := r.2, dq := r.2, q := r.1, lastTick := s.ticks }
  else s

/-! ## Normal accelerations -/

variable {M : Type} [AddCommGroup M]

/-- One joint in `computeNormalAccB` (lines 170-183). `acc` is `normalAccB_`. -/
def normalStep (pred : Nat → Option Nat) (succ : Nat → Nat) (X : Nat → M →+ M) (cross : M → M → M) (vb vj : Nat → M) (acc : Nat → M) (i : Nat) : Nat → M :=
  fun b => if b = succ i then
      (match pred i with
       | some p => X i (acc p) + cross (vb i) (vj i)
       | none => cross (vb i) (vj i))
    else acc b

/-- `computeNormalAccB` (lines 163-185) -/
def normalAcc (nrDof nrJoints : Nat) (pred : Nat → Option Nat) (succ : Nat → Nat) (X : Nat → M →+ M) (cross : M → M → M) (vb vj : Nat → M) (acc : Nat → M) : Nat → M :=
  if nrDof > 0 then (List.range nrJoints).foldl (normalStep pred succ X cross vb vj) acc else acc

end Verif.Rob
