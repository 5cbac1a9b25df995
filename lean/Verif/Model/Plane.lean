import Verif.Model.Sva
import Mathlib.Algebra.BigOperators.Ring.Finset
/-!
# Planes and the distances of the centre of mass to planes

Model of `src/geometry/Plane.cpp`, `include/tvm/geometry/Plane.h` and `src/robot/CoMInConvexFunction.cpp`. What RBDyn computes (the centre of mass, its velocity, its jacobian by
columns and its normal acceleration) is an input. The planes of the function are taken by their present values: the graph (C14, C15) makes them current before the updates.
-/
set_option autoImplicit false

namespace Verif.Pln
open Verif.Sva

variable {K : Type} [CommRing K]

/-- `geometry::Plane` (Plane.h, lines 124-131) -/
@[ext] structure Plane (K : Type) where
  normal : V3 K
  offset : K
  point : V3 K
  normalDot : V3 K
  speed : V3 K
  normalDotDot : V3 K
  accel : V3 K

/-- `Plane(normal, offset)` (Plane.cpp, line 11): the other members are null -/
def ofOffset (n : V3 K) (o : K) : Plane K := ⟨n, o, 0, 0, 0, 0, 0⟩

/-- `Plane(normal, point)` (Plane.cpp, line 13) -/
def ofPoint (n p : V3 K) : Plane K := ⟨n, -(n.dot p), p, 0, 0, 0, 0⟩

/-- `position(normal, offset)` (lines 15-19) -/
def Plane.posOffset (q : Plane K) (n : V3 K) (o : K) : Plane K := { q with normal := n, offset := o }

/-- `position(normal, point)` (lines 21-26) -/
def Plane.posPoint (q : Plane K) (n p : V3 K) : Plane K := { q with normal := n, point := p, offset := -(n.dot p) }

/-- `velocity(nDot, speed)` (lines 28-32) -/
def Plane.vel (q : Plane K) (n s : V3 K) : Plane K := { q with normalDot := n, speed := s }

/-- `acceleration(nDotDot, accel)` (lines 34-38) -/
def Plane.acc (q : Plane K) (n a : V3 K) : Plane K := { q with normalDotDot := n, accel := a }

/-- What RBDyn computes of the centre of mass: `robot_->com()`, `jac_.velocity`, `jac_.jacobian` by columns, `jac_.normalAcceleration` -/
structure Com (K : Type) where
  com : V3 K
  speed : V3 K
  jac : Nat → V3 K
  nacc : V3 K

/-- The calls of the user: `addPlane` (lines 30-37) and `reset` (lines 39-43), with the planes by name -/
inductive Op (P : Type) where
  | add (p : P)
  | reset

/-- `planes_` after a call -/
def Op.run {P : Type} (l : List P) : Op P → List P
  | .add p => l ++ [p]
  | .reset => []

/-- `planes_` after calls -/
def planes {P : Type} (ops : List (Op P)) : List P := ops.foldl Op.run []

/-- `updateValue` (lines 45-52) -/
def value (c : Com K) (l : List (Plane K)) : List K := l.map (fun p => c.com.dot p.normal + p.offset)

/-- `updateVelocity` (lines 54-62) -/
def velocity (c : Com K) (l : List (Plane K)) : List K := l.map (fun p => p.normal.dot (c.speed - p.speed) + p.normalDot.dot (c.com - p.point))

/-- `updateJacobian` (lines 64-84): the rows of the blocks of the free-flyer and of the joints; a block whose size is 0 is not written -/
def jacFF (c : Com K) (l : List (Plane K)) : List (Nat → K) := l.map (fun p k => p.normal.dot (c.jac k))
def jacJ (c : Com K) (nff : Nat) (l : List (Plane K)) : List (Nat → K) := l.map (fun p k => p.normal.dot (c.jac (nff + k)))

/-- `updateNormalAcceleration` (lines 86-96); `comSpeed_` is the speed of `updateVelocity`, which the graph calls before (line 27) -/
def normalAcceleration (c : Com K) (l : List (Plane K)) : List K :=
  l.map (fun p => p.normal.dot (c.nacc - p.accel) + 2 * p.normalDot.dot (c.speed - p.speed) + p.normalDotDot.dot (c.com - p.point))

end Verif.Pln
