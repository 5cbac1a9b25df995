import Verif.Model.Frame
/-!
# Convex hulls attached to frames

Model of `tvm::robot::ConvexHull` (`src/robot/ConvexHull.cpp`) and of `tvm::utils::transform` (`src/utils/sch.cpp`). The object of sch is its transformation: `setTransformation` is
taken to keep the matrix, and a point of the object with the coordinates `p` to be at the product of its three first rows by `p` followed by 1 (sch holds a quaternion).
-/
set_option autoImplicit false

namespace Verif.CH
open Verif.Sva

variable {K : Type} [CommRing K]

/-- `v(i)` -/
def coord (v : V3 K) : Nat → K
  | 0 => v.x
  | 1 => v.y
  | _ => v.z

/-- `M(i, j)` -/
def entry (M : M3 K) (i j : Nat) : K :=
  match i with
  | 0 => coord M.a j
  | 1 => coord M.b j
  | _ => coord M.c j

/-- `tvm::utils::transform` (sch.cpp, lines 11-31): the matrix given to `setTransformation`. `m` is the content of the matrix of line 13. -/
def transform (m : Nat → Nat → K) (t : PT K) : Nat → Nat → K := fun i j =>
  if i < 3 ∧ j < 3 then entry t.E j i else if i < 3 ∧ j = 3 then coord t.r i else m i j

/-- The point of the world of a point of an object (sch) -/
def at_ (m : Nat → Nat → K) (p : V3 K) : V3 K :=
  let row := fun i => m i 0 * p.x + m i 1 * p.y + m i 2 * p.z + m i 3
  ⟨row 0, row 1, row 2⟩

/-- `ConvexHull`: the object (a shared pointer), the frame, `X_f_o_` -/
structure Hull (K : Type) where
  obj : Nat
  frame : Nat
  xfo : PT K

/-- The positions of the frames and the transformations of the objects -/
structure World (K : Type) where
  pos : Nat → PT K
  mat : Nat → Nat → Nat → K

/-- `updatePosition` (ConvexHull.cpp, line 30), also called by the constructor (line 25). `m`: see `transform` -/
def World.update (m : Nat → Nat → K) (w : World K) (h : Hull K) : World K :=
  { w with mat := fun o => if o = h.obj then transform m (h.xfo.mul (w.pos h.frame)) else w.mat o }

/-- A frame is updated. -/
def World.move (w : World K) (f : Nat) (X : PT K) : World K := { w with pos := fun k => if k = f then X else w.pos k }

end Verif.CH
