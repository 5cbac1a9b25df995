import Verif.Model.Frame
import Mathlib.Algebra.Field.Defs
import Mathlib.Analysis.Real.Sqrt
/-!
# Distances between convex hulls

Model of `src/robot/CollisionFunction.cpp`. The query of the library sch (`tvm::utils::distance`) is an input: the signed square of the distance and the two closest points.
What RBDyn computes for a body is an input as in `Verif.Fr`; `rbd::Jacobian::velocity`, `jacobian` and `normalAcceleration` at a point are taken to be those of the point with the given
coordinates in the *body*, in the axes of the world.

Exact arithmetic instead of `double`. The columns of the jacobian of a robot are those of all its degrees of freedom: the code puts the first ones in the jacobian of the free flyer and the
others in the one of the joints (lines 114-123). Not modelled: the dependencies between updates, the construction of the pair of sch.
-/
set_option autoImplicit false

namespace Verif.Coll
open Verif.Sva Verif.Fr

variable {K : Type} [Field K]

/-- `tvm::robot::ConvexHull`, as far as `CollisionFunction` uses it: `frame().robot()`, the number of degrees of freedom of the robot, the body of the frame, `frame().X_b_f()` -/
structure Hull (K : Type) where
  robot : Nat
  dof : Nat
  body : Nat
  xbf : PT K

/-- `CollisionFunction::ObjectData` (CollisionFunction.h): the nearest point and the jacobian, given by the body it was made for (line 66) -/
structure Obj (K : Type) where
  hull : Hull K
  pt : V3 K

/-- `CollisionFunction::CollisionData` -/
structure Col (K : Type) where
  ch0 : Hull K
  ch1 : Hull K
  objs : List (Obj K)
  n : V3 K
  prev : V3 K
  speed : V3 K

/-- `ch_[j]` -/
def Col.ch (c : Col K) (j : Nat) : Hull K := if j = 0 then c.ch0 else c.ch1

/-- The function -/
structure Fn (K : Type) where
  cols : List (Col K)
  value : List K
  lastTick : Nat

/-- The constructor of `CollisionData` (lines 54-70): an object for each hull of a robot that can move. The three vectors start at zero (CollisionFunction.h). -/
def mkCol (h1 h2 : Hull K) : Col K :=
  ⟨h1, h2, ([h1, h2].filter (fun h => decide (0 < h.dof))).map (fun h => ⟨h, 0⟩), 0, 0, 0⟩

/-- `addCollision` (lines 33-50); the recursive call of line 41 takes the other branch. The value gets one more coefficient, the previous ones are not kept. -/
def Fn.add (f : Fn K) (h1 h2 : Hull K) : Fn K :=
  if h2.dof > h1.dof then ⟨f.cols ++ [mkCol h2 h1], List.replicate (f.cols.length + 1) 0, f.lastTick⟩
  else ⟨f.cols ++ [mkCol h1 h2], List.replicate (f.cols.length + 1) 0, f.lastTick⟩

/-- `reset` (lines 182-186) -/
def Fn.reset (f : Fn K) : Fn K := ⟨[], [], f.lastTick⟩

/-- What the query gives: the signed distance (after lines 78-82) and the closest points of the first and of the second hull -/
structure Query (K : Type) where
  dist : K
  p0 : V3 K
  p1 : V3 K

/-- Lines 78-82, on real numbers: `tiny` is the smallest positive normal number -/
noncomputable def signedRoot (tiny d2 : ℝ) : ℝ :=
  let d := if 0 ≤ d2 then √d2 else -√(-d2)
  if d = 0 then tiny else d

/-- `closestPoints_[i]`, an array of two points. `none`: undefined -/
def Query.closest (q : Query K) (i : Nat) : Option (V3 K) := if i = 0 then some q.p0 else if i = 1 then some q.p1 else none

/-- `(sva::PTransformd(p) * X.inv()).translation()` (line 88) -/
def nearest (X : PT K) (p : V3 K) : V3 K := ((⟨M3.one, p⟩ : PT K).mul X.inv).r

/-- The loop of lines 85-90 from the `j`th object, for the collision at the index `i` -/
def updateObjs (st : Nat → Body K) (c : Col K) (q : Query K) (i : Nat) : Nat → List (Obj K) → Option (List (Obj K))
  | _, [] => some []
  | j, o :: l =>
    match q.closest i with
    | none => none
    | some p =>
      match updateObjs st c q i (j + 1) l with
      | none => none
      | some l' => some (⟨o.hull, nearest (position (c.ch j).xbf (st (c.ch j).body)) p⟩ :: l')

/-- The loop of `updateValue` (lines 72-94) from the index `i`. The queries are those of the collisions -/
def updateCols (st : Nat → Body K) : Nat → List (Col K) → List (Query K) → Option (List (Col K))
  | _, [], _ => some []
  | _, _ :: _, [] => some []
  | i, c :: l, q :: qs =>
    match updateObjs st c q i 0 c.objs with
    | none => none
    | some os =>
      match updateCols st (i + 1) l qs with
      | none => none
      | some l' => some (⟨c.ch0, c.ch1, os, q.dist⁻¹ • (q.p0 - q.p1), c.prev, c.speed⟩ :: l')

/-- `updateValue` -/
def Fn.updateValue (f : Fn K) (st : Nat → Body K) (qs : List (Query K)) : Option (Fn K) :=
  match updateCols st 0 f.cols qs with
  | none => none
  | some cols => some ⟨cols, qs.map Query.dist, f.lastTick⟩

/-- Linear part of `jac_.velocity(mb, mbc)` and of a column of `jac_.jacobian(mb, mbc)`, with the motion `m` of the body and the point `p` in the coordinates of the body -/
def ptMotion (b : Body K) (m : MV K) (p : V3 K) : V3 K := m.v + m.w.cross (b.pos.E.tr.mulVec p)

/-- The loops with `sign`: the terms are added and subtracted in turn -/
def alt (f : Nat → Obj K → K) (s : K) : Nat → List (Obj K) → K
  | _, [] => 0
  | j, o :: l => s * f j o + alt f (-s) (j + 1) l

/-- A row of the jacobian with respect to the robot `r` (lines 103-127): the column `k` -/
def Col.jacobian (c : Col K) (st : Nat → Body K) (r k : Nat) : K :=
  alt (fun j o => if (c.ch j).robot = r then c.n.dot (ptMotion (st o.hull.body) ((st o.hull.body).jac k) o.pt) else 0) 1 0 c.objs

/-- `updateVelocity` (lines 130-147), for a collision -/
def Col.velocity (c : Col K) (st : Nat → Body K) : K :=
  alt (fun _ o => (ptMotion (st o.hull.body) (st o.hull.body).vel o.pt).dot c.n) 1 0 c.objs

/-- `updateTimeDependency` (lines 149-160) -/
def Fn.updateTime (f : Fn K) (dt : K) (tick : Nat) : Fn K :=
  if tick = f.lastTick then f
  else ⟨f.cols.map (fun c => ⟨c.ch0, c.ch1, c.objs, c.n, c.n, dt⁻¹ • (c.n - c.prev)⟩), f.value, tick⟩

/-- `updateNormalAcceleration` (lines 162-180), for a collision; `acc b p` is the normal acceleration of the point `p` of the body `b` -/
def Col.normalAcceleration (c : Col K) (st : Nat → Body K) (acc : Nat → V3 K → V3 K) : K :=
  alt (fun _ o => (acc o.hull.body o.pt).dot c.n + (ptMotion (st o.hull.body) (st o.hull.body).vel o.pt).dot c.speed) 1 0 c.objs

end Verif.Coll
