import Verif.Model.Sva
/-!
# The frames of a robot

Model of `src/robot/Frame.cpp`. What RBDyn computes for the body of the frame is an input: its position and its velocity in the world, and its jacobian, by columns, and
its normal acceleration.
-/
set_option autoImplicit false

namespace Verif.Fr
open Verif.Sva

variable {K : Type} [CommRing K]

/-- `hat` (lines 9-14) -/
def hat (v : V3 K) : M3 K := ⟨⟨0, -v.z, v.y⟩, ⟨v.z, 0, -v.x⟩, ⟨-v.y, v.x, 0⟩⟩

/-- What is known of the body: `mbc().bodyPosW[bodyId_]`, `mbc().bodyVelW[bodyId_]` and `jac_.jacobian(mb, mbc)`, completed by `fullJacobian`. The columns of the jacobian
are motion vectors; the completion by null columns commutes with the linear computation of `updateJacobian`, the model does it first. -/
structure Body (K : Type) where
  pos : PT K
  vel : MV K
  jac : Nat → MV K

/-- `updatePosition` (lines 51-56) -/
def position (xbf : PT K) (b : Body K) : PT K := xbf.mul b.pos

/-- `- M` -/
def negM (M : M3 K) : M3 K := ⟨-M.a, -M.b, -M.c⟩

/-- `updateJacobian` (lines 58-66), one column: the last three rows of the jacobian are multiplied by `h` and added to themselves (line 64) -/
def jacobian (xbf : PT K) (b : Body K) (c : Nat) : MV K :=
  let h := negM (hat (b.pos.E.tr.mulVec xbf.r))
  ⟨(b.jac c).w, (b.jac c).v + h.mulVec (b.jac c).v⟩

/-- `updateVelocity` (line 68) -/
def velocity (xbf : PT K) (b : Body K) : MV K := xbf.mulMV b.vel

/-- `updateNormalAcceleration` (lines 70-71). `na` is `jac_.normalAcceleration(mb, mbc, normalAccB)`: the acceleration of the body when the joints have none, in the
coordinates of the world. -/
def normalAcceleration (xbf : PT K) (na : MV K) : MV K := xbf.mulMV na

end Verif.Fr
