import Verif.Model.Frame
/-!
# The orientation of a frame

Model of `src/robot/OrientationFunction.cpp` and `include/tvm/robot/OrientationFunction.h`, on the frames of `Verif.Fr`.
`sva::rotationError` is an input (`err`): SpaceVecAlg is not in the repository.

Not modelled: the dependencies between the updates, the split of the jacobian over the variables of the robot (C83).
-/
set_option autoImplicit false

namespace Verif.OF
open Verif.Sva

variable {K : Type} [CommRing K]

/-- `ori_` (OrientationFunction.h, line 45) -/
structure State (K : Type) where
  ori : M3 K

/-- `reset` (OrientationFunction.cpp, line 33) -/
def State.reset (_ : State K) (xbf : PT K) (b : Fr.Body K) : State K := ⟨(Fr.position xbf b).E⟩

/-- The constructor (line 14) -/
def make (xbf : PT K) (b : Fr.Body K) : State K := ⟨(Fr.position xbf b).E⟩

/-- `orientation(ori)` (OrientationFunction.h, line 34) -/
def State.set (_ : State K) (ori : M3 K) : State K := ⟨ori⟩

/-- `updateValue` (OrientationFunction.cpp, line 35) -/
def State.value (s : State K) (err : M3 K → M3 K → V3 K) (xbf : PT K) (b : Fr.Body K) : V3 K := err s.ori (Fr.position xbf b).E

/-- `updateVelocity` (line 37) -/
def velocity (xbf : PT K) (b : Fr.Body K) : V3 K := (Fr.velocity xbf b).w

/-- `updateJacobian` (line 39), a column before the split -/
def jacobian (xbf : PT K) (b : Fr.Body K) (c : Nat) : V3 K := (Fr.jacobian xbf b c).w

/-- `updateNormalAcceleration` (line 41) -/
def normalAcceleration (xbf : PT K) (na : MV K) : V3 K := (Fr.normalAcceleration xbf na).w

end Verif.OF
