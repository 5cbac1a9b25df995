import Verif.Model.RobotFunctions
/-!
# The value of a geometric contact

Model of `GeometricContactFunction::updateValue` (`src/robot/GeometricContactFunction.cpp`). The positions of the frames are inputs, and so is
`sva::transformError` (`terr`): SpaceVecAlg is not in the repository. The velocity and the jacobian are in `Verif.RF`.
-/
set_option autoImplicit false

namespace Verif.CV
open Verif Verif.Sva Verif.RF

variable {K : Type} [CommRing K]

/-- `MotionVecd::vector()`: the angular part, then the linear part -/
def vec6 (m : MV K) : Nat → K
  | 0 => m.w.x
  | 1 => m.w.y
  | 2 => m.w.z
  | 3 => m.v.x
  | 4 => m.v.y
  | 5 => m.v.z
  | _ => 0

/-- `first_update_` and `X_f1_f2_init_` (GeometricContactFunction.h, lines 60-61) -/
structure State (K : Type) where
  first : Bool
  init : PT K

/-- The constructor: `X_f1_f2_init_` is not given a value (`x`) -/
def make (x : PT K) : State K := ⟨true, x⟩

/-- `f2.position() * f1.position().inv()` (GeometricContactFunction.cpp, lines 71 and 73) -/
def rel (p1 p2 : PT K) : PT K := p2.mul p1.inv

/-- `updateValue` (lines 63-75) -/
def State.updateValue (s : State K) (terr : PT K → PT K → MV K) (D : Nat → Nat → K) (p1 p2 : PT K) : State K × (Nat → K) :=
  let s' := if s.first then ⟨false, rel p1 p2⟩ else s
  (s', mulVec6 D (vec6 (terr (rel p1 p2) s'.init)))

end Verif.CV
