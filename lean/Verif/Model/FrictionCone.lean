import Verif.Model.Sva
import Mathlib.Analysis.SpecialFunctions.Trigonometric.Arctan
/-!
# The linearized friction cone

Model of `src/robot/FrictionCone.cpp`, over the real numbers (`std::atan`, `sin` and `cos` exact).
-/
set_option autoImplicit false

namespace Verif.Fric
open Verif.Sva

/-- `Eigen::AngleAxisd(angle, axis).toRotationMatrix() * v`: the matrix that Eigen builds (`Eigen/src/Geometry/AngleAxis.h`), which does not normalise the axis:
`cos I + sin hat(axis) + (1 - cos) axis axis^T` -/
noncomputable def rotate (angle : ℝ) (axis v : V3 ℝ) : V3 ℝ :=
  Real.cos angle • v + Real.sin angle • axis.cross v + ((1 - Real.cos angle) * axis.dot v) • axis

/-- `normal` (line 19): the third row of the frame -/
def normal (frame : M3 ℝ) : V3 ℝ := frame.c

/-- `gen` (lines 20-23) -/
noncomputable def gen (frame : M3 ℝ) (mu dir : ℝ) : V3 ℝ := rotate (Real.arctan mu) (dir • frame.a) (normal frame)

/-- `step` (line 24) -/
noncomputable def step (nrGen : Nat) : ℝ := Real.pi * 2 / nrGen

/-- `generators` (lines 26-29) -/
noncomputable def generators (frame : M3 ℝ) (nrGen : Nat) (mu dir : ℝ) : List (V3 ℝ) :=
  (List.range nrGen).map (fun i : Nat => rotate (dir * step nrGen * i) (normal frame) (gen frame mu dir))

end Verif.Fric
