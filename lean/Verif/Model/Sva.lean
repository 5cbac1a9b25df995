import Mathlib.Tactic.Ring
import Mathlib.Tactic.LinearCombination
/-!
# Vectors of dimension 3 and the transformations of SpaceVecAlg

The code of `src/robot` computes with the library SpaceVecAlg (`sva`), which is not in the repository. This file states what the model takes
its operations to be (header `SpaceVecAlg/PTransform.h` of the library): a transformation `X_a_b` holds the rotation `E` from the coordinates
of `a` to those of `b` and the origin `r` of `b` in `a`, and `X_a_c = X_b_c * X_a_b`. The code relies on the same convention in
`src/robot/Frame.cpp:46` (`position_ = X_b_f_ * bodyPosW`) and in the comment of `src/robot/Contact.cpp:17`.

Everything is over a commutative ring: exact arithmetic instead of `double`.
-/
set_option autoImplicit false

namespace Verif.Sva

/-- `Eigen::Vector3d` -/
@[ext] structure V3 (K : Type) where
  x : K
  y : K
  z : K
deriving DecidableEq

/-- `Eigen::Matrix3d`, by rows -/
@[ext] structure M3 (K : Type) where
  a : V3 K
  b : V3 K
  c : V3 K
deriving DecidableEq

variable {K : Type} [CommRing K]

instance : Zero (V3 K) := ⟨⟨0, 0, 0⟩⟩
instance : Add (V3 K) := ⟨fun u v => ⟨u.x + v.x, u.y + v.y, u.z + v.z⟩⟩
instance : Sub (V3 K) := ⟨fun u v => ⟨u.x - v.x, u.y - v.y, u.z - v.z⟩⟩
instance : Neg (V3 K) := ⟨fun u => ⟨-u.x, -u.y, -u.z⟩⟩
instance : SMul K (V3 K) := ⟨fun k u => ⟨k * u.x, k * u.y, k * u.z⟩⟩

@[simp] theorem zero_x : (0 : V3 K).x = 0 := rfl
@[simp] theorem zero_y : (0 : V3 K).y = 0 := rfl
@[simp] theorem zero_z : (0 : V3 K).z = 0 := rfl
@[simp] theorem add_x (u v : V3 K) : (u + v).x = u.x + v.x := rfl
@[simp] theorem add_y (u v : V3 K) : (u + v).y = u.y + v.y := rfl
@[simp] theorem add_z (u v : V3 K) : (u + v).z = u.z + v.z := rfl
@[simp] theorem sub_x (u v : V3 K) : (u - v).x = u.x - v.x := rfl
@[simp] theorem sub_y (u v : V3 K) : (u - v).y = u.y - v.y := rfl
@[simp] theorem sub_z (u v : V3 K) : (u - v).z = u.z - v.z := rfl
@[simp] theorem neg_x (u : V3 K) : (-u).x = -u.x := rfl
@[simp] theorem neg_y (u : V3 K) : (-u).y = -u.y := rfl
@[simp] theorem neg_z (u : V3 K) : (-u).z = -u.z := rfl
@[simp] theorem smul_x (k : K) (u : V3 K) : (k • u).x = k * u.x := rfl
@[simp] theorem smul_y (k : K) (u : V3 K) : (k • u).y = k * u.y := rfl
@[simp] theorem smul_z (k : K) (u : V3 K) : (k • u).z = k * u.z := rfl

/-- `u.dot(v)` -/
def V3.dot (u v : V3 K) : K := u.x * v.x + u.y * v.y + u.z * v.z

/-- `u.cross(v)` -/
def V3.cross (u v : V3 K) : V3 K := ⟨u.y * v.z - u.z * v.y, u.z * v.x - u.x * v.z, u.x * v.y - u.y * v.x⟩

/-- `M * v` -/
def M3.mulVec (M : M3 K) (v : V3 K) : V3 K := ⟨M.a.dot v, M.b.dot v, M.c.dot v⟩

/-- `M.transpose()` -/
def M3.tr (M : M3 K) : M3 K := ⟨⟨M.a.x, M.b.x, M.c.x⟩, ⟨M.a.y, M.b.y, M.c.y⟩, ⟨M.a.z, M.b.z, M.c.z⟩⟩

/-- `M * N` -/
def M3.mul (M N : M3 K) : M3 K :=
  ⟨⟨M.a.dot N.tr.a, M.a.dot N.tr.b, M.a.dot N.tr.c⟩, ⟨M.b.dot N.tr.a, M.b.dot N.tr.b, M.b.dot N.tr.c⟩,
   ⟨M.c.dot N.tr.a, M.c.dot N.tr.b, M.c.dot N.tr.c⟩⟩

/-- `Matrix3d::Identity()` -/
def M3.one : M3 K := ⟨⟨1, 0, 0⟩, ⟨0, 1, 0⟩, ⟨0, 0, 1⟩⟩

/-- `sva::PTransformd`: rotation and translation -/
@[ext] structure PT (K : Type) where
  E : M3 K
  r : V3 K
deriving DecidableEq

/-- `sva::PTransformd::operator*(const PTransformd &)` -/
def PT.mul (X Y : PT K) : PT K := ⟨X.E.mul Y.E, Y.r + Y.E.tr.mulVec X.r⟩

/-- `sva::PTransformd::inv()` -/
def PT.inv (X : PT K) : PT K := ⟨X.E.tr, -(X.E.mulVec X.r)⟩

/-- `sva::PTransformd::Identity()` -/
def PT.one : PT K := ⟨M3.one, 0⟩

/-- `sva::MotionVecd`: angular and linear parts -/
@[ext] structure MV (K : Type) where
  w : V3 K
  v : V3 K
deriving DecidableEq

/-- `sva::PTransformd::operator*(const MotionVecd &)` -/
def PT.mulMV (X : PT K) (m : MV K) : MV K := ⟨X.E.mulVec m.w, X.E.mulVec (m.v - X.r.cross m.w)⟩

/-- The matrices that are rotations or reflections -/
def M3.Ortho (M : M3 K) : Prop := M.mul M.tr = M3.one ∧ M.tr.mul M = M3.one

end Verif.Sva
