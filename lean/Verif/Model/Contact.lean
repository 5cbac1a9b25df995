import Verif.Model.Sva
/-!
# Model of `tvm::robot::Contact` (include/tvm/robot/Contact.h, src/robot/Contact.cpp)

The strings of the ids are elements of a linear order. The outputs of the node, which are those of the two frames, are not modelled.
-/
set_option autoImplicit false

namespace Verif.Contact
open Verif.Sva

/-- `Contact::Id` (Contact.h, lines 31-56) -/
structure CId (S : Type) where
  r1 : S
  f1 : S
  r2 : S
  f2 : S
  amb : Int
deriving DecidableEq

section
variable {S : Type} [DecidableEq S] [LT S] [DecidableLT S]

/-- `Id::operator<` (Contact.h, lines 44-53) -/
def CId.lt (a b : CId S) : Bool :=
  decide (a.r1 < b.r1) ||
  (a.r1 == b.r1 && decide (a.f1 < b.f1)) ||
  (a.r1 == b.r1 && a.f1 == b.f1 && decide (a.r2 < b.r2)) ||
  (a.r1 == b.r1 && a.f1 == b.f1 && a.r2 == b.r2 && decide (a.f2 < b.f2)) ||
  (a.r1 == b.r1 && a.f1 == b.f1 && a.r2 == b.f2 && a.f2 == b.f2 && decide (a.amb < b.amb))

/-- `Id::operator==` (Contact.h, lines 54-55) -/
def CId.eq (a b : CId S) : Bool := a.r1 == b.r1 && a.f1 == b.f1 && a.r2 == b.r2 && a.f2 == b.f2 && a.amb == b.amb

end

variable {K : Type} [CommRing K]

/-- What the constructor of `Contact` computes (Contact.cpp, lines 13-23): `X_f1_f2_`, `X_f2_f1_`, `f1Points_`, `f2Points_` -/
structure Pts (K : Type) where
  x12 : PT K
  x21 : PT K
  f1Points : List (PT K)
  f2Points : List (PT K)

/-- `Contact::Contact` (Contact.cpp, lines 13-23) from the positions of the two frames in the world and the points in the first one -/
def make (p1 p2 : PT K) (points : List (PT K)) : Pts K :=
  let x12 := p2.mul p1.inv
  let x21 := x12.inv
  ⟨x12, x21, points, points.map (fun p => x21.mul p)⟩

end Verif.Contact
