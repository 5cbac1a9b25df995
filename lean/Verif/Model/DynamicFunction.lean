import Verif.Model.Contact
import Verif.Model.Sva
import Mathlib.Algebra.BigOperators.Ring.Finset
/-!
# The equation of motion and its contacts

Model of `src/robot/DynamicFunction.cpp`. The force variables are numbered. The friction cone (`FrictionCone`, see `Model/FrictionCone.lean`) is a parameter. What RBDyn computes is an input:
the matrix `H`, the vector `C`, and the columns of the jacobian of the body of the frame in the coordinates of the body (`bodyJacobian`, completed by `fullJacobian`: the completion commutes
with the translation, the model does it first).
-/
set_option autoImplicit false

namespace Verif.Dyn
open Verif Verif.Sva Verif.Contact Finset

variable {K : Type} [CommRing K]

/-- `sva::ForceVecd`: couple and force -/
@[ext] structure FV (K : Type) where
  n : V3 K
  f : V3 K

instance : Add (FV K) := ⟨fun a b => ⟨a.n + b.n, a.f + b.f⟩⟩
instance : Zero (FV K) := ⟨⟨0, 0⟩⟩

/-- `sva::PTransformd::transMul(const ForceVecd &)` -/
def transMul (X : PT K) (a : FV K) : FV K := ⟨X.E.tr.mulVec a.n + X.r.cross (X.E.tr.mulVec a.f), X.E.tr.mulVec a.f⟩

/-- `rbd::Jacobian::translateBodyJacobian(jac, mbc, r)`, one column: the transformation of translation `r` applied to the column -/
def translateCol (r : V3 K) (m : MV K) : MV K := ⟨m.w, m.v - r.cross m.w⟩

/-- `- F`, the frame opposite -/
def scale (k : K) (M : M3 K) : M3 K := ⟨k • M.a, k • M.b, k • M.c⟩

/-- The parameter for `FrictionCone{frame, nrGen, mu, dir}.generators` -/
abbrev Cone (K : Type) := M3 K → Nat → K → K → List (V3 K)

/-- `ForceContact` (DynamicFunction.h, lines 100-126), with the values that the functions `force_` and `updateJacobians_` capture -/
structure FC (S K : Type) where
  id : CId S
  lin : Bool
  forces : List Nat
  pts : List (PT K)
  dir : K
  gens : List (V3 K)
  nrGen : Nat

/-- The function: `contacts_`, the force variables among its variables in the order of their addition, and the next variable -/
structure DF (S K : Type) where
  contacts : List (FC S K)
  vars : List Nat
  next : Nat

/-- `generators` (lines 113-128): the opposite of the generators of the cone of each point -/
def genCols (cone : Cone K) (pts : List (PT K)) (mu : K) (nrGen : Nat) (dir : K) : List (V3 K) :=
  pts.flatMap (fun p => (cone (scale dir p.E) nrGen mu dir).map (fun g => -g))

/-- The contact that `addContact_` makes (lines 73-154), with the variables `fs` -/
def mkFC {S : Type} (cone : Cone K) (id : CId S) (fs : List Nat) (pts : List (PT K)) (lin : Bool) (mu : K) (nrGen : Nat) (dir : K) : FC S K :=
  ⟨id, lin, fs, pts, dir, if lin then genCols cone pts mu nrGen dir else [], nrGen⟩

/-- New variables, one for each point (lines 82-86 and 119-120) -/
def fresh (next n : Nat) : List Nat := (List.range n).map (fun i => next + i)

/-- `addContact_` (lines 67-161) -/
def DF.addView {S : Type} (cone : Cone K) (D : DF S K) (id : CId S) (pts : List (PT K)) (lin : Bool) (mu : K) (nrGen : Nat) (dir : K) : DF S K :=
  ⟨D.contacts ++ [mkFC cone id (fresh D.next pts.length) pts lin mu nrGen dir], D.vars ++ fresh D.next pts.length, D.next + pts.length⟩

/-- `getContact` (lines 211-219) -/
def DF.get {S : Type} [LinearOrder S] (D : DF S K) (id : CId S) : Option (FC S K) := D.contacts.find? (fun c => c.id.eq id)

/-- A contact: its identifier (which has the names of the two robots) and the points of its two views -/
structure Ct (S K : Type) where
  id : CId S
  pts1 : List (PT K)
  pts2 : List (PT K)

/-- `addContact` (lines 40-66), for the robot of name `robot` -/
def DF.addContact {S : Type} [LinearOrder S] (cone : Cone K) (robot : S) (D : DF S K) (c : Ct S K) (lin : Bool) (mu : K) (nrGen : Nat) : DF S K × Bool :=
  if (D.get c.id).isSome then (D, false)
  else
    let D1 := if c.id.r1 = robot then D.addView cone c.id c.pts1 lin mu nrGen 1 else D
    let D2 := if c.id.r2 = robot then D1.addView cone c.id c.pts2 lin mu nrGen (-1) else D1
    (D2, decide (c.id.r1 = robot) || decide (c.id.r2 = robot))

/-- `removeContact` (lines 163-170): the first contact with the identifier is erased; the variables of the function are left -/
def DF.removeContact {S : Type} [LinearOrder S] (D : DF S K) (id : CId S) : DF S K := { D with contacts := D.contacts.eraseP (fun c => c.id.eq id) }

/-- The values of the variables -/
abbrev Vals (K : Type) := Nat → Nat → K

/-- A value of size 3 -/
def vec (v : Nat → K) : V3 K := ⟨v 0, v 1, v 2⟩

/-- `generators.middleCols(nrGen * i, nrGen) * lambda` -/
def lincomb (gens : List (V3 K)) (nrGen i : Nat) (lam : Nat → K) : V3 K :=
  ⟨∑ j ∈ range nrGen, (gens.getD (nrGen * i + j) 0).x * lam j, ∑ j ∈ range nrGen, (gens.getD (nrGen * i + j) 0).y * lam j,
   ∑ j ∈ range nrGen, (gens.getD (nrGen * i + j) 0).z * lam j⟩

/-- `force_` of the forces (lines 99-109) -/
def FC.forceFree {S : Type} (c : FC S K) (σ : Vals K) : FV K :=
  (List.range c.forces.length).foldl (fun a i => a + transMul (c.pts.getD i PT.one) ⟨0, vec (σ (c.forces.getD i 0))⟩) 0

/-- The body of the loop of `force_` of the lambdas (lines 144-151): reads `forces_[nrGen * i]`; `none` if it is out of range (undefined behaviour) -/
def FC.linStep {S : Type} (c : FC S K) (σ : Vals K) (a : FV K) (i : Nat) : Option (FV K) :=
  match c.forces[c.nrGen * i]? with
  | none => none
  | some v => some (a + transMul (c.pts.getD i PT.one) ⟨0, -(lincomb c.gens c.nrGen i (σ v))⟩)

/-- `force_` of the lambdas (lines 142-154) -/
def FC.forceLin {S : Type} (c : FC S K) (σ : Vals K) : Option (FV K) := (List.range c.pts.length).foldlM (c.linStep σ) 0

/-- `contactForce` (lines 172-184) -/
def DF.contactForce {S : Type} [LinearOrder S] (D : DF S K) (id : CId S) (σ : Vals K) : Option (FV K) :=
  match D.get id with
  | none => some 0
  | some c => if c.lin then c.forceLin σ else some (c.forceFree σ)

/-- The matrix of a force variable: entry at the degree of freedom `d` and the component `j` -/
abbrev Jacs (K : Type) := Nat → Nat → Nat → K

/-- Component of a vector -/
def comp (v : V3 K) : Nat → K
  | 0 => v.x
  | 1 => v.y
  | _ => v.z

/-- The matrix written for the `i`-th variable of a contact (lines 88-98 and 129-141): `dir * J^T` for a force, `(generator^T * J)^T` for lambdas, `J` being the rows of the linear
velocity of the jacobian of the body translated to the point -/
def FC.matrix {S : Type} (c : FC S K) (body : Nat → MV K) (i : Nat) (d j : Nat) : K :=
  let J := (translateCol (c.pts.getD i PT.one).r (body d)).v
  if c.lin then (c.gens.getD (c.nrGen * i + j) 0).dot J else c.dir * comp J j

/-- `updateJacobians_` of a contact: the matrices of its variables are written, in order -/
def FC.update {S : Type} (c : FC S K) (body : Nat → MV K) (J : Jacs K) : Jacs K :=
  (List.range c.forces.length).foldl (fun J i => Function.update J (c.forces.getD i 0) (c.matrix body i)) J

/-- `updateJacobian` (lines 202-209), the part of the force variables. `body c` is the jacobian of the body of the frame of the contact `c`. -/
def DF.update {S : Type} (D : DF S K) (body : FC S K → Nat → MV K) (J : Jacs K) : Jacs K := D.contacts.foldl (fun J c => c.update (body c) J) J

/-- The part of the force variables in the value of the function, at the degree of freedom `d`: the sum of the matrices times the values over the force variables of the function.
`size` is the size of the variables (3 or the number of generators). -/
def DF.forceTerm {S : Type} (D : DF S K) (size : Nat → Nat) (J : Jacs K) (σ : Vals K) (d : Nat) : K :=
  (D.vars.map (fun v => ∑ j ∈ range (size v), J v d j * σ v j)).sum

/-- `addPositiveLambdaToProblem` (lines 186-198): the variables that get a constraint `f >= 0` -/
def DF.positive {S : Type} (D : DF S K) : List Nat := (D.contacts.filter (fun c => c.lin)).flatMap (fun c => c.forces)

end Verif.Dyn
