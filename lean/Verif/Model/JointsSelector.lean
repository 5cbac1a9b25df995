import Verif.Model.Outcome
/-!
# Model of `tvm::robot::JointsSelector` (src/robot/JointsSelector.cpp)

The multibody of RBDyn is the list of its joints, each with its name and its number of degrees of freedom. `jointPosInDof` is the number of degrees of freedom of the
joints before, `jointIndexByName` finds the joint and throws when there is none. Matrices are functions of the row and the column; a block of columns that is not inside
the matrix is undefined behaviour (an assertion of Eigen, or an access out of range).

`std::sort` (line 35) is not stable: the model takes the sorted list as a parameter, and the theorems hold for every list that `std::sort` may give.

Not modelled: the value, velocity and normal acceleration, which are those of the function by direct dependency (lines 98-100), the flag `linearIn`.
-/
set_option autoImplicit false

namespace Verif.JSel
open Verif

/-- A joint of the multibody -/
structure Joint (S : Type) where
  name : S
  dof : Nat

variable {S : Type} [DecidableEq S]

/-- `mb.jointIndexByName(name)`, `none` if it throws -/
def idxOf (mb : List (Joint S)) (s : S) : Option Nat := mb.findIdx? (fun j => j.name == s)

/-- `mb.jointPosInDof(i)` -/
def posOf (mb : List (Joint S)) (i : Nat) : Nat := ((mb.take i).map Joint.dof).sum

/-- `mb.joint(i).dof()` -/
def dofOf (mb : List (Joint S)) (i : Nat) : Nat := ((mb[i]?).map Joint.dof).getD 0

/-- The variables `start` and `size` and the list `activeIndex` (lines 46-48) -/
structure Scan where
  start : Int
  size : Int
  acc : List (Int × Int)

/-- `if(size != 0) activeIndex.push_back({start, size})` (lines 56-59 and 68-71) -/
def Scan.push (t : Scan) : List (Int × Int) := if t.size ≠ 0 then t.acc ++ [(t.start, t.size)] else t.acc

/-- One turn of the loop (lines 51-66), for the joint of index `i` -/
def Scan.step (mb : List (Joint S)) (ff : Int) (t : Scan) (i : Nat) : Scan :=
  let pos : Int := posOf mb i - ff
  if pos ≠ t.start + t.size then ⟨pos, dofOf mb i, t.push⟩ else ⟨t.start, t.size + dofOf mb i, t.acc⟩

/-- The loop (lines 49-67); `none` if a name is not one of a joint -/
def scan (mb : List (Joint S)) (ff : Int) : Scan → List S → Option Scan
  | t, [] => some t
  | t, s :: l =>
    match idxOf mb s with
    | none => none
    | some i => scan mb ff (t.step mb ff i) l

/-- The arguments of the constructor that `ActiveJoints` computes: `ffActive` and `activeIndex` -/
structure Sel where
  ffActive : Bool
  act : List (Int × Int)
deriving DecidableEq

/-- `mb.joint(0).dof() == 6 ? 6 : 0` (line 45) -/
def ffSize (mb : List (Joint S)) : Nat := if dofOf mb 0 = 6 then 6 else 0

/-- `ffActive` (line 39) -/
def isFF (mb : List (Joint S)) (joints : List S) : Bool :=
  match joints.head?, mb.head? with
  | some s, some j => s == j.name && j.dof == 6
  | _, _ => false

/-- `ActiveJoints` after the sort (lines 39-73); `none` is an exception -/
def select (mb : List (Joint S)) (joints : List S) : Option Sel :=
  let ffa := isFF mb joints
  let rest := if ffa then joints.tail else joints
  match scan mb (ffSize mb) ⟨0, 0, []⟩ rest with
  | none => none
  | some t => some ⟨ffa, t.push⟩

/-- What `std::sort` may give (lines 34-37): a permutation sorted by the position of the joints -/
def IsSorted (mb : List (Joint S)) (l l' : List S) : Prop :=
  l'.Perm l ∧ l'.Pairwise (fun a b => ∀ i j, idxOf mb a = some i → idxOf mb b = some j → posOf mb i ≤ posOf mb j)

/-- The joints active for `InactiveJoints` (lines 80-88) -/
def complement (mb : List (Joint S)) (inactive : List S) : List S :=
  (mb.filter (fun j => !inactive.contains j.name)).map Joint.name

/-- The check of the variables of the function (lines 17-30), `ffUsed` and `jUsed` telling whether it depends on the variables of the free-flyer and of the joints, which
have the sizes `nff` and `nj`: `true` if it throws -/
def refused (nff nj : Nat) (ffUsed jUsed : Bool) : Bool := (nff != 0 && !ffUsed) || (nj != 0 && !jUsed)

/-- `ActiveJoints` (lines 13-74), `sorted` being what `std::sort` gives; `none` is an exception -/
def activeJoints (nff nj : Nat) (ffUsed jUsed : Bool) (mb : List (Joint S)) (sorted : List S) : Option Sel :=
  if refused nff nj ffUsed jUsed then none else select mb sorted

variable {K : Type} [Zero K]

/-- A matrix with `cols` columns -/
structure Mat (K : Type) where
  cols : Nat
  at_ : Nat → Nat → K

/-- A selector: `ffActive_`, `activeIndex_`, and the entries for the variable of the free-flyer and that of the joints of `jacobian_` and `JDot_`, which exist only for the
variables of the function -/
structure Selector (K : Type) where
  sel : Sel
  jacFF : Option (Mat K)
  jacJ : Option (Mat K)
  dotFF : Option (Mat K)
  dotJ : Option (Mat K)

/-- The constructor (lines 111-120), `d` and `e` being what the memory holds: `addVariable` sizes the matrices, and only the jacobian is set to zero -/
def make (s : Sel) (nff nj : Nat) (d e : Nat → Nat → K) : Selector K :=
  ⟨s, if s.ffActive then some ⟨nff, fun _ _ => 0⟩ else none, if s.act ≠ [] then some ⟨nj, fun _ _ => 0⟩ else none,
   if s.ffActive then some ⟨nff, d⟩ else none, if s.act ≠ [] then some ⟨nj, e⟩ else none⟩

/-- `J.middleCols(start, size) = src.block(0, start, rows, size)` (lines 134 and 151) -/
def setCols (J : Mat K) (src : Nat → Nat → K) (p : Int × Int) : Option (Mat K) :=
  if 0 ≤ p.1 ∧ 0 ≤ p.2 ∧ p.1 + p.2 ≤ J.cols then
    some ⟨J.cols, fun r c => if p.1 ≤ c ∧ (c : Int) < p.1 + p.2 then src r c else J.at_ r c⟩
  else none

/-- The loop over `activeIndex_` (lines 132-136 and 149-152) -/
def setAll (src : Nat → Nat → K) : List (Int × Int) → Mat K → Option (Mat K)
  | [], J => some J
  | p :: l, J =>
    match setCols J src p with
    | none => none
    | some J' => setAll src l J'

/-- `updateJacobian` (lines 123-138) from the jacobians `F` and `J` of the function; `none` is undefined behaviour -/
def Selector.updateJacobian (o : Selector K) (F J : Nat → Nat → K) : Option (Selector K) :=
  let ff := if o.sel.ffActive then o.jacFF.map (fun m => ⟨m.cols, F⟩) else o.jacFF
  if o.sel.act ≠ [] then
    match o.jacJ with
    | none => none
    | some m =>
      match setAll J o.sel.act m with
      | none => none
      | some m' => some { o with jacFF := ff, jacJ := some m' }
  else some { o with jacFF := ff }

/-- `updateJDot` (lines 140-154) -/
def Selector.updateJDot (o : Selector K) (F J : Nat → Nat → K) : Option (Selector K) :=
  let ff := if o.sel.ffActive then o.dotFF.map (fun m => ⟨m.cols, F⟩) else o.dotFF
  if o.sel.act ≠ [] then
    match o.dotJ with
    | none => none
    | some m =>
      match setAll J o.sel.act m with
      | none => none
      | some m' => some { o with dotFF := ff, dotJ := some m' }
  else some { o with dotFF := ff }

end Verif.JSel
