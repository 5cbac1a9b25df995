import Verif.Model.Outcome
import Verif.Model.VariableVector
/-!
# Functions and constraints as providers of a value and jacobians

Model of `tvm::internal::FirstOrderProvider` (include/tvm/internal/FirstOrderProvider.h, src/internal/FirstOrderProvider.cpp) and `MapWithVariableAsKey`
(include/tvm/utils/internal/MapWithVariableAsKey.h). Variables are numbered by their id, which orders the keys of the maps (`IdLess`, include/tvm/utils/internal/map.h, lines 13-21).
`geo` gives the super variable and the range of a variable, `tr` its range in the tangent space (`tSubvariableRange`). The `VariableVector` of the class is the list of its variables
(C22 to C24 are about the rest). What memory holds after a `resize` of Eigen is a parameter.

Not modelled: the properties of the matrices, disabled outputs.
-/
set_option autoImplicit false

namespace Verif.Prov
open Verif Verif.VV

/-- `tvm::utils::internal::map`: entries in increasing order of the ids -/
abbrev VMap (T : Type) := List (Nat × T)

variable {T : Type}

/-- `find` -/
def find : VMap T → Nat → Option T
  | [], _ => none
  | e :: l, k => if e.1 = k then some e.2 else find l k

/-- `map[k] = t` -/
def put : VMap T → Nat → T → VMap T
  | [], k, t => [(k, t)]
  | e :: l, k, t => if k < e.1 then (k, t) :: e :: l else if k = e.1 then (k, t) :: l else e :: put l k t

/-- `erase(k)` -/
def erase : VMap T → Nat → VMap T
  | [], _ => []
  | e :: l, k => if e.1 = k then l else e :: erase l k

/-- `MapWithVariableAsKey::at(key, with_sub)` (lines 82-115). `slice t r` is `Slicer::get`, `none` when it is undefined. -/
def atSub (geo : Nat → Geo) (rg : Nat → Range) (slice : T → Range → Option T) (m : VMap T) (key : Nat) : Outcome Unit T :=
  match find m key with
  | some t => .ok () t
  | none =>
    match m.find? (fun e => (geo e.1).contains (geo key)) with
    | none => .throw ()
    | some e =>
      if (geo e.1).eqv (geo key) then .ok () e.2
      else
        match slice e.2 ((rg e.1).relativeRange (rg key)) with
        | none => .ub
        | some t => .ok () t

/-- A matrix with its sizes -/
structure Mat (K : Type) where
  rows : Nat
  cols : Nat
  at_ : Nat → Nat → K

variable {K : Type}

/-- `M.middleCols(start, dim)`, undefined if it is not inside (assertion of Eigen) -/
def Mat.middle (M : Mat K) (r : Range) : Option (Mat K) :=
  if 0 ≤ r.start ∧ 0 ≤ r.dim ∧ r.stop ≤ M.cols then some ⟨M.rows, r.dim.toNat, fun i j => M.at_ i (r.start.toNat + j)⟩ else none

/-- The members of the class: the size of the image, `variables_`, `jacobian_`, `linear_` -/
structure Provider (K : Type) where
  m : Nat
  vars : List Nat
  jac : VMap (Mat K)
  lin : VMap Bool

/-- The constructor (FirstOrderProvider.cpp, lines 12-17) -/
def make (m : Nat) : Provider K := ⟨m, [], [], []⟩

variable (geo : Nat → Geo) (tr : Nat → Range)

/-- `addVariable` (lines 39-48), with `VariableVector::add` (src/VariableVector.cpp, lines 24-44) -/
def Provider.add (P : Provider K) (v : Nat) (linear : Bool) (mem : Nat → Nat → K) : Outcome (Provider K) Unit :=
  if P.vars.any (fun x => (geo x).contains (geo v)) then .ok P ()
  else if P.vars.any (fun x => (geo x).intersects (geo v)) then .throw P
  else .ok ⟨P.m, P.vars ++ [v], put P.jac v ⟨P.m, (tr v).dim.toNat, mem⟩, put P.lin v linear⟩ ()

/-- `addVariable(VariableVector)` (lines 50-56) -/
def Provider.addAll (P : Provider K) (linear : Bool) (mem : Nat → Nat → K) : List Nat → Outcome (Provider K) Unit
  | [] => .ok P ()
  | v :: l =>
    match P.add geo tr v linear mem with
    | .ok P' _ => P'.addAll linear mem l
    | .throw P' => .throw P'
    | .ub => .ub

/-- `removeVariable` (lines 58-64), with `VariableVector::remove` (src/VariableVector.cpp, lines 86-99) -/
def Provider.remove (P : Provider K) (v : Nat) : Provider K :=
  ⟨P.m, P.vars.eraseP (fun x => (geo x).eqv (geo v)), erase P.jac v, erase P.lin v⟩

/-- `resize` (lines 91-96) -/
def Provider.resize (P : Provider K) (m : Nat) (mem : Nat → Nat → Nat → K) : Provider K :=
  { P with m := m, jac := P.vars.foldl (fun j v => put j v ⟨m, (tr v).dim.toNat, mem v⟩) P.jac }

/-- A derived class writes its jacobian with respect to one of its variables: `jacobian_[v] = M` -/
def Provider.write (P : Provider K) (v : Nat) (M : Mat K) : Provider K := { P with jac := put P.jac v M }

/-- The loop of `splitJacobian` (lines 76-89), from the column `s` -/
def splitLoop (J : Mat K) : Nat → List Nat → VMap (Mat K) → Option (VMap (Mat K))
  | _, [], j => some j
  | s, v :: l, j =>
    match J.middle ⟨s, (tr v).dim⟩ with
    | none => none
    | some M => splitLoop J (s + (tr v).dim.toNat) l (put j v M)

/-- `splitJacobian` -/
def Provider.split (P : Provider K) (J : Mat K) (l : List Nat) : Outcome (Provider K) Unit :=
  match splitLoop tr J 0 l P.jac with
  | none => .ub
  | some j => .ok { P with jac := j } ()

/-- `jacobian(x)` (FirstOrderProvider.h, lines 191-192, with `slice_matrix`, lines 87-103) -/
def Provider.jacobian (P : Provider K) (x : Nat) : Outcome Unit (Mat K) := atSub geo tr Mat.middle P.jac x

/-- `linearIn(x)` (lines 194-195, with `slice_linear`, lines 79-85) -/
def Provider.linearIn (P : Provider K) (x : Nat) : Outcome Unit Bool := atSub geo (fun v => (geo v).range) (fun b _ => some b) P.lin x

end Verif.Prov
