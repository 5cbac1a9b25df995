import Verif.Model.DependencyGraph
import Verif.Model.SubstitutionUnit
/-!
# Model of `Substitution` and `Substitutions`
(include/tvm/hint/Substitution.h, src/hint/Substitution.cpp, include/tvm/hint/internal/Substitutions.h, src/hint/Substitutions.cpp, the functions `group`
and `extractSubstitutions` of src/hint/SubstitutionUnit.cpp)

Simplifications.
* The variables are numbers with a size, and are atomic as in the model of the units: two variables intersect when they are equal, and each contains
  itself only.
* A constraint is designated by its address; the size, the variables, the convention and the type of each are given by a `World`.
* The matrices of the calculators are not part of this model (see C42 and C43).
* A failing assertion is undefined behaviour.
-/
set_option autoImplicit false

namespace Verif.SBS
open Verif

/-- The variables and the constraints that exist: the size of a variable, what is fixed in a constraint, is it an equality? -/
structure World where
  dim : Nat → Nat
  cstr : Nat → SU.CShape
  eq : Nat → Bool

/-- `hint::Substitution` (include/tvm/hint/Substitution.h, lines 75-79): `constraints_`, `x_`, `rank_` -/
structure Sub where
  cstrs : List Nat
  vars : List Nat
  rank : Nat
deriving Repr, DecidableEq

/-- `Substitution::m` (src/hint/Substitution.cpp, lines 55-58): sum of the sizes of the constraints -/
def rows (w : World) (cs : List Nat) : Nat := (cs.map fun c => (w.cstr c).size).sum

/-- `Substitution::check` (src/hint/Substitution.cpp, lines 75-151); `false` for an exception -/
def check (w : World) (s : Sub) : Bool :=
  s.cstrs.all w.eq && decide s.vars.Nodup && (s.vars.all fun x => s.cstrs.any fun c => decide (x ∈ (w.cstr c).vars)) &&
    (s.cstrs.all fun c => s.vars.any fun x => decide (x ∈ (w.cstr c).vars)) && decide (s.rank ≤ SU.total w.dim s.vars)

/-- The assertions of the constructor of the calculator (src/hint/SubstitutionCalculatorImpl.cpp, lines 147-148) -/
def asserts (w : World) (s : Sub) : Bool := decide (rows w s.cstrs ≤ SU.total w.dim s.vars) && decide (s.rank ≤ rows w s.cstrs)

/-- The constructor of `Substitution` (src/hint/Substitution.cpp, lines 37-61). `none` is `constant::fullRank`. -/
def make (w : World) (cstrs vars : List Nat) (rank : Option Nat) : Outcome Unit Sub :=
  let s : Sub := ⟨cstrs, vars, rank.getD (rows w cstrs)⟩
  if check w s then if asserts w s then .ok () s else .ub else .throw ()

/-- `dependsOn` (src/hint/Substitutions.cpp, lines 12-25) -/
def dependsOn (w : World) (s t : Sub) : Bool := t.vars.any fun x => s.cstrs.any fun c => decide (x ∈ (w.cstr c).vars)

/-- The members of `Substitutions` (Substitutions.h, lines 75-105). The variables `z_` of the units are new at each call of `finalize`: such a variable is
the number of the call, the unit and the index in `z_`. A function is the unit and the index in `x_`, an additional constraint the unit and the
index of its substitution. -/
structure State where
  subs : List Sub := []
  deps : DG.Graph := {}
  units : List (List Sub) := []
  vars : List Nat := []
  funcs : List (Nat × Nat) := []
  addVars : List (Nat × Nat × Nat) := []
  others : List Nat := []
  addCstrs : List (Nat × Nat) := []
  calls : Nat := 0

/-- Outcome of a function that throws nothing: `none` for undefined behaviour -/
def edge (g : DG.Graph) (f t : Nat) : Option DG.Graph :=
  match g.addEdge f t with
  | .ok g' _ => some g'
  | _ => none

/-- The body of the loop of `add` (Substitutions.cpp, lines 33-43) -/
def addStep (w : World) (s : Sub) (i : Nat) (sj : Sub) (j : Nat) (g : DG.Graph) : Option DG.Graph :=
  match if dependsOn w sj s then edge g j i else some g with
  | none => none
  | some g => if dependsOn w s sj then edge g i j else some g

/-- The loop of `add`, from the index `j` -/
def addLoop (w : World) (s : Sub) (i : Nat) : List Sub → Nat → DG.Graph → Option DG.Graph
  | [], _, g => some g
  | sj :: l, j, g =>
    match addStep w s i sj j g with
    | none => none
    | some g => addLoop w s i l (j + 1) g

/-- `Substitutions::add` (Substitutions.cpp, lines 27-44) -/
def State.add (w : World) (S : State) (s : Sub) : Outcome State Unit :=
  let p := S.deps.addNode
  if p.2 = S.subs.length then
    let subs := S.subs ++ [s]
    match addLoop w s p.2 subs 0 p.1 with
    | none => .ub
    | some g => .ok { S with subs := subs, deps := g } ()
  else .ub

/-- A reference to a substitution: an element of the vector `substitutions_`, or another object -/
inductive Ref
  | elem (p : Nat)
  | other (s : Sub)
deriving Repr, DecidableEq

/-- `Substitutions::remove` (Substitutions.cpp, lines 46-54): the addresses are compared. -/
def State.remove (S : State) (r : Ref) : Outcome State Unit :=
  match r with
  | .other _ => .ok S ()
  | .elem p =>
    if p < S.subs.length then
      match S.deps.removeNode p with
      | .ok g _ => .ok { S with subs := S.subs.eraseIdx p, deps := g } ()
      | _ => .ub
    else .ub

/-- `std::set<LinearConstraintPtr>::insert` -/
def insertC (c : Nat) : List Nat → List Nat
  | [] => [c]
  | x :: l => if c < x then c :: x :: l else if c = x then x :: l else x :: insertC c l

/-- `VariableCountingVector::add` of a variable, for atomic variables -/
def addVar (l : List Nat) (x : Nat) : List Nat := if x ∈ l then l else l ++ [x]

/-- The first loop of `group` (SubstitutionUnit.cpp, lines 25-32): the constraints and the variables -/
def gather (ss : List Sub) : List Nat × List Nat :=
  ss.foldl (fun p s => (s.cstrs.foldl (fun a c => insertC c a) p.1, s.vars.foldl addVar p.2)) ([], [])

/-- The rank given by a substitution of a group with the variables `vars` (SubstitutionUnit.cpp, lines 46-65) -/
def rankOf (w : World) (vars : List Nat) (s : Sub) : Nat :=
  min (s.rank + (vars.map fun x => if x ∈ s.vars then 0 else
    min ((s.cstrs.map fun c => if x ∈ (w.cstr c).vars then (w.cstr c).size else 0).sum) (w.dim x)).sum) (rows w s.cstrs)

/-- `group` (SubstitutionUnit.cpp, lines 19-69) -/
def group (w : World) (ss : List Sub) : Outcome Unit Sub :=
  let p := gather ss
  make w p.1 p.2 (some ((ss.map (rankOf w p.2)).sum))

/-- One element of a unit (SubstitutionUnit.cpp, lines 276-285) -/
def element (w : World) (pool : List Sub) (G : List Nat) : Outcome Unit Sub :=
  match G with
  | [] => .ub
  | [i] => match pool[i]? with
    | some s => .ok () s
    | none => .ub
  | _ => if G.all fun i => decide (i < pool.length) then group w (G.filterMap fun i => pool[i]?) else .ub

/-- `extractSubstitutions` (SubstitutionUnit.cpp, lines 270-287) -/
def extract (w : World) (pool : List Sub) (groups : List (List Nat)) : List Nat → Outcome Unit (List Sub)
  | [] => .ok () []
  | i :: order =>
    match element w pool (groups.getD i []) with
    | .ok _ s =>
      match extract w pool groups order with
      | .ok _ l => .ok () (s :: l)
      | .throw _ => .throw ()
      | .ub => .ub
    | .throw _ => .throw ()
    | .ub => .ub

/-- The construction of the units (Substitutions.cpp, lines 84-88); when an exception is thrown, the units built before. -/
def build (w : World) (pool : List Sub) (groups : List (List Nat)) : List (List Nat) → Outcome (List (List Sub)) (List (List Sub))
  | [] => .ok [] []
  | order :: l =>
    match extract w pool groups order with
    | .ok _ u =>
      match build w pool groups l with
      | .ok _ us => .ok [] (u :: us)
      | .throw us => .throw (u :: us)
      | .ub => .ub
    | .throw _ => .throw []
    | .ub => .ub

/-- What the unit is for the model of `SubstitutionUnit` -/
def Sub.shape (w : World) (s : Sub) : SU.SShape := ⟨s.vars, s.cstrs.map w.cstr, s.rank⟩

/-- The layout of a unit -/
def layout (w : World) (u : List Sub) : SU.Layout := SU.scan w.dim (u.map (Sub.shape w))

/-- The body of the loop retrieving the data of the units (Substitutions.cpp, lines 95-125), for the unit `i` -/
def retrieve (w : World) (S : State) (i : Nat) (u : List Sub) : State :=
  { S with
    vars := S.vars ++ (layout w u).x
    funcs := S.funcs ++ (List.range (layout w u).x.length).map fun l => (i, l)
    addVars := S.addVars ++ ((List.range u.length).filter fun k => decide (0 < (layout w u).zdim k)).map fun k => (S.calls, i, k)
    addCstrs := S.addCstrs ++ ((List.range u.length).filter fun k => decide (0 < ((u[k]?).map fun s => rows w s.cstrs - s.rank).getD 0)).map fun k => (i, k)
    others := (layout w u).y.foldl addVar S.others }

/-- The loop on the units, from the unit `i` -/
def retrieveLoop (w : World) : List (List Sub) → Nat → State → State
  | [], _, S => S
  | u :: us, i, S => retrieveLoop w us (i + 1) (retrieve w S i u)

/-- `Substitutions::finalize` (Substitutions.cpp, lines 71-126) -/
def State.finalize (w : World) (S : State) : Outcome State Unit :=
  match S.deps.reduce with
  | .error _ => .ub
  | .ok (scc, g) =>
    match g.groupedOrder with
    | .error .fuel => .ub
    | .error _ => .throw S
    | .ok orders =>
      match build w S.subs scc orders with
      | .ub => .ub
      | .throw us => .throw { S with units := us }
      | .ok _ us =>
        let S := retrieveLoop w us 0 { S with units := us, vars := [], funcs := [], addCstrs := [], others := [] }
        .ok { S with calls := S.calls + 1 } ()

/-- `Substitutions::uses` (Substitutions.cpp, lines 58-69) -/
def State.uses (S : State) (c : Nat) : Bool := S.subs.any fun s => decide (c ∈ s.cstrs)

/-- A variable given to the scheme: one of the problem, or a variable `z` of a unit -/
inductive PVar
  | var (x : Nat)
  | z (i k : Nat)
deriving Repr, DecidableEq

/-- The variables of the function of `x_[l]` in the unit `i` (SubstitutionUnit.cpp, lines 438-452) -/
def fvars (L : SU.Layout) (i l : Nat) : List PVar :=
  (SU.XY L (SU.deps L) l).map (fun j => PVar.var (L.y.getD j 0)) ++ (SU.XZ L (SU.deps L) l).map fun j => PVar.z i j

/-- `Substitutions::substitute` (Substitutions.cpp, lines 153-187), for atomic variables. An access out of the vectors gives no variable; it is
proved not to happen. -/
def State.substitute (w : World) (S : State) (x : Nat) : List PVar :=
  if x ∈ S.vars then
    match S.funcs[S.vars.idxOf x]? with
    | some (i, l) => fvars (layout w (S.units.getD i [])) i l
    | none => []
  else [.var x]

section
variable {K : Type}

/-- `Substitutions::updateVariableValues` (Substitutions.cpp, lines 136-143): `value i l q` evaluates the component `q` of the function `l` of the
unit `i` for the present values of the variables. -/
def writeLoop (value : (Nat → Nat → K) → Nat → Nat → Nat → K) : List (Nat × Nat × Nat) → (Nat → Nat → K) → (Nat → Nat → K)
  | [], val => val
  | (x, i, l) :: r, val =>
    let new := value val i l
    writeLoop value r fun v q => if v = x then new q else val v q

def State.updateVariableValues (S : State) (value : (Nat → Nat → K) → Nat → Nat → Nat → K) (val : Nat → Nat → K) : Nat → Nat → K :=
  writeLoop value (S.vars.zip S.funcs) val

end
end Verif.SBS
