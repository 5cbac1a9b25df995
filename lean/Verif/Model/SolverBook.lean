/-!
# Book-keeping of the assignments in `LeastSquareSolver`

include/tvm/solver/abstract/LeastSquareSolver.h and src/solver/LeastSquareSolver.cpp. `assignments_` owns the assignments; four maps go from a
constraint (raw pointer) to raw pointers to its assignments. The class `AutoMap` (LeastSquareSolver.cpp, 11-37) registers
the assignments made by an addition in its destructor, hence also when the addition throws. The sizes and targets are modelled in
`Verif.Model.LeastSquareSolver` for calls that return; here additions may throw, and the lifetime of constraints is followed.

Simplified: a constraint is a number (its identity; an address is not reused), the size of a constraint in a role is
a parameter; which maps `process` goes through (`impact`, which depends on the solver) is a parameter of the call; ranges,
matrices, weights and mappings are left out. The maps are ordered by the identifiers of the constraints, which a search reads through the
keys (`IdLess`, include/tvm/utils/internal/map.h): a search is undefined here when any key of the map is destroyed, which is what
happens with one key, while with several keys a search reads some of them only.
-/
set_option autoImplicit false

namespace Verif.SB

/-- The four maps (LeastSquareSolver.h). -/
inductive Role where
  | eq | ineq | bnd | obj
deriving DecidableEq, Repr

/-- `MarkedAssignment` in `assignments_`. `c` is `source_` of the assignment, a shared pointer (Assignment.h, 258); `role` tells
by which function it was made, which is not stored in the code. -/
structure Asg where
  id : Nat
  role : Role
  c : Nat
deriving DecidableEq, Repr

/-- Members of `LeastSquareSolver`. A map is given by its keys and by the value of each key (`[]` when absent). `ptrs c` tells whether
something else than the solver has a shared pointer to constraint `c`. -/
structure St where
  asgs : List Asg := []
  keys : Role → List Nat := fun _ => []
  val : Role → Nat → List Nat := fun _ _ => []
  n : Role → Int := fun _ => 0
  size : Role → Int := fun _ => -1
  building : Bool := false
  next : Nat := 0
  ptrs : Nat → Bool := fun _ => false

/-- How a function `addBound_`, `addEqualityConstraint_`, `addIneqalityConstraint_` or `addObjective_` goes: it throws before the map is touched
(`addObjective`, 119-123; `getMappingIn` in `addBound`, 90), it throws after `j` assignments, it makes `k` assignments. -/
inductive Res where
  | refused
  | failed (j : Nat)
  | made (k : Nat)
deriving DecidableEq, Repr

/-- Content of the `SolverEvents` given to `process`, and the maps it goes through. -/
structure Batch where
  weights : List Nat := []
  removed : List (Role × Nat) := []
  added : List (Role × Nat × Res) := []
  impact : Role → Bool := fun _ => false

/-- How a call ends: it returns, it throws, an assertion fails, it reads a destroyed constraint or assignment. -/
inductive Out where
  | ok (st : St)
  | threw (st : St)
  | asserted
  | dangling

/-- Change of a function at one point. -/
def upd {α : Type} (f : Role → α) (r : Role) (x : α) : Role → α := fun r' => if r' = r then x else f r'

/-- The constraint exists: shared pointers of others, or of an assignment. -/
def St.alive (st : St) (c : Nat) : Bool := st.ptrs c || st.asgs.any (fun a => a.c == c)

/-- The assignment exists. -/
def St.has (st : St) (i : Nat) : Bool := st.asgs.any (fun a => a.id == i)

/-- A search in a map: the keys are read. -/
def St.keysOk (st : St) (r : Role) : Bool := (st.keys r).all st.alive

/-- `AutoMap` (23-31) around a function that makes `j` assignments with `addAssignement` (LeastSquareSolver.h): `target[cstr.get()]`
creates the entry, the destructor appends the new assignments. -/
def St.make (st : St) (r : Role) (c j : Nat) : St :=
  { st with
    asgs := st.asgs ++ (List.range' st.next j).map (fun i => ⟨i, r, c⟩)
    keys := upd st.keys r (if c ∈ st.keys r then st.keys r else st.keys r ++ [c])
    val := upd st.val r (fun d => if d = c then st.val r c ++ List.range' st.next j else st.val r d)
    next := st.next + j }

/-- `addBound` (85-94), `addConstraint` (96-112), `addObjective` (114-127). -/
def St.add (cost : Role → Nat → Nat) (st : St) (r : Role) (c : Nat) : Res → Out
  | .refused => if st.building then .threw st else .asserted
  | .failed j => if st.building then (if st.keysOk r then .threw (st.make r c j) else .dangling) else .asserted
  | .made k =>
    if st.building then
      if st.keysOk r then
        let st := st.make r c k
        .ok { st with size := upd st.size r (st.size r + cost r c) }
      else .dangling
    else .asserted

/-- The loops of `processRemovedConstraints` (332-367): the assignments of the constraint are marked, its entry is erased. The value is
the list of the assignments marked; a search in a map with a destroyed key and a mark on an assignment that does not exist
are undefined. -/
def St.unmap (cost : Role → Nat → Nat) : St → List (Role × Nat) → Option (St × List Nat)
  | st, [] => some (st, [])
  | st, (r, c) :: l =>
    if st.keysOk r && (st.val r c).all st.has then
      let st1 := { st with
        n := upd st.n r (st.n r - cost r c)
        keys := upd st.keys r ((st.keys r).filter (· ≠ c))
        val := upd st.val r (fun d => if d = c then [] else st.val r d) }
      match st1.unmap cost l with
      | none => none
      | some (st2, marks) => some (st2, st.val r c ++ marks)
    else none

/-- `processRemovedConstraints` (330-378). -/
def St.processRemoved (cost : Role → Nat → Nat) (st : St) (l : List (Role × Nat)) : Option St :=
  match st.unmap cost l with
  | none => none
  | some (st, marks) => some { st with asgs := st.asgs.filter (fun a => !marks.contains a.id) }

/-- `previewAddedConstraints` (380-402): `n` for the constraints added. -/
def St.preview (cost : Role → Nat → Nat) (st : St) (l : List (Role × Nat × Res)) : St :=
  { st with
    size := st.n
    n := l.foldl (fun n x => upd n x.1 (n x.1 + cost x.1 x.2.1)) st.n }

/-- `updateTargetRange` (202-210) on a map: each key is read and the target of each of its assignments written; the sizes are
summed up again. -/
def St.retarget (cost : Role → Nat → Nat) (st : St) (r : Role) : Option St :=
  if (st.keys r).all (fun c => st.alive c && (st.val r c).all st.has) then
    some { st with size := upd st.size r (((st.keys r).map (fun c => (cost r c : Int))).sum) }
  else none

/-- The same for all the maps concerned (212-242). -/
def St.retargetAll (cost : Role → Nat → Nat) (impact : Role → Bool) : List Role → St → Option St
  | [], st => some st
  | r :: l, st =>
    if impact r then
      match st.retarget cost r with
      | none => none
      | some st => st.retargetAll cost impact l
    else st.retargetAll cost impact l

/-- The additions of `processAddedConstraints` (404-420), up to the first exception. -/
def St.addAll (cost : Role → Nat → Nat) : St → List (Role × Nat × Res) → Out
  | st, [] => .ok st
  | st, (r, c, res) :: l => match st.add cost r c res with
    | .ok st => st.addAll cost l
    | o => o

/-- The assertions (79-81 and 416-418). -/
def St.sizesOk (st : St) : Bool :=
  st.n .obj == st.size .obj && st.n .eq == st.size .eq && st.n .ineq == st.size .ineq

/-- `process` (183-292), with `updateWeights` (294-325): for each objective whose weight changed, it searches the map and goes through the
assignments. -/
def St.process (cost : Role → Nat → Nat) (st : St) (b : Batch) : Out :=
  if b.weights.all (fun c => st.keysOk .obj && (st.val .obj c).all st.has) then
    match st.processRemoved cost b.removed with
    | none => .dangling
    | some st =>
      match (st.preview cost b.added).retargetAll cost b.impact [.eq, .ineq, .bnd, .obj] with
      | none => .dangling
      | some st =>
        match { st with building := true }.addAll cost b.added with
        | .ok st => if st.sizesOk then .ok { st with building := false } else .asserted
        | o => o
  else .dangling

/-- The calls. `take` and `release` are what the rest of the program does with shared pointers to constraints. -/
inductive Op where
  | startBuild (nObj nEq nIneq : Nat)
  | add (r : Role) (c : Nat) (res : Res)
  | finalizeBuild
  | process (b : Batch)
  | solve
  | take (c : Nat)
  | release (c : Nat)

/-- A call. `solve` (139-167) goes through `assignments_`. -/
def St.step (cost : Role → Nat → Nat) (st : St) : Op → Out
  | .startBuild nObj nEq nIneq =>
    -- 46-75
    .ok { st with
      asgs := [], keys := fun _ => [], val := fun _ _ => [], building := true
      n := fun r => match r with | .obj => nObj | .eq => nEq | .ineq => nIneq | .bnd => 0
      size := fun _ => 0 }
  | .add r c res => st.add cost r c res
  | .finalizeBuild => if st.sizesOk then .ok { st with building := false } else .asserted
  | .process b => st.process cost b
  | .solve => if st.building then .threw st else .ok st
  | .take c => .ok { st with ptrs := fun d => if d = c then true else st.ptrs d }
  | .release c => .ok { st with ptrs := fun d => if d = c then false else st.ptrs d }

end Verif.SB
