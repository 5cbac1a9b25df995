/-!
# Model of `SolverEvents` (include/tvm/solver/internal/SolverEvents.h)

A constraint object is represented by a record `Cstr`: its identity (address) together with the data of the object
that the code of the solvers reads and that never change (size and type). Comparison of pointers is equality of
records: two different objects have different `id`s.
-/
set_option autoImplicit false

namespace Verif.SE

/-- `constraint::Type` (include/tvm/constraint/enums.h). -/
inductive CType where
  | equal | greaterThan | lowerThan | doubleSided
deriving DecidableEq, Repr

/-- A `LinearConstraint` object: identity, `size()` and `type()`. -/
structure Cstr where
  id : Nat
  size : Nat
  type : CType
deriving DecidableEq, Repr

/-- `Constraint::isEquality` (src/constraint/Constraint.cpp): the type is `EQUAL`. -/
def Cstr.isEquality (c : Cstr) : Bool := c.type == .equal

/-- `SolverEvents::WeightEvent` (lines 16-21). -/
structure WeightEvent where
  c : Cstr
  scalar : Bool
  vector : Bool
deriving DecidableEq, Repr

/-- `SolverEvents::Objective` (lines 23-28). The requirements are represented by the identity of the object. -/
structure Objective where
  c : Cstr
  req : Nat
  scalarizationWeight : Rat
deriving DecidableEq, Repr

/-- `SolverEvents` (members, lines 69-80). Variables are represented by identities. -/
structure SolverEvents where
  weightEvents : List WeightEvent := []
  addedConstraints : List Cstr := []
  addedBounds : List Cstr := []
  addedObjectives : List Objective := []
  removedConstraints : List Cstr := []
  removedBounds : List Cstr := []
  removedObjectives : List Cstr := []
  addedVariables : List Nat := []
  removedVariables : List Nat := []
  hiddenVariableChange : Bool := false
deriving DecidableEq, Repr

/-- `addIfPair` (lines 150-160): `(addVec, removeVec, notFound)` after the call. `List.erase` removes the first
occurrence, as `std::find` followed by `erase` does. -/
def addIfPair {α : Type} [DecidableEq α] (c : α) (addVec removeVec : List α) : List α × List α × Bool :=
  if c ∈ removeVec then (addVec, removeVec.erase c, false)
  else (addVec ++ [c], removeVec, true)

/-- Loop of `addScalarWeightEvent` (lines 83-95): flag the first entry of `c`, or append one. -/
def addScalar (c : Cstr) : List WeightEvent → List WeightEvent
  | [] => [⟨c, true, false⟩]
  | e :: l => if e.c = c then ⟨e.c, true, e.vector⟩ :: l else e :: addScalar c l

/-- Loop of `addVectorWeightEvent` (lines 97-109). -/
def addVector (c : Cstr) : List WeightEvent → List WeightEvent
  | [] => [⟨c, false, true⟩]
  | e :: l => if e.c = c then ⟨e.c, e.scalar, true⟩ :: l else e :: addVector c l

/-- Erase the first objective whose constraint is `c` (lines 131-135). -/
def eraseObj (c : Cstr) : List Objective → List Objective
  | [] => []
  | o :: l => if o.c = c then l else o :: eraseObj c l

/-- A notification received by the `SolverEvents` object. -/
inductive Op where
  | scalarWeight (c : Cstr)
  | vectorWeight (c : Cstr)
  | addConstraint (c : Cstr)
  | removeConstraint (c : Cstr)
  | addBound (c : Cstr)
  | removeBound (c : Cstr)
  | addObjective (o : Objective)
  | removeObjective (c : Cstr)
  | addVariable (v : Nat)
  | removeVariable (v : Nat)
deriving DecidableEq, Repr

/-- `addScalarWeightEvent` (83-95). -/
def addScalarWeightEvent (s : SolverEvents) (c : Cstr) : SolverEvents :=
  { s with weightEvents := addScalar c s.weightEvents }

/-- `addVectorWeightEvent` (97-109). -/
def addVectorWeightEvent (s : SolverEvents) (c : Cstr) : SolverEvents :=
  { s with weightEvents := addVector c s.weightEvents }

/-- `addConstraint` (111). -/
def addConstraint (s : SolverEvents) (c : Cstr) : SolverEvents :=
  let r := addIfPair c s.addedConstraints s.removedConstraints
  { s with addedConstraints := r.1, removedConstraints := r.2.1 }

/-- `removeConstraint` (113-114). -/
def removeConstraint (s : SolverEvents) (c : Cstr) : SolverEvents :=
  let r := addIfPair c s.removedConstraints s.addedConstraints
  { s with removedConstraints := r.1, addedConstraints := r.2.1 }

/-- `addBound` (116). -/
def addBound (s : SolverEvents) (c : Cstr) : SolverEvents :=
  let r := addIfPair c s.addedBounds s.removedBounds
  { s with addedBounds := r.1, removedBounds := r.2.1 }

/-- `removeBound` (118). -/
def removeBound (s : SolverEvents) (c : Cstr) : SolverEvents :=
  let r := addIfPair c s.removedBounds s.addedBounds
  { s with removedBounds := r.1, addedBounds := r.2.1 }

/-- `addObjective` (120-127). -/
def addObjective (s : SolverEvents) (o : Objective) : SolverEvents :=
  if o.c ∈ s.removedObjectives then { s with removedObjectives := s.removedObjectives.erase o.c }
  else { s with addedObjectives := s.addedObjectives ++ [o] }

/-- `removeObjective` (129-136). -/
def removeObjective (s : SolverEvents) (c : Cstr) : SolverEvents :=
  if c ∈ s.addedObjectives.map (·.c) then { s with addedObjectives := eraseObj c s.addedObjectives }
  else { s with removedObjectives := s.removedObjectives ++ [c] }

/-- `addVariable` (138-142). -/
def addVariable (s : SolverEvents) (v : Nat) : SolverEvents :=
  let r := addIfPair v s.addedVariables s.removedVariables
  { s with addedVariables := r.1, removedVariables := r.2.1,
           hiddenVariableChange := if r.2.2 then s.hiddenVariableChange else true }

/-- `removeVariable` (144-148). -/
def removeVariable (s : SolverEvents) (v : Nat) : SolverEvents :=
  let r := addIfPair v s.removedVariables s.addedVariables
  { s with removedVariables := r.1, addedVariables := r.2.1,
           hiddenVariableChange := if r.2.2 then s.hiddenVariableChange else true }

/-- One notification. -/
def apply (s : SolverEvents) : Op → SolverEvents
  | .scalarWeight c => addScalarWeightEvent s c
  | .vectorWeight c => addVectorWeightEvent s c
  | .addConstraint c => addConstraint s c
  | .removeConstraint c => removeConstraint s c
  | .addBound c => addBound s c
  | .removeBound c => removeBound s c
  | .addObjective o => addObjective s o
  | .removeObjective c => removeObjective s c
  | .addVariable v => addVariable s v
  | .removeVariable v => removeVariable s v

/-- A sequence of notifications. -/
def run (s : SolverEvents) (ops : List Op) : SolverEvents := ops.foldl apply s

/-- `LeastSquareSolver::updateVariables` (src/solver/LeastSquareSolver.cpp 327-328): is the mapping of the variables
to be recomputed? -/
def needMappingUpdate (s : SolverEvents) : Bool :=
  !(s.removedVariables.isEmpty && s.addedVariables.isEmpty) || s.hiddenVariableChange

end Verif.SE
