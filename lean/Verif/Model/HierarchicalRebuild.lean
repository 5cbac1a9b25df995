import Verif.Model.Hierarchical
/-!
# Several builds of one `HierarchicalLeastSquareSolver`

src/solver/HierarchicalLeastSquareSolver.cpp and src/solver/LexLSHierarchicalLeastSquareSolver.cpp. `Verif.Model.Hierarchical` models a build on a new
solver, which is how the scheme uses it (`memory->reset(solverFactory_->createSolver())`, src/scheme/HierarchicalLeastSquares.cpp, 103). Here `startBuild` is
called on a solver that was already built, which the class allows, and the vector of variables given to `startBuild` may be destroyed.

Simplified: as in `Verif.Model.Hierarchical`; what LexLS does with what it is given is left out, and so are the sizes it was
given.
-/
set_option autoImplicit false

namespace Verif.HLS

variable {K : Type} [Field K] [LinearOrder K]

/-- Members of the solver, and what `Solver` does not tell: the number of matrices in `data_` (and in `A_`, `l_`, `u_`); whether `xl_` and `xu_`
refer to rows of `data_[0]`; whether they refer to bounds (otherwise they refer to memory freed, or used for something else, by `data_[0].resize`);
whether the vector that `variables_` points to exists; `buildInProgress_`. -/
structure Built (K : Type) where
  s : Solver K
  nData : Nat
  inData : Bool
  ours : Bool
  vars : Bool
  building : Bool

/-- A new solver (HierarchicalLeastSquareSolver.cpp, lines 41-43; LexLSHierarchicalLeastSquareSolver.cpp, lines 13-18: `xl_` and `xu_` refer to `boundData_`). -/
def Built.new : Built K :=
  ⟨⟨0, false, [], [], [], [], fun _ => ⟨0, 0, fun _ _ => 0, fun _ => 0, fun _ => 0⟩, fun _ => 0, fun _ => 0, false, [], []⟩, 0, false, true, false, false⟩

/-- `v.resize(m, 0)`: the first values are kept. -/
def keep (v : List Nat) (m : Nat) : List Nat := v.take m ++ List.replicate (m - v.length) 0

/-- `startBuild` (HierarchicalLeastSquareSolver.cpp, lines 45-77) with `initializeBuild_` and `resize_` (LexLSHierarchicalLeastSquareSolver.cpp, lines 46-155).
`eqSize_` and `ineqSize_` are resized but not reset (lines 74-75); no matrix of `data_` is removed (lines 65-75); `xl_` and `xu_` are
changed only if there are bounds (lines 77-85 and 91-97). -/
def Built.startBuild (o : Opts K) (b : Built K) (n : Nat) (nEq nIneq : List Nat) (bounds : Bool) : Outcome Unit (Built K) :=
  if nEq.length ≠ nIneq.length then .ub
  else
    let f := HLS.startBuild o n nEq nIneq bounds
    let placed := bounds && (o.feasibleFirst || 0 < nEq.length)
    .ok () {
      s := { f with
        eqSize := keep b.s.eqSize nEq.length
        ineqSize := keep b.s.ineqSize nEq.length
        data := fun i => if i < nEq.length then f.data i else b.s.data i }
      nData := max b.nData nEq.length
      inData := if placed then !o.feasibleFirst else b.inData
      ours := placed || (b.ours && !(b.inData && 0 < nEq.length))
      vars := true
      building := true }

/-- `addConstraint` (HierarchicalLeastSquareSolver.cpp, lines 97-116), several times -/
def Built.addConstraints (b : Built K) (l : List (Nat × Cstr)) : Outcome Unit (Built K) :=
  if l.isEmpty then .ok () b
  else if b.building = false then .ub
  else match b.s.addConstraints l with
    | .ok _ s => .ok () { b with s := s }
    | .throw _ => .throw ()
    | .ub => .ub

/-- `setMinimumNorm` (HierarchicalLeastSquareSolver.cpp, lines 118-128): the last matrix of `data_` is changed (LexLSHierarchicalLeastSquareSolver.cpp, lines 179-186). -/
def Built.setMinimumNorm (b : Built K) : Outcome Unit (Built K) :=
  let i := b.s.nEq.length - 1
  if b.s.nEq.length = 0 ∨ b.vars = false then .ub
  else if b.s.nEq.getD i 0 = b.s.n ∧ b.s.nIneq.getD i 0 = 0 then
    if b.building = false then .throw ()
    else .ok () { b with s := { b.s with
      autoMin := true
      data := fun p => if p = b.nData - 1 then (b.s.data p).minNorm else b.s.data p
      eqSize := b.s.eqSize.set i b.s.n } }
  else .ub

/-- `addBound` (HierarchicalLeastSquareSolver.cpp, lines 86-95), several times -/
def Built.addBounds (b : Built K) (l : List Cstr) : Built K := { b with s := l.foldl Solver.addBound b.s }

/-- `finalizeBuild` (HierarchicalLeastSquareSolver.cpp, lines 79-84) -/
def Built.finalizeBuild (b : Built K) : Outcome Unit (Built K) :=
  match b.s.finalizeBuild with
  | .ok _ s => .ok () { b with s := s, building := false }
  | .throw _ => .throw ()
  | .ub => .ub

/-- The vector of variables is destroyed. -/
def Built.dropVariables (b : Built K) : Built K := { b with vars := false }

/-- `solve` (HierarchicalLeastSquareSolver.cpp, lines 130-158) up to the call to LexLS: the objectives given to LexLS. `resetBounds_` (LexLSHierarchicalLeastSquareSolver.cpp, lines 188-193) reads the
vector of variables and writes `xl_` and `xu_`; `postAssignmentProcess_` (lines 197-208) gives all the matrices of `data_`. -/
def Built.solve (o : Opts K) (v : Nat → Val K) (b : Built K) : Outcome Unit (List (Obj K)) :=
  if b.building then .throw ()
  else if b.vars = false ∨ b.ours = false then .ub
  else
    let s := b.s.prepare o v
    .ok () ((if s.bounds && o.feasibleFirst then [.simple s.xl s.xu] else []) ++ (List.range b.nData).map (fun i => .general (s.data i)))

/-- A build: `startBuild`, constraints, minimum norm if asked for, bounds, `finalizeBuild`. -/
def Built.build (o : Opts K) (b : Built K) (n : Nat) (nEq nIneq : List Nat) (l : List (Nat × Cstr)) (norm : Bool) (bs : List Cstr) :
    Outcome Unit (Built K) :=
  match b.startBuild o n nEq nIneq (!bs.isEmpty) with
  | .ok _ b => match b.addConstraints l with
    | .ok _ b => match (if norm then b.setMinimumNorm else .ok () b) with
      | .ok _ b => (b.addBounds bs).finalizeBuild
      | .throw _ => .throw ()
      | .ub => .ub
    | .throw _ => .throw ()
    | .ub => .ub
  | .throw _ => .throw ()
  | .ub => .ub

end Verif.HLS
