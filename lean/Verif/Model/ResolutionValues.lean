import Verif.Properties.C70_Substitutions
import Verif.Model.Assignment
/-!
# Model of the end of a resolution: the variables get their values
(include/tvm/scheme/abstract/ResolutionScheme.h, lines 70-81)

After the solver has returned, `data->setVariablesToSolution()` gives to each unknown of the solver its segment of the result, then `problem.substitutions().updateVariableValues()` evaluates the functions of the
substituted variables.

Simplified: the variables are atomic, as in the models of the substitutions; `num` is the number given to a variable of the problem, or of a substitution, in the models of the solver.
-/
set_option autoImplicit false

namespace Verif.RV
open Verif Verif.SBS

section
variable {K : Type} [Field K]

/-- `setVariablesToSolution` (ProblemComputationData.h, line 116; WeightedLeastSquares.cpp, lines 327-328; `VariableCountingVector::set`, see C25): the variables of the solver get the
segments of the result `x`, the others keep their values. -/
def setToSolution (V : AS.Vars) (num : PVar → Nat) (x : Nat → K) (val : PVar → Nat → K) : PVar → Nat → K :=
  fun p q => if V.known (num p) = true then x (V.col (num p) + q) else val p q

/-- The values of the variables of the problem after a resolution (ResolutionScheme.h, lines 78-79): the functions of the substitutions read the present values of the unknowns and of the additional variables. -/
def finalValues (w : World) (S : State) (o : Nat → SU.Out K) (V : AS.Vars) (num : PVar → Nat) (x : Nat → K) (val : PVar → Nat → K) : Nat → Nat → K :=
  S.updateVariableValues (C70.fvalue w S o fun a k => setToSolution V num x val (.z a k)) fun y => setToSolution V num x val (.var y)

/-! ## What the assignments refer to -/

/-- A linear constraint, or objective, of the user: `Σ J_x x` compared to its right-hand side (constraint::abstract::LinearConstraint) -/
structure UserCstr (K : Type) where
  type : AS.CType
  rhs : AS.Rhs
  size : Nat
  vars : List Nat
  jac : Nat → Nat → Nat → K
  e : Nat → K
  l : Nat → K
  u : Nat → K

/-- `substitutedVariables_` and `variableSubstitutions_` of an assignment (Assignment.cpp, lines 27-29): those of the problem, for all the solvers. `ub` tells which functions have a vector that is not
known to be zero. -/
def subsOf (w : World) (S : State) (num : PVar → Nat) (ub : Nat → Nat → Bool) : List (Nat × AS.SubInfo) :=
  (S.vars.zip S.funcs).map fun t => (num (.var t.1), ⟨(fvars (layout w (S.units.getD t.2.1 [])) t.2.1 t.2.2).map num, ub t.2.1 t.2.2⟩)

/-- The assignment of a constraint of the user (LeastSquareSolver.h, `addAssignement`; Assignment.cpp, lines 19-38); `prop` are the properties of the Jacobians -/
def sourceOf (w : World) (S : State) (num : PVar → Nat) (ub : Nat → Nat → Bool) (prop : Nat → AS.JProp) (c : UserCstr K) : AS.Src :=
  ⟨c.type, c.rhs, c.size, c.vars.map fun x => num (.var x), prop, subsOf w S num ub⟩

/-- The matrix of the function of a substituted variable for another variable: `jacobian(y)` looks for the variable in the function (BasicLinearFunction.cpp; SubstitutionUnit.cpp, lines 214-242) -/
def subMatrix (w : World) (S : State) (o : Nat → SU.Out K) (x : Nat) (p : PVar) (q r : Nat) : K :=
  match (S.vars.zip S.funcs).find? fun t => t.1 == x with
  | none => 0
  | some t =>
    match p with
    | .var y => (o t.2.1).fY t.2.2 ((layout w (S.units.getD t.2.1 [])).y.idxOf y) q r
    | .z _ j => (o t.2.1).fZ t.2.2 j q r

/-- The vector of the function of a substituted variable -/
def subVector (S : State) (o : Nat → SU.Out K) (x q : Nat) : K :=
  match (S.vars.zip S.funcs).find? fun t => t.1 == x with
  | none => 0
  | some t => (o t.2.1).fb t.2.2 q

/-- What the assignment of a constraint of the user reads; `den` gives back the variable from its number, `wt` are the weights. -/
def dataOf (w : World) (S : State) (o : Nat → SU.Out K) (den : Nat → PVar) (wt : AS.Weights K) (c : UserCstr K) : AS.Data K where
  jac := fun m i k => match den m with
    | .var x => c.jac x i k
    | .z _ _ => 0
  e := c.e
  l := c.l
  u := c.u
  subA := fun m m' q r => match den m with
    | .var x => subMatrix w S o x (den m') q r
    | .z _ _ => 0
  subB := fun m q => match den m with
    | .var x => subVector S o x q
    | .z _ _ => 0
  w := wt

/-- The assignment of the additional constraint of the substitution `k` of the unit `a` (SubstitutionUnit.cpp, lines 454-468) -/
def additionalSource (w : World) (S : State) (num : PVar → Nat) (ub : Nat → Nat → Bool) (prop : Nat → AS.JProp) (a k : Nat) : AS.Src :=
  ⟨.equal, .asGiven, match (S.units.getD a [])[k]? with
    | some t => rows w t.cstrs - t.rank
    | none => 0,
    ((SU.deps (layout w (S.units.getD a []))).sy k).map (fun j => num (.var ((layout w (S.units.getD a [])).y.getD j 0))) ++
      ((SU.deps (layout w (S.units.getD a []))).sz k).map fun j => num (.z a j), prop, subsOf w S num ub⟩

/-- What it reads (SubstitutionUnit.cpp, lines 244-256) -/
def additionalData (w : World) (S : State) (o : Nat → SU.Out K) (den : Nat → PVar) (wt : AS.Weights K) (a k : Nat) : AS.Data K where
  jac := fun m i r => match den m with
    | .var y => (o a).rY k i ((layout w (S.units.getD a [])).y.idxOf y) r
    | .z _ j => (o a).rZ k i j r
  e := (o a).rb k
  l := fun _ => 0
  u := fun _ => 0
  subA := fun _ _ _ _ => 0
  subB := fun _ _ => 0
  w := wt

/-- The unknowns of the solver (WeightedLeastSquares.cpp, lines 135-136 and 239-246): for all the variables of the constraints `cs`, what `substitute` gives -/
def unknowns (w : World) (S : State) (cs : List (UserCstr K)) : List PVar := (cs.flatMap (·.vars)).flatMap (S.substitute w)

/-- `solve` (ResolutionScheme.h, lines 70-81) with `solve_` (WeightedLeastSquares.cpp, lines 24-37): what is returned, and the values of the variables. `size` is the number of constraints of the problem, `nsubs` the
number of its substitutions, `prob` its variables. `solver` is what the solver returns, and its result; it is not called when there are no more constraints than substitutions, and the result is then the one that it
had before. -/
def resolve (w : World) (S : State) (o : Nat → SU.Out K) (V : AS.Vars) (num : PVar → Nat) (size nsubs : Nat) (prob : Nat → Bool) (solver : Bool × (Nat → K)) (before : Nat → K) (val : PVar → Nat → K) :
    Bool × (Nat → Nat → K) :=
  if nsubs < size then (solver.1, finalValues w S o V num solver.2 val)
  else (true, finalValues w S o V num before fun p q => match p with
    | .var y => if prob y then 0 else val p q
    | .z _ _ => val p q)

end
end Verif.RV
