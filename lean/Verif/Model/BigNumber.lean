import Verif.Model.Outcome
import Verif.Model.Assignment
/-!
# The number that stands for infinity

`Assignment::big_` (include/tvm/scheme/internal/Assignment.h, line 104; src/scheme/Assignment.cpp, line 18) is one variable for the
whole program. A scheme writes its own `big_number_` in it before it builds the data of a problem
(src/scheme/WeightedLeastSquares.cpp, line 177; src/scheme/HierarchicalLeastSquares.cpp, line 170); the assignments copy it when they
are built (Assignment.cpp, lines 282, 288; Assignment.hpp, lines 245-260) or built again.

The programs are sequences of calls on any number of problems and schemes. What the assignments are built from (sources, targets,
variables, flags) is given by the calls; how the schemes find them is in other files. Not modelled here: the bounds, which the
solvers first set to plus or minus their own option of the same name (QPSolvers.lean), and the hierarchical solver when it refuses an
event (then nothing is built).
-/
set_option autoImplicit false

namespace Verif.BN
open Verif Verif.AS

/-- What an assignment is built from; `key` names the constraint. -/
structure Req where
  key : Nat
  S : Src
  T : Target
  V : Vars
  fl : Flags

/-- An assignment held by a solver: what it is built from now, and the number that was copied when it was built. -/
structure Job (K : Type) where
  r : Req
  num : K

/-- The compiled assignments of a job. An update of the target or of the mapping gives what the constructor would give
(Verif.Model.AssignmentUpdate), except for the number, which is not read again (Assignment.cpp, lines 69-87). -/
def Job.ops {K : Type} [Neg K] (j : Job K) : Option (Ops K) := create j.num j.r.S j.r.T j.r.V j.r.fl

/-- `Assignment::big_`; `big_number_` of each scheme; the assignments of the solver in the data of each problem for each scheme. -/
structure World (K : Type) where
  big : K
  scheme : Nat → K
  data : Nat → Nat → Option (List (Job K))

/-- Before anything is built: `constant::big_number` everywhere (Assignment.cpp, line 18; ResolutionScheme.h, line 67;
WeightedLeastSquares.h, lines 74 and 96; HierarchicalLeastSquares.h, lines 66 and 88). -/
def World.init {K : Type} (c : K) : World K := ⟨c, fun _ => c, fun _ _ => none⟩

/-- The data of problem `p` for scheme `h` become `d`. -/
def World.put {K : Type} (w : World K) (p h : Nat) (d : Option (List (Job K))) : World K :=
  { w with data := fun a b => if a = p ∧ b = h then d else w.data a b }

section
variable {K : Type} [Neg K]

/-- Constructions, one after the other, up to the first exception; whether there was none. -/
def buildAll (big : K) : List Req → List (Job K) × Bool
  | [] => ([], true)
  | r :: l =>
    if (create big r.S r.T r.V r.fl).isSome then
      let (js, ok) := buildAll big l
      (⟨r, big⟩ :: js, ok)
    else ([], false)

/-- `processProblem` (WeightedLeastSquares.cpp, lines 176-219; HierarchicalLeastSquares.cpp, lines 169-190), for data that are
created or reset (WeightedLeastSquares.cpp, lines 97-111). Data whose creation throws are not kept (helpers.hpp, lines 14-31); data
that are reset hold what was built. -/
def World.build (w : World K) (p h : Nat) (rs : List Req) : Outcome (World K) Unit :=
  let w : World K := { w with big := w.scheme h }
  match buildAll w.big rs with
  | (js, true) => .ok (w.put p h (some js)) ()
  | (js, false) => .throw (if (w.data p h).isSome then w.put p h (some js) else w)

/-- `updateWeights` (src/solver/LeastSquareSolver.cpp, lines 291-323) for a weight that had not been declared: `reprocess` builds the
assignments of the constraint again (Assignment.cpp, lines 50-53); `fl` are the new flags. -/
def rework (big : K) (key : Nat) (fl : Flags) (js : List (Job K)) : List (Job K) :=
  js.map fun j => if j.r.key = key then ⟨{ j.r with fl := fl }, big⟩ else j

/-- `process` (LeastSquareSolver.cpp, lines 183-289): weights first, then the removed constraints; then the targets and the
variables of the remaining assignments change, as given by `move`; then the added constraints. -/
def World.process (w : World K) (p h : Nat) (weights : List (Nat × Flags)) (removed : List Nat) (move : Req → Target × Vars)
    (added : List Req) : Outcome (World K) Unit :=
  match w.data p h with
  | none => .ub
  | some js =>
    let js := weights.foldl (fun js x => rework w.big x.1 x.2 js) js
    let js := js.filter fun j => !removed.contains j.r.key
    let js := js.map fun j => { j with r := { j.r with T := (move j.r).1, V := (move j.r).2 } }
    match buildAll w.big added with
    | (new, true) => .ok (w.put p h (some (js ++ new))) ()
    | (new, false) => .throw (w.put p h (some (js ++ new)))

/-- `big_number(big)` of a scheme (src/scheme/ResolutionScheme.cpp, lines 20-24), with its assertion. -/
def World.setBig [Zero K] [LT K] [DecidableLT K] (w : World K) (h : Nat) (b : K) : Outcome (World K) Unit :=
  if 0 < b then .ok { w with scheme := fun k => if k = h then b else w.scheme k } () else .ub

/-- The calls that matter; `p` is a problem, `h` a scheme. The data may also be destroyed, with the problem. -/
inductive Call (K : Type) where
  | build (p h : Nat) (rs : List Req)
  | process (p h : Nat) (weights : List (Nat × Flags)) (removed : List Nat) (move : Req → Target × Vars) (added : List Req)
  | setBig (h : Nat) (b : K)
  | drop (p h : Nat)

/-- One call -/
def step [Zero K] [LT K] [DecidableLT K] (w : World K) : Call K → Outcome (World K) Unit
  | .build p h rs => w.build p h rs
  | .process p h ws rm mv ad => w.process p h ws rm mv ad
  | .setBig h b => w.setBig h b
  | .drop p h => .ok (w.put p h none) ()

/-- The states that a program reaches; it may catch exceptions. -/
inductive Runs [Zero K] [LT K] [DecidableLT K] : World K → List (Call K) → World K → Prop
  | nil (w : World K) : Runs w [] w
  | ok (w w' w'' : World K) (c : Call K) (l : List (Call K)) (h : step w c = .ok w' ()) (t : Runs w' l w'') : Runs w (c :: l) w''
  | caught (w w' w'' : World K) (c : Call K) (l : List (Call K)) (h : step w c = .throw w') (t : Runs w' l w'') : Runs w (c :: l) w''

end
end Verif.BN
