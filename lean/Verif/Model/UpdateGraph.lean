import Verif.Model.CallGraph
import Verif.Model.Inputs
/-!
# The graph of updates of a list of objects and outputs

Model of `generateUpdateGraph` (`include/tvm/utils/graph.h`, `include/tvm/utils/internal/graphDetails.h`) on the models of `Inputs` and `CallGraph`. An argument is a source
(`std::shared_ptr`) or an output; the overload of the recursion is chosen by the type of the next argument.
-/
set_option autoImplicit false

namespace Verif.UG
open Verif Verif.CG

inductive Arg where
  | src (s : Nat)
  | out (o : Nat)
deriving DecidableEq

inductive Res where
  | ok (g : CSt)
  /-- an output that is not enabled, or a cycle found by `update` -/
  | throws
  /-- undefined behaviour or too many nested calls -/
  | error (e : CErr)

/-- What `CallGraph::add` reads of the inputs of a user (src/graph/CallGraph.cpp, lines 14-27), whose only source is `s` -/
def pairs (user : Inp.St) (s : Nat) : List (Nat × Nat) := ((user.inputs s).getD []).map fun o => (s, o)

/-- `parseSourcesAndOutputs` (include/tvm/utils/internal/graphDetails.h, lines 46-81); `en s o` tells whether the output is enabled -/
def parse (net : Net) (f : Nat) (en : Nat → Nat → Bool) : List Arg → Inp.St → Nat → CSt → Res
  | [], user, s, g =>
    match addInputs net f (pairs user s) g with
    | .ok g => .ok g
    | .error e => .error e
  | .out o :: l, user, s, g =>
    match Inp.addShared (en s) s [o] user with
    | .ok user _ => parse net f en l user s g
    | .throw _ => .throws
    | .ub => .error .ub
  | .src s' :: l, user, s, g =>
    match addInputs net f (pairs user s) g with
    | .ok g => parse net f en l {} s' g
    | .error e => .error e

/-- `generateUpdateGraph(obj, args...)` (include/tvm/utils/graph.h, lines 26-35) -/
def generate (net : Net) (f : Nat) (en : Nat → Nat → Bool) (obj : Nat) (args : List Arg) : Res :=
  match parse net f en args {} obj {} with
  | .ok g => match update g with
    | .ok g _ => .ok g
    | .throw _ => .throws
    | .ub => .error .ub
  | r => r

end Verif.UG
