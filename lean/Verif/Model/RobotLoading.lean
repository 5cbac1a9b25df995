import Verif.Model.Robot
/-!
# Loading a robot

Model of `tvm::robot::fromURDF` (`src/robot/utils.cpp`), after the file has been read by RBDyn: the joints with their names and the configuration by default are inputs. Only the
configuration is modelled; the gravity (line 32) is not.
-/
set_option autoImplicit false

namespace Verif.Load
open Verif Verif.Rob

variable {K : Type}

/-- One turn of the loop of lines 35-49. `none`: `init_q[jIndex]` out of range. The message of lines 44-45 is not modelled. -/
def step (js : List Joint) (q : List (List K)) (qi : Nat × List K) : Option (List (List K)) :=
  match index js qi.1 with
  | none => some q
  | some j =>
    match q[j]? with
    | none => none
    | some old => if old.length ≠ qi.2.length then some q else some (q.set j qi.2)

/-- The loop of lines 35-49, over the map `given` -/
def configure (js : List Joint) : List (Nat × List K) → List (List K) → Option (List (List K))
  | [], q => some q
  | qi :: l, q => (step js q qi).bind (configure js l)

/-- `rbd::paramToVector` (Robot.cpp, line 80): the value of the variable `q` -/
def vector (q : List (List K)) : List K := q.flatten

end Verif.Load
