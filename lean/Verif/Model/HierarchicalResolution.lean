import Verif.Model.Hierarchical
import Verif.Model.SolverAssembly
import Verif.Lemmas.SolverAssembly
/-!
# Model of a resolution by the hierarchical scheme: the assignments are run on the levels
(src/solver/HierarchicalLeastSquareSolver.cpp, lines 130-158, with the targets of src/solver/LexLSHierarchicalLeastSquareSolver.cpp, lines 157-177)

`Verif.Model.Hierarchical` sums the assignments up by what they write. Here the assignments of `Verif.Model.Assignment` are run on the levels.

Simplified: the same as in `Verif.Model.SolverAssembly`. The constant of the scheme and the option of the solver are the same number, as in `Verif.Model.Hierarchical`.
-/
set_option autoImplicit false

namespace Verif.HR
open Verif Verif.HLS Verif.ASM

/-- A constraint of the problem: its object, priority, evaluation of the violation, whether it can be used as a bound, and whether it is used by a substitution -/
structure Item where
  c : SE.Cstr
  prio : Nat
  vet : SA.VET
  asBound : Bool
  used : Bool

/-- The type of a constraint, as it matters to the construction: an equality or not (HierarchicalLeastSquares.cpp, line 142; HierarchicalLeastSquareSolver.cpp, line 104). The assignments write the two sides of all the
inequalities. -/
def ty (t : SE.CType) : Ty := if t = .equal then .equal else .both

/-- A constraint, for the construction of the solver; `vs` is the first row of the variable of a bound, its assignment writes the columns of its variables. -/
def Item.cstr (env : Env) (vs : SE.Cstr → Int) (i : Item) : Cstr := ⟨i.c.id, i.prio, i.vet, i.asBound, i.used, ty i.c.type, i.c.size, (vs i.c).toNat, inSet (env.src i.c) env.V⟩

/-- An additional constraint of the substitutions (HierarchicalLeastSquares.cpp, lines 156-161) -/
def extraItem (c : SE.Cstr) : Item := ⟨c, 0, .l2, false, false⟩

/-- The problem, with the additional constraints -/
def pbOf (env : Env) (vs : SE.Cstr → Int) (n : Nat) (items : List Item) (extra : List SE.Cstr) : Pb := ⟨n, items.map (Item.cstr env vs), extra.map fun c => (extraItem c).cstr env vs⟩

/-- The constraint an assignment was made for -/
def cstOf (items : List Item) (extra : List SE.Cstr) (id : Nat) : SE.Cstr := ((items.map (·.c) ++ extra).find? fun c => c.id == id).getD ⟨0, 0, .equal⟩

section
variable {K : Type} [Field K] [LinearOrder K]

/-- The assignment of a constraint: the target is a range of rows of a level, double-sided and `AS_GIVEN` (LexLSHierarchicalLeastSquareSolver.cpp, lines 163-177) -/
def job (env : Env) (cst : Nat → SE.Cstr) (a : Asg) : Job := ⟨cst a.id, env.src (cst a.id), ⟨.doubleSided, .asGiven, a.start, a.size⟩⟩

/-- The assignment of a constraint is run on its level: `A_[i]`, `l_[i]` and `u_[i]` are the rows from `off` (LexLSHierarchicalLeastSquareSolver.cpp, lines 100-102 and 109-111). -/
def put (big : K) (env : Env) (now : Now K) (cst : Nat → SE.Cstr) (a : Asg) (d : Level K) : Level K :=
  let m := (job env cst a).run big env.V now ⟨fun r => d.M (d.off + r), fun c => if c = .l then fun r => d.l (d.off + r) else if c = .u then fun r => d.u (d.off + r) else fun _ => 0⟩
  { d with
    M := back d.off m.A d.M
    l := back d.off (m.vec .l) d.l
    u := back d.off (m.vec .u) d.u }

/-- The runs of the assignments of the constraints (HierarchicalLeastSquareSolver.cpp, lines 139-140) -/
def runAsg (big : K) (env : Env) (now : Now K) (cst : Nat → SE.Cstr) : List Asg → (Nat → Level K) → Nat → Level K
  | [], d => d
  | a :: l, d => runAsg big env now cst l (fun p => if p = a.lvl then put big env now cst a (d p) else d p)

/-- A bound, at the range of its target (HierarchicalLeastSquareSolver.cpp, lines 86-95) -/
def bound (now : Now K) (cst : Nat → SE.Cstr) (b : BAsg) : C38.Bound K := { now.bnd (cst b.id) with start := b.start, n := b.size }

/-- The bounds -/
def bounds (now : Now K) (cst : Nat → SE.Cstr) (bs : List BAsg) : List (C38.Bound K) := bs.map (bound now cst)

/-- The runs of the assignments of the bounds on two vectors -/
def boundsOn (big : K) (now : Now K) (cst : Nat → SE.Cstr) (bs : List BAsg) (l u : Nat → K) : AS.Mem K := runBounds big (bounds now cst bs) (block2 (fun _ _ => 0) 0 l u)

/-- The runs of the assignments of the bounds on `xl_` and `xu_`, which refer to `boundData_` or to the first rows of the first level (LexLSHierarchicalLeastSquareSolver.cpp, lines 80-81, 95-96 and 157-161) -/
def runBnd (o : Opts K) (now : Now K) (cst : Nat → SE.Cstr) (s : Solver K) : Solver K :=
  { s with
    xl := if o.feasibleFirst then (boundsOn o.big now cst s.basg s.xl s.xu).vec .l else s.xl
    xu := if o.feasibleFirst then (boundsOn o.big now cst s.basg s.xl s.xu).vec .u else s.xu
    data := fun p => { s.data p with
      l := if p = 0 ∧ o.feasibleFirst = false then (boundsOn o.big now cst s.basg (s.data p).l (s.data p).u).vec .l else (s.data p).l
      u := if p = 0 ∧ o.feasibleFirst = false then (boundsOn o.big now cst s.basg (s.data p).l (s.data p).u).vec .u else (s.data p).u } }

/-- The members when LexLS is called by `solve` (HierarchicalLeastSquareSolver.cpp, lines 130-158) -/
def prepare (o : Opts K) (env : Env) (now : Now K) (cst : Nat → SE.Cstr) (s : Solver K) : Solver K :=
  let s := s.resetBounds o
  runBnd o now cst { s with data := runAsg o.big env now cst s.asg s.data }

/-- `solve` up to the call to LexLS; the outcome when LexLS was not given its sizes is the one of `Verif.HLS.Solver.solve`. -/
def solve (o : Opts K) (env : Env) (now : Now K) (cst : Nat → SE.Cstr) (s : Solver K) : Outcome Unit (Solver K × List (Obj K)) :=
  if s.n ≠ 0 ∧ s.sized o = false then .ub
  else .ok () (prepare o env now cst s, (prepare o env now cst s).objectives o)

end
end Verif.HR
