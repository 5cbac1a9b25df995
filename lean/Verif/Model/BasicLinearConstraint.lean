import Verif.Model.Assignment
import Verif.Model.FirstOrderProvider
import Mathlib.Algebra.BigOperators.Group.Finset.Basic
import Mathlib.Algebra.Ring.Defs
/-!
# Basic linear constraints

Model of `tvm::constraint::BasicLinearConstraint` (src/constraint/BasicLinearConstraint.cpp), with `Constraint` (src/constraint/Constraint.cpp), `RHSVectors`
(src/constraint/RHSVectors.cpp) and `LinearConstraint::updateValue` (src/constraint/LinearConstraint.cpp, lines 21-28). The variables and the jacobians are those of the model of
`FirstOrderProvider`; `geo v` has for size `Variable::size()`, which is that of the value, and `euc v` is `Variable::isEuclidean` (src/Variable.cpp, line 82). What the memory holds after
an allocation is the parameter `mem`.

Not modelled: the properties of the matrices, the updates and outputs.
-/
set_option autoImplicit false

namespace Verif.BLC
open Verif Verif.VV Verif.Prov

abbrev CType := AS.CType
abbrev Rhs := AS.Rhs

/-- A vector with its size -/
structure Vec (K : Type) where
  size : Nat
  v : Nat → K

/-- `RHSVectors::use_l_` (RHSVectors.cpp, line 12) -/
def useL (ct : CType) (cr : Rhs) : Bool := decide ((ct = .greaterThan ∨ ct = .doubleSided) ∧ cr ≠ .zero)
/-- `RHSVectors::use_u_` (line 13) -/
def useU (ct : CType) (cr : Rhs) : Bool := decide ((ct = .lowerThan ∨ ct = .doubleSided) ∧ cr ≠ .zero)
/-- `RHSVectors::use_e_` (line 14) -/
def useE (ct : CType) (cr : Rhs) : Bool := decide (ct = .equal ∧ cr ≠ .zero)

/-- The members: type, convention, variables and jacobians, `l_`, `u_`, `e_` -/
structure Cstr (K : Type) where
  ct : CType
  cr : Rhs
  P : Provider K
  l : Vec K
  u : Vec K
  e : Vec K

variable {K : Type}

/-- What the memory holds: for each variable, and for each of the three vectors -/
structure Memory (K : Type) where
  mat : Nat → Nat → Nat → K
  l : Nat → K
  u : Nat → K
  e : Nat → K

/-- The constructor of `Constraint` (Constraint.cpp, lines 16-34), with `RHSVectors::resize` (RHSVectors.cpp, lines 17-27) -/
def init (mem : Memory K) (ct : CType) (cr : Rhs) (m : Nat) : Outcome Unit (Cstr K) :=
  if ct = .doubleSided ∧ cr = .zero then .throw ()
  else .ok () ⟨ct, cr, Prov.make m, ⟨if useL ct cr then m else 0, mem.l⟩, ⟨if useU ct cr then m else 0, mem.u⟩, ⟨if useE ct cr then m else 0, mem.e⟩⟩

variable (geo : Nat → Geo) (tr : Nat → Range) (euc : Nat → Bool)

/-- `jacobian_.at(v) = A`: throws when there is no entry for this very variable -/
def atAssign (C : Cstr K) (A : Mat K) (v : Nat) : Outcome (Cstr K) Unit :=
  match find C.P.jac v with
  | none => .throw C
  | some _ => .ok { C with P := C.P.write v A } ()

/-- `add` (BasicLinearConstraint.cpp, lines 201-212) -/
def addTerm (mem : Memory K) (C : Cstr K) (A : Mat K) (v : Nat) : Outcome (Cstr K) Unit :=
  if euc v = false then .throw C
  else if A.rows ≠ C.P.m then .throw C
  else if A.cols ≠ (geo v).size then .throw C
  else
    match C.P.add geo tr v true (mem.mat v) with
    | .ub => .ub
    | .throw P => .throw { C with P := P }
    | .ok P _ => atAssign { C with P := P } A v

/-- The loop of the constructors on the matrices and the variables (lines 26-31, 59-64, 93-98) -/
def addTerms (mem : Memory K) (C : Cstr K) : List (Mat K × Nat) → Outcome Unit (Cstr K)
  | [] => .ok () C
  | t :: l =>
    match addTerm geo tr euc mem C t.1 t.2 with
    | .ub => .ub
    | .throw _ => .throw ()
    | .ok C' _ => addTerms mem C' l

/-- `b` (lines 137-163) -/
def Cstr.setB (C : Cstr K) (b : Vec K) : Outcome (Cstr K) Unit :=
  if C.ct ≠ .doubleSided ∧ C.cr ≠ .zero then
    if b.size = C.P.m then
      match C.ct with
      | .equal => .ok { C with e := b } ()
      | .greaterThan => .ok { C with l := b } ()
      | .lowerThan => .ok { C with u := b } ()
      | .doubleSided => .ok C ()
    else .throw C
  else .throw C

/-- `l` (lines 165-182) -/
def Cstr.setL (C : Cstr K) (l : Vec K) : Outcome (Cstr K) Unit :=
  if C.ct = .doubleSided ∧ C.cr ≠ .zero then (if l.size = C.P.m then .ok { C with l := l } () else .throw C) else .throw C

/-- `u` (lines 184-199) -/
def Cstr.setU (C : Cstr K) (u : Vec K) : Outcome (Cstr K) Unit :=
  if C.ct = .doubleSided ∧ C.cr ≠ .zero then (if u.size = C.P.m then .ok { C with u := u } () else .throw C) else .throw C

/-- `A(A, x)` (lines 116-125) -/
def Cstr.setA (C : Cstr K) (A : Mat K) (x : Nat) : Outcome (Cstr K) Unit :=
  if A.rows = C.P.m ∧ A.cols = (geo x).size then atAssign C A x else .throw C

/-- `A(A)` (lines 127-135) -/
def Cstr.setA1 (C : Cstr K) (A : Mat K) : Outcome (Cstr K) Unit :=
  match C.P.vars with
  | [x] => C.setA geo A x
  | _ => .throw C

/-- The result of a setter called in a constructor -/
def built : Outcome (Cstr K) Unit → Outcome Unit (Cstr K)
  | .ok C _ => .ok () C
  | .throw _ => .throw ()
  | .ub => .ub

/-- Ax = 0, Ax <= 0, Ax >= 0 (lines 17-32). `A.begin()` of an empty vector is dereferenced first. -/
def makeZero (mem : Memory K) (As : List (Mat K)) (xs : List Nat) (ct : CType) : Outcome Unit (Cstr K) :=
  match As with
  | [] => .ub
  | A :: _ =>
    match init mem ct .zero A.rows with
    | .ub => .ub
    | .throw _ => .throw ()
    | .ok _ C =>
      if ct = .doubleSided then .throw ()
      else if As.length ≠ xs.length then .throw ()
      else addTerms geo tr euc mem C (As.zip xs)

/-- Ax = ±b, Ax <= ±b, Ax >= ±b (lines 42-66) -/
def makeB (mem : Memory K) (As : List (Mat K)) (xs : List Nat) (b : Vec K) (ct : CType) (cr : Rhs) : Outcome Unit (Cstr K) :=
  match As with
  | [] => .ub
  | A :: _ =>
    match init mem ct cr A.rows with
    | .ub => .ub
    | .throw _ => .throw ()
    | .ok _ C =>
      if ct = .doubleSided then .throw ()
      else if cr = .zero then .throw ()
      else if As.length ≠ xs.length then .throw ()
      else if b.size ≠ C.P.m then .throw ()
      else
        match addTerms geo tr euc mem C (As.zip xs) with
        | .ub => .ub
        | .throw _ => .throw ()
        | .ok _ C' => built (C'.setB b)

/-- l <= Ax <= u (lines 76-102) -/
def makeLU (mem : Memory K) (As : List (Mat K)) (xs : List Nat) (l u : Vec K) (cr : Rhs) : Outcome Unit (Cstr K) :=
  match As with
  | [] => .ub
  | A :: _ =>
    match init mem .doubleSided cr A.rows with
    | .ub => .ub
    | .throw _ => .throw ()
    | .ok _ C =>
      if cr = .zero then .throw ()
      else if As.length ≠ xs.length then .throw ()
      else if l.size ≠ C.P.m then .throw ()
      else if u.size ≠ C.P.m then .throw ()
      else
        match addTerms geo tr euc mem C (As.zip xs) with
        | .ub => .ub
        | .throw _ => .throw ()
        | .ok _ C' =>
          match C'.setL l with
          | .ub => .ub
          | .throw _ => .throw ()
          | .ok C'' _ => built (C''.setU u)

/-- `addVariable` on each variable -/
def allocVars (mem : Memory K) (P : Provider K) : List Nat → Outcome Unit (Provider K)
  | [] => .ok () P
  | v :: l =>
    match P.add geo tr v true (mem.mat v) with
    | .ub => .ub
    | .throw _ => .throw ()
    | .ok P' _ => allocVars mem P' l

/-- Uninitialized data (lines 104-114) -/
def makeAlloc (mem : Memory K) (m : Nat) (xs : List Nat) (ct : CType) (cr : Rhs) : Outcome Unit (Cstr K) :=
  match init mem ct cr m with
  | .ub => .ub
  | .throw _ => .throw ()
  | .ok _ C =>
    match allocVars geo tr mem C.P xs with
    | .ub => .ub
    | .throw _ => .throw ()
    | .ok _ P => .ok () { C with P := P }

/-- The loop of `updateValue` (LinearConstraint.cpp, lines 24-27). A product of matrices with sizes that do not fit is an assertion of Eigen. -/
def valueLoop [CommRing K] (C : Cstr K) (x : Nat → Nat → K) : List Nat → (Nat → K) → Outcome Unit (Nat → K)
  | [], acc => .ok () acc
  | v :: l, acc =>
    match C.P.jacobian geo tr v with
    | .ub => .ub
    | .throw _ => .throw ()
    | .ok _ M => if M.rows = C.P.m ∧ M.cols = (geo v).size then valueLoop C x l (fun i => acc i + ∑ c ∈ Finset.range M.cols, M.at_ i c * x v c) else .ub

/-- `updateValue` (lines 21-28); `x v` is the value of the variable `v` -/
def Cstr.value [CommRing K] (C : Cstr K) (x : Nat → Nat → K) : Outcome Unit (Nat → K) := valueLoop geo tr C x C.P.vars (fun _ => 0)

end Verif.BLC
