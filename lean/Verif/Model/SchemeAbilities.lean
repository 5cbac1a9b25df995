/-!
# Model of `SchemeAbilities` (include/tvm/scheme/internal/SchemeAbilities.h, src/scheme/SchemeAbilities.cpp)

Not modelled: the warning printed when scalarization is used.
-/
set_option autoImplicit false

namespace Verif.SA

/-- `requirements::ViolationEvaluationType` (include/tvm/requirements/ViolationEvaluation.h, 24-32). -/
inductive VET where
  | l1 | l2 | linf
deriving DecidableEq, Repr

/-- `LevelAbilities` (SchemeAbilities.h, 33-53). -/
structure LevelAbilities where
  inequalities : Bool
  evaluationTypes : List VET
deriving DecidableEq, Repr

/-- `GeneralLevel` and `NoLimit` (SchemeAbilities.h, 24-26). -/
def generalLevel : Int := -1

/-- `SchemeAbilities` (SchemeAbilities.h, 84-88). `abilities_` is a map: the first entry of a key in the list counts. -/
structure SchemeAbilities where
  numberOfLevels : Int
  scalarization : Bool
  abilities : List (Int × LevelAbilities)
deriving DecidableEq, Repr

/-- `abilities_.find(p)`. -/
def SchemeAbilities.find (s : SchemeAbilities) (p : Int) : Option LevelAbilities := s.abilities.lookup p

/-- `abilities.count(p) == 0` for the argument of the constructor. -/
def absent (m : List (Int × LevelAbilities)) (p : Int) : Bool := (m.lookup p).isNone

/-- The constructor (SchemeAbilities.cpp, 23-56): `none` when it throws. -/
def SchemeAbilities.make (n : Int) (m : List (Int × LevelAbilities)) (scalarization : Bool) : Option SchemeAbilities :=
  if n < 0 ∧ n ≠ generalLevel then none
  else if 0 ≤ n then
    if absent m generalLevel ∧ (List.range n.toNat).any (fun i => absent m i) then none
    else some ⟨n, scalarization, m⟩
  else if absent m generalLevel then none
  else some ⟨n, scalarization, m⟩

/-- How a check ends: it returns, throws a `std::runtime_error` with an explanation for the user, or throws
`std::out_of_range` from `std::map::at`. -/
inductive Verdict where
  | ok | rejected | outOfRange
deriving DecidableEq, Repr

/-- `LevelAbilities::check` (SchemeAbilities.h, 90-101): `isEquality` is `c->type() == EQUAL`. -/
def LevelAbilities.check (a : LevelAbilities) (isEquality : Bool) (v : VET) : Verdict :=
  if isEquality = false ∧ a.inequalities = false then .rejected
  else if v ∈ a.evaluationTypes then .ok
  else .rejected

/-- `SchemeAbilities::check` (SchemeAbilities.h, 103-134). -/
def SchemeAbilities.check (s : SchemeAbilities) (p : Int) (isEquality : Bool) (v : VET) : Verdict :=
  if s.numberOfLevels > 0 ∧ p ≥ s.numberOfLevels ∧ s.scalarization = false then .rejected
  else
    match s.find p with
    | some a => a.check isEquality v
    | none =>
      match s.find generalLevel with
      | some a => a.check isEquality v
      | none => .outOfRange

/-- The abilities of `WeightedLeastSquares` (src/scheme/WeightedLeastSquares.cpp, 21-23). -/
def wls : SchemeAbilities := ⟨2, true, [(0, ⟨true, [.l2]⟩), (1, ⟨false, [.l2]⟩)]⟩

/-- The abilities of `HierarchicalLeastSquares` (src/scheme/HierarchicalLeastSquares.cpp, 21-22). -/
def hls : SchemeAbilities := ⟨generalLevel, false, [(generalLevel, ⟨true, [.l2]⟩)]⟩

end Verif.SA
