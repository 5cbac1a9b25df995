import Verif.Model.Outcome
import Verif.Model.BasicLinearConstraint
/-!
# Outputs and their selection

Model of `tvm::graph::abstract::Outputs` (include/tvm/graph/abstract/Outputs.h), of the macros that extend enumerations (include/tvm/internal/enums.h, lines 133-167) and of
`OutputSelector` (include/tvm/graph/abstract/OutputSelector.h). A class that derives from `Outputs` is the list of the classes of its line of inheritance, from itself down to `Outputs`
(the empty list). The type of an enumeration is the length of the line of the class that declares it (0 is `Outputs::Output_`). What is computed at compile time by the templates is
computed here on lists. The members of `SelectorMembers` exist once in an object, in the lowest selector.

Simplified: a class calls each macro at most once (it would not compile otherwise); `OutputSelector<T, Base>` is modelled for `T` the class itself or `Base`.
-/
set_option autoImplicit false

namespace Verif.Outp
open Verif

/-- How a class derives from its base: directly, through `OutputSelector<Base>`, through `OutputSelector<Self, Base>` (OutputSelector.h, line 78) -/
inductive Sel where
  | direct
  | base
  | self
  deriving DecidableEq

/-- A class: the names given to `SET_OUTPUTS` (none when it is not called), the values given to `DISABLE_OUTPUTS` (`some []` for `CLEAR_DISABLED_OUTPUTS`), its base -/
structure Layer where
  outs : List String
  dis : Option (List Int)
  sel : Sel

abbrev Cls := List Layer

/-- `OutputBase`: the last class of the line that called `SET_OUTPUTS` (enums.h, line 151; Outputs.h, line 52) -/
def base : Cls → Cls
  | [] => []
  | L :: B => if L.outs = [] then base B else L :: B

/-- `OutputParent` (enums.h, line 141; Outputs.h, line 49) -/
def parent : Cls → Cls
  | [] => []
  | L :: B => if L.outs = [] then parent B else base B

/-- `OutputSize` (enums.h, line 147; Outputs.h, line 46) -/
def size : Cls → Nat
  | [] => 0
  | L :: B => size B + L.outs.length

/-- The type `Output_` of a class (enums.h, line 136) -/
def enumT : Cls → Nat
  | [] => 0
  | L :: B => if L.outs = [] then enumT B else B.length + 1

/-- The value of the output number `j` declared by the class, which follows those of the parent (enums.h, lines 135-136) -/
def value (C : Cls) (j : Nat) : Nat := size (parent C) + j

/-- The scan of the names by `OutputName` (enums.h, lines 133 and 149-150): `first` is the value of the first of them. -/
def nameScan (first : Nat) (v : Int) : List String → String
  | [] => "INVALID"
  | n :: l => if v = first then n else nameScan (first + 1) v l

/-- `OutputName(v)` for `v` of the type `E`: the overload of the class that declares the type (enums.h, lines 148-150; Outputs.h, line 58) -/
def name : Cls → Nat → Int → String
  | [], _, _ => "INVALID"
  | L :: B, E, v => if L.outs ≠ [] ∧ E = B.length + 1 then nameScan (value (L :: B) 0) v L.outs else name B E v

theorem base_le (C : Cls) : (base C).length ≤ C.length := by
  induction C with
  | nil => exact Nat.le_refl _
  | cons L B ih => unfold base; split <;> simp; omega

theorem parent_lt (C : Cls) (h : (parent C).length ≠ (base C).length) : (parent C).length < C.length := by
  induction C with
  | nil => exact absurd rfl h
  | cons L B ih =>
    have hb := base_le B
    by_cases h0 : L.outs = []
    · have e1 : parent (L :: B) = parent B := by simp [parent, h0]
      have e2 : base (L :: B) = base B := by simp [base, h0]
      rw [e1, e2] at h
      rw [e1, List.length_cons]
      exact Nat.lt_succ_of_lt (ih h)
    · have e1 : parent (L :: B) = base B := by simp [parent, h0]
      rw [e1, List.length_cons]
      exact Nat.lt_succ_of_le hb

/-- `is_valid_output` (Outputs.h, lines 124-133) -/
def isValid (C : Cls) (E : Nat) : Bool :=
  decide (enumT C = E) || (if _h : (parent C).length ≠ (base C).length then isValid (parent C) E else false)
termination_by C.length
decreasing_by exact parent_lt C _h

/-- `isOutputStaticallyEnabled` (enums.h, lines 154-164; Outputs.h, line 81): virtual, so the last definition of the line -/
def static : Cls → Int → Bool
  | [], _ => true
  | L :: B, v =>
    match L.dis with
    | some l => decide (v ∉ l)
    | none => static B v

/-- The members of `SelectorMembers` (OutputSelector.h, lines 22-29) -/
structure Obj where
  dyn : List Bool
  locked : Bool

/-- `OutputProvider` of the closest selector of the line, in which the calls of the class are found -/
def provider : Cls → Option Cls
  | [] => none
  | L :: B =>
    match L.sel with
    | .direct => provider B
    | .base => some B
    | .self => some (L :: B)

/-- `vector::resize(n, true)` -/
def resize (l : List Bool) (n : Nat) : List Bool := l.take n ++ List.replicate (n - l.length) true

/-- The constructor of the selector of a class, after those of its base (OutputSelector.h, lines 82-87) -/
def enter (L : Layer) (B : Cls) (o : Obj) : Obj :=
  match L.sel with
  | .direct => o
  | .base => { o with dyn := resize o.dyn (size B) }
  | .self => { o with dyn := resize o.dyn (size (L :: B)) }

/-- `dynamicallyEnabled_[static_cast<size_t>(e)] = x` -/
def assign (o : Obj) (v : Int) (x : Bool) : Outcome Obj Unit :=
  if 0 ≤ v ∧ v < o.dyn.length then .ok { o with dyn := o.dyn.set v.toNat x } () else .ub

/-- `disableOutput(e)` called in the class `T`, whose closest selector has the provider `P`, for `e` of value `v` in the type `E` (OutputSelector.h, lines 100-110) -/
def disable (P : Cls) (E : Nat) (v : Int) (o : Obj) : Outcome Obj Unit :=
  if isValid P E = false then .throw o
  else if o.locked = false then assign o v false
  else .throw o

/-- `enableOutput(e)`; `C` is the class of the object, or the one whose constructor runs (OutputSelector.h, lines 121-134) -/
def enable (C P : Cls) (E : Nat) (v : Int) (o : Obj) : Outcome Obj Unit :=
  if isValid P E = false then .throw o
  else if static C v = false then .throw o
  else if o.locked = false then assign o v true
  else .throw o

/-- The versions with several arguments: one call after the other (OutputSelector.h, lines 112-118 and 136-142) -/
def each (f : Nat → Int → Obj → Outcome Obj Unit) : List (Nat × Int) → Obj → Outcome Obj Unit
  | [], o => .ok o ()
  | a :: l, o =>
    match f a.1 a.2 o with
    | .ok o' _ => each f l o'
    | .throw o' => .throw o'
    | .ub => .ub

/-- `isOutputCustomEnabled` (OutputSelector.h, lines 145-150; Outputs.h, line 88 without a selector) -/
def custom (C : Cls) (o : Obj) (v : Int) : Outcome Unit Bool :=
  match provider C with
  | none => .ok () true
  | some _ => if v < 0 ∨ o.dyn.length ≤ v then .throw () else .ok () (o.dyn.getD v.toNat true)

/-- `isOutputEnabled` (Outputs.h, line 72) -/
def isEnabled (C : Cls) (o : Obj) (v : Int) : Outcome Unit Bool := if static C v = true then custom C o v else .ok () false

/-- `lock` and `unlock` (OutputSelector.h, lines 90-93) -/
def setLock (o : Obj) (b : Bool) : Obj := { o with locked := b }

/-- The line of `Constraint` (Constraint.h, lines 49-53; FirstOrderProvider.h, line 45) -/
def constraintCls : Cls := [⟨["L", "U", "E"], none, .self⟩, ⟨["Value", "Jacobian"], none, .direct⟩]

/-- The body of the constructor of `Constraint` for the outputs (Constraint.cpp, lines 27-32) -/
def constraintBody (ct : BLC.CType) (cr : BLC.Rhs) (o : Obj) : Outcome Obj Unit :=
  each (disable constraintCls) ((if BLC.useL ct cr then [] else [(2, (value constraintCls 0 : Int))]) ++ (if BLC.useU ct cr then [] else [(2, (value constraintCls 1 : Int))]) ++
    (if BLC.useE ct cr then [] else [(2, (value constraintCls 2 : Int))])) o

end Verif.Outp
