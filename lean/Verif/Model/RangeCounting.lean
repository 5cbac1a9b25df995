import Verif.Model.Outcome
import Verif.Model.Range
/-!
# Model of `tvm::internal::RangeCounting`
(include/tvm/internal/RangeCounting.h and src/internal/RangeCounting.cpp)

The `std::list<Limit>` is a `List Limit`; an iterator into it is a zipper: the reversed list of the
elements before the iterator and the list of the elements from it on.
-/
set_option autoImplicit false

namespace Verif.RC
open Verif

/-- `RangeCounting::Limit::Type` (RangeCounting.h, lines 60-65) -/
inductive LType where
  | lower | cut | upper
deriving Repr, DecidableEq

/-- Numerical value of the enum (RangeCounting.h, lines 62-64) -/
def LType.val : LType → Int
  | .lower => -1
  | .cut => 0
  | .upper => 1

/-- `RangeCounting::Limit` (RangeCounting.h, lines 58-83); equality is `operator==` (line 72) -/
structure Limit where
  i : Int
  t : LType
deriving Repr, DecidableEq

/-- `Limit::operator<=` (RangeCounting.h, line 74) -/
def Limit.le (a b : Limit) : Bool :=
  decide (a.i < b.i) || (decide (a.i = b.i) && decide (a.t.val ≤ b.t.val))

/-- `Limit::operator<` (RangeCounting.h, line 73) -/
def Limit.lt (a b : Limit) : Bool :=
  decide (a.i < b.i) || (decide (a.i = b.i) && decide (a.t.val < b.t.val))

/-- Members of `RangeCounting` (RangeCounting.h, lines 137-141) -/
structure State where
  limits : List Limit := []
  recompute : Bool := false
  recomputeSplit : Bool := false
  intervals : List Range := []
deriving Repr, DecidableEq

/-- Default constructed object. -/
def State.init : State := {}

/-- `RangeCounting::moveToFirstAfter` (RangeCounting.cpp, lines 170-183). `none` is the exception of
line 177. The iterator is the zipper `(pre, post)`; `hit` is the local variable of line 172. -/
def moveToFirstAfter (val : Limit) (depthCut : Int) :
    List Limit → List Limit → Int → Bool → Option (List Limit × List Limit × Int × Bool)
  | pre, [], depth, hit => some (pre, [], depth, hit)
  | pre, x :: post, depth, hit =>
    if x.le val then
      let depth := depth - x.t.val
      if depth < depthCut then none
      else moveToFirstAfter val depthCut (x :: pre) post depth (if depth = depthCut then true else hit)
    else some (pre, x :: post, depth, hit)

/-- `RangeCounting::insert` for a `Limit::Lower` (RangeCounting.cpp, lines 187-226). `none` is the
dereferencing of the end iterator (undefined behaviour, line 189) or a failing assertion (line 191). The returned zipper corresponds to
the iterator upon return. -/
def insertLower (i : Int) (pre post : List Limit) (depth : Int) :
    Option (List Limit × List Limit × Int) :=
  match post with
  | [] => none
  | x :: post' =>
    if i = x.i then
      match x.t, post' with
      | .cut, [] => some (⟨i, .lower⟩ :: pre, x :: [], depth + 1)
      | .cut, n :: post'' =>
        if n = ⟨i, .upper⟩ then
          if depth = 0 then some (pre, post'', depth)
          else some (x :: pre, post'', depth)
        else some (⟨i, .lower⟩ :: pre, x :: n :: post'', depth + 1)
      | .lower, _ => none -- assertion of line 191
      | .upper, _ =>
        if depth = 0 then some (pre, post', depth)
        else some (⟨x.i, .cut⟩ :: pre, post', depth)
    else some (⟨i, .lower⟩ :: pre, x :: post', depth + 1)

/-- `RangeCounting::insert` for a `Limit::Upper` (RangeCounting.cpp, lines 227-268). `none` is
`std::prev` of the begin iterator (undefined behaviour, line 231) or a failing assertion (line 232). -/
def insertUpper (i : Int) (pre post : List Limit) (depth : Int) :
    Option (List Limit × List Limit × Int) :=
  match pre with
  | [] => none
  | p :: pre' =>
    if i = p.i then
      match p.t, pre' with
      | .cut, [] => some (⟨i, .upper⟩ :: p :: [], post, depth - 1)
      | .cut, q :: pre'' =>
        if q = ⟨i, .lower⟩ then
          if depth = 0 then some (pre'', post, depth - 1)
          else some (p :: pre'', post, depth - 1)
        else some (⟨i, .upper⟩ :: p :: q :: pre'', post, depth - 1)
      | .upper, _ => none -- assertion of line 232
      | .lower, _ =>
        if depth = 1 then some (pre', post, depth - 1)
        else some (⟨p.i, .cut⟩ :: pre', post, depth - 1)
    else some (⟨i, .upper⟩ :: p :: pre', post, depth - 1)

/-- `RangeCounting::recompute` (RangeCounting.cpp, lines 271-275) -/
def State.setRecompute (s : State) (change : Bool) : State :=
  { s with recompute := s.recompute || change }

/-- `RangeCounting::add` (RangeCounting.cpp, lines 5-40). -/
def State.add (s : State) (r : Range) : Outcome State Bool :=
  if r.dim = 0 then .ok s false
  else
    let s := { s with recomputeSplit := true }
    if s.limits = [] then
      .ok (State.setRecompute { s with limits := [⟨r.start, .lower⟩, ⟨r.stop, .upper⟩] } true) true
    else
      match moveToFirstAfter ⟨r.start, .lower⟩ 0 [] s.limits 0 false with
      | none => .throw s
      | some (pre, [], _, _) =>
        .ok (State.setRecompute { s with limits := pre.reverse ++ [⟨r.start, .lower⟩, ⟨r.stop, .upper⟩] } true) true
      | some (pre, x :: post, depth, _) =>
        match insertLower r.start pre (x :: post) depth with
        | none => .ub
        | some (pre, post, depth) =>
          let change := decide (depth = 1)
          match moveToFirstAfter ⟨r.stop, .cut⟩ 1 pre post depth false with
          -- the limit `l` was already inserted when the exception is thrown
          | none => .throw { s with limits := pre.reverse ++ post }
          | some (pre, post, depth, hit) =>
            let change := hit || change
            match insertUpper r.stop pre post depth with
            | none => .ub
            | some (pre, post, _) =>
              .ok (State.setRecompute { s with limits := pre.reverse ++ post } change) change

/-- Last loop of `RangeCounting::remove` (RangeCounting.cpp, lines 76-85). -/
def dropCuts : Int → List Limit → List Limit
  | _, [] => []
  | depth, x :: l =>
    let depth := depth - x.t.val
    if depth = 0 && x.t = .cut then dropCuts depth l
    else x :: dropCuts depth l

/-- `RangeCounting::remove` (RangeCounting.cpp, lines 42-88). The two iterators `it1` and `it` (lines
66-73) are the two zippers obtained from `moveToFirstAfter`; the elements between them are `mid`.
Inserting at `it1` only touches elements before `it1`, inserting at `it` only elements from `it` on. -/
def State.remove (s : State) (r : Range) : Outcome State Bool :=
  if r.dim = 0 then .ok s false
  else
    match s.limits.head?, s.limits.getLast? with
    | some front, some back =>
      if r.start < front.i ∨ r.start ≥ back.i ∨ r.stop ≤ front.i ∨ r.stop > back.i then .throw s
      else
        let s := { s with recomputeSplit := true }
        match moveToFirstAfter ⟨r.start, .cut⟩ 0 [] s.limits 0 false with
        | none => .throw s
        | some (pre, rest, depth, _) =>
          if depth = 0 then .throw s
          else
            let change := decide (depth = 1)
            match moveToFirstAfter ⟨r.stop, .lower⟩ 1 [] rest depth false with
            | none => .throw s
            | some (midRev, post, depth2, hit) =>
              let change := hit || change
              match insertUpper r.start pre [] depth with
              | none => .ub
              | some (pre, _, _) =>
                match insertLower r.stop (midRev ++ pre) post (depth2 - 1) with
                | none => .ub
                | some (pre, post, _) =>
                  .ok (State.setRecompute { s with limits := dropCuts 0 (pre.reverse ++ post) } change) change
    | _, _ => .throw s

/-- The lambda `next` of `RangeCounting::ranges` (RangeCounting.cpp, lines 107-114): skips the limits
equal to `v`, updating the depth. -/
def skipEq (v : Limit) : List Limit → Int → List Limit × Int
  | [], depth => ([], depth)
  | x :: l, depth => if x = v then skipEq v l (depth - x.t.val) else (x :: l, depth)

theorem skipEq_length (v : Limit) : ∀ l d, (skipEq v l d).1.length ≤ l.length
  | [], d => by simp [skipEq]
  | x :: l, d => by
    unfold skipEq; split
    · have := skipEq_length v l (d - x.t.val); simp; omega
    · simp

/-- Loop of `RangeCounting::ranges(true)` (RangeCounting.cpp, lines 118-132). `s` is `*s`, `l` is the
list from the iterator `it` on. -/
def splitLoop (s : Limit) : List Limit → Int → List Range
  | [], _ => []
  | it :: l, depth =>
    let out := if s.i ≠ it.i then [⟨s.i, it.i - s.i⟩] else []
    match _h : skipEq it l (depth - it.t.val) with
    | ([], _) => out
    | (y :: l', d) =>
      if d = 0 then
        out ++ splitLoop y (skipEq y l' (d - y.t.val)).1 (skipEq y l' (d - y.t.val)).2
      else out ++ splitLoop it (y :: l') d
termination_by l => l.length
decreasing_by
  · have h1 := skipEq_length it l (depth - it.t.val)
    have h2 := skipEq_length y l' (d - y.t.val)
    rw [_h] at h1
    simp only [List.length_cons] at h1 ⊢; omega
  · have h1 := skipEq_length it l (depth - it.t.val)
    rw [_h] at h1
    simp only [List.length_cons] at h1 ⊢; omega

/-- Computation of `intervals_` with split (RangeCounting.cpp, lines 107-132). -/
def splitRanges : List Limit → List Range
  | [] => []
  | s :: l =>
    let n := skipEq s l (0 - s.t.val)
    splitLoop s n.1 n.2

/-- Loop of `RangeCounting::ranges(false)` (RangeCounting.cpp, lines 138-147). `s` is `*s`; the
`none` is `s` being the end iterator. -/
def mergeLoop : Option Limit → List Limit → Int → List Range
  | _, [], _ => []
  | s, x :: l, depth =>
    let depth := depth - x.t.val
    if depth = 0 then
      match s with
      | some s => ⟨s.i, x.i - s.i⟩ :: mergeLoop l.head? l depth
      | none => mergeLoop l.head? l depth -- not reachable: `s` is at or before `x`
    else mergeLoop s l depth

/-- Computation of `intervals_` without split (RangeCounting.cpp, lines 138-147). -/
def mergedRanges (l : List Limit) : List Range := mergeLoop l.head? l 0

/-- `RangeCounting::ranges` (RangeCounting.cpp, lines 90-153), with its lazy evaluation: returns the
new state (mutable members) and the ranges. -/
def State.ranges (s : State) (split : Bool) : State × List Range :=
  if !s.recompute && !s.recomputeSplit then (s, s.intervals)
  else if s.limits = [] then
    ({ s with intervals := [], recompute := false, recomputeSplit := false }, [])
  else if split then
    let v := splitRanges s.limits
    ({ s with intervals := v, recompute := true, recomputeSplit := false }, v)
  else
    let v := mergedRanges s.limits
    ({ s with intervals := v, recompute := false, recomputeSplit := true }, v)

/-- `RangeCounting::maxCount` (RangeCounting.cpp, lines 157-168) -/
def maxCountLoop : List Limit → Int → Int → Int
  | [], _, m => m
  | x :: l, depth, m =>
    let depth := depth - x.t.val
    maxCountLoop l depth (if depth > m then depth else m)

def State.maxCount (s : State) : Int := maxCountLoop s.limits 0 0

/-- `RangeCounting::empty` (RangeCounting.h, line 94) -/
def State.empty (s : State) : Bool := s.limits.length == 0

end Verif.RC
