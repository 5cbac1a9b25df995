import Verif.Model.AssignmentUpdate
import Mathlib.Algebra.Field.Rat
/-!
# C90 - an updated assignment is the assignment one would build now
-/
set_option autoImplicit false
set_option linter.unusedSectionVars false

namespace Verif.C90
open Verif Verif.CA Verif.AU
open Verif.AS hiding addVec addConst addMat addZero addMatSub1 addVecSub addParts addAssignments create addSide addSideD addCell
  addBounds buildBounds addBound

section
variable {K : Type}

/-! ## Specification -/

/-- Two targets that differ only by what an update can change: the first row and the buffers -/
def Same (G G' : Tgt) : Prop := G'.T.type = G.T.type ∧ G'.T.rhs = G.T.rhs ∧ G'.T.size = G.T.size

/-- The life of an assignment: target, variables the columns follow (`none` after an update of the mapping that threw), assignment -/
inductive Life [Neg K] (big : K) (S : Src) (fl : Flags) (dim : Nat → Nat) : Tgt → Option Vars → Asg K → Prop where
  | create (G : Tgt) (V : Vars) (a : Asg K) : V.dim = dim → create big S G V fl = some a → Life big S fl dim G (some V) a
  | move (G : Tgt) (V : Option Vars) (a : Asg K) (s : Nat) : Life big S fl dim G V a → Life big S fl dim (G.move s) V a
  | change2 (G : Tgt) (V : Option Vars) (a : Asg K) (A b : Nat) : Life big S fl dim G V a → Life big S fl dim (G.change2 A b) V a
  | change3 (G : Tgt) (V : Option Vars) (a : Asg K) (A l u : Nat) : Life big S fl dim G V a → Life big S fl dim (G.change3 A l u) V a
  | changeB (G : Tgt) (V : Option Vars) (a : Asg K) (l u : Nat) : Life big S fl dim G V a → Life big S fl dim (G.changeB l u) V a
  | target (G : Tgt) (V : Option Vars) (a a' : Asg K) : Life big S fl dim G V a → onUpdatedTarget G a = some a' →
      Life big S fl dim G V a'
  | mapping (G : Tgt) (V : Option Vars) (V' : Vars) (now : Bool) (a a' : Asg K) : Life big S fl dim G V a → V'.dim = dim →
      onUpdatedMapping V' G now a = .ok a' () → Life big S fl dim G (some V') a'
  | mappingThrow (G : Tgt) (V : Option Vars) (V' : Vars) (now : Bool) (a a' : Asg K) : Life big S fl dim G V a → V'.dim = dim →
      onUpdatedMapping V' G now a = .throw a' → Life big S fl dim G none a'

/-! ## Redirecting -/

/-- A matrix assignment on another mapping, its destination left as it is -/
def MA.col (V : Vars) (a : MA) : MA := { a with colRange := (V.col a.x, V.dim a.x) }

/-- A matrix assignment sent to another target with another mapping -/
def MA.re (G : Tgt) (V : Vars) (a : MA) : MA := { a with colRange := (V.col a.x, V.dim a.x), dst := G.mat a.M (V.col a.x, V.dim a.x) }

/-- A vector assignment sent to another target -/
def VA.re (G : Tgt) (a : VA K) : VA K :=
  { a with dst := match a.v with | some v => G.vec v | none => a.dst }

/-- An assignment sent to another target with another mapping -/
def Asg.re (G : Tgt) (V : Vars) (a : Asg K) : Asg K :=
  ⟨a.mat.map (MA.re G V), a.matSub.map (MA.re G V), a.vec.map (VA.re G), a.vecSub.map (VA.re G)⟩

theorem Asg.re_app (G : Tgt) (V : Vars) (a b : Asg K) : Asg.re G V (a.app b) = (Asg.re G V a).app (Asg.re G V b) := by
  simp [Asg.re, Asg.app]

theorem re_addVec (S : Src) {G G' : Tgt} (h : Same G G') (fl : Flags) (A : AssignType) (f : RhsFun) (v : VecFun) (flip : Bool) :
    (addVec S G fl A f v flip : List (VA K)).map (VA.re G') = addVec S G' fl A f v flip := by
  unfold addVec
  rw [h.2.1]
  by_cases h1 : S.rhs ≠ .zero
  · rw [if_pos h1, if_pos h1]; rfl
  · rw [if_neg h1, if_neg h1]
    by_cases h2 : G.T.rhs ≠ .zero
    · rw [if_pos h2, if_pos h2]; rfl
    · rw [if_neg h2, if_neg h2]; rfl

theorem re_addVecSub (S : Src) {G G' : Tgt} (h : Same G G') (fl : Flags) (i : SubInfo) (v : VecFun) (x : Nat) (flip : Bool) :
    (addVecSub S G fl i v x flip : List (VA K)).map (VA.re G') = addVecSub S G' fl i v x flip := by
  unfold addVecSub
  rw [h.2.1]
  by_cases h1 : i.useB = true
  · rw [if_pos h1, if_pos h1]
    cases S.prop x <;> rfl
  · rw [if_neg h1, if_neg h1]; rfl

theorem re_addMatSub1 (S : Src) {G G' : Tgt} (V V' : Vars) (fl : Flags) (x : Nat) (M : MatFun) (flip : Bool) (y : Nat) :
    MA.re G' V' (addMatSub1 S G V fl x M flip y) = addMatSub1 S G' V' fl x M flip y := by
  unfold addMatSub1
  cases S.prop x <;> rfl

theorem re_addParts (S : Src) {G G' : Tgt} (h : Same G G') (V V' : Vars) (hV : V'.dim = V.dim) (fl : Flags) (M : MatFun) (v1 : VecFun)
    (v2 : Option VecFun) (flip : Bool) (l : List Nat) :
    Asg.re G' V' (addParts S G V fl M v1 v2 flip l : Asg K) = addParts S G' V' fl M v1 v2 flip l := by
  induction l with
  | nil => rfl
  | cons x l ih =>
    unfold addParts
    rw [hV]
    by_cases h0 : V.dim x = 0
    · rw [if_pos h0, if_pos h0, ih]
    · rw [if_neg h0, if_neg h0]
      cases S.sub x with
      | none => simp only [Asg.re_app, ih]; rfl
      | some i =>
        simp only [Asg.re_app, ih]
        congr 1
        simp only [Asg.re, List.map_append, List.map_nil, List.map_map, re_addVecSub S h]
        congr 1
        · exact List.map_congr_left fun y _ => re_addMatSub1 S V V' fl x M flip y
        · congr 1
          cases v2 with
          | none => rfl
          | some v => exact re_addVecSub S h fl i v x flip

theorem re_addAssignments (S : Src) {G G' : Tgt} (h : Same G G') (V V' : Vars) (hV : V'.dim = V.dim) (fl : Flags) (M : MatFun)
    (f1 : RhsFun) (v1 : VecFun) (second : Option (RhsFun × VecFun)) (flip : Bool) :
    Asg.re G' V' (addAssignments S G V fl M f1 v1 second flip : Asg K) = addAssignments S G' V' fl M f1 v1 second flip := by
  unfold addAssignments
  rw [Asg.re_app, re_addParts S h V V' hV]
  congr 1
  simp only [Asg.re, List.map_append, List.map_nil, List.map_map, re_addVec S h]
  congr 1
  congr 1
  rcases second with _ | ⟨f2, v2⟩
  · rfl
  · exact re_addVec S h fl .copy f2 v2 flip

theorem re_build [Neg K] (big : K) (S : Src) {G G' : Tgt} (h : Same G G') (V V' : Vars) (hV : V'.dim = V.dim) (fl : Flags) :
    (build big S G V fl).map (Asg.re G' V') = build big S G' V' fl := by
  unfold build
  rw [h.1]
  have hc (d : K) (v : VecFun) : Asg.re G' V' (⟨[], [], addConst G fl .copy d v false, []⟩ : Asg K) =
      ⟨[], [], addConst G' fl .copy d v false, []⟩ := rfl
  cases S.type <;> cases G.T.type <;>
    simp [Asg.re_app, re_addAssignments S h V V' hV, hc]

theorem same_check (S : Src) {G G' : Tgt} (h : Same G G') : checkTarget S G'.T = checkTarget S G.T := by
  unfold checkTarget
  rw [h.1, h.2.1, h.2.2]

theorem re_create [Neg K] (big : K) (S : Src) {G G' : Tgt} (h : Same G G') (V V' : Vars) (hV : V'.dim = V.dim)
    (hm : mapped S V' = true) (fl : Flags) (a : Asg K) (ha : create big S G V fl = some a) :
    create big S G' V' fl = some (Asg.re G' V' a) := by
  unfold create at ha ⊢
  rw [same_check S h, hm]
  by_cases hc : (checkTarget S G.T && mapped S V) = true
  · rw [if_pos hc] at ha
    simp only [Bool.and_eq_true] at hc
    rw [hc.1, ← re_build big S h V V' hV fl, ha]
    rfl
  · rw [if_neg hc] at ha
    exact absurd ha (by simp)

/-! ## The variables an assignment follows -/

/-- All the variables of the matrix assignments are known. -/
def Known (V : Vars) (a : Asg K) : Prop := (∀ p ∈ a.mat, V.known p.x = true) ∧ ∀ p ∈ a.matSub, V.known p.x = true

theorem known_app (V : Vars) (a b : Asg K) : Known V (a.app b) ↔ Known V a ∧ Known V b := by
  simp only [Known, Asg.app, List.mem_append]
  constructor
  · rintro ⟨h1, h2⟩
    exact ⟨⟨fun p hp => h1 p (.inl hp), fun p hp => h2 p (.inl hp)⟩, fun p hp => h1 p (.inr hp), fun p hp => h2 p (.inr hp)⟩
  · rintro ⟨⟨h1, h2⟩, h3, h4⟩
    exact ⟨fun p hp => hp.elim (h1 p) (h3 p), fun p hp => hp.elim (h2 p) (h4 p)⟩

theorem x_addMatSub1 (S : Src) (G : Tgt) (V : Vars) (fl : Flags) (x : Nat) (M : MatFun) (flip : Bool) (y : Nat) :
    (addMatSub1 S G V fl x M flip y).x = y := by
  unfold addMatSub1
  cases S.prop x <;> rfl

/-- The variables of a part are known. -/
def partOk (S : Src) (V : Vars) (x : Nat) : Bool :=
  decide (V.dim x = 0) || (match S.sub x with | some i => i.vars.all V.known | none => V.known x)

theorem mapped_eq (S : Src) (V : Vars) : mapped S V = ((intoVars S).all V.known && S.parts.all (partOk S V)) := by
  unfold mapped
  congr 1

theorem known_addParts (S : Src) (G : Tgt) (V V' : Vars) (hV : V'.dim = V.dim) (fl : Flags) (M : MatFun) (v1 : VecFun)
    (v2 : Option VecFun) (flip : Bool) (l : List Nat) :
    Known V' (addParts S G V fl M v1 v2 flip l : Asg K) ↔
      l.all (partOk S V') = true := by
  induction l with
  | nil => simp [addParts, Known, Asg.nil]
  | cons x l ih =>
    unfold addParts
    rw [List.all_cons, Bool.and_eq_true]
    have h1 : partOk S V' x = (decide (V.dim x = 0) || (match S.sub x with | some i => i.vars.all V'.known | none => V'.known x)) := by
      rw [← hV]; rfl
    rw [h1]
    by_cases h0 : V.dim x = 0
    · rw [if_pos h0, ih]; simp [h0]
    · rw [if_neg h0]
      cases S.sub x with
      | none => simp only [known_app, ih]; simp [Known, addMat, h0]
      | some i => simp only [known_app, ih]; simp [Known, x_addMatSub1, h0]

theorem known_addAssignments (S : Src) (G : Tgt) (V V' : Vars) (hV : V'.dim = V.dim) (fl : Flags) (M : MatFun)
    (f1 : RhsFun) (v1 : VecFun) (second : Option (RhsFun × VecFun)) (flip : Bool) :
    Known V' (addAssignments S G V fl M f1 v1 second flip : Asg K) ↔ mapped S V' = true := by
  unfold addAssignments
  rw [mapped_eq, known_app, known_addParts S G V V' hV, Bool.and_eq_true]
  refine and_congr_left fun _ => ?_
  simp [Known, addZero]

theorem known_create [Neg K] (big : K) (S : Src) (G : Tgt) (V V' : Vars) (hV : V'.dim = V.dim) (fl : Flags) (a : Asg K)
    (ha : create big S G V fl = some a) : Known V' a ↔ mapped S V' = true := by
  unfold create at ha
  by_cases hc : (checkTarget S G.T && mapped S V) = true
  · rw [if_pos hc] at ha
    have hk (c : List (VA K)) : Known V' (⟨[], [], c, []⟩ : Asg K) := by simp [Known]
    unfold build at ha
    cases hs : S.type <;> cases ht : G.T.type <;> simp [hs, ht] at ha <;> subst ha <;>
      simp [known_app, known_addAssignments S G V V' hV, hk]
  · rw [if_neg hc] at ha
    exact absurd ha (by simp)

/-! ## The methods of the target are not null -/

/-- No vector assignment has a null method. -/
def Methods (a : Asg K) : Prop := (∀ p ∈ a.vec, p.v ≠ none) ∧ ∀ p ∈ a.vecSub, p.v ≠ none

theorem methods_app (a b : Asg K) : Methods (a.app b) ↔ Methods a ∧ Methods b := by
  simp only [Methods, Asg.app, List.mem_append]
  constructor
  · rintro ⟨h1, h2⟩
    exact ⟨⟨fun p hp => h1 p (.inl hp), fun p hp => h2 p (.inl hp)⟩, fun p hp => h1 p (.inr hp), fun p hp => h2 p (.inr hp)⟩
  · rintro ⟨⟨h1, h2⟩, h3, h4⟩
    exact ⟨fun p hp => hp.elim (h1 p) (h3 p), fun p hp => hp.elim (h2 p) (h4 p)⟩

theorem methods_addVec (S : Src) (G : Tgt) (fl : Flags) (A : AssignType) (f : RhsFun) (v : VecFun) (flip : Bool) :
    ∀ p ∈ (addVec S G fl A f v flip : List (VA K)), p.v ≠ none := by
  unfold addVec
  by_cases h1 : S.rhs ≠ .zero
  · rw [if_pos h1]; simp
  · rw [if_neg h1]
    by_cases h2 : G.T.rhs ≠ .zero
    · rw [if_pos h2]; simp
    · rw [if_neg h2]; simp

theorem methods_addVecSub (S : Src) (G : Tgt) (fl : Flags) (i : SubInfo) (v : VecFun) (x : Nat) (flip : Bool) :
    ∀ p ∈ (addVecSub S G fl i v x flip : List (VA K)), p.v ≠ none := by
  unfold addVecSub
  by_cases h1 : i.useB = true
  · rw [if_pos h1]; cases S.prop x <;> simp
  · rw [if_neg h1]; simp

theorem methods_addParts (S : Src) (G : Tgt) (V : Vars) (fl : Flags) (M : MatFun) (v1 : VecFun) (v2 : Option VecFun) (flip : Bool)
    (l : List Nat) : Methods (addParts S G V fl M v1 v2 flip l : Asg K) := by
  induction l with
  | nil => simp [addParts, Methods, Asg.nil]
  | cons x l ih =>
    unfold addParts
    by_cases h0 : V.dim x = 0
    · rw [if_pos h0]; exact ih
    · rw [if_neg h0]
      cases S.sub x with
      | none => simp only [methods_app]; exact ⟨by simp [Methods], ih⟩
      | some i =>
        simp only [methods_app]
        refine ⟨⟨by simp, fun p hp => ?_⟩, ih⟩
        rcases List.mem_append.1 hp with hp | hp
        · exact methods_addVecSub S G fl i v1 x flip p hp
        · cases v2 with
          | none => simp [addVecSub2] at hp
          | some v => exact methods_addVecSub S G fl i v x flip p hp

theorem methods_addAssignments (S : Src) (G : Tgt) (V : Vars) (fl : Flags) (M : MatFun) (f1 : RhsFun) (v1 : VecFun)
    (second : Option (RhsFun × VecFun)) (flip : Bool) : Methods (addAssignments S G V fl M f1 v1 second flip : Asg K) := by
  unfold addAssignments
  rw [methods_app]
  refine ⟨⟨fun p hp => ?_, by simp⟩, methods_addParts ..⟩
  rcases List.mem_append.1 hp with hp | hp
  · exact methods_addVec S G fl .copy f1 v1 flip p hp
  · rcases second with _ | ⟨f2, v2⟩
    · simp [addVec2] at hp
    · exact methods_addVec S G fl .copy f2 v2 flip p hp

theorem methods_create [Neg K] (big : K) (S : Src) (G : Tgt) (V : Vars) (fl : Flags) (a : Asg K)
    (ha : create big S G V fl = some a) : Methods a := by
  unfold create at ha
  by_cases hc : (checkTarget S G.T && mapped S V) = true
  · rw [if_pos hc] at ha
    have hk (d : K) (v : VecFun) : Methods (⟨[], [], addConst G fl .copy d v false, []⟩ : Asg K) := by simp [Methods, addConst]
    unfold build at ha
    cases hs : S.type <;> cases ht : G.T.type <;> simp [hs, ht] at ha <;> subst ha <;>
      simp [methods_app, methods_addAssignments, hk]
  · rw [if_neg hc] at ha
    exact absurd ha (by simp)

/-! ## The updates -/

theorem updateVecs_ok (G : Tgt) (l : List (VA K)) (h : ∀ p ∈ l, p.v ≠ none) : updateVecs G l = some (l.map (VA.re G)) := by
  induction l with
  | nil => rfl
  | cons a l ih =>
    have h1 : a.updateTarget G = some (VA.re G a) := by
      unfold AU.VA.updateTarget VA.re
      cases ha : a.v with
      | none => exact absurd ha (h a List.mem_cons_self)
      | some v => rfl
    unfold updateVecs
    rw [h1, ih fun p hp => h p (List.mem_cons_of_mem _ hp)]
    rfl

theorem updateVecs_null (G : Tgt) (l : List (VA K)) (h : ∃ p ∈ l, p.v = none) : updateVecs G l = none := by
  induction l with
  | nil => obtain ⟨p, hp, _⟩ := h; simp at hp
  | cons a l ih =>
    unfold updateVecs
    cases ha : a.v with
    | none => simp [AU.VA.updateTarget, ha]
    | some v =>
      obtain ⟨p, hp, hn⟩ := h
      rcases List.mem_cons.1 hp with rfl | hp
      · rw [ha] at hn; exact absurd hn (by simp)
      · simp [AU.VA.updateTarget, ha, ih ⟨p, hp, hn⟩]

theorem onUpdatedTarget_ok (G : Tgt) (a : Asg K) (h : Methods a) :
    onUpdatedTarget G a = some ⟨a.mat.map (MA.updateTarget G), a.matSub.map (MA.updateTarget G), a.vec.map (VA.re G), a.vecSub.map (VA.re G)⟩ := by
  unfold onUpdatedTarget
  rw [updateVecs_ok G _ h.1, updateVecs_ok G _ h.2]

/-- What an update of the mapping makes of a matrix assignment with a known variable -/
def upd (V : Vars) (G : Tgt) (now : Bool) (a : MA) : MA := if now then MA.re G V a else MA.col V a

theorem updateMapping_known (V : Vars) (G : Tgt) (now : Bool) (a : MA) (h : V.known a.x = true) :
    a.updateMapping V G now = some (upd V G now a) := by
  unfold AU.MA.updateMapping upd
  rw [if_pos h]
  by_cases hc : (V.col a.x, V.dim a.x) ≠ a.colRange
  · rw [if_pos hc]; cases now <;> rfl
  · rw [if_neg hc]
    have hc := not_not.1 hc
    have e : MA.col V a = a := by unfold MA.col; rw [hc]
    cases now
    · simp [e]
    · simp [AU.MA.updateTarget, MA.re, hc]

theorem updateMappings_ok (V : Vars) (G : Tgt) (now : Bool) (l : List MA) :
    (updateMappings V G now l).2 = true ↔ ∀ p ∈ l, V.known p.x = true := by
  induction l with
  | nil => simp [updateMappings]
  | cons a l ih =>
    unfold updateMappings
    by_cases h : V.known a.x = true
    · rw [updateMapping_known V G now a h]; simp [ih, h]
    · simp [AU.MA.updateMapping, h]

theorem updateMappings_map (V : Vars) (G : Tgt) (now : Bool) (l : List MA) (h : ∀ p ∈ l, V.known p.x = true) :
    (updateMappings V G now l).1 = l.map (upd V G now) := by
  induction l with
  | nil => rfl
  | cons a l ih =>
    unfold updateMappings
    rw [updateMapping_known V G now a (h a List.mem_cons_self)]
    simp [ih fun p hp => h p (List.mem_cons_of_mem _ hp)]

/-- An update, whatever its end, keeps what an assignment is: only the column range and the destination change. -/
theorem updateMappings_re (V : Vars) (G : Tgt) (now : Bool) (l : List MA) (G' : Tgt) (V' : Vars) :
    (updateMappings V G now l).1.map (MA.re G' V') = l.map (MA.re G' V') := by
  induction l with
  | nil => rfl
  | cons a l ih =>
    unfold updateMappings
    by_cases h : V.known a.x = true
    · rw [updateMapping_known V G now a h]
      simp only [List.map_cons, ih]
      congr 1
      unfold upd
      cases now <;> rfl
    · simp [AU.MA.updateMapping, h]

theorem updateMappings_x (V : Vars) (G : Tgt) (now : Bool) (l : List MA) :
    (updateMappings V G now l).1.map (·.x) = l.map (·.x) := by
  have h := congrArg (List.map (fun a : MA => a.x)) (updateMappings_re V G now l G V)
  simpa [Function.comp_def, MA.re] using h

theorem onUpdatedMapping_iff (V : Vars) (G : Tgt) (now : Bool) (a : Asg K) :
    (∃ a', onUpdatedMapping V G now a = .ok a' ()) ↔ Known V a := by
  unfold onUpdatedMapping Known
  rw [← updateMappings_ok V G now a.mat, ← updateMappings_ok V G now a.matSub]
  rcases h1 : updateMappings V G now a.mat with ⟨m, _ | _⟩
  · simp
  · rcases h2 : updateMappings V G now a.matSub with ⟨ms, _ | _⟩ <;> simp

theorem onUpdatedMapping_ok (V : Vars) (G : Tgt) (now : Bool) (a : Asg K) (h : Known V a) :
    onUpdatedMapping V G now a = .ok ⟨a.mat.map (upd V G now), a.matSub.map (upd V G now), a.vec, a.vecSub⟩ () := by
  have e1 := (updateMappings_ok V G now a.mat).2 h.1
  have e2 := (updateMappings_ok V G now a.matSub).2 h.2
  have f1 := updateMappings_map V G now a.mat h.1
  have f2 := updateMappings_map V G now a.matSub h.2
  unfold onUpdatedMapping
  rcases h1 : updateMappings V G now a.mat with ⟨m, b⟩
  rcases h2 : updateMappings V G now a.matSub with ⟨ms, b'⟩
  rw [h1] at e1 f1
  rw [h2] at e2 f2
  simp only at e1 e2 f1 f2
  subst e1 e2 f1 f2
  rfl

/-- The state after an update of the mapping, whatever its end -/
theorem onUpdatedMapping_state (V : Vars) (G : Tgt) (now : Bool) (a a' : Asg K)
    (h : onUpdatedMapping V G now a = .ok a' () ∨ onUpdatedMapping V G now a = .throw a') :
    (∀ G' V', a'.mat.map (MA.re G' V') = a.mat.map (MA.re G' V')) ∧ (∀ G' V', a'.matSub.map (MA.re G' V') = a.matSub.map (MA.re G' V')) ∧
      a'.vec = a.vec ∧ a'.vecSub = a.vecSub := by
  unfold onUpdatedMapping at h
  have r1 := updateMappings_re V G now a.mat
  have r2 := updateMappings_re V G now a.matSub
  rcases h1 : updateMappings V G now a.mat with ⟨m, _ | _⟩
  · rw [h1] at h r1
    simp at h
    subst h
    exact ⟨r1, fun _ _ => rfl, rfl, rfl⟩
  · rcases h2 : updateMappings V G now a.matSub with ⟨ms, _ | _⟩ <;>
    · rw [h1, h2] at h
      rw [h1] at r1
      rw [h2] at r2
      simp at h
      subst h
      exact ⟨r1, r2, rfl, rfl⟩

/-! ## Invariant -/

/-- What stays true in the life of an assignment -/
structure Inv [Neg K] (big : K) (S : Src) (fl : Flags) (dim : Nat → Nat) (G : Tgt) (V : Option Vars) (a : Asg K) : Prop where
  fresh : ∀ V', V'.dim = dim → mapped S V' = true → create big S G V' fl = some (Asg.re G V' a)
  known : ∀ V', V'.dim = dim → (Known V' a ↔ mapped S V' = true)
  methods : Methods a
  check : checkTarget S G.T = true
  cur : ∀ V', V = some V' → V'.dim = dim ∧ mapped S V' = true ∧ a.mat.map (MA.col V') = a.mat ∧ a.matSub.map (MA.col V') = a.matSub

theorem same_re {G G' : Tgt} (V : Vars) (a : Asg K) : Asg.re G' V (Asg.re G V a) = Asg.re G' V a := by
  have hv : (VA.re G' ∘ VA.re G : VA K → VA K) = VA.re G' := by
    funext p
    rcases p with ⟨_, _, _, _, _, _ | v⟩ <;> rfl
  have hm : (MA.re G' V ∘ MA.re G V) = MA.re G' V := rfl
  simp [Asg.re, hv, hm]

theorem Inv.tgt [Neg K] {big : K} {S : Src} {fl : Flags} {dim : Nat → Nat} {G G' : Tgt} {V : Option Vars} {a : Asg K}
    (I : Inv big S fl dim G V a) (h : Same G G') : Inv big S fl dim G' V a where
  fresh V' hd hm := by
    rw [re_create big S h V' V' rfl hm fl _ (I.fresh V' hd hm), same_re]
  known := I.known
  methods := I.methods
  check := by rw [same_check S h]; exact I.check
  cur := I.cur

theorem col_create [Neg K] (big : K) (S : Src) (G : Tgt) (V : Vars) (fl : Flags) (a : Asg K) (hm : mapped S V = true)
    (ha : create big S G V fl = some a) : Asg.re G V a = a := by
  have h := re_create big S (G := G) (G' := G) ⟨rfl, rfl, rfl⟩ V V rfl hm fl a ha
  rw [ha] at h
  exact (Option.some.inj h).symm

theorem list_col (G : Tgt) (V : Vars) (l : List MA) (e : l.map (MA.re G V) = l) : l.map (MA.col V) = l := by
  conv_lhs => rw [← e]
  rw [List.map_map]
  have h : MA.col V ∘ MA.re G V = MA.re G V := rfl
  rw [h, e]

theorem list_target (G : Tgt) (V : Vars) (l : List MA) (e : l.map (MA.col V) = l) : l.map (MA.updateTarget G) = l.map (MA.re G V) := by
  conv_lhs => rw [← e]
  rw [List.map_map]
  rfl

theorem list_col_target (G : Tgt) (V : Vars) (l : List MA) (e : l.map (MA.col V) = l) :
    (l.map (MA.updateTarget G)).map (MA.col V) = l.map (MA.updateTarget G) := by
  rw [list_target G V l e, List.map_map]
  rfl

theorem known_of_re (V V' : Vars) (G : Tgt) (a a' : Asg K) (h1 : a'.mat.map (MA.re G V') = a.mat.map (MA.re G V'))
    (h2 : a'.matSub.map (MA.re G V') = a.matSub.map (MA.re G V')) : Known V a' ↔ Known V a := by
  have k (l : List MA) : (∀ p ∈ l, V.known p.x = true) ↔ ∀ p ∈ l.map (MA.re G V'), V.known p.x = true := by
    simp [MA.re]
  unfold Known
  rw [k a'.mat, k a.mat, k a'.matSub, k a.matSub, h1, h2]

theorem re_re_vec (G G' : Tgt) (l : List (VA K)) : (l.map (VA.re G)).map (VA.re G') = l.map (VA.re G') := by
  rw [List.map_map]
  refine List.map_congr_left fun p _ => ?_
  rcases p with ⟨_, _, _, _, _, _ | v⟩ <;> rfl

theorem Life.inv [Neg K] {big : K} {S : Src} {fl : Flags} {dim : Nat → Nat} {G : Tgt} {V : Option Vars} {a : Asg K}
    (h : Life big S fl dim G V a) : Inv big S fl dim G V a := by
  induction h with
  | create G V a hd ha =>
    have hc : checkTarget S G.T = true ∧ mapped S V = true := by
      unfold AU.create at ha
      by_cases hc : (checkTarget S G.T && mapped S V) = true
      · simpa using hc
      · rw [if_neg hc] at ha; exact absurd ha (by simp)
    refine ⟨fun V' hd' hm => re_create big S ⟨rfl, rfl, rfl⟩ V V' (hd'.trans hd.symm) hm fl a ha,
      fun V' hd' => known_create big S G V V' (hd'.trans hd.symm) fl a ha, methods_create big S G V fl a ha, hc.1, ?_⟩
    rintro V' e
    cases e
    have h := col_create big S G V fl a hc.2 ha
    exact ⟨hd, hc.2, list_col G V _ (congrArg Asg.mat h), list_col G V _ (congrArg Asg.matSub h)⟩
  | move G V a s _ ih => exact ih.tgt ⟨rfl, rfl, rfl⟩
  | change2 G V a A b _ ih => exact ih.tgt ⟨rfl, rfl, rfl⟩
  | change3 G V a A l u _ ih => exact ih.tgt ⟨rfl, rfl, rfl⟩
  | changeB G V a l u _ ih => exact ih.tgt ⟨rfl, rfl, rfl⟩
  | target G V a a' _ ha ih =>
    rw [onUpdatedTarget_ok G a ih.methods] at ha
    have ha := (Option.some.inj ha).symm
    subst ha
    refine ⟨fun V' hd hm => ?_, fun V' hd => ?_, ?_, ih.check, fun V' e => ?_⟩
    · rw [ih.fresh V' hd hm]
      unfold Asg.re
      rw [re_re_vec, re_re_vec, List.map_map, List.map_map]
      rfl
    · rw [← ih.known V' hd]
      exact known_of_re V' V' G _ _ (by rw [List.map_map]; rfl) (by rw [List.map_map]; rfl)
    · have h := ih.methods
      unfold Methods at h ⊢
      simp only [List.mem_map, forall_exists_index, and_imp, forall_apply_eq_imp_iff₂]
      exact h
    · obtain ⟨h1, h2, h3, h4⟩ := ih.cur V' e
      exact ⟨h1, h2, list_col_target G V' _ h3, list_col_target G V' _ h4⟩
  | mapping G V V' now a a' _ hd ha ih =>
    have hk : Known V' a := (onUpdatedMapping_iff V' G now a).1 ⟨a', ha⟩
    have hm := (ih.known V' hd).1 hk
    obtain ⟨s1, s2, s3, s4⟩ := onUpdatedMapping_state V' G now a a' (.inl ha)
    refine ⟨fun W hd hm => ?_, fun W hd => ?_, ?_, ih.check, fun W e => ?_⟩
    · rw [ih.fresh W hd hm]; unfold Asg.re; rw [s1, s2, s3, s4]
    · rw [← ih.known W hd]; exact known_of_re W W G _ _ (s1 G W) (s2 G W)
    · have h := ih.methods
      unfold Methods at h ⊢
      rw [s3, s4]
      exact h
    · cases e
      rw [onUpdatedMapping_ok V' G now a hk] at ha
      have ha := (Outcome.ok.inj ha).1.symm
      subst ha
      have hc : MA.col V' ∘ upd V' G now = upd V' G now := by funext p; unfold upd; cases now <;> rfl
      exact ⟨hd, hm, by rw [List.map_map, hc], by rw [List.map_map, hc]⟩
  | mappingThrow G V V' now a a' _ hd ha ih =>
    obtain ⟨s1, s2, s3, s4⟩ := onUpdatedMapping_state V' G now a a' (.inr ha)
    refine ⟨fun W hd hm => ?_, fun W hd => ?_, ?_, ih.check, fun W e => by cases e⟩
    · rw [ih.fresh W hd hm]; unfold Asg.re; rw [s1, s2, s3, s4]
    · rw [← ih.known W hd]; exact known_of_re W W G _ _ (s1 G W) (s2 G W)
    · have h := ih.methods
      unfold Methods at h ⊢
      rw [s3, s4]
      exact h

/-! ## The property -/

/-- After any life, `onUpdatedTarget` gives the assignment one would build now, with the present range and buffers of the target, and
the variables of the last update of the mapping that did not throw. -/
theorem C90_update [Neg K] (big : K) (S : Src) (fl : Flags) (dim : Nat → Nat) (G : Tgt) (V : Vars) (a : Asg K)
    (h : Life big S fl dim G (some V) a) : ∃ a', onUpdatedTarget G a = some a' ∧ create big S G V fl = some a' := by
  have I := h.inv
  obtain ⟨h1, h2, h3, h4⟩ := I.cur V rfl
  refine ⟨_, onUpdatedTarget_ok G a I.methods, ?_⟩
  rw [I.fresh V h1 h2, list_target G V _ h3, list_target G V _ h4]
  rfl

/-- What `changeData` and the change of the start of the range mean: the blocks and segments the target gives afterwards are in the
given buffers, at the given rows, and in the same place otherwise. -/
theorem C90_data (G : Tgt) (A b l u s : Nat) (M : MatFun) (v : VecFun) (c : Nat × Nat) :
    ((G.change2 A b).mat M c).buf = A ∧ ((G.change3 A l u).mat M c).buf = A ∧ ((G.changeB l u).mat M c).buf = (G.mat M c).buf ∧
    ((G.move s).mat M c).buf = (G.mat M c).buf ∧
    ((G.change2 A b).vec v).buf = (if v = .l then G.l else if v = .u then G.u else b) ∧
    ((G.change3 A l u).vec v).buf = (if v = .l then l else if v = .u then u else G.b) ∧
    ((G.changeB l u).vec v).buf = (if v = .l then l else if v = .u then u else G.b) ∧
    ((G.move s).vec v).buf = (G.vec v).buf ∧
    (∀ G' ∈ [G.change2 A b, G.change3 A l u, G.changeB l u], (G'.mat M c).rows = (G.mat M c).rows ∧ (G'.vec v).seg = (G.vec v).seg) ∧
    ((G.move s).mat M c).rows.1 + G.T.start = (G.mat M c).rows.1 + s ∧ ((G.move s).mat M c).rows.2 = (G.mat M c).rows.2 ∧
    ((G.move s).vec v).seg.start + G.T.start = (G.vec v).seg.start + s ∧ ((G.move s).vec v).seg.len = (G.vec v).seg.len := by
  refine ⟨rfl, rfl, rfl, rfl, ?_, ?_, ?_, ?_, ?_, ?_, ?_, ?_, ?_⟩
  · cases v <;> rfl
  · cases v <;> rfl
  · cases v <;> rfl
  · cases v <;> rfl
  · intro G' hG
    simp only [List.mem_cons, List.not_mem_nil, or_false] at hG
    rcases hG with rfl | rfl | rfl
    · exact ⟨rfl, rfl⟩
    · exact ⟨rfl, rfl⟩
    · exact ⟨rfl, rfl⟩
  · cases M <;> simp only [Tgt.mat, Tgt.move, Target.rows] <;> omega
  · cases M <;> rfl
  · cases v <;> simp only [Tgt.vec, Tgt.move, Target.seg] <;> omega
  · cases v <;> rfl

/-- An update of the mapping that did not throw, then `onUpdatedTarget`: the assignment one would build now, even if former updates threw -/
theorem C90_remap [Neg K] (big : K) (S : Src) (fl : Flags) (dim : Nat → Nat) (G : Tgt) (V : Option Vars) (V' : Vars) (now : Bool)
    (a a' : Asg K) (h : Life big S fl dim G V a) (hd : V'.dim = dim) (ha : onUpdatedMapping V' G now a = .ok a' ()) :
    ∃ a'', onUpdatedTarget G a' = some a'' ∧ create big S G V' fl = some a'' :=
  C90_update big S fl dim G V' a' (.mapping G V V' now a a' h hd ha)

/-- The update of the mapping throws exactly when an assignment cannot be built with the new variables. -/
theorem C90_accept [Neg K] (big : K) (S : Src) (fl : Flags) (dim : Nat → Nat) (G : Tgt) (V : Option Vars) (V' : Vars) (now : Bool)
    (a : Asg K) (h : Life big S fl dim G V a) (hd : V'.dim = dim) :
    (∃ a', onUpdatedMapping V' G now a = .ok a' ()) ↔ ∃ c, create big S G V' fl = some c := by
  have I := h.inv
  rw [onUpdatedMapping_iff, I.known V' hd]
  constructor
  · exact fun hm => ⟨_, I.fresh V' hd hm⟩
  · rintro ⟨c, hc⟩
    unfold AU.create at hc
    by_cases hk : (checkTarget S G.T && mapped S V') = true
    · simp only [Bool.and_eq_true] at hk
      exact hk.2
    · rw [if_neg hk] at hc; exact absurd hc (by simp)

/-- `onUpdatedTarget` never calls through a null pointer, for assignments of constraints. -/
theorem C90_defined [Neg K] (big : K) (S : Src) (fl : Flags) (dim : Nat → Nat) (G : Tgt) (V : Option Vars) (a : Asg K)
    (h : Life big S fl dim G V a) : onUpdatedTarget G a ≠ none := by
  rw [onUpdatedTarget_ok G a h.inv.methods]
  simp

/-- With its flag, `onUpdatedMapping` alone gives the assignment one would build with the new variables. -/
theorem C90_now [Neg K] (big : K) (S : Src) (fl : Flags) (G : Tgt) (V V' : Vars) (a a' : Asg K) (hc : create big S G V fl = some a)
    (hd : V'.dim = V.dim) (ha : onUpdatedMapping V' G true a = .ok a' ()) : create big S G V' fl = some a' := by
  have hk : Known V' a := (onUpdatedMapping_iff V' G true a).1 ⟨a', ha⟩
  have L : Life big S fl V.dim G (some V) a := .create G V a rfl hc
  have hm := (L.inv.known V' hd).1 hk
  have hV := L.inv.cur V rfl
  have e := congrArg some (col_create big S G V fl a hV.2.1 hc)
  rw [onUpdatedMapping_ok V' G true a hk] at ha
  have ha := (Outcome.ok.inj ha).1.symm
  subst ha
  rw [L.inv.fresh V' hd hm]
  have h3 := congrArg Asg.vec (Option.some.inj e)
  have h4 := congrArg Asg.vecSub (Option.some.inj e)
  unfold Asg.re at h3 h4 ⊢
  simp only at h3 h4
  rw [h3, h4]
  rfl

/-- Without its flag, `onUpdatedMapping` changes nothing to what the assignment does, whether it throws or not. -/
theorem C90_pending [Field K] [LinearOrder K] (V V' : Vars) (G : Tgt) (a a' : Asg K)
    (ha : onUpdatedMapping V' G false a = .ok a' () ∨ onUpdatedMapping V' G false a = .throw a') (D : Data K) (m : Bufs K) :
    a'.run V D m = a.run V D m := by
  have k (l : List MA) : (updateMappings V' G false l).1.map (fun p => (p.op, p.dst.buf)) = l.map fun p => (p.op, p.dst.buf) := by
    induction l with
    | nil => rfl
    | cons p l ih =>
      unfold updateMappings
      by_cases h : V'.known p.x = true
      · rw [updateMapping_known V' G false p h]
        simp only [List.map_cons, ih]
        rfl
      · simp [AU.MA.updateMapping, h]
  have r (l l' : List MA) (h : l'.map (fun p => (p.op, p.dst.buf)) = l.map fun p => (p.op, p.dst.buf)) (m : Bufs K) :
      l'.foldl (fun m op => op.run V D m) m = l.foldl (fun m op => op.run V D m) m := by
    have e (l : List MA) (m : Bufs K) : l.foldl (fun m op => op.run V D m) m =
        (l.map fun p => (p.op, p.dst.buf)).foldl (fun m q => { m with A := fun i => if i = q.2 then q.1.run V D (m.A i) else m.A i }) m := by
      rw [List.foldl_map]
      rfl
    rw [e l', e l, h]
  have s : a'.mat.map (fun p => (p.op, p.dst.buf)) = a.mat.map (fun p => (p.op, p.dst.buf)) ∧
      a'.matSub.map (fun p => (p.op, p.dst.buf)) = a.matSub.map (fun p => (p.op, p.dst.buf)) ∧ a'.vec = a.vec ∧ a'.vecSub = a.vecSub := by
    unfold onUpdatedMapping at ha
    have r1 := k a.mat
    have r2 := k a.matSub
    rcases h1 : updateMappings V' G false a.mat with ⟨m, _ | _⟩
    · rw [h1] at ha r1
      simp at ha
      subst ha
      exact ⟨r1, rfl, rfl, rfl⟩
    · rcases h2 : updateMappings V' G false a.matSub with ⟨ms, _ | _⟩ <;>
      · rw [h1, h2] at ha
        rw [h1] at r1
        rw [h2] at r2
        simp at ha
        subst ha
        exact ⟨r1, r2, rfl, rfl⟩
  obtain ⟨s1, s2, s3, s4⟩ := s
  unfold AU.Asg.run
  rw [s3, s4, r (a.mat ++ a.matSub) (a'.mat ++ a'.matSub) (by rw [List.map_append, List.map_append, s1, s2])]

/-! ## What the assignments do -/

theorem ops_app (a b : Asg K) : (a.app b).ops = a.ops.app b.ops := by
  simp [Asg.ops, Asg.app, Ops.app]

theorem ops_addVec (S : Src) (G : Tgt) (fl : Flags) (A : AssignType) (f : RhsFun) (v : VecFun) (flip : Bool) :
    (addVec S G fl A f v flip : List (VA K)).map VA.op = AS.addVec S G.T fl A f (G.T.seg v) flip := by
  unfold addVec AS.addVec
  by_cases h1 : S.rhs ≠ .zero
  · rw [if_pos h1, if_pos h1]; rfl
  · rw [if_neg h1, if_neg h1]
    by_cases h2 : G.T.rhs ≠ .zero
    · rw [if_pos h2, if_pos h2]; rfl
    · rw [if_neg h2, if_neg h2]; rfl

theorem ops_addVecSub (S : Src) (G : Tgt) (fl : Flags) (i : SubInfo) (v : VecFun) (x : Nat) (flip : Bool) :
    (addVecSub S G fl i v x flip : List (VA K)).map VA.op = AS.addVecSub S G.T fl i (G.T.seg v) x flip := by
  unfold addVecSub AS.addVecSub
  by_cases h1 : i.useB = true
  · rw [if_pos h1, if_pos h1]; cases S.prop x <;> rfl
  · rw [if_neg h1, if_neg h1]; rfl

theorem ops_addMatSub1 (S : Src) (G : Tgt) (V : Vars) (fl : Flags) (x : Nat) (M : MatFun) (flip : Bool) (y : Nat) :
    (addMatSub1 S G V fl x M flip y).op = AS.addMatSub1 S G.T V fl x M flip y := by
  unfold addMatSub1 AS.addMatSub1
  cases S.prop x <;> rfl

theorem ops_addParts (S : Src) (G : Tgt) (V : Vars) (fl : Flags) (M : MatFun) (v1 : VecFun) (v2 : Option VecFun) (flip : Bool)
    (l : List Nat) : (addParts S G V fl M v1 v2 flip l : Asg K).ops = AS.addParts S G.T V fl M v1 v2 flip l := by
  induction l with
  | nil => rfl
  | cons x l ih =>
    unfold addParts AS.addParts
    by_cases h0 : V.dim x = 0
    · rw [if_pos h0, if_pos h0, ih]
    · rw [if_neg h0, if_neg h0]
      cases S.sub x with
      | none => simp only [ops_app, ih]; rfl
      | some i =>
        simp only [ops_app, ih]
        congr 1
        simp only [Asg.ops, List.map_append, List.map_nil, List.map_map, ops_addVecSub]
        congr 1
        · exact List.map_congr_left fun y _ => ops_addMatSub1 S G V fl x M flip y
        · congr 1
          cases v2 with
          | none => rfl
          | some v => exact ops_addVecSub S G fl i v x flip

theorem ops_addAssignments (S : Src) (G : Tgt) (V : Vars) (fl : Flags) (M : MatFun) (f1 : RhsFun) (v1 : VecFun)
    (second : Option (RhsFun × VecFun)) (flip : Bool) :
    (addAssignments S G V fl M f1 v1 second flip : Asg K).ops = AS.addAssignments S G.T V fl M f1 v1 second flip := by
  unfold addAssignments AS.addAssignments
  rw [ops_app, ops_addParts]
  congr 1
  simp only [Asg.ops, List.map_append, List.map_nil, List.map_map, ops_addVec]
  congr 1
  congr 1
  rcases second with _ | ⟨f2, v2⟩
  · rfl
  · exact ops_addVec S G fl .copy f2 v2 flip

/-- The compiled assignments of an assignment are those of the model of C37 to C43, and the constructor throws in the same cases. -/
theorem C90_build [Neg K] (big : K) (S : Src) (G : Tgt) (V : Vars) (fl : Flags) :
    (create big S G V fl).map Asg.ops = AS.create big S G.T V fl := by
  unfold create AS.create
  by_cases hc : (checkTarget S G.T && mapped S V) = true
  · rw [if_pos hc, if_pos hc]
    have hk (d : K) (v : VecFun) : (⟨[], [], addConst G fl .copy d v false, []⟩ : Asg K).ops =
      ⟨[], [], AS.addConst fl .copy d (G.T.seg v) false, []⟩ := rfl
    unfold build buildOps
    cases hs : S.type <;> cases ht : G.T.type <;> simp [ops_app, ops_addAssignments, hk]
  · rw [if_neg hc, if_neg hc]; rfl

theorem ops_addSide (S : Src) (G : Tgt) (A : AssignType) (f : Side K) (v : VecFun) (flip : Bool) :
    (addSide S G A f v flip).map VA.op = AS.addSide S G.T A f (G.T.seg v) flip := by
  cases f with
  | rhs f => exact ops_addVec S G boundFlags A f v flip
  | const c => rfl

theorem ops_addSideD (S : Src) (G : Tgt) (f : Side K) (x : Nat) (d : VDst) :
    (addSideD S G f x d).map VA.op = AS.addSideD S G.T f x d.seg := by
  cases f with
  | rhs f =>
    unfold addSideD AS.addSideD
    simp only
    by_cases h1 : S.rhs ≠ .zero
    · rw [if_pos h1, if_pos h1]; rfl
    · rw [if_neg h1, if_neg h1]
      by_cases h2 : G.T.rhs ≠ .zero
      · rw [if_pos h2, if_pos h2]; rfl
      · rw [if_neg h2, if_neg h2]; rfl
  | const c => rfl

theorem ops_addCell (A : AssignType) (c : Cell) (d : VDst) (v : Option VecFun) (flip : Bool) :
    (addCell A c d v flip : List (VA K)).map VA.op = AS.addCell A c d.seg flip := rfl

theorem ops_addBounds (S : Src) (G : Tgt) (x n : Nat) (p : BProp) (l u : Side K) (first : Bool) :
    (addBounds S G x n p l u first).map VA.op = AS.addBounds S G.T x n p l u first := by
  unfold addBounds AS.addBounds
  cases p <;> cases first <;> simp [ops_addSide, ops_addSideD, ops_addCell, tmp, Tgt.vec]

/-- The same for bounds -/
theorem C90_build_bounds [Field K] [LinearOrder K] (big : K) (S : Src) (G : Tgt) (x n : Nat) (p : BProp) (first : Bool) :
    (buildBounds big S G x n p first).ops = ⟨[], [], AS.buildBounds big S G.T x n p first, []⟩ := by
  unfold buildBounds AS.buildBounds
  cases S.type <;> simp [Asg.ops, ops_addBounds]

theorem re_addSide (S : Src) {G G' : Tgt} (h : Same G G') (A : AssignType) (f : Side K) (v : VecFun) (flip : Bool) :
    (addSide S G A f v flip).map (VA.re G') = addSide S G' A f v flip := by
  cases f with
  | rhs f => exact re_addVec S h boundFlags A f v flip
  | const c => rfl

theorem methods_addSide (S : Src) (G : Tgt) (A : AssignType) (f : Side K) (v : VecFun) (flip : Bool) :
    ∀ p ∈ addSide S G A f v flip, p.v ≠ none := by
  cases f with
  | rhs f => exact methods_addVec S G boundFlags A f v flip
  | const c => simp [addSide, addConst]

/-- Bounds with an identity or minus identity Jacobian: after a change of range or of buffers, `onUpdatedTarget` gives the bounds one
would build now, first or not. -/
theorem C90_bound [Neg K] (big : K) (S : Src) (G G' : Tgt) (x n : Nat) (p : BProp) (first : Bool) (h : Same G G')
    (hp : p ≠ .diagonal) : onUpdatedTarget G' (buildBounds big S G x n p first) = some (buildBounds big S G' x n p first) := by
  have hm (l u : Side K) : ∀ q ∈ addBounds S G x n p l u first, q.v ≠ none := by
    intro q hq
    unfold addBounds at hq
    cases p with
    | diagonal => exact absurd rfl hp
    | _ => cases first <;> simp only [List.mem_append, Bool.false_eq_true, if_false, if_true] at hq <;>
        rcases hq with hq | hq <;> exact methods_addSide S G _ _ _ _ q hq
  have hr (l u : Side K) : (addBounds S G x n p l u first).map (VA.re G') = addBounds S G' x n p l u first := by
    unfold addBounds
    cases p with
    | diagonal => exact absurd rfl hp
    | _ => cases first <;> simp [re_addSide S h]
  unfold buildBounds
  cases S.type <;>
  · simp only
    rw [onUpdatedTarget_ok G' _ ⟨hm _ _, by simp⟩]
    simp [hr]

/-- Bounds with a diagonal Jacobian that is neither: `onUpdatedTarget` always calls through a null pointer. -/
theorem C90_bound_false [Neg K] (big : K) (S : Src) (G G' : Tgt) (x n : Nat) (first : Bool) :
    onUpdatedTarget G' (buildBounds big S G x n .diagonal first) = none := by
  have hm (l u : Side K) : ∃ q ∈ addBounds S G x n .diagonal l u first, q.v = none := by
    refine ⟨⟨.copy, boundFlags.wt false, .none, .cell .tmp1, tmp .tmp3 n, none⟩, ?_, rfl⟩
    simp [addBounds, addCell]
  unfold onUpdatedTarget buildBounds
  cases S.type <;>
  · simp only
    rw [updateVecs_null G' _ (hm _ _)]

/-! ## The buffers -/

/-- The vectors a target of a type has -/
def hasCell (ty : CType) : Cell → Bool
  | .b => decide (ty ≠ .doubleSided)
  | .l => decide (ty = .doubleSided)
  | .u => decide (ty = .doubleSided)
  | _ => true

/-- The methods for the vectors a target of a type has -/
def hasVec (ty : CType) : VecFun → Prop
  | .l => ty = .doubleSided
  | .u => ty = .doubleSided
  | _ => ty ≠ .doubleSided

/-- A vector assignment of a target -/
structure AtV (G : Tgt) (a : VA K) : Prop where
  buf : a.dst.buf = G.buf a.dst.seg.cell
  has : hasCell G.T.type a.dst.seg.cell = true
  src : ∀ c, a.src = .cell c → ext c = false

/-- An assignment of a target -/
def At (G : Tgt) (a : Asg K) : Prop :=
  (∀ p ∈ a.mat, p.dst.buf = G.A) ∧ (∀ p ∈ a.matSub, p.dst.buf = G.A) ∧ (∀ p ∈ a.vec, AtV G p) ∧ ∀ p ∈ a.vecSub, AtV G p

theorem at_app (G : Tgt) (a b : Asg K) (ha : At G a) (hb : At G b) : At G (a.app b) := by
  obtain ⟨h1, h2, h3, h4⟩ := ha
  obtain ⟨k1, k2, k3, k4⟩ := hb
  unfold At Asg.app
  simp only [List.mem_append]
  exact ⟨fun p h => h.elim (h1 p) (k1 p), fun p h => h.elim (h2 p) (k2 p), fun p h => h.elim (h3 p) (k3 p),
    fun p h => h.elim (h4 p) (k4 p)⟩

theorem has_vec (G : Tgt) (v : VecFun) (h : hasVec G.T.type v) : hasCell G.T.type (G.T.seg v).cell = true := by
  cases v <;> simpa [hasVec, hasCell, Target.seg] using h

theorem at_addVec (S : Src) (G : Tgt) (fl : Flags) (A : AssignType) (f : RhsFun) (v : VecFun) (flip : Bool) (h : hasVec G.T.type v) :
    ∀ p ∈ (addVec S G fl A f v flip : List (VA K)), AtV G p := by
  intro p hp
  unfold addVec at hp
  by_cases h1 : S.rhs ≠ .zero
  · rw [if_pos h1] at hp
    rw [List.mem_singleton.1 hp]
    exact ⟨rfl, has_vec G v h, by simp⟩
  · rw [if_neg h1] at hp
    by_cases h2 : G.T.rhs ≠ .zero
    · rw [if_pos h2] at hp
      rw [List.mem_singleton.1 hp]
      exact ⟨rfl, has_vec G v h, by simp⟩
    · rw [if_neg h2] at hp; simp at hp

theorem at_addConst (G : Tgt) (fl : Flags) (A : AssignType) (d : K) (v : VecFun) (flip : Bool) (h : hasVec G.T.type v) :
    ∀ p ∈ addConst G fl A d v flip, AtV G p := by
  intro p hp
  rw [List.mem_singleton.1 hp]
  exact ⟨rfl, has_vec G v h, by simp⟩

theorem at_addVecSub (S : Src) (G : Tgt) (fl : Flags) (i : SubInfo) (v : VecFun) (x : Nat) (flip : Bool) (h : hasVec G.T.type v) :
    ∀ p ∈ (addVecSub S G fl i v x flip : List (VA K)), AtV G p := by
  intro p hp
  unfold addVecSub at hp
  by_cases h1 : i.useB = true
  · rw [if_pos h1] at hp
    cases hx : S.prop x <;> simp only [hx] at hp <;> rw [List.mem_singleton.1 hp] <;> exact ⟨rfl, has_vec G v h, by simp⟩
  · rw [if_neg h1] at hp; simp at hp

theorem at_addMatSub1 (S : Src) (G : Tgt) (V : Vars) (fl : Flags) (x : Nat) (M : MatFun) (flip : Bool) (y : Nat) :
    (addMatSub1 S G V fl x M flip y).dst.buf = G.A := by
  unfold addMatSub1
  cases S.prop x <;> rfl

theorem at_addParts (S : Src) (G : Tgt) (V : Vars) (fl : Flags) (M : MatFun) (v1 : VecFun) (v2 : Option VecFun) (flip : Bool)
    (h1 : hasVec G.T.type v1) (h2 : ∀ v, v2 = some v → hasVec G.T.type v) (l : List Nat) :
    At G (addParts S G V fl M v1 v2 flip l : Asg K) := by
  induction l with
  | nil => simp [addParts, At, Asg.nil]
  | cons x l ih =>
    unfold addParts
    by_cases h0 : V.dim x = 0
    · rw [if_pos h0]; exact ih
    · rw [if_neg h0]
      cases S.sub x with
      | none => exact at_app G _ _ ⟨by simp [addMat, Tgt.mat], by simp, by simp, by simp⟩ ih
      | some i =>
        refine at_app G _ _ ⟨by simp, by simp [at_addMatSub1], by simp, fun p hp => ?_⟩ ih
        rcases List.mem_append.1 hp with hp | hp
        · exact at_addVecSub S G fl i v1 x flip h1 p hp
        · cases v2 with
          | none => simp [addVecSub2] at hp
          | some v => exact at_addVecSub S G fl i v x flip (h2 v rfl) p hp

theorem at_addAssignments (S : Src) (G : Tgt) (V : Vars) (fl : Flags) (M : MatFun) (f1 : RhsFun) (v1 : VecFun)
    (second : Option (RhsFun × VecFun)) (flip : Bool) (h1 : hasVec G.T.type v1) (h2 : ∀ q, second = some q → hasVec G.T.type q.2) :
    At G (addAssignments S G V fl M f1 v1 second flip : Asg K) := by
  unfold addAssignments
  refine at_app G _ _ ⟨by simp [addZero, Tgt.mat], by simp, fun p hp => ?_, by simp⟩ (at_addParts S G V fl M v1 _ flip h1 ?_ _)
  · rcases List.mem_append.1 hp with hp | hp
    · exact at_addVec S G fl .copy f1 v1 flip h1 p hp
    · rcases second with _ | ⟨f2, v2⟩
      · simp [addVec2] at hp
      · exact at_addVec S G fl .copy f2 v2 flip (h2 _ rfl) p hp
  · intro v hv
    rcases second with _ | ⟨f2, v2⟩
    · simp at hv
    · simp at hv; subst hv; exact h2 _ rfl

theorem at_create [Neg K] (big : K) (S : Src) (G : Tgt) (V : Vars) (fl : Flags) (a : Asg K)
    (ha : create big S G V fl = some a) : At G a := by
  unfold create at ha
  by_cases hc : (checkTarget S G.T && mapped S V) = true
  · rw [if_pos hc] at ha
    have hk (d : K) (v : VecFun) (h : hasVec G.T.type v) : At G (⟨[], [], addConst G fl .copy d v false, []⟩ : Asg K) :=
      ⟨by simp, by simp, at_addConst G fl .copy d v false h, by simp⟩
    unfold build at ha
    cases hs : S.type <;> cases ht : G.T.type <;> simp [hs, ht] at ha <;> subst ha <;>
      first
      | exact at_addAssignments _ _ _ _ _ _ _ _ _ (by simp [hasVec, ht]) (by simp [hasVec, ht])
      | exact at_app _ _ _ (at_addAssignments _ _ _ _ _ _ _ _ _ (by simp [hasVec, ht]) (by simp [hasVec, ht]))
          (at_addAssignments _ _ _ _ _ _ _ _ _ (by simp [hasVec, ht]) (by simp [hasVec, ht]))
      | exact at_app _ _ _ (at_addAssignments _ _ _ _ _ _ _ _ _ (by simp [hasVec, ht]) (by simp [hasVec, ht]))
          (hk _ _ (by simp [hasVec, ht]))
  · rw [if_neg hc] at ha
    exact absurd ha (by simp)

theorem at_buildBounds [Neg K] (big : K) (S : Src) (G : Tgt) (x n : Nat) (p : BProp) (first : Bool) (ht : G.T.type = .doubleSided) :
    At G (buildBounds big S G x n p first : Asg K) := by
  have hS (A : AssignType) (f : Side K) (v : VecFun) (flip : Bool) (hv : hasVec G.T.type v) : ∀ q ∈ addSide S G A f v flip, AtV G q := by
    cases f with
    | rhs f => exact at_addVec S G boundFlags A f v flip hv
    | const c => exact at_addConst G boundFlags A c v flip hv
  have hD (f : Side K) (d : VDst) (hd : d.buf = G.buf d.seg.cell) (hh : hasCell G.T.type d.seg.cell = true) :
      ∀ q ∈ addSideD S G f x d, AtV G q := by
    intro q hq
    cases f with
    | rhs f =>
      unfold addSideD at hq
      simp only at hq
      by_cases h1 : S.rhs ≠ .zero
      · rw [if_pos h1] at hq
        rw [List.mem_singleton.1 hq]
        exact ⟨hd, hh, by simp⟩
      · rw [if_neg h1] at hq
        by_cases h2 : G.T.rhs ≠ .zero
        · rw [if_pos h2] at hq
          rw [List.mem_singleton.1 hq]
          exact ⟨hd, hh, by simp⟩
        · rw [if_neg h2] at hq; simp at hq
    | const c =>
      rw [List.mem_singleton.1 hq]
      exact ⟨hd, hh, by simp⟩
  have hC (A : AssignType) (c : Cell) (d : VDst) (v : Option VecFun) (flip : Bool) (hc : ext c = false)
      (hd : d.buf = G.buf d.seg.cell) (hh : hasCell G.T.type d.seg.cell = true) : ∀ q ∈ (addCell A c d v flip : List (VA K)), AtV G q := by
    intro q hq
    rw [List.mem_singleton.1 hq]
    refine ⟨hd, hh, fun c' h => ?_⟩
    simp at h
    rw [← h]; exact hc
  have hl : hasVec G.T.type .l := ht
  have hu : hasVec G.T.type .u := ht
  have hB (l u : Side K) : ∀ q ∈ addBounds S G x n p l u first, AtV G q := by
    intro q hq
    unfold addBounds at hq
    cases p with
    | identity =>
      cases first <;> simp only [List.mem_append, Bool.false_eq_true, if_false, if_true] at hq <;> rcases hq with hq | hq <;>
        exact hS _ _ _ _ (by assumption) q hq
    | minusIdentity =>
      cases first <;> simp only [List.mem_append, Bool.false_eq_true, if_false, if_true] at hq <;> rcases hq with hq | hq <;>
        exact hS _ _ _ _ (by assumption) q hq
    | diagonal =>
      simp only [List.mem_append] at hq
      rcases hq with (((((hq | hq) | hq) | hq) | hq) | hq) | hq
      · exact hD _ _ rfl rfl q hq
      · exact hD _ _ rfl rfl q hq
      · exact hC _ _ _ _ _ rfl rfl rfl q hq
      · exact hC _ _ _ _ _ rfl rfl rfl q hq
      · exact hC _ _ _ _ _ rfl rfl rfl q hq
      · exact hC _ _ _ _ _ rfl rfl rfl q hq
      · cases first <;> simp only [List.mem_append, Bool.false_eq_true, if_false, if_true] at hq <;> rcases hq with hq | hq <;>
          exact hC _ _ _ _ _ rfl rfl (has_vec G _ (by assumption)) q hq
  unfold buildBounds
  cases S.type <;> exact ⟨by simp, by simp, hB _ _, by simp⟩

section
variable [Field K] [LinearOrder K]

/-- What the target sees of the buffers -/
def view (G : Tgt) (m : Bufs K) : Mem K := ⟨m.A G.A, m.cell G.b G.l G.u⟩

/-- The vectors of a target are in different buffers. -/
def Apart (G : Tgt) : Prop := G.b ≠ G.l ∧ G.b ≠ G.u ∧ G.l ≠ G.u

theorem run_mat (V : Vars) (D : Data K) (G : Tgt) (l : List MA) (h : ∀ p ∈ l, p.dst.buf = G.A) (m : Bufs K) :
    (l.foldl (fun m op => op.run V D m) m).A G.A = (l.map MA.op).foldl (fun A op => op.run V D A) (m.A G.A) ∧
    (∀ i, i ≠ G.A → (l.foldl (fun m op => op.run V D m) m).A i = m.A i) ∧
    (l.foldl (fun m op => op.run V D m) m).v = m.v ∧ (l.foldl (fun m op => op.run V D m) m).tmp = m.tmp := by
  induction l generalizing m with
  | nil => exact ⟨rfl, fun _ _ => rfl, rfl, rfl⟩
  | cons a l ih =>
    obtain ⟨h1, h2, h3, h4⟩ := ih (fun p hp => h p (List.mem_cons_of_mem _ hp)) (a.run V D m)
    have ha := h a List.mem_cons_self
    simp only [List.foldl_cons, List.map_cons]
    refine ⟨?_, fun i hi => ?_, h3, h4⟩
    · rw [h1]; simp [MA.run, ha]
    · rw [h2 i hi]; simp [MA.run, ha, hi]

/-- What a run of a vector assignment writes does not depend on what the vectors other than the destination and the temporary ones hold. -/
theorem vop_local (V : Vars) (D : Data K) (a : VA K) (hs : ∀ c, a.src = .cell c → ext c = false) (m m' : Mem K)
    (h0 : m.vec a.dst.seg.cell = m'.vec a.dst.seg.cell) (h : ∀ c, ext c = false → m.vec c = m'.vec c) :
    (a.op.run V D m).vec a.dst.seg.cell = (a.op.run V D m').vec a.dst.seg.cell := by
  have e : a.src.get D m = a.src.get D m' := by
    cases hc : a.src with
    | cell c => simp [VFrom.get, h c (hs c hc)]
    | rhs f => cases f <;> rfl
    | _ => rfl
  simp only [VOp.run, VA.op, h0, e]

theorem view_vec (G : Tgt) (m : Bufs K) (c : Cell) : (view G m).vec c = if ext c then m.v (G.buf c) else m.tmp c := by
  cases c <;> rfl

theorem buf_inj {G : Tgt} (hG : Apart G) (c c' : Cell) (h : ext c = true) (h' : ext c' = true) (e : G.buf c = G.buf c') : c = c' := by
  obtain ⟨g1, g2, g3⟩ := hG
  cases c <;> cases c' <;> simp_all [ext, Tgt.buf]

theorem mem_ext (m m' : Mem K) (h1 : m.A = m'.A) (h2 : ∀ c, m.vec c = m'.vec c) : m = m' := by
  obtain ⟨A, v⟩ := m
  obtain ⟨A', v'⟩ := m'
  simp only at h1 h2
  rw [h1, funext h2]

theorem run_vec1 (V : Vars) (D : Data K) (G : Tgt) (hG : Apart G) (a : VA K) (h : AtV G a) (m : Bufs K) :
    view G (a.run V D m) = a.op.run V D (view G m) ∧ (a.run V D m).A = m.A ∧
    ∀ i, (∀ c, ext c = true → hasCell G.T.type c = true → i ≠ G.buf c) → (a.run V D m).v i = m.v i := by
  obtain ⟨hb, hh, hs⟩ := h
  have other (M : Mem K) (c : Cell) (hc : c ≠ a.dst.seg.cell) : (a.op.run V D M).vec c = M.vec c := by
    simp [VOp.run, VA.op, hc]
  have loc := vop_local V D a hs
  have tmpv (c : Cell) (hc : ext c = false) : (view G m).vec c = m.tmp c := by rw [view_vec, hc]; rfl
  by_cases he : ext a.dst.seg.cell = true
  · have hrun : a.run V D m = { m with v := fun i => if i = a.dst.buf then
        (a.op.run V D ⟨fun _ _ => 0, fun c => if c = a.dst.seg.cell then m.v i else m.tmp c⟩).vec a.dst.seg.cell else m.v i } := by
      unfold VA.run; rw [if_pos he]
    rw [hrun]
    refine ⟨mem_ext _ _ rfl fun c => ?_, rfl, fun i hi => if_neg (by rw [hb]; exact hi _ he hh)⟩
    rw [view_vec]
    by_cases hc : c = a.dst.seg.cell
    · rw [hc, if_pos he]
      simp only
      rw [if_pos hb.symm]
      refine loc _ _ ?_ fun c' h' => ?_
      · simp only [if_true]; rw [view_vec, if_pos he]
      · have hne : c' ≠ a.dst.seg.cell := by intro e; rw [e, he] at h'; cases h'
        simp only [if_neg hne]; rw [tmpv c' h']
    · rw [other _ c hc, view_vec]
      by_cases hx : ext c = true
      · rw [if_pos hx, if_pos hx]
        exact if_neg (by rw [hb]; exact fun e => hc (buf_inj hG _ _ hx he e))
      · rw [if_neg hx, if_neg hx]
  · have hrun : a.run V D m = { m with tmp := fun c => if c = a.dst.seg.cell then
        (a.op.run V D ⟨fun _ _ => 0, fun c' => if c' = a.dst.seg.cell then m.tmp c else m.tmp c'⟩).vec a.dst.seg.cell else m.tmp c } := by
      unfold VA.run; rw [if_neg he]
    rw [hrun]
    have he' : ext a.dst.seg.cell = false := by simpa using he
    refine ⟨mem_ext _ _ rfl fun c => ?_, rfl, fun i hi => rfl⟩
    rw [view_vec]
    by_cases hc : c = a.dst.seg.cell
    · rw [hc, if_neg he]
      simp only [if_true]
      refine loc _ _ ?_ fun c' h' => ?_
      · simp only [if_true]; rw [tmpv _ he']
      · rw [tmpv c' h']
        by_cases e : c' = a.dst.seg.cell
        · simp only [if_pos e]; rw [e]
        · simp only [if_neg e]
    · rw [other _ c hc, view_vec]
      simp only [if_neg hc]

theorem run_vec (V : Vars) (D : Data K) (G : Tgt) (hG : Apart G) (l : List (VA K)) (h : ∀ p ∈ l, AtV G p) (m : Bufs K) :
    view G (l.foldl (fun m op => op.run V D m) m) = (l.map VA.op).foldl (fun m op => op.run V D m) (view G m) ∧
    (l.foldl (fun m op => op.run V D m) m).A = m.A ∧
    ∀ i, (∀ c, ext c = true → hasCell G.T.type c = true → i ≠ G.buf c) → (l.foldl (fun m op => op.run V D m) m).v i = m.v i := by
  induction l generalizing m with
  | nil => exact ⟨rfl, rfl, fun _ _ => rfl⟩
  | cons a l ih =>
    obtain ⟨h1, h2, h3⟩ := ih (fun p hp => h p (List.mem_cons_of_mem _ hp)) (a.run V D m)
    obtain ⟨k1, k2, k3⟩ := run_vec1 V D G hG a (h a List.mem_cons_self) m
    simp only [List.foldl_cons, List.map_cons]
    exact ⟨by rw [h1, k1], by rw [h2, k2], fun i hi => by rw [h3 i hi, k3 i hi]⟩

theorem run_at (V : Vars) (D : Data K) (G : Tgt) (hG : Apart G) (a : Asg K) (h : At G a) (m : Bufs K) :
    view G (a.run V D m) = a.ops.run V D (view G m) ∧ (∀ i, i ≠ G.A → (a.run V D m).A i = m.A i) ∧
    ∀ i, (if G.T.type = .doubleSided then i ≠ G.l ∧ i ≠ G.u else i ≠ G.b) → (a.run V D m).v i = m.v i := by
  obtain ⟨h1, h2, h3, h4⟩ := h
  obtain ⟨m1, m2, m3, m4⟩ := run_mat V D G (a.mat ++ a.matSub) (fun p hp => (List.mem_append.1 hp).elim (h1 p) (h2 p)) m
  obtain ⟨v1, v2, v3⟩ := run_vec V D G hG (a.vec ++ a.vecSub) (fun p hp => (List.mem_append.1 hp).elim (h3 p) (h4 p))
    ((a.mat ++ a.matSub).foldl (fun m op => op.run V D m) m)
  refine ⟨?_, fun i hi => ?_, fun i hi => ?_⟩
  · unfold AU.Asg.run Ops.run
    simp only
    rw [v1]
    simp only [Asg.ops, List.map_append] at m1 ⊢
    congr 1
    refine mem_ext _ _ ?_ fun c => ?_
    · exact m1
    · rw [view_vec, m3, m4]
      exact (view_vec G m c).symm
  · unfold AU.Asg.run
    simp only
    rw [v2, m2 i hi]
  · unfold AU.Asg.run
    simp only
    rw [v3 i ?_, m3]
    intro c hx hc e
    by_cases hd : G.T.type = .doubleSided
    · rw [if_pos hd] at hi
      cases c <;> simp [ext, hasCell, hd] at hx hc
      · exact hi.1 e
      · exact hi.2 e
    · rw [if_neg hd] at hi
      cases c <;> simp [ext, hasCell, hd] at hx hc
      exact hi e

/-- A run after the updates: what the target sees in its present buffers is what the model of C37 to C43 says for an assignment built
now, and no other buffer is touched (in particular not the former ones). -/
theorem C90_run (big : K) (S : Src) (fl : Flags) (dim : Nat → Nat) (G : Tgt) (hG : Apart G) (V : Vars) (a a' : Asg K)
    (h : Life big S fl dim G (some V) a) (ha : onUpdatedTarget G a = some a') (D : Data K) (m : Bufs K) :
    ∃ o, AS.create big S G.T V fl = some o ∧ view G (a'.run V D m) = o.run V D (view G m) ∧
      (∀ i, i ≠ G.A → (a'.run V D m).A i = m.A i) ∧
      ∀ i, (if G.T.type = .doubleSided then i ≠ G.l ∧ i ≠ G.u else i ≠ G.b) → (a'.run V D m).v i = m.v i := by
  obtain ⟨c, h1, h2⟩ := C90_update big S fl dim G V a h
  rw [ha] at h1
  cases h1
  refine ⟨a'.ops, ?_, run_at V D G hG a' (at_create big S G V fl a' h2) m⟩
  rw [← C90_build big S G V fl, h2]
  rfl

/-- The same for bounds, on a double sided target -/
theorem C90_run_bounds (big : K) (S : Src) (G : Tgt) (hG : Apart G) (x n : Nat) (p : BProp) (first : Bool)
    (ht : G.T.type = .doubleSided) (V : Vars) (D : Data K) (m : Bufs K) :
    view G ((buildBounds big S G x n p first).run V D m) =
        (⟨[], [], AS.buildBounds big S G.T x n p first, []⟩ : Ops K).run V D (view G m) ∧
      ∀ i, i ≠ G.l → i ≠ G.u → ((buildBounds big S G x n p first).run V D m).v i = m.v i := by
  obtain ⟨h1, _, h3⟩ := run_at V D G hG _ (at_buildBounds big S G x n p first ht) m
  refine ⟨by rw [h1, C90_build_bounds], fun i hl hu => h3 i ?_⟩
  rw [if_pos ht]
  exact ⟨hl, hu⟩

end

/-! ## Cases -/

/-- A source with two variables, the second substituted by the third and the fourth, with a double sided target of two rows -/
def S0 : Src := ⟨.doubleSided, .asGiven, 2, [0, 1], fun _ => .other, [(1, ⟨[2, 3], true⟩)]⟩

/-- Its target -/
def G0 : Tgt := ⟨⟨.doubleSided, .asGiven, 4, 2⟩, 0, 1, 2, 3⟩

/-- The variables 0, 2, 3 in this order, then in the other order, then the variable 0 only -/
def V0 : Vars := ⟨fun _ => 2, fun x => decide (x ≠ 1), fun x => match x with | 2 => 2 | 3 => 4 | _ => 0⟩
def V1 : Vars := ⟨fun _ => 2, fun x => decide (x ≠ 1), fun x => match x with | 2 => 2 | 0 => 4 | _ => 0⟩
def V2 : Vars := ⟨fun _ => 2, fun x => decide (x = 0), fun _ => 8⟩

/-- A source with two variables and no substitution, on a single sided target -/
def S1 : Src := ⟨.equal, .asGiven, 2, [0, 2], fun _ => .other, []⟩
def G1 : Tgt := ⟨⟨.equal, .opposite, 4, 2⟩, 0, 1, 2, 3⟩

/-- The assignment of `S0` on `G0` and of `S1` on `G1` -/
def a0 : Asg ℚ := ((create 1000 S0 G0 V0 ⟨true, true⟩).getD .nil)
def a1 : Asg ℚ := ((create 1000 S1 G1 V0 ⟨true, true⟩).getD .nil)

theorem a0_eq : create (1000 : ℚ) S0 G0 V0 ⟨true, true⟩ = some a0 := rfl
theorem a1_eq : create (1000 : ℚ) S1 G1 V0 ⟨true, true⟩ = some a1 := rfl

/-- An update of the mapping that throws leaves the first columns moved and the others not: without a later successful update of the
mapping, `onUpdatedTarget` gives neither the old assignment nor the new one. -/
theorem C90_throw_false : ∃ (a' a'' : Asg ℚ), onUpdatedMapping V2 G1 false a1 = .throw a' ∧ onUpdatedTarget G1 a' = some a'' ∧
    a1.mat.map (·.dst.cols) = [(0, 2), (2, 2)] ∧ a''.mat.map (·.dst.cols) = [(8, 2), (2, 2)] :=
  ⟨_, _, rfl, rfl, rfl, rfl⟩

/-- A life with a change of range, a change of buffers, an update that throws and one that does not; at the end the assignment is
redirected: rows from 9, columns of the second order of the variables, buffers 7, 8 and 9. -/
example : ∃ a b : Asg ℚ, Life (1000 : ℚ) S0 ⟨true, true⟩ (fun _ => 2) ((G0.move 9).change3 7 8 9) (some V1) a ∧
    onUpdatedTarget ((G0.move 9).change3 7 8 9) a = some b ∧
    b.mat.map (·.dst) = [⟨7, (9, 2), (2, 2)⟩, ⟨7, (9, 2), (0, 2)⟩, ⟨7, (9, 2), (4, 2)⟩] ∧
    b.matSub.map (·.dst) = [⟨7, (9, 2), (2, 2)⟩, ⟨7, (9, 2), (0, 2)⟩] ∧
    b.vec.map (·.dst) = [⟨8, ⟨.l, 9, 2⟩⟩, ⟨9, ⟨.u, 9, 2⟩⟩] ∧ a0.mat.map (·.dst.cols) = [(2, 2), (4, 2), (0, 2)] :=
  ⟨_, _, .mapping _ none V1 false _ _
    (.mappingThrow _ (some V0) V2 true _ _ (.change3 _ _ _ 7 8 9 (.move _ _ _ 9 (.create G0 V0 a0 rfl a0_eq))) rfl rfl) rfl rfl,
    rfl, rfl, rfl, rfl, rfl⟩

/-- The vectors of `G0` are apart, a bound with minus identity is redirected, and an update with the flag -/
example : Apart G0 ∧ Same G0 (G0.move 9) ∧ (∃ a', onUpdatedMapping V1 G0 true a0 = .ok a' () ∧ a'.mat.map (·.dst.cols) = [(2, 2), (0, 2), (4, 2)]) ∧
    (buildBounds (1000 : ℚ) S0 (G0.move 9) 0 2 .minusIdentity true).vec.map (·.dst) = [⟨3, ⟨.u, 9, 2⟩⟩, ⟨2, ⟨.l, 9, 2⟩⟩] :=
  ⟨by simp [Apart, G0], ⟨rfl, rfl, rfl⟩, ⟨_, rfl, rfl⟩, rfl⟩

/-- The constructor refuses the variables without the variable 2, so does the update. -/
example : create (1000 : ℚ) S1 G1 V2 ⟨true, true⟩ = none ∧ ∀ a', onUpdatedMapping V2 G1 false a1 ≠ .ok a' () :=
  ⟨rfl, fun a' h => by cases h⟩

end
end Verif.C90
