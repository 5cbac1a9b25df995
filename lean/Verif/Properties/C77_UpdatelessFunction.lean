import Verif.Model.UpdatelessFunction
import Batteries.Data.List.Basic
/-!
# C77 - an updateless function evaluates at the given values

The three syntaxes of the documentation of `UpdatelessFunction::value` (UpdatelessFunction.h, lines 35-48) and of `velocity` (lines 58-75).
-/
set_option autoImplicit false
set_option linter.unusedSectionVars false

namespace Verif.C77
open Verif Verif.ULF

variable {K R : Type}

/-- The store `s'` is `s` in which the variables `xs` have the values `vals` -/
def Sets (xs : List Nat) (vals : List (List K)) (s s' : Store K) : Prop :=
  (∀ p ∈ xs.zip vals, s' p.1 = p.2) ∧ ∀ y, y ∉ xs → s' y = s y

/-- A value for each variable, of the right size -/
def Fits (u : Fn) (vals : List (List K)) : Prop := List.Forall₂ (fun x v => v.length = u.size x) u.vars vals

/-- A value and a velocity for each variable, of the right sizes -/
def Fits2 (u : Fn) (a : List (List K × List K)) : Prop :=
  List.Forall₂ (fun x p => p.1.length = u.size x ∧ p.2.length = u.size (u.dot x)) u.vars a

/-- The variables are different and none is the derivative of another one, nor are their derivatives the same -/
structure Indep (u : Fn) : Prop where
  nodup : u.vars.Nodup
  dots : (u.vars.map u.dot).Nodup
  apart : ∀ x ∈ u.vars, ∀ y ∈ u.vars, u.dot x ≠ y

/-! ## Writing a list of values -/

def putAll : List Nat → List (List K) → Store K → Store K
  | x :: xs, v :: vs, s => putAll xs vs (s.put x v)
  | _, _, s => s

theorem putAll_not (xs : List Nat) : ∀ (vs : List (List K)) (s : Store K) (y : Nat), y ∉ xs → putAll xs vs s y = s y := by
  induction xs with
  | nil => intro vs s y _; cases vs <;> rfl
  | cons x xs ih =>
    intro vs s y hy
    cases vs with
    | nil => rfl
    | cons v vs =>
      rw [putAll, ih vs _ y (fun h => hy (by simp [h]))]
      exact if_neg (fun h => hy (by simp [h]))

theorem putAll_sets (xs : List Nat) : ∀ (vs : List (List K)) (s : Store K), xs.Nodup → Sets xs vs s (putAll xs vs s) := by
  induction xs with
  | nil => intro vs s _; exact ⟨by simp, fun y _ => putAll_not [] vs s y (by simp)⟩
  | cons x xs ih =>
    intro vs s hn
    rw [List.nodup_cons] at hn
    refine ⟨?_, fun y hy => putAll_not (x :: xs) vs s y hy⟩
    cases vs with
    | nil => simp
    | cons v vs =>
      intro p hp
      rw [List.zip_cons_cons, List.mem_cons] at hp
      rw [putAll]
      rcases hp with rfl | hp
      · rw [putAll_not xs vs _ _ hn.1]; exact if_pos rfl
      · exact (ih vs _ hn.2).1 p hp

theorem Sets.unique (xs : List Nat) (vs : List (List K)) (s s1 s2 : Store K) (hl : xs.length = vs.length) (h1 : Sets xs vs s s1) (h2 : Sets xs vs s s2) :
    s1 = s2 := by
  funext y
  by_cases hy : y ∈ xs
  · obtain ⟨i, hi, rfl⟩ := List.mem_iff_getElem.1 hy
    have : (xs[i], vs[i]'(by omega)) ∈ xs.zip vs := by
      rw [List.mem_iff_getElem]
      exact ⟨i, by simp; omega, by simp⟩
    rw [h1.1 _ this, h2.1 _ this]
  · rw [h1.2 y hy, h2.2 y hy]

theorem putAll_iff (xs : List Nat) (vs : List (List K)) (s s' : Store K) (hn : xs.Nodup) (hl : xs.length = vs.length) :
    s' = putAll xs vs s ↔ Sets xs vs s s' :=
  ⟨fun h => h ▸ putAll_sets xs vs s hn, fun h => Sets.unique xs vs s s' _ hl h (putAll_sets xs vs s hn)⟩

/-- The pieces of a concatenated vector -/
def pieces (sz : Nat → Nat) : List Nat → List K → List (List K)
  | [], _ => []
  | x :: xs, v => v.take (sz x) :: pieces sz xs (v.drop (sz x))

theorem pieces_spec (sz : Nat → Nat) (xs : List Nat) : ∀ (v : List K), v.length = (xs.map sz).sum →
    List.Forall₂ (fun x w => w.length = sz x) xs (pieces sz xs v) ∧ (pieces sz xs v).flatten = v := by
  induction xs with
  | nil => intro v h; simp at h; subst h; exact ⟨.nil, rfl⟩
  | cons x xs ih =>
    intro v h
    simp at h
    obtain ⟨h1, h2⟩ := ih (v.drop (sz x)) (by simp; omega)
    exact ⟨.cons (by simp; omega) h1, by rw [pieces, List.flatten_cons, h2, List.take_append_drop]⟩

theorem flatten_pieces (sz : Nat → Nat) (xs : List Nat) : ∀ (vals : List (List K)), List.Forall₂ (fun x w => w.length = sz x) xs vals →
    vals.flatten.length = (xs.map sz).sum ∧ pieces sz xs vals.flatten = vals := by
  induction xs with
  | nil => intro vals h; cases h; exact ⟨rfl, rfl⟩
  | cons x xs ih =>
    intro vals h
    cases h with
    | cons h1 h2 =>
      obtain ⟨g1, g2⟩ := ih _ h2
      refine ⟨by simp [h1] at g1 ⊢; omega, ?_⟩
      rw [pieces, List.flatten_cons, ← h1]
      simp [g2]

/-! ## Values -/

theorem assignAt_ok (u : Fn) (i : Nat) (v : List K) (s s' : Store K) :
    u.assignAt i v true s = .ok s' () ↔ ∃ x, u.vars[i]? = some x ∧ v.length = u.size x ∧ s' = s.put x v := by
  unfold Fn.assignAt
  cases h : u.vars[i]? with
  | none => simp
  | some x =>
    by_cases hv : v.length = u.size x
    · simp [hv, eq_comm]
    · simp [hv]

theorem assignAt_not_ub (u : Fn) (i : Nat) (v : List K) (b : Bool) (s : Store K) : u.assignAt i v b s ≠ .ub := by
  unfold Fn.assignAt
  cases u.vars[i]? with
  | none => simp
  | some x => cases b <;> simp <;> split <;> simp

theorem loop1_eq (u : Fn) (v : List K) (xs : List Nat) : ∀ (p : Nat) (s : Store K),
    u.loop1 v p xs s = putAll xs (pieces u.size xs (v.drop p)) s := by
  induction xs with
  | nil => intro p s; rfl
  | cons x xs ih =>
    intro p s
    rw [Fn.loop1, ih, pieces, putAll, List.drop_drop]

theorem forall2_length {α β : Type} {r : α → β → Prop} {l : List α} {m : List β} (h : List.Forall₂ r l m) : l.length = m.length := by
  induction h with
  | nil => rfl
  | cons _ _ ih => simp [ih]

/-- The recursion over the values one by one, from the variable `i` on, away from the concatenated case -/
theorem parse_ok (u : Fn) : ∀ (l : List (List K)) (i : Nat) (v : List K) (s s' : Store K), (l = [] → i = 0 → u.vars.length ≤ 1) →
    (u.parse i v l s = .ok s' () ↔
      List.Forall₂ (fun x w => w.length = u.size x) (u.vars.drop i) (v :: l) ∧ s' = putAll (u.vars.drop i) (v :: l) s) := by
  intro l
  induction l with
  | nil =>
    intro i v s s' hc
    rw [Fn.parse]
    by_cases h1 : i + 1 = u.vars.length
    · rw [if_pos h1, assignAt_ok]
      have hi : i < u.vars.length := by omega
      have e : u.vars.drop i = [u.vars[i]] := by
        rw [List.drop_eq_getElem_cons hi, List.drop_eq_nil_of_le (by omega)]
      rw [e]
      constructor
      · rintro ⟨x, hx, hv, rfl⟩
        rw [List.getElem?_eq_getElem hi] at hx
        cases hx
        exact ⟨.cons hv .nil, rfl⟩
      · rintro ⟨hf, rfl⟩
        cases hf with
        | cons hv _ => exact ⟨_, List.getElem?_eq_getElem hi, hv, rfl⟩
    · rw [if_neg h1]
      have hno : ¬ List.Forall₂ (fun x (w : List K) => w.length = u.size x) (u.vars.drop i) [v] := by
        intro hf
        have := forall2_length hf
        simp at this; omega
      constructor
      · intro h
        exfalso
        by_cases h2 : i < u.vars.length
        · rw [if_pos h2] at h
          by_cases h3 : i = 0
          · have := hc rfl h3; omega
          · rw [if_neg h3] at h; cases h
        · rw [if_neg h2] at h; cases h
      · intro h; exact absurd h.1 hno
  | cons w l ih =>
    intro i v s s' _
    rw [Fn.parse]
    have key : u.parse i v (w :: l) s = .ok s' () ↔ ∃ s1, u.assignAt i v true s = .ok s1 () ∧ u.parse (i + 1) w l s1 = .ok s' () := by
      rw [Fn.parse]
      cases h : u.assignAt i v true s with
      | ok s1 a => simp
      | throw s1 => simp
      | ub => simp
    rw [Fn.parse] at key
    rw [key]
    constructor
    · rintro ⟨s1, h1, h2⟩
      obtain ⟨x, hx, hv, rfl⟩ := (assignAt_ok u i v s s1).1 h1
      obtain ⟨g1, g2⟩ := (ih (i + 1) w _ s' (by omega)).1 h2
      obtain ⟨hi, hx'⟩ := List.getElem?_eq_some_iff.1 hx
      rw [List.drop_eq_getElem_cons hi, hx']
      exact ⟨.cons hv g1, g2⟩
    · rintro ⟨h1, h2⟩
      by_cases hi : i < u.vars.length
      · rw [List.drop_eq_getElem_cons hi] at h1 h2
        cases h1 with
        | cons hv hr =>
          exact ⟨_, (assignAt_ok u i v s _).2 ⟨_, List.getElem?_eq_getElem hi, hv, rfl⟩, (ih (i + 1) w _ s' (by omega)).2 ⟨hr, h2⟩⟩
      · rw [List.drop_eq_nil_of_le (by omega)] at h1
        cases h1

theorem run_ok (en : Bool) (out : Store K → R) (p : Store K → Outcome (Store K) Unit) (s s' : Store K) (r : R) :
    run en out p s = .ok s' r ↔ en = true ∧ p s = .ok s' () ∧ r = out s' := by
  unfold run
  cases en with
  | false => simp
  | true =>
    cases h : p s with
    | ok s1 a =>
      simp only [if_true, Outcome.ok.injEq, true_and, and_true]
      constructor
      · rintro ⟨rfl, rfl⟩; exact ⟨rfl, rfl⟩
      · rintro ⟨rfl, rfl⟩; exact ⟨rfl, rfl⟩
    | throw s1 => simp
    | ub => simp

/-- **C77** `value(...)` with values returns iff the function has the output and the arguments are a value of the right size for each variable in order, or the concatenation of
such values when there are several variables. It then returns the output of the function for these values, and it changes no other variable. -/
theorem C77_value (u : Fn) (en : Bool) (out : Store K → R) (v : List K) (l : List (List K)) (s s' : Store K) (r : R) (hn : u.vars.Nodup) :
    u.value en out v l s = .ok s' r ↔
      en = true ∧ r = out s' ∧ ∃ vals, Fits u vals ∧ (v :: l = vals ∨ (2 ≤ u.vars.length ∧ v :: l = [vals.flatten])) ∧ Sets u.vars vals s s' := by
  unfold Fn.value
  rw [run_ok]
  have key : u.parse 0 v l s = .ok s' () ↔
      ∃ vals, Fits u vals ∧ (v :: l = vals ∨ (2 ≤ u.vars.length ∧ v :: l = [vals.flatten])) ∧ Sets u.vars vals s s' := by
    by_cases hc : l = [] ∧ 2 ≤ u.vars.length
    · obtain ⟨rfl, h2⟩ := hc
      rw [Fn.parse, if_neg (by omega), if_pos (by omega), if_pos rfl]
      unfold Fn.assignAll
      have hne : u.vars ≠ [] := by intro h; rw [h] at h2; simp at h2
      rw [if_neg hne]
      by_cases hl : v.length ≠ (u.vars.map u.size).sum
      · rw [if_pos hl]
        constructor
        · intro h; cases h
        · rintro ⟨vals, hf, h | ⟨_, h⟩, _⟩
          · have := forall2_length hf
            rw [← h] at this; simp at this; omega
          · have := (flatten_pieces u.size u.vars vals hf).1
            simp at h; rw [h] at hl; exact absurd this hl
      · rw [if_neg hl]
        have hl' : v.length = (u.vars.map u.size).sum := by omega
        obtain ⟨p1, p2⟩ := pieces_spec u.size u.vars v hl'
        have e : u.loop1 v 0 u.vars s = putAll u.vars (pieces u.size u.vars v) s := by rw [loop1_eq]; rfl
        constructor
        · intro h
          simp only [Outcome.ok.injEq, and_true] at h
          exact ⟨_, p1, Or.inr ⟨h2, by rw [p2]⟩, by rw [← h, e]; exact putAll_sets _ _ _ hn⟩
        · rintro ⟨vals, hf, h | ⟨_, h⟩, hs⟩
          · have := forall2_length hf
            rw [← h] at this; simp at this; omega
          · simp at h
            have := (flatten_pieces u.size u.vars vals hf).2
            rw [← h] at this
            simp only [Outcome.ok.injEq, and_true]
            rw [e, this]
            exact ((putAll_iff _ _ _ _ hn (forall2_length hf)).2 hs).symm
    · have hle : l = [] → 0 = 0 → u.vars.length ≤ 1 := by
        intro h _
        rcases Nat.lt_or_ge u.vars.length 2 with h' | h'
        · omega
        · exact absurd ⟨h, h'⟩ hc
      rw [parse_ok u l 0 v s s' hle]
      rw [List.drop_zero]
      constructor
      · rintro ⟨h1, h2⟩
        exact ⟨v :: l, h1, Or.inl rfl, (putAll_iff _ _ _ _ hn (forall2_length h1)).1 h2⟩
      · rintro ⟨vals, hf, h | ⟨h2, h⟩, hs⟩
        · rw [h]
          exact ⟨hf, (putAll_iff _ _ _ _ hn (forall2_length hf)).2 hs⟩
        · simp at h
          exact absurd ⟨h.2, h2⟩ hc
  rw [key]
  constructor
  · rintro ⟨h1, h2, h3⟩; exact ⟨h1, h3, h2⟩
  · rintro ⟨h1, h2, h3⟩; exact ⟨h1, h3, h2⟩

/-- The call is never undefined, and whatever its end it changes only variables of the function. -/
theorem parse_frame (u : Fn) : ∀ (l : List (List K)) (i : Nat) (v : List K) (s : Store K),
    u.parse i v l s ≠ .ub ∧ ∀ s', (u.parse i v l s = .throw s' ∨ u.parse i v l s = .ok s' ()) → ∀ y, y ∉ u.vars → s' y = s y := by
  have A : ∀ (i : Nat) (v : List K) (s s' : Store K), (u.assignAt i v true s = .throw s' ∨ u.assignAt i v true s = .ok s' ()) → ∀ y, y ∉ u.vars → s' y = s y := by
    intro i v s s' h y hy
    rcases h with h | h
    · unfold Fn.assignAt at h
      cases hx : u.vars[i]? with
      | none => simp [hx] at h; rw [h]
      | some x =>
        by_cases hv : v.length = u.size x
        · simp [hx, hv] at h
        · simp [hx, hv] at h; rw [h]
    · obtain ⟨x, hx, _, rfl⟩ := (assignAt_ok u i v s s').1 h
      have hne : ¬ y = x := fun e => hy (by rw [e]; exact List.mem_of_getElem? hx)
      simp [Store.put, hne]
  intro l
  induction l with
  | nil =>
    intro i v s
    rw [Fn.parse]
    by_cases h1 : i + 1 = u.vars.length
    · rw [if_pos h1]
      exact ⟨assignAt_not_ub u i v true s, A i v s⟩
    · rw [if_neg h1]
      by_cases h2 : i < u.vars.length
      · rw [if_pos h2]
        by_cases h3 : i = 0
        · rw [if_pos h3]
          have hne : u.vars ≠ [] := by intro h; rw [h] at h2; simp at h2
          unfold Fn.assignAll
          rw [if_neg hne]
          by_cases hl : v.length ≠ (u.vars.map u.size).sum
          · rw [if_pos hl]
            refine ⟨by simp, ?_⟩
            rintro s' (h | h) y _
            · cases h; rfl
            · cases h
          · rw [if_neg hl]
            refine ⟨by simp, ?_⟩
            rintro s' (h | h) y hy
            · cases h
            · cases h
              rw [loop1_eq]; exact putAll_not _ _ _ _ hy
        · rw [if_neg h3]
          refine ⟨by simp, ?_⟩
          rintro s' (h | h) y _
          · cases h; rfl
          · cases h
      · rw [if_neg h2]
        refine ⟨by simp, ?_⟩
        rintro s' (h | h) y _
        · cases h; rfl
        · cases h
  | cons w l ih =>
    intro i v s
    rw [Fn.parse]
    cases h : u.assignAt i v true s with
    | ok s1 a =>
      obtain ⟨g1, g2⟩ := ih (i + 1) w s1
      refine ⟨g1, fun s' hs' y hy => ?_⟩
      rw [g2 s' hs' y hy]
      exact A i v s s1 (Or.inr h) y hy
    | throw s1 =>
      refine ⟨by simp, ?_⟩
      rintro s' (h' | h') y hy
      · cases h'; exact A i v s s1 (Or.inl h) y hy
      · cases h'
    | ub => exact absurd h (assignAt_not_ub u i v true s)

/-- The call is never undefined; when it throws it has changed variables of the function at most. -/
theorem C77_throw (u : Fn) (en : Bool) (out : Store K → R) (v : List K) (l : List (List K)) (s : Store K) :
    u.value en out v l s ≠ .ub ∧ ∀ s', u.value en out v l s = .throw s' → ∀ y, y ∉ u.vars → s' y = s y := by
  obtain ⟨h1, h2⟩ := parse_frame u l 0 v s
  unfold Fn.value run
  cases en with
  | false =>
    refine ⟨by simp, fun s' h y _ => ?_⟩
    simp at h; rw [h]
  | true =>
    cases h : u.parse 0 v l s with
    | ok s1 a => simp
    | throw s1 =>
      refine ⟨by simp, fun s' h' y hy => ?_⟩
      simp at h'; subst h'
      exact h2 s1 (Or.inl h) y hy
    | ub => exact absurd h h1

/-! ## Values by name -/

theorem assignVar_ok (u : Fn) (x : Nat) (v : List K) (b : Bool) (s s' : Store K) : u.assignVar x v b s = .ok s' () ↔
    x ∈ u.vars ∧ v.length = u.size (if b then x else u.dot x) ∧ s' = s.put (if b then x else u.dot x) v := by
  unfold Fn.assignVar
  by_cases he : u.vars = []
  · simp [he]
  · rw [if_neg he]
    by_cases hx : x ∈ u.vars
    · cases b
      · by_cases hv : v.length = u.size (u.dot x)
        · simp [hx, hv, eq_comm]
        · simp [hx, hv]
      · by_cases hv : v.length = u.size x
        · simp [hx, hv, eq_comm]
        · simp [hx, hv]
    · simp [hx]

/-- The last value given for the variable `y` -/
def lastOf (l : List (Nat × List K)) (y : Nat) : Option (List K) := ((l.filter (fun a => a.1 == y)).getLast?).map Prod.snd

theorem lastOf_cons (a : Nat × List K) (l : List (Nat × List K)) (y : Nat) :
    (lastOf (a :: l) y) = (lastOf l y).or (if a.1 = y then some a.2 else none) := by
  unfold lastOf
  by_cases h : a.1 = y
  · rw [List.filter_cons_of_pos (by simpa using h), if_pos h]
    cases hl : l.filter (fun a => a.1 == y) with
    | nil => simp
    | cons b m => rw [List.getLast?_cons_cons]; cases hm : (b :: m).getLast? with
        | none => simp at hm
        | some c => simp
  · rw [List.filter_cons_of_neg (by simpa using h), if_neg h]
    simp

/-- **C77** `value(x1, val1, x2, val2, ...)` returns iff the function has the output, every `xi` is a variable of the function and has the size of `vali`. The variables that are given
then have the last of their values, and the others the value they had. -/
theorem C77_named (u : Fn) (en : Bool) (out : Store K → R) (l : List (Nat × List K)) (s s' : Store K) (r : R) :
    u.valueNamed en out l s = .ok s' r ↔
      en = true ∧ r = out s' ∧ (∀ a ∈ l, a.1 ∈ u.vars ∧ a.2.length = u.size a.1) ∧ ∀ y, s' y = (lastOf l y).getD (s y) := by
  unfold Fn.valueNamed
  rw [run_ok]
  have key : ∀ (l : List (Nat × List K)) (s : Store K), u.parseNamed l s = .ok s' () ↔
      (∀ a ∈ l, a.1 ∈ u.vars ∧ a.2.length = u.size a.1) ∧ ∀ y, s' y = (lastOf l y).getD (s y) := by
    intro l
    induction l with
    | nil =>
      intro s
      simp only [Fn.parseNamed, Outcome.ok.injEq, and_true]
      constructor
      · rintro rfl; exact ⟨by simp, fun y => rfl⟩
      · rintro ⟨_, h⟩; exact (funext h).symm
    | cons a l ih =>
      intro s
      have e : u.parseNamed (a :: l) s = .ok s' () ↔ ∃ s1, u.assignVar a.1 a.2 true s = .ok s1 () ∧ u.parseNamed l s1 = .ok s' () := by
        rw [Fn.parseNamed]
        cases h : u.assignVar a.1 a.2 true s <;> simp
      rw [e]
      have e2 : ∀ y, (lastOf l y).getD ((s.put a.1 a.2) y) = (lastOf (a :: l) y).getD (s y) := by
        intro y
        rw [lastOf_cons]
        cases lastOf l y with
        | some c => simp
        | none =>
          by_cases h : a.1 = y
          · simp [h, Store.put]
          · have : ¬ y = a.1 := fun h' => h h'.symm
            simp [h, this, Store.put]
      constructor
      · rintro ⟨s1, h1, h2⟩
        obtain ⟨g1, g2, rfl⟩ := (assignVar_ok u a.1 a.2 true s s1).1 h1
        obtain ⟨g3, g4⟩ := (ih _).1 h2
        refine ⟨fun b hb => ?_, fun y => by rw [g4, ← e2]; rfl⟩
        rcases List.mem_cons.1 hb with rfl | hb
        · exact ⟨g1, g2⟩
        · exact g3 b hb
      · rintro ⟨h1, h2⟩
        have ha := h1 a (by simp)
        exact ⟨_, (assignVar_ok u a.1 a.2 true s _).2 ⟨ha.1, ha.2, rfl⟩,
          (ih _).2 ⟨fun b hb => h1 b (by simp [hb]), fun y => by rw [h2, ← e2]; rfl⟩⟩
  rw [key]
  constructor
  · rintro ⟨h1, h2, h3⟩; exact ⟨h1, h3, h2⟩
  · rintro ⟨h1, h2, h3⟩; exact ⟨h1, h3, h2⟩

/-! ## Values and velocities -/

/-- The variables with their derivatives -/
def keys (u : Fn) (xs : List Nat) : List Nat := xs.flatMap (fun x => [x, u.dot x])

def flat (a : List (List K × List K)) : List (List K) := a.flatMap (fun p => [p.1, p.2])

theorem keys_nodup (u : Fn) (h : Indep u) : (keys u u.vars).Nodup := by
  have : ∀ xs : List Nat, xs.Nodup → (xs.map u.dot).Nodup → (∀ x ∈ xs, ∀ y ∈ xs, u.dot x ≠ y) → (keys u xs).Nodup := by
    intro xs
    induction xs with
    | nil => intro _ _ _; simp [keys]
    | cons x xs ih =>
      intro h1 h2 h3
      rw [List.map_cons, List.nodup_cons] at h2
      rw [List.nodup_cons] at h1
      have e : keys u (x :: xs) = x :: u.dot x :: keys u xs := by simp [keys]
      have hm : ∀ y, y ∈ keys u xs ↔ y ∈ xs ∨ y ∈ xs.map u.dot := by
        intro y
        simp only [keys, List.mem_flatMap, List.mem_cons, List.not_mem_nil, or_false, List.mem_map]
        constructor
        · rintro ⟨z, hz, rfl | rfl⟩
          · exact Or.inl hz
          · exact Or.inr ⟨z, hz, rfl⟩
        · rintro (hz | ⟨z, hz, rfl⟩)
          · exact ⟨y, hz, Or.inl rfl⟩
          · exact ⟨z, hz, Or.inr rfl⟩
      rw [e, List.nodup_cons, List.nodup_cons, List.mem_cons, hm, hm]
      refine ⟨?_, ?_, ih h1.2 h2.2 (fun a ha b hb => h3 a (by simp [ha]) b (by simp [hb]))⟩
      · rintro (h | h | h)
        · exact h3 x (by simp) x (by simp) h.symm
        · exact h1.1 h
        · obtain ⟨z, hz, hz'⟩ := List.mem_map.1 h
          exact h3 z (by simp [hz]) x (by simp) hz'
      · rintro (h | h)
        · exact h3 x (by simp) _ (by simp [h]) rfl
        · exact h2.1 h
  exact this _ h.nodup h.dots h.apart

theorem keys_length (u : Fn) (xs : List Nat) (a : List (List K × List K)) (h : xs.length = a.length) : (keys u xs).length = (flat a).length := by
  induction xs generalizing a with
  | nil => cases a with
    | nil => rfl
    | cons _ _ => simp at h
  | cons x xs ih => cases a with
    | nil => simp at h
    | cons p a =>
      have := ih a (by simpa using h)
      simp [keys, flat] at this ⊢; omega

theorem assignPair_ok (u : Fn) (i : Nat) (a : List K × List K) (s s' : Store K) : u.assignPair i a s = .ok s' () ↔
    ∃ x, u.vars[i]? = some x ∧ (a.1.length = u.size x ∧ a.2.length = u.size (u.dot x)) ∧ s' = (s.put x a.1).put (u.dot x) a.2 := by
  unfold Fn.assignPair
  cases hx : u.vars[i]? with
  | none => simp [Fn.assignAt, hx]
  | some x =>
    by_cases h1 : a.1.length = u.size x
    · by_cases h2 : a.2.length = u.size (u.dot x)
      · simp [Fn.assignAt, hx, h1, h2, eq_comm]
      · simp [Fn.assignAt, hx, h1, h2]
    · simp [Fn.assignAt, hx, h1]

theorem loop2_eq (u : Fn) (v w : List K) (xs : List Nat) : ∀ (p q : Nat) (s : Store K),
    u.loop2 v w p q xs s = putAll (keys u xs) (flat ((pieces u.size xs (v.drop p)).zip (pieces (fun x => u.size (u.dot x)) xs (w.drop q)))) s := by
  induction xs with
  | nil => intro p q s; rfl
  | cons x xs ih =>
    intro p q s
    have e : keys u (x :: xs) = x :: u.dot x :: keys u xs := by simp [keys]
    rw [Fn.loop2, ih, e, pieces, pieces, List.drop_drop, List.drop_drop]
    rfl

theorem putAll_keys (u : Fn) (x : Nat) (xs : List Nat) (a : List K × List K) (l : List (List K × List K)) (s : Store K) :
    putAll (keys u (x :: xs)) (flat (a :: l)) s = putAll (keys u xs) (flat l) ((s.put x a.1).put (u.dot x) a.2) := by
  have e : keys u (x :: xs) = x :: u.dot x :: keys u xs := by simp [keys]
  rw [e]; rfl

theorem parse2_ok (u : Fn) : ∀ (l : List (List K × List K)) (i : Nat) (a : List K × List K) (s s' : Store K), (l = [] → i = 0 → u.vars.length ≤ 1) →
    (u.parse2 i a l s = .ok s' () ↔
      List.Forall₂ (fun x p => p.1.length = u.size x ∧ p.2.length = u.size (u.dot x)) (u.vars.drop i) (a :: l) ∧
        s' = putAll (keys u (u.vars.drop i)) (flat (a :: l)) s) := by
  intro l
  induction l with
  | nil =>
    intro i a s s' hc
    rw [Fn.parse2]
    by_cases h1 : i + 1 = u.vars.length
    · rw [if_pos h1, assignPair_ok]
      have hi : i < u.vars.length := by omega
      have e : u.vars.drop i = [u.vars[i]] := by
        rw [List.drop_eq_getElem_cons hi, List.drop_eq_nil_of_le (by omega)]
      rw [e]
      constructor
      · rintro ⟨x, hx, hv, rfl⟩
        rw [List.getElem?_eq_getElem hi] at hx
        cases hx
        exact ⟨.cons hv .nil, rfl⟩
      · rintro ⟨hf, rfl⟩
        cases hf with
        | cons hv _ => exact ⟨_, List.getElem?_eq_getElem hi, hv, rfl⟩
    · rw [if_neg h1]
      have hno : ¬ List.Forall₂ (fun x (p : List K × List K) => p.1.length = u.size x ∧ p.2.length = u.size (u.dot x)) (u.vars.drop i) [a] := by
        intro hf
        have := forall2_length hf
        simp at this; omega
      constructor
      · intro h
        exfalso
        by_cases h2 : i < u.vars.length
        · rw [if_pos h2] at h
          by_cases h3 : i = 0
          · have := hc rfl h3; omega
          · rw [if_neg h3] at h; cases h
        · rw [if_neg h2] at h; cases h
      · intro h; exact absurd h.1 hno
  | cons w l ih =>
    intro i a s s' _
    have key : u.parse2 i a (w :: l) s = .ok s' () ↔ ∃ s1, u.assignPair i a s = .ok s1 () ∧ u.parse2 (i + 1) w l s1 = .ok s' () := by
      rw [Fn.parse2]
      cases h : u.assignPair i a s <;> simp
    rw [key]
    constructor
    · rintro ⟨s1, h1, h2⟩
      obtain ⟨x, hx, hv, rfl⟩ := (assignPair_ok u i a s s1).1 h1
      obtain ⟨g1, g2⟩ := (ih (i + 1) w _ s' (by omega)).1 h2
      obtain ⟨hi, hx'⟩ := List.getElem?_eq_some_iff.1 hx
      rw [List.drop_eq_getElem_cons hi, hx', putAll_keys]
      exact ⟨.cons hv g1, g2⟩
    · rintro ⟨h1, h2⟩
      by_cases hi : i < u.vars.length
      · rw [List.drop_eq_getElem_cons hi] at h1 h2
        rw [putAll_keys] at h2
        cases h1 with
        | cons hv hr =>
          exact ⟨_, (assignPair_ok u i a s _).2 ⟨_, List.getElem?_eq_getElem hi, hv, rfl⟩, (ih (i + 1) w _ s' (by omega)).2 ⟨hr, h2⟩⟩
      · rw [List.drop_eq_nil_of_le (by omega)] at h1
        cases h1

theorem fits2_zip (u : Fn) : ∀ (xs : List Nat) (v w : List (List K)), List.Forall₂ (fun x y => y.length = u.size x) xs v →
    List.Forall₂ (fun x y => y.length = u.size (u.dot x)) xs w →
    List.Forall₂ (fun x (p : List K × List K) => p.1.length = u.size x ∧ p.2.length = u.size (u.dot x)) xs (v.zip w) ∧
      (v.zip w).map Prod.fst = v ∧ (v.zip w).map Prod.snd = w := by
  intro xs
  induction xs with
  | nil => intro v w h1 h2; cases h1; cases h2; exact ⟨.nil, rfl, rfl⟩
  | cons x xs ih =>
    intro v w h1 h2
    cases h1 with
    | cons a b =>
      cases h2 with
      | cons c d =>
        obtain ⟨g1, g2, g3⟩ := ih _ _ b d
        exact ⟨.cons ⟨a, c⟩ g1, by simp [g2], by simp [g3]⟩

theorem fits2_unzip (u : Fn) : ∀ (xs : List Nat) (a : List (List K × List K)),
    List.Forall₂ (fun x (p : List K × List K) => p.1.length = u.size x ∧ p.2.length = u.size (u.dot x)) xs a →
    List.Forall₂ (fun x y => y.length = u.size x) xs (a.map Prod.fst) ∧ List.Forall₂ (fun x y => y.length = u.size (u.dot x)) xs (a.map Prod.snd) ∧
      (a.map Prod.fst).zip (a.map Prod.snd) = a := by
  intro xs
  induction xs with
  | nil => intro a h; cases h; exact ⟨.nil, .nil, rfl⟩
  | cons x xs ih =>
    intro a h
    cases h with
    | cons h1 h2 =>
      obtain ⟨g1, g2, g3⟩ := ih _ h2
      exact ⟨.cons h1.1 g1, .cons h1.2 g2, by simp [g3]⟩

/-- **C77** `velocity(...)` with values and velocities, for a function none of whose variables is the derivative of another one: it returns iff the function has the output and the
arguments are a value and a velocity for each variable in order, or the concatenations of such values and velocities. The variables and their derivatives then have these
values, and it changes nothing else. -/
theorem C77_velocity (u : Fn) (en : Bool) (out : Store K → R) (a : List K × List K) (l : List (List K × List K)) (s s' : Store K) (r : R) (hn : Indep u) :
    u.velocity en out a l s = .ok s' r ↔
      en = true ∧ r = out s' ∧ ∃ vals, Fits2 u vals ∧
        (a :: l = vals ∨ (2 ≤ u.vars.length ∧ a :: l = [((vals.map Prod.fst).flatten, (vals.map Prod.snd).flatten)])) ∧
        Sets (u.vars.flatMap (fun x => [x, u.dot x])) (vals.flatMap (fun p => [p.1, p.2])) s s' := by
  unfold Fn.velocity
  rw [run_ok]
  have hk := keys_nodup u hn
  have key : u.parse2 0 a l s = .ok s' () ↔ ∃ vals, Fits2 u vals ∧
        (a :: l = vals ∨ (2 ≤ u.vars.length ∧ a :: l = [((vals.map Prod.fst).flatten, (vals.map Prod.snd).flatten)])) ∧
        Sets (keys u u.vars) (flat vals) s s' := by
    by_cases hc : l = [] ∧ 2 ≤ u.vars.length
    · obtain ⟨rfl, h2⟩ := hc
      rw [Fn.parse2, if_neg (by omega), if_pos (by omega), if_pos rfl]
      unfold Fn.assignAll2
      have hne : u.vars ≠ [] := by intro h; rw [h] at h2; simp at h2
      rw [if_neg hne]
      have single : ∀ vals, Fits2 u vals → [a] ≠ vals := by
        intro vals hf h
        have := forall2_length hf
        rw [← h] at this; simp at this; omega
      by_cases hl : a.1.length ≠ (u.vars.map u.size).sum
      · rw [if_pos hl]
        constructor
        · intro h; cases h
        · rintro ⟨vals, hf, h | ⟨_, h⟩, _⟩
          · exact absurd h (single vals hf)
          · have := (flatten_pieces u.size u.vars _ (fits2_unzip u _ _ hf).1).1
            simp at h; rw [h] at hl; exact absurd this hl
      · rw [if_neg hl]
        by_cases hl2 : a.2.length ≠ (u.vars.map (fun x => u.size (u.dot x))).sum
        · rw [if_pos hl2]
          constructor
          · intro h; cases h
          · rintro ⟨vals, hf, h | ⟨_, h⟩, _⟩
            · exact absurd h (single vals hf)
            · have := (flatten_pieces (fun x => u.size (u.dot x)) u.vars _ (fits2_unzip u _ _ hf).2.1).1
              simp at h; rw [h] at hl2; exact absurd this hl2
        · rw [if_neg hl2]
          obtain ⟨p1, p2⟩ := pieces_spec u.size u.vars a.1 (by omega)
          obtain ⟨q1, q2⟩ := pieces_spec (fun x => u.size (u.dot x)) u.vars a.2 (by omega)
          obtain ⟨g1, g2, g3⟩ := fits2_zip u _ _ _ p1 q1
          have e := loop2_eq u a.1 a.2 u.vars 0 0 s
          rw [List.drop_zero, List.drop_zero] at e
          constructor
          · intro h
            simp only [Outcome.ok.injEq, and_true] at h
            exact ⟨_, g1, Or.inr ⟨h2, by rw [g2, g3, p2, q2]⟩, by rw [← h, e]; exact putAll_sets _ _ _ hk⟩
          · rintro ⟨vals, hf, h | ⟨_, h⟩, hs⟩
            · exact absurd h (single vals hf)
            · simp only [List.cons.injEq, and_true] at h
              obtain ⟨f1, f2, f3⟩ := fits2_unzip u _ _ hf
              have e1 := (flatten_pieces u.size u.vars _ f1).2
              have e2 := (flatten_pieces (fun x => u.size (u.dot x)) u.vars _ f2).2
              simp only [Outcome.ok.injEq, and_true]
              rw [e, h]
              simp only
              rw [e1, e2, f3]
              exact ((putAll_iff _ _ _ _ hk (keys_length u _ _ (forall2_length hf))).2 hs).symm
    · have hle : l = [] → 0 = 0 → u.vars.length ≤ 1 := by
        intro h _
        rcases Nat.lt_or_ge u.vars.length 2 with h' | h'
        · omega
        · exact absurd ⟨h, h'⟩ hc
      rw [parse2_ok u l 0 a s s' hle]
      rw [List.drop_zero]
      constructor
      · rintro ⟨h1, h2⟩
        exact ⟨a :: l, h1, Or.inl rfl, (putAll_iff _ _ _ _ hk (keys_length u _ _ (forall2_length h1))).1 h2⟩
      · rintro ⟨vals, hf, h | ⟨h2, h⟩, hs⟩
        · rw [h]
          exact ⟨hf, (putAll_iff _ _ _ _ hk (keys_length u _ _ (forall2_length hf))).2 hs⟩
        · simp at h
          exact absurd ⟨h.2, h2⟩ hc
  rw [key]
  constructor
  · rintro ⟨h1, h2, h3⟩; exact ⟨h1, h3, h2⟩
  · rintro ⟨h1, h2, h3⟩; exact ⟨h1, h3, h2⟩

/-- What `velocity(x1, val1, vel1, ...)` writes, in order -/
def writes (u : Fn) (l : List (Nat × List K × List K)) : List (Nat × List K) := l.flatMap (fun a => [(a.1, a.2.1), (u.dot a.1, a.2.2)])

/-- **C77** `velocity(x1, val1, vel1, ...)`: it returns iff the variables are variables of the function and the sizes are right, the variables and their derivatives then have the last
of their values, and the others the value they had. -/
theorem C77_velocity_named (u : Fn) (en : Bool) (out : Store K → R) (l : List (Nat × List K × List K)) (s s' : Store K) (r : R) :
    u.velocityNamed en out l s = .ok s' r ↔
      en = true ∧ r = out s' ∧ (∀ a ∈ l, a.1 ∈ u.vars ∧ a.2.1.length = u.size a.1 ∧ a.2.2.length = u.size (u.dot a.1)) ∧
        ∀ y, s' y = (lastOf (writes u l) y).getD (s y) := by
  unfold Fn.velocityNamed
  rw [run_ok]
  have key : ∀ (l : List (Nat × List K × List K)) (s : Store K), u.parseNamed2 l s = .ok s' () ↔
      (∀ a ∈ l, a.1 ∈ u.vars ∧ a.2.1.length = u.size a.1 ∧ a.2.2.length = u.size (u.dot a.1)) ∧ ∀ y, s' y = (lastOf (writes u l) y).getD (s y) := by
    intro l
    induction l with
    | nil =>
      intro s
      simp only [Fn.parseNamed2, Outcome.ok.injEq, and_true]
      constructor
      · rintro rfl; exact ⟨by simp, fun y => rfl⟩
      · rintro ⟨_, h⟩; exact (funext h).symm
    | cons a l ih =>
      intro s
      have e : u.parseNamed2 (a :: l) s = .ok s' () ↔ ∃ s1, u.assignVar a.1 a.2.1 true s = .ok s1 () ∧
          ∃ s2, u.assignVar a.1 a.2.2 false s1 = .ok s2 () ∧ u.parseNamed2 l s2 = .ok s' () := by
        rw [Fn.parseNamed2]
        cases h : u.assignVar a.1 a.2.1 true s with
        | ok s1 x =>
          simp only
          cases h2 : u.assignVar a.1 a.2.2 false s1 <;> simp [h2]
        | throw s1 => simp
        | ub => simp
      rw [e]
      have put : ∀ (m : List (Nat × List K)) (b : Nat × List K) (s : Store K) (y : Nat), (lastOf m y).getD ((s.put b.1 b.2) y) = (lastOf (b :: m) y).getD (s y) := by
        intro m b s y
        rw [lastOf_cons]
        cases lastOf m y with
        | some c => simp
        | none =>
          by_cases h : b.1 = y
          · simp [h, Store.put]
          · have : ¬ y = b.1 := fun h' => h h'.symm
            simp [h, this, Store.put]
      have e2 : ∀ y, (lastOf (writes u l) y).getD (((s.put a.1 a.2.1).put (u.dot a.1) a.2.2) y) = (lastOf (writes u (a :: l)) y).getD (s y) := by
        intro y
        rw [put _ (u.dot a.1, a.2.2), put _ (a.1, a.2.1)]
        rfl
      constructor
      · rintro ⟨s1, h1, s2, h2, h3⟩
        obtain ⟨g1, g2, rfl⟩ := (assignVar_ok u a.1 a.2.1 true s s1).1 h1
        obtain ⟨_, g3, rfl⟩ := (assignVar_ok u a.1 a.2.2 false _ s2).1 h2
        obtain ⟨g4, g5⟩ := (ih _).1 h3
        refine ⟨fun b hb => ?_, fun y => by rw [g5, ← e2]; rfl⟩
        rcases List.mem_cons.1 hb with rfl | hb
        · exact ⟨g1, g2, g3⟩
        · exact g4 b hb
      · rintro ⟨h1, h2⟩
        have ha := h1 a (by simp)
        exact ⟨_, (assignVar_ok u a.1 a.2.1 true s _).2 ⟨ha.1, ha.2.1, rfl⟩, _, (assignVar_ok u a.1 a.2.2 false _ _).2 ⟨ha.1, ha.2.2, rfl⟩,
          (ih _).2 ⟨fun b hb => h1 b (by simp [hb]), fun y => by rw [h2, ← e2]; rfl⟩⟩
  rw [key]
  constructor
  · rintro ⟨h1, h2, h3⟩; exact ⟨h1, h3, h2⟩
  · rintro ⟨h1, h2, h3⟩; exact ⟨h1, h3, h2⟩

/-! ## Cases -/

/-- Two variables of sizes 1 and 2, with derivatives 10 and 11 -/
def u₀ : Fn := ⟨[0, 1], fun x => if x % 10 = 0 then 1 else 2, fun x => x + 10⟩

example : Indep u₀ := ⟨by decide, by decide, by decide⟩

/-- One value per variable, and the concatenated one, give the same call -/
example : ∃ s', u₀.value true (fun s => s 1) [7] [[8, 9]] (fun _ => []) = .ok s' [8, 9] ∧ u₀.value true (fun s => s 1) [7, 8, 9] [] (fun _ => []) = .ok s' [8, 9] := by
  have h := fun (r : List Nat) (v : List Nat) (l : List (List Nat)) (s' : Store Nat) => C77_value u₀ true (fun s => s 1) v l (fun _ => []) s' r (by decide)
  refine ⟨putAll [0, 1] [[7], [8, 9]] (fun _ => []), (h _ _ _ _).2 ?_, (h _ _ _ _).2 ?_⟩
  · exact ⟨rfl, rfl, [[7], [8, 9]], .cons rfl (.cons rfl .nil), Or.inl rfl, putAll_sets _ _ _ (by decide)⟩
  · exact ⟨rfl, rfl, [[7], [8, 9]], .cons rfl (.cons rfl .nil), Or.inr ⟨by decide, rfl⟩, putAll_sets _ _ _ (by decide)⟩

/-- A call that throws may leave the first variables changed: three values for two variables -/
theorem C77_throw_changes : ∃ s', u₀.value true (fun s => s 1) [7] [[8, 9], [1]] (fun _ => []) = .throw s' ∧ s' 0 = [7] :=
  ⟨_, rfl, rfl⟩

example : ∃ s', u₀.velocityNamed true (fun s => s 10) [(0, [1], [2]), (0, [3], [4])] (fun _ => []) = .ok s' [4] ∧ s' 0 = [3] :=
  ⟨_, rfl, rfl⟩

end Verif.C77
