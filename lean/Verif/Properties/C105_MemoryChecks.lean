import Verif.Model.MemoryChecks
import Mathlib.Data.List.Induction
/-!
# C105 - the permission to allocate
-/
set_option autoImplicit false

namespace Verif.C105
open Verif.MC

/-! ## Specification -/

inductive Op where
  | set (a : Bool)
  | over (a : Bool)
  | restore

def Op.apply (i : Nat) : Op → State → Option State
  | .set a, s => s.set i a
  | .over a, s => s.override i a
  | .restore, s => s.restore i

/-- Calls made by the code `i` -/
def run (i : Nat) : List Op → State → Option State
  | [], s => some s
  | o :: l, s => (o.apply i s).bind (run i l)

/-- The programs where each override is mirrored by a restore, as the documentation asks -/
inductive Mirrored : List Op → Prop where
  | nil : Mirrored []
  | set (a : Bool) : Mirrored [.set a]
  | scope (a : Bool) (l : List Op) : Mirrored l → Mirrored (.over a :: (l ++ [.restore]))
  | append (l l' : List Op) : Mirrored l → Mirrored l' → Mirrored (l ++ l')

/-- The overrides minus the restores -/
def depth : List Op → Int
  | [] => 0
  | .set _ :: l => depth l
  | .over _ :: l => depth l + 1
  | .restore :: l => depth l - 1

def Coherent (i : Nat) (s : State) : Prop := s.site i = s.lib

/-! ## One caller -/

theorem run_append (i : Nat) (l l' : List Op) (s : State) : run i (l ++ l') s = (run i l s).bind (run i l') := by
  induction l generalizing s with
  | nil => rfl
  | cons o l ih =>
    show (o.apply i s).bind (run i (l ++ l')) = ((o.apply i s).bind (run i l)).bind (run i l')
    cases o.apply i s with
    | none => rfl
    | some s' => exact ih s'

theorem check_eq {i : Nat} {s : State} (h : Coherent i s) : s.check i = some s := if_pos h

theorem set_eq (i : Nat) (s : State) (a : Bool) (h : Coherent i s) : ∃ s', s.set i a = some s' ∧ s'.lib = a ∧ s'.stack = s.stack ∧ Coherent i s' := by
  unfold State.set
  rw [check_eq h]
  exact ⟨_, rfl, rfl, rfl, by simp [Coherent, State.enforce]⟩

theorem override_eq (i : Nat) (s : State) (a : Bool) (h : Coherent i s) : ∃ s', s.override i a = some s' ∧ s'.lib = a ∧ s'.stack = s.lib :: s.stack ∧ Coherent i s' := by
  unfold State.override
  rw [check_eq h]
  exact ⟨_, rfl, rfl, rfl, by simp [Coherent, State.enforce]⟩

theorem restore_eq (i : Nat) (s : State) (a : Bool) (l : List Bool) (h : Coherent i s) (e : s.stack = a :: l) :
    ∃ s', s.restore i = some s' ∧ s'.lib = a ∧ s'.stack = l ∧ Coherent i s' := by
  unfold State.restore
  rw [check_eq h]
  simp only [Option.bind_some, e]
  exact ⟨_, rfl, rfl, rfl, by simp [Coherent, State.enforce]⟩

theorem mirrored_run (i : Nat) (l : List Op) (hl : Mirrored l) : ∀ s, Coherent i s → ∃ s', run i l s = some s' ∧ s'.stack = s.stack ∧ Coherent i s' := by
  induction hl with
  | nil => exact fun s h => ⟨s, rfl, rfl, h⟩
  | set a =>
    intro s h
    obtain ⟨s', e, -, h2, h3⟩ := set_eq i s a h
    exact ⟨s', by show (s.set i a).bind (run i []) = _; rw [e]; rfl, h2, h3⟩
  | scope a l _ ih =>
    intro s h
    obtain ⟨s1, e1, -, k1, c1⟩ := override_eq i s a h
    obtain ⟨s2, e2, k2, c2⟩ := ih s1 c1
    obtain ⟨s3, e3, -, k3, c3⟩ := restore_eq i s2 s.lib s.stack c2 (by rw [k2, k1])
    refine ⟨s3, ?_, k3, c3⟩
    show (s.override i a).bind (run i (l ++ [.restore])) = _
    rw [e1, Option.bind_some, run_append, e2, Option.bind_some]
    show (s2.restore i).bind (run i []) = _
    rw [e3]; rfl
  | append l l' _ _ ih ih' =>
    intro s h
    obtain ⟨s1, e1, k1, c1⟩ := ih s h
    obtain ⟨s2, e2, k2, c2⟩ := ih' s1 c1
    exact ⟨s2, by rw [run_append, e1]; exact e2, by rw [k2, k1], c2⟩

/-- Between an override and its restore the permission is the one asked, whatever mirrored calls were made around; after the restore it is the one that was before the
override, whatever was set in between. -/
theorem C105_scope (i : Nat) (s : State) (h : Coherent i s) (a : Bool) (l : List Op) (hl : Mirrored l) :
    (∃ s', run i [.over a] s = some s' ∧ s'.isAllowed i = some a) ∧
    ∃ s', run i (.over a :: (l ++ [.restore])) s = some s' ∧ s'.isAllowed i = s.isAllowed i ∧ s'.stack = s.stack ∧ Coherent i s' := by
  obtain ⟨s1, e1, f1, k1, c1⟩ := override_eq i s a h
  refine ⟨⟨s1, by show (s.override i a).bind (run i []) = _; rw [e1]; rfl, ?_⟩, ?_⟩
  · unfold State.isAllowed
    rw [check_eq c1]; simp [f1]
  obtain ⟨s2, e2, k2, c2⟩ := mirrored_run i l hl s1 c1
  obtain ⟨s3, e3, f3, k3, c3⟩ := restore_eq i s2 s.lib s.stack c2 (by rw [k2, k1])
  refine ⟨s3, ?_, ?_, k3, c3⟩
  · show (s.override i a).bind (run i (l ++ [.restore])) = _
    rw [e1, Option.bind_some, run_append, e2, Option.bind_some]
    show (s2.restore i).bind (run i []) = _
    rw [e3]; rfl
  · unfold State.isAllowed
    rw [check_eq c3, check_eq h]; simp [f3]

/-- With a single caller the assertions fail exactly when a restore comes too early: some beginning of the program has more restores than overrides and recorded values. -/
theorem C105_defined (i : Nat) (l : List Op) (s : State) (h : Coherent i s) :
    (run i l s = none ↔ ∃ p q, l = p ++ q ∧ (s.stack.length : Int) + depth p < 0) ∧ ∀ s', run i l s = some s' → Coherent i s' ∧ (s'.stack.length : Int) = s.stack.length + depth l := by
  induction l generalizing s with
  | nil =>
    refine ⟨⟨fun e => (by cases e), ?_⟩, fun s' e => by cases e; exact ⟨h, by simp [depth]⟩⟩
    rintro ⟨p, q, e, hd⟩
    have : p = [] := (List.append_eq_nil_iff.1 e.symm).1
    subst this
    simp only [depth] at hd
    omega
  | cons o l ih =>
    have good : ∀ s1, o.apply i s = some s1 → Coherent i s1 → (s1.stack.length : Int) = s.stack.length + depth [o] →
        (run i (o :: l) s = none ↔ ∃ p q, o :: l = p ++ q ∧ (s.stack.length : Int) + depth p < 0) ∧
        ∀ s', run i (o :: l) s = some s' → Coherent i s' ∧ (s'.stack.length : Int) = s.stack.length + depth (o :: l) := by
      intro s1 e1 c1 k1
      have er : run i (o :: l) s = run i l s1 := by
        show (o.apply i s).bind (run i l) = _
        rw [e1]; rfl
      have dc : ∀ p, depth (o :: p) = depth [o] + depth p := by
        intro p; cases o <;> simp only [depth] <;> omega
      obtain ⟨i1, i2⟩ := ih s1 c1
      rw [er, i1]
      refine ⟨⟨?_, ?_⟩, fun s' e' => ?_⟩
      · rintro ⟨p, q, e, hd⟩
        exact ⟨o :: p, q, by rw [e]; rfl, by rw [dc]; omega⟩
      · rintro ⟨p, q, e, hd⟩
        cases p with
        | nil => simp only [depth] at hd; omega
        | cons o' p =>
          obtain ⟨rfl, e'⟩ := List.cons.inj e
          exact ⟨p, q, e', by rw [dc] at hd; omega⟩
      · obtain ⟨j1, j2⟩ := i2 s' e'
        exact ⟨j1, by rw [dc]; omega⟩
    cases o with
    | set a =>
      obtain ⟨s1, e, -, k, c⟩ := set_eq i s a h
      exact good s1 e c (by rw [k]; simp [depth])
    | over a =>
      obtain ⟨s1, e, -, k, c⟩ := override_eq i s a h
      exact good s1 e c (by rw [k]; simp [depth])
    | restore =>
      cases hs : s.stack with
      | nil =>
        have e : s.restore i = none := by
          unfold State.restore
          rw [check_eq h]
          simp [hs]
        have er : run i (.restore :: l) s = none := by
          show (s.restore i).bind (run i l) = _
          rw [e]; rfl
        rw [er]
        refine ⟨⟨fun _ => ⟨[.restore], l, rfl, by simp [depth]⟩, fun _ => rfl⟩, fun s' e' => by cases e'⟩
      | cons a st =>
        obtain ⟨s1, e, -, k, c⟩ := restore_eq i s a st h hs
        have := good s1 e c (by rw [k, hs]; simp only [depth, List.length_cons]; omega)
        rw [hs] at this
        exact this

/-! ## The resolution schemes -/

/-- Calls to the functions of this file, in a part of the program -/
def part (i : Nat) (l : List Op) (s : State) : Ends := ofOption (run i l s)

/-- A part that does not set the permission but between overrides and restores, which are mirrored -/
inductive Scoped : List Op → Prop where
  | nil : Scoped []
  | scope (a : Bool) (l : List Op) : Mirrored l → Scoped (.over a :: (l ++ [.restore]))
  | append (l l' : List Op) : Scoped l → Scoped l' → Scoped (l ++ l')

theorem scoped_run (i : Nat) (l : List Op) (hl : Scoped l) : ∀ s, Coherent i s → ∃ s', run i l s = some s' ∧ s'.lib = s.lib ∧ s'.stack = s.stack ∧ Coherent i s' := by
  induction hl with
  | nil => exact fun s h => ⟨s, rfl, rfl, rfl, h⟩
  | scope a l hl =>
    intro s h
    obtain ⟨s1, e1, f1, k1, c1⟩ := override_eq i s a h
    obtain ⟨s2, e2, k2, c2⟩ := mirrored_run i l hl s1 c1
    obtain ⟨s3, e3, f3, k3, c3⟩ := restore_eq i s2 s.lib s.stack c2 (by rw [k2, k1])
    refine ⟨s3, ?_, f3, k3, c3⟩
    show (s.override i a).bind (run i (l ++ [.restore])) = _
    rw [e1, Option.bind_some, run_append, e2, Option.bind_some]
    show (s2.restore i).bind (run i []) = _
    rw [e3]; rfl
  | append l l' _ _ ih ih' =>
    intro s h
    obtain ⟨s1, e1, f1, k1, c1⟩ := ih s h
    obtain ⟨s2, e2, f2, k2, c2⟩ := ih' s1 c1
    exact ⟨s2, by rw [run_append, e1]; exact e2, f2.trans f1, k2.trans k1, c2⟩

theorem part_eq (i : Nat) (l : List Op) (hl : Scoped l) (s : State) (h : Coherent i s) :
    ∃ s', part i l s = .normally s' ∧ s'.lib = s.lib ∧ s'.stack = s.stack ∧ Coherent i s' := by
  obtain ⟨s', e, r⟩ := scoped_run i l hl s h
  exact ⟨s', by unfold part; rw [e]; rfl, r⟩

theorem updateData_eq (i : Nat) (l : List Op) (hl : Mirrored l) (s : State) (h : Coherent i s) :
    ∃ s', updateData i (part i l) s = .normally s' ∧ s'.lib = s.lib ∧ s'.stack = s.stack ∧ Coherent i s' := by
  obtain ⟨s1, e1, f1, k1, c1⟩ := override_eq i s true h
  obtain ⟨s2, e2, k2, c2⟩ := mirrored_run i l hl s1 c1
  obtain ⟨s3, e3, f3, k3, c3⟩ := restore_eq i s2 s.lib s.stack c2 (by rw [k2, k1])
  refine ⟨s3, ?_, f3, k3, c3⟩
  simp only [updateData, e1, ofOption, Ends.seq, part, e2, e3]

theorem allowed_eq {i : Nat} {s : State} (h : Coherent i s) : s.isAllowed i = some s.lib := by
  unfold State.isAllowed
  rw [check_eq h]; rfl

/-- A resolution by a scheme that has data for the problem leaves the permission and the stack as they were. -/
theorem C105_resolution (i : Nat) (s : State) (h : Coherent i s) (x c r u v : List Op) (hr : Scoped r) (hu : Mirrored u) (hv : Scoped v) :
    ∃ s', schemeSolve i true (part i x) (part i c) (part i r) (part i u) (part i v) s = .normally s' ∧ s'.isAllowed i = s.isAllowed i ∧ s'.stack = s.stack := by
  obtain ⟨s1, e1, f1, k1, c1⟩ := part_eq i r hr s h
  obtain ⟨s2, e2, f2, k2, c2⟩ := updateData_eq i u hu s1 c1
  obtain ⟨s3, e3, f3, k3, c3⟩ := part_eq i v hv s2 c2
  refine ⟨s3, ?_, ?_, by rw [k3, k2, k1]⟩
  · simp only [schemeSolve, if_true, Ends.seq, e1, e2, e3]
  · rw [allowed_eq c3, allowed_eq h, f3, f2, f1]

/-! ## What does not hold -/

/-- The first resolution of a problem by a scheme gives the permission for ever: the allocations that were forbidden before it are allowed after it, and a value stays in the stack, since the
call to `restore` in `createComputationData` is never reached. -/
theorem C105_first_resolution_false (i : Nat) (s : State) (h : Coherent i s) (x c r u v : List Op) (hx : Scoped x) (hc : Scoped c) (hr : Scoped r) (hu : Mirrored u) (hv : Scoped v) :
    ∃ s', schemeSolve i false (part i x) (part i c) (part i r) (part i u) (part i v) s = .normally s' ∧ s'.isAllowed i = some true ∧ s'.stack = s.lib :: s.stack := by
  obtain ⟨s1, e1, f1, k1, c1⟩ := part_eq i x hx s h
  obtain ⟨s2, e2, f2, k2, c2⟩ := override_eq i s1 true c1
  obtain ⟨s3, e3, f3, k3, c3⟩ := part_eq i c hc s2 c2
  obtain ⟨s4, e4, f4, k4, c4⟩ := part_eq i r hr s3 c3
  obtain ⟨s5, e5, f5, k5, c5⟩ := updateData_eq i u hu s4 c4
  obtain ⟨s6, e6, f6, k6, c6⟩ := part_eq i v hv s5 c5
  refine ⟨s6, ?_, ?_, by rw [k6, k5, k4, k3, k2, k1, f1]⟩
  · simp only [schemeSolve, createData, Ends.seq, Bool.false_eq_true, if_false, e1, e2, ofOption, e3, e4, e5, e6]
  · rw [allowed_eq c6, f6, f5, f4, f3, f2]

/-- An exception in the update of the data leaves the permission given as well. -/
theorem C105_failed_update_false (i : Nat) (s : State) (h : Coherent i s) (x c r : List Op) (hr : Scoped r) (v : State → Ends) :
    ∃ s', schemeSolve i true (part i x) (part i c) (part i r) (fun s => .throws s) v s = .throws s' ∧ s'.isAllowed i = some true ∧ s'.stack = s.lib :: s.stack := by
  obtain ⟨s1, e1, f1, k1, c1⟩ := part_eq i r hr s h
  obtain ⟨s2, e2, f2, k2, c2⟩ := override_eq i s1 true c1
  refine ⟨s2, ?_, by rw [allowed_eq c2, f2], by rw [k2, k1, f1]⟩
  simp only [schemeSolve, if_true, Ends.seq, e1, updateData, e2, ofOption]

/-- An exception in the expression of the macro leaves the allocations allowed, and a value in the stack. -/
theorem C105_throw_false (i : Nat) (s : State) (h : Coherent i s) : ∃ s', temporaryAllow i (fun s => .throws s) s = .throws s' ∧ s'.isAllowed i = some true ∧ s'.stack.length = s.stack.length + 1 := by
  obtain ⟨s1, e1, f1, k1, c1⟩ := override_eq i s true h
  refine ⟨s1, by unfold temporaryAllow; rw [e1], ?_, by rw [k1]; rfl⟩
  unfold State.isAllowed
  rw [check_eq c1]; simp [f1]

/-- When it ends normally and its own overrides are mirrored, the macro gives back the permission. -/
theorem C105_macro (i : Nat) (s : State) (h : Coherent i s) (l : List Op) (hl : Mirrored l) :
    ∃ s', temporaryAllow i (fun s => match run i l s with | none => .fails | some s => .normally s) s = .normally s' ∧ s'.isAllowed i = s.isAllowed i ∧ s'.stack = s.stack := by
  obtain ⟨s1, e1, f1, k1, c1⟩ := override_eq i s true h
  obtain ⟨s2, e2, k2, c2⟩ := mirrored_run i l hl s1 c1
  obtain ⟨s3, e3, f3, k3, c3⟩ := restore_eq i s2 s.lib s.stack c2 (by rw [k2, k1])
  refine ⟨s3, ?_, ?_, k3⟩
  · unfold temporaryAllow
    simp only [e1, e2, e3]
  · unfold State.isAllowed
    rw [check_eq c3, check_eq h]; simp [f3]

/-- Two callers with their own variables: after a change by the first one, any call by the second fails the assertion of coherency. -/
theorem C105_sites_false (s : State) (h0 : Coherent 0 s) (h1 : Coherent 1 s) : ∃ s', s.set 0 (!s.lib) = some s' ∧ s'.isAllowed 1 = none ∧ (∀ a, s'.set 1 a = none) ∧ s'.restore 1 = none := by
  have hne : ¬ s.site 1 = !s.lib := by rw [h1]; cases s.lib <;> simp
  unfold State.set
  rw [check_eq h0]
  refine ⟨_, rfl, ?_, fun a => ?_, ?_⟩
  · unfold State.isAllowed State.check
    rw [if_neg (by simpa [State.enforce] using hne)]; rfl
  · show Option.map _ (if _ then _ else none) = none
    rw [if_neg (by simpa [State.enforce] using hne)]; rfl
  · unfold State.restore State.check
    rw [if_neg (by simpa [State.enforce] using hne)]; rfl

/-! ## Concrete cases -/

example : Mirrored [.over true, .set false, .over false, .restore, .restore] :=
  .scope true [.set false, .over false, .restore] (.append [.set false] _ (.set false) (.scope false [] .nil))

example : Coherent 0 ⟨false, fun _ => false, []⟩ ∧ Coherent 1 ⟨false, fun _ => false, []⟩ := ⟨rfl, rfl⟩

example : run 0 [.over true, .restore, .restore] ⟨false, fun _ => false, []⟩ = none := rfl

/-- Allocations are forbidden, then a problem is solved twice: they are allowed after the first resolution, and the second one keeps it so. -/
example : ∃ s' s'', schemeSolve 0 false (part 0 []) (part 0 []) (part 0 [.over true, .restore]) (part 0 []) (part 0 []) ⟨false, fun _ => false, []⟩ = .normally s' ∧
    s'.isAllowed 0 = some true ∧ s'.stack = [false] ∧
    schemeSolve 0 true (part 0 []) (part 0 []) (part 0 [.over true, .restore]) (part 0 []) (part 0 []) s' = .normally s'' ∧ s''.isAllowed 0 = some true ∧ s''.stack = [false] := by
  have hr : Scoped [.over true, .restore] := .scope true [] .nil
  obtain ⟨s1, h1, h2, h3⟩ := C105_first_resolution_false 0 ⟨false, fun _ => false, []⟩ rfl [] [] _ [] [] .nil .nil hr .nil .nil
  have hc : Coherent 0 s1 := by
    unfold State.isAllowed State.check at h2
    by_contra hh
    unfold Coherent at hh
    rw [if_neg hh] at h2
    cases h2
  obtain ⟨s2, h4, h5, h6⟩ := C105_resolution 0 s1 hc [] [] _ [] [] hr .nil .nil
  exact ⟨s1, s2, h1, h2, h3, h4, by rw [h5, h2], by rw [h6, h3]⟩

example : ∃ s', schemeSolve 0 true (part 0 []) (part 0 []) (part 0 []) (fun s => .throws s) (part 0 []) ⟨false, fun _ => false, []⟩ = .throws s' ∧ s'.isAllowed 0 = some true ∧ s'.stack = [false] :=
  C105_failed_update_false 0 ⟨false, fun _ => false, []⟩ rfl [] [] [] .nil _

end Verif.C105
