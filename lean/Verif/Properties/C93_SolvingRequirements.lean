import Verif.Model.SolvingRequirements
import Mathlib.Data.List.Perm.Basic
import Mathlib.Data.List.Nodup
import Mathlib.Tactic.Ring
import Mathlib.Tactic.NormNum

/-!
# C93 Requirements are those that were given, and the schemes know them

The arguments of `SolvingRequirements` may be given in any order; what is not given has its default value.  For every
history of a problem: a weight or an anisotropic weight that is changed by its value is notified once if the task is in
the problem and not otherwise, and a scheme that has handled its events knows the current weights of all tasks of the
problem.  The latter needs that no task is added twice and that no requirement object is assigned to the requirement of a
task; the priority levels and the violation evaluations are not followed at all.
-/

set_option autoImplicit false
set_option linter.unusedSectionVars false

namespace Verif.C93
open Verif.SR Verif.EQ

section
variable {K : Type} [Field K] [LinearOrder K]

/-! ## Specification -/

/-- The requirements `q` are those of the list `l`, and the default ones for the rest. -/
def Given (l : List (Arg K)) (q : Reqs K) : Prop :=
  ((∀ r, Arg.prio r ∈ l → q.prio = r) ∧ ((∀ r, Arg.prio r ∉ l) → q.prio = ⟨0, true⟩)) ∧
  ((∀ r, Arg.weight r ∈ l → q.weight = r) ∧ ((∀ r, Arg.weight r ∉ l) → q.weight = ⟨1, true⟩)) ∧
  ((∀ r, Arg.aniso r ∈ l → q.aniso = r) ∧ ((∀ r, Arg.aniso r ∉ l) → q.aniso = ⟨[], true⟩)) ∧
  ((∀ r, Arg.viol r ∈ l → q.viol = r) ∧ ((∀ r, Arg.viol r ∉ l) → q.viol = ⟨.l2, true⟩))

/-- States reached by a history whose operations all satisfy `F`. -/
inductive Reach (F : State K → Op K → Prop) : State K → Prop
  | init : Reach F .init
  | step {s s' : State K} {op : Op K} : Reach F s → F s op → step s op = some s' → Reach F s'

/-- No task is added while it is in the problem. -/
def Once (s : State K) : Op K → Prop
  | .add t => t ∉ s.tr
  | _ => True

/-- Moreover no object is assigned to the weight or anisotropic weight of a task of the problem. -/
def Followed (s : State K) : Op K → Prop
  | .add t => t ∉ s.tr
  | .put t (.weight _) => t ∉ s.tr
  | .put t (.aniso _) => t ∉ s.tr
  | _ => True

/-- The scheme knows the weights of exactly the tasks of the problem. -/
def Knows (s : State K) : Prop :=
  (∀ t, t ∈ s.tr → ∃ v r, s.view t = some v ∧ s.reqs t = some r ∧ v.weight = r.weight ∧ v.aniso = r.aniso) ∧
  ∀ t, t ∉ s.tr → s.view t = none

/-- The events about `t` that `op` must send: one for each change of what the schemes are told about. -/
def due (s : State K) : Op K → List Event
  | .add t => [⟨.taskAddition, .task t⟩]
  | .remove t => if t ∈ s.tr then [⟨.taskRemoval, .task t⟩] else []
  | .setWeight t _ => if t ∈ s.tr then [⟨.weightChange, .task t⟩] else []
  | .setAniso t _ => if t ∈ s.tr then [⟨.anisotropicWeightChange, .task t⟩] else []
  | _ => []

/-- A requirement that says it is the default one is. -/
def Honest (q : Reqs K) : Prop :=
  (q.prio.dflt = true → q.prio.value = 0) ∧ (q.weight.dflt = true → q.weight.value = 1) ∧
  (q.aniso.dflt = true → q.aniso.value = []) ∧ (q.viol.dflt = true → q.viol.value = .l2)

/-- The same of an argument. -/
def HonestArg : Arg K → Prop
  | .prio r => r.dflt = true → r.value = 0
  | .weight r => r.dflt = true → r.value = 1
  | .aniso r => r.dflt = true → r.value = []
  | .viol r => r.dflt = true → r.value = .l2

/-- No negative requirement. -/
def Nonneg (q : Reqs K) : Prop := 0 ≤ q.prio.value ∧ 0 ≤ q.weight.value ∧ ∀ a ∈ q.aniso.value, 0 ≤ a

/-- The same of an argument. -/
def NonnegArg : Arg K → Prop
  | .prio r => 0 ≤ r.value
  | .weight r => 0 ≤ r.value
  | .aniso r => ∀ a ∈ r.value, 0 ≤ a
  | .viol _ => True

/-- The operation gives objects that satisfy `P`. -/
def Objects (P : Arg K → Prop) : Op K → Prop
  | .create _ l => ∀ a ∈ l, P a
  | .put _ a => P a
  | _ => True

/-- The operation sets no negative value. -/
def SetsNonneg : Op K → Prop
  | .setPrio _ v => 0 ≤ v
  | .setWeight _ v => 0 ≤ v
  | .setAniso _ v => ∀ a ∈ v, 0 ≤ a
  | _ => True

/-! ## The constructor -/

theorem build_some (l : List (Arg K)) : ∀ q q' : Reqs K, build l q = some q' →
    (l.map Arg.kind).Nodup ∧
    ((∀ r, Arg.prio r ∈ l → q'.prio = r) ∧ ((∀ r, Arg.prio r ∉ l) → q'.prio = q.prio)) ∧
    ((∀ r, Arg.weight r ∈ l → q'.weight = r) ∧ ((∀ r, Arg.weight r ∉ l) → q'.weight = q.weight)) ∧
    ((∀ r, Arg.aniso r ∈ l → q'.aniso = r) ∧ ((∀ r, Arg.aniso r ∉ l) → q'.aniso = q.aniso)) ∧
    ((∀ r, Arg.viol r ∈ l → q'.viol = r) ∧ ((∀ r, Arg.viol r ∉ l) → q'.viol = q.viol)) := by
  induction l with
  | nil =>
    intro q q' h
    simp only [build, Option.some.injEq] at h
    subst h
    simp
  | cons a l ih =>
    intro q q' h
    simp only [build] at h
    by_cases hd : l.any (fun b => decide (b.kind = a.kind)) = true
    · rw [if_pos hd] at h
      exact absurd h (by simp)
    · rw [if_neg hd] at h
      have hk : ∀ b ∈ l, b.kind ≠ a.kind := by
        intro b hb hba
        exact hd (List.any_eq_true.mpr ⟨b, hb, decide_eq_true hba⟩)
      obtain ⟨h1, h2, h3, h4, h5⟩ := ih _ _ h
      refine ⟨?_, ?_⟩
      · rw [List.map_cons, List.nodup_cons]
        refine ⟨?_, h1⟩
        intro hm
        obtain ⟨b, hb, hba⟩ := List.mem_map.mp hm
        exact hk b hb hba
      · cases a with
        | prio r0 =>
          have hno : ∀ r, Arg.prio r ∉ l := fun r hr => hk _ hr rfl
          have e := h2.2 hno
          simp only [Reqs.put] at e h3 h4 h5
          refine ⟨⟨?_, ?_⟩, ?_, ?_, ?_⟩
          · intro r hr
            rcases List.mem_cons.mp hr with h | h
            · cases h
              exact e
            · exact absurd h (hno r)
          · intro h
            exact absurd (List.mem_cons_self) (h r0)
          · refine ⟨fun r hr => h3.1 r (by simpa using hr), fun h => h3.2 (fun r hr => h r (List.mem_cons_of_mem _ hr))⟩
          · refine ⟨fun r hr => h4.1 r (by simpa using hr), fun h => h4.2 (fun r hr => h r (List.mem_cons_of_mem _ hr))⟩
          · refine ⟨fun r hr => h5.1 r (by simpa using hr), fun h => h5.2 (fun r hr => h r (List.mem_cons_of_mem _ hr))⟩
        | weight r0 =>
          have hno : ∀ r, Arg.weight r ∉ l := fun r hr => hk _ hr rfl
          have e := h3.2 hno
          simp only [Reqs.put] at e h2 h4 h5
          refine ⟨?_, ⟨?_, ?_⟩, ?_, ?_⟩
          · refine ⟨fun r hr => h2.1 r (by simpa using hr), fun h => h2.2 (fun r hr => h r (List.mem_cons_of_mem _ hr))⟩
          · intro r hr
            rcases List.mem_cons.mp hr with h | h
            · cases h
              exact e
            · exact absurd h (hno r)
          · intro h
            exact absurd (List.mem_cons_self) (h r0)
          · refine ⟨fun r hr => h4.1 r (by simpa using hr), fun h => h4.2 (fun r hr => h r (List.mem_cons_of_mem _ hr))⟩
          · refine ⟨fun r hr => h5.1 r (by simpa using hr), fun h => h5.2 (fun r hr => h r (List.mem_cons_of_mem _ hr))⟩
        | aniso r0 =>
          have hno : ∀ r, Arg.aniso r ∉ l := fun r hr => hk _ hr rfl
          have e := h4.2 hno
          simp only [Reqs.put] at e h2 h3 h5
          refine ⟨?_, ?_, ⟨?_, ?_⟩, ?_⟩
          · refine ⟨fun r hr => h2.1 r (by simpa using hr), fun h => h2.2 (fun r hr => h r (List.mem_cons_of_mem _ hr))⟩
          · refine ⟨fun r hr => h3.1 r (by simpa using hr), fun h => h3.2 (fun r hr => h r (List.mem_cons_of_mem _ hr))⟩
          · intro r hr
            rcases List.mem_cons.mp hr with h | h
            · cases h
              exact e
            · exact absurd h (hno r)
          · intro h
            exact absurd (List.mem_cons_self) (h r0)
          · refine ⟨fun r hr => h5.1 r (by simpa using hr), fun h => h5.2 (fun r hr => h r (List.mem_cons_of_mem _ hr))⟩
        | viol r0 =>
          have hno : ∀ r, Arg.viol r ∉ l := fun r hr => hk _ hr rfl
          have e := h5.2 hno
          simp only [Reqs.put] at e h2 h3 h4
          refine ⟨?_, ?_, ?_, ⟨?_, ?_⟩⟩
          · refine ⟨fun r hr => h2.1 r (by simpa using hr), fun h => h2.2 (fun r hr => h r (List.mem_cons_of_mem _ hr))⟩
          · refine ⟨fun r hr => h3.1 r (by simpa using hr), fun h => h3.2 (fun r hr => h r (List.mem_cons_of_mem _ hr))⟩
          · refine ⟨fun r hr => h4.1 r (by simpa using hr), fun h => h4.2 (fun r hr => h r (List.mem_cons_of_mem _ hr))⟩
          · intro r hr
            rcases List.mem_cons.mp hr with h | h
            · cases h
              exact e
            · exact absurd h (hno r)
          · intro h
            exact absurd (List.mem_cons_self) (h r0)

theorem build_isSome (l : List (Arg K)) : ∀ q : Reqs K, (l.map Arg.kind).Nodup → ∃ q', build l q = some q' := by
  induction l with
  | nil =>
    intro q _
    exact ⟨q, rfl⟩
  | cons a l ih =>
    intro q h
    rw [List.map_cons, List.nodup_cons] at h
    have hd : ¬ l.any (fun b => decide (b.kind = a.kind)) = true := by
      intro hm
      obtain ⟨b, hb, hba⟩ := List.any_eq_true.mp hm
      exact h.1 (List.mem_map.mpr ⟨b, hb, of_decide_eq_true hba⟩)
    simp only [build]
    rw [if_neg hd]
    exact ih _ h.2

theorem given_unique {l : List (Arg K)} {q q' : Reqs K} (h : Given l q) (h' : Given l q') : q = q' := by
  obtain ⟨a1, a2, a3, a4⟩ := h
  obtain ⟨b1, b2, b3, b4⟩ := h'
  have e1 : q.prio = q'.prio := by
    by_cases hp : ∃ r, Arg.prio r ∈ l
    · obtain ⟨r, hr⟩ := hp
      rw [a1.1 r hr, b1.1 r hr]
    · have hn : ∀ r, Arg.prio r ∉ l := fun r hr => hp ⟨r, hr⟩
      rw [a1.2 hn, b1.2 hn]
  have e2 : q.weight = q'.weight := by
    by_cases hp : ∃ r, Arg.weight r ∈ l
    · obtain ⟨r, hr⟩ := hp
      rw [a2.1 r hr, b2.1 r hr]
    · have hn : ∀ r, Arg.weight r ∉ l := fun r hr => hp ⟨r, hr⟩
      rw [a2.2 hn, b2.2 hn]
  have e3 : q.aniso = q'.aniso := by
    by_cases hp : ∃ r, Arg.aniso r ∈ l
    · obtain ⟨r, hr⟩ := hp
      rw [a3.1 r hr, b3.1 r hr]
    · have hn : ∀ r, Arg.aniso r ∉ l := fun r hr => hp ⟨r, hr⟩
      rw [a3.2 hn, b3.2 hn]
  have e4 : q.viol = q'.viol := by
    by_cases hp : ∃ r, Arg.viol r ∈ l
    · obtain ⟨r, hr⟩ := hp
      rw [a4.1 r hr, b4.1 r hr]
    · have hn : ∀ r, Arg.viol r ∉ l := fun r hr => hp ⟨r, hr⟩
      rw [a4.2 hn, b4.2 hn]
  cases q
  cases q'
  simp only at e1 e2 e3 e4
  subst e1 e2 e3 e4
  rfl

/-- **C93 (arguments).**  The constructor accepts exactly the lists with at most one argument of each kind, and gives the
requirements that were given, and the default ones for the rest. -/
theorem C93_make (l : List (Arg K)) (q : Reqs K) : make l = some q ↔ (l.map Arg.kind).Nodup ∧ Given l q := by
  constructor
  · intro h
    obtain ⟨h1, h2⟩ := build_some l _ _ h
    exact ⟨h1, h2⟩
  · rintro ⟨h1, h2⟩
    obtain ⟨q', h'⟩ := build_isSome l (.dflt) h1
    have e : q' = q := given_unique (build_some l _ _ h').2 h2
    rw [e] at h'
    exact h'

theorem given_perm {l l' : List (Arg K)} (h : l.Perm l') {q : Reqs K} (g : Given l q) : Given l' q := by
  have hm : ∀ a, a ∈ l' ↔ a ∈ l := fun a => (h.mem_iff).symm
  simp only [Given, hm]
  exact g

/-- **C93 (order).**  The order of the arguments is of no importance. -/
theorem C93_order {l l' : List (Arg K)} (h : l.Perm l') : make l = make l' := by
  have key : ∀ q, make l = some q ↔ make l' = some q := by
    intro q
    rw [C93_make, C93_make]
    have hp := h.map Arg.kind
    exact ⟨fun g => ⟨hp.nodup_iff.mp g.1, given_perm h g.2⟩, fun g => ⟨hp.nodup_iff.mpr g.1, given_perm h.symm g.2⟩⟩
  cases h1 : make l with
  | some q => exact ((key q).mp h1).symm
  | none =>
    cases h2 : make l' with
    | none => rfl
    | some q =>
      rw [(key q).mpr h2] at h1
      exact absurd h1 (by simp)

/-- **C93 (task).**  The requirements of a task with callbacks are those it was created with. -/
theorem C93_withCallbacks (q : Reqs K) : withCallbacks q = some q := by
  cases q
  rfl

/-! ## Histories -/

/-- What relates the tokens and the tasks. -/
def Tok (s : State K) : Prop := s.tr.Nodup ∧ (∀ t, s.tok t = true ↔ t ∈ s.tr) ∧ ∀ t ∈ s.tr, ∃ r, s.reqs t = some r

theorem upd_self {α : Type} (f : Nat → α) (a : Nat) (x : α) : upd f a x a = x := if_pos rfl

theorem upd_other {α : Type} (f : Nat → α) {a b : Nat} (x : α) (h : b ≠ a) : upd f a x b = f b := if_neg h

theorem set_tok {s : State K} (h : Tok s) (t : Nat) (q : Reqs K) : Tok (s.set t q) := by
  refine ⟨h.1, h.2.1, ?_⟩
  intro u hu
  obtain ⟨r, hr⟩ := h.2.2 u hu
  by_cases e : u = t
  · subst e
    exact ⟨q, upd_self _ _ _⟩
  · exact ⟨r, (upd_other _ _ e).trans hr⟩

theorem notify_tok {s : State K} (h : Tok s) (y : EvType) (t : Nat) : Tok (s.notify y t) := h

theorem step_tok {s s' : State K} {op : Op K} (h : Tok s) (ho : Once s op) (hs : step s op = some s') : Tok s' := by
  cases op with
  | create t args =>
    simp only [SR.step] at hs
    cases hr : s.reqs t with
    | some q => simp only [hr] at hs; exact absurd hs (by simp)
    | none =>
      simp only [hr, Option.bind_eq_some_iff, Option.map_eq_some_iff] at hs
      obtain ⟨q, _, q', _, e⟩ := hs
      subst e
      exact set_tok h _ _
  | add t =>
    simp only [SR.step] at hs
    cases hr : s.reqs t with
    | none => simp only [hr] at hs; exact absurd hs (by simp)
    | some q =>
      simp only [hr, Option.some.injEq] at hs
      subst hs
      have ho' : t ∉ s.tr := ho
      refine ⟨?_, ?_, ?_⟩
      · show (s.tr ++ [t]).Nodup
        rw [List.nodup_append]
        refine ⟨h.1, List.nodup_singleton t, ?_⟩
        intro a ha b hb e
        rw [List.mem_singleton] at hb
        exact ho' (hb ▸ e ▸ ha)
      · intro u
        show upd s.tok t true u = true ↔ u ∈ s.tr ++ [t]
        rw [List.mem_append, List.mem_singleton]
        by_cases e : u = t
        · subst e
          simp [upd_self]
        · rw [upd_other _ _ e]
          simp only [e, or_false]
          exact h.2.1 u
      · intro u hu
        have hu' : u ∈ s.tr ++ [t] := hu
        rw [List.mem_append, List.mem_singleton] at hu'
        rcases hu' with hu' | hu'
        · exact h.2.2 u hu'
        · exact ⟨q, hu' ▸ hr⟩
  | remove t =>
    simp only [SR.step] at hs
    by_cases ht : t ∈ s.tr
    · rw [if_pos ht] at hs
      simp only [Option.some.injEq] at hs
      subst hs
      refine ⟨h.1.erase t, ?_, ?_⟩
      · intro u
        show upd s.tok t false u = true ↔ u ∈ s.tr.erase t
        rw [h.1.mem_erase_iff]
        by_cases e : u = t
        · subst e
          simp [upd_self]
        · rw [upd_other _ _ e, h.2.1 u]
          simp [e]
      · intro u hu
        exact h.2.2 u (List.mem_of_mem_erase hu)
    · rw [if_neg ht] at hs
      cases hs
      exact h
  | setPrio t v =>
    simp only [SR.step, Option.map_eq_some_iff] at hs
    obtain ⟨q, _, e⟩ := hs
    subst e
    exact set_tok h _ _
  | setWeight t v =>
    simp only [SR.step, Option.map_eq_some_iff] at hs
    obtain ⟨q, _, e⟩ := hs
    by_cases hk : s.tok t = true
    · rw [if_pos hk] at e
      subst e
      exact notify_tok (set_tok h _ _) _ _
    · rw [if_neg hk] at e
      subst e
      exact set_tok h _ _
  | setAniso t v =>
    simp only [SR.step, Option.map_eq_some_iff] at hs
    obtain ⟨q, _, e⟩ := hs
    by_cases hk : s.tok t = true
    · rw [if_pos hk] at e
      subst e
      exact notify_tok (set_tok h _ _) _ _
    · rw [if_neg hk] at e
      subst e
      exact set_tok h _ _
  | setViol t v =>
    simp only [SR.step, Option.map_eq_some_iff] at hs
    obtain ⟨q, _, e⟩ := hs
    subst e
    exact set_tok h _ _
  | put t a =>
    simp only [SR.step, Option.map_eq_some_iff] at hs
    obtain ⟨q, _, e⟩ := hs
    subst e
    exact set_tok h _ _
  | solve =>
    simp only [SR.step, Option.some.injEq] at hs
    subst hs
    exact h

theorem reach_tok {F : State K → Op K → Prop} (hF : ∀ s op, F s op → Once s op) {s : State K} (h : Reach F s) : Tok s := by
  induction h with
  | init => exact ⟨List.nodup_nil, fun t => by simp [State.init], fun t ht => absurd ht (by simp [State.init])⟩
  | step _ hf hs ih => exact step_tok ih (hF _ _ hf) hs

/-- **C93 (notifications).**  In every state reached without adding a task that is in the problem, each operation but the
handling of the events appends to the queue of the scheme exactly the events that are due. -/
theorem C93_notified {s s' : State K} {op : Op K} (h : Reach Once s) (hs : step s op = some s') (hne : op ≠ .solve) :
    s'.queue = s.queue ++ due s op := by
  have ht := reach_tok (fun _ _ h => h) h
  cases op with
  | create t args =>
    simp only [SR.step] at hs
    cases hr : s.reqs t with
    | some q => simp only [hr] at hs; exact absurd hs (by simp)
    | none =>
      simp only [hr, Option.bind_eq_some_iff, Option.map_eq_some_iff] at hs
      obtain ⟨q, _, q', _, e⟩ := hs
      subst e
      exact (List.append_nil _).symm
  | add t =>
    simp only [SR.step] at hs
    cases hr : s.reqs t with
    | none => simp only [hr] at hs; exact absurd hs (by simp)
    | some q =>
      simp only [hr, Option.some.injEq] at hs
      subst hs
      rfl
  | remove t =>
    simp only [SR.step] at hs
    by_cases hm : t ∈ s.tr
    · rw [if_pos hm] at hs
      simp only [Option.some.injEq] at hs
      subst hs
      simp only [due]
      rw [if_pos hm]
      rfl
    · rw [if_neg hm] at hs
      cases hs
      simp only [due]
      rw [if_neg hm, List.append_nil]
  | setPrio t v =>
    simp only [SR.step, Option.map_eq_some_iff] at hs
    obtain ⟨q, _, e⟩ := hs
    subst e
    exact (List.append_nil _).symm
  | setWeight t v =>
    simp only [SR.step, Option.map_eq_some_iff] at hs
    obtain ⟨q, _, e⟩ := hs
    simp only [due]
    by_cases hm : t ∈ s.tr
    · rw [if_pos ((ht.2.1 t).mpr hm)] at e
      rw [if_pos hm]
      subst e
      rfl
    · rw [if_neg (fun k => hm ((ht.2.1 t).mp k))] at e
      rw [if_neg hm, List.append_nil]
      subst e
      rfl
  | setAniso t v =>
    simp only [SR.step, Option.map_eq_some_iff] at hs
    obtain ⟨q, _, e⟩ := hs
    simp only [due]
    by_cases hm : t ∈ s.tr
    · rw [if_pos ((ht.2.1 t).mpr hm)] at e
      rw [if_pos hm]
      subst e
      rfl
    · rw [if_neg (fun k => hm ((ht.2.1 t).mp k))] at e
      rw [if_neg hm, List.append_nil]
      subst e
      rfl
  | setViol t v =>
    simp only [SR.step, Option.map_eq_some_iff] at hs
    obtain ⟨q, _, e⟩ := hs
    subst e
    exact (List.append_nil _).symm
  | put t a =>
    simp only [SR.step, Option.map_eq_some_iff] at hs
    obtain ⟨q, _, e⟩ := hs
    subst e
    exact (List.append_nil _).symm
  | solve => exact absurd rfl hne

/-! ## What the scheme knows -/

theorem handleAll_append (reqs : Nat → Option (Reqs K)) (l l' : List Event) :
    ∀ view, handleAll reqs (l ++ l') view = handleAll reqs l' (handleAll reqs l view) := by
  induction l with
  | nil => intro view; rfl
  | cons e l ih => intro view; exact ih _

/-- Two readings of the requirements of a task that agree but for the fields that are allowed to differ. -/
def Same (w a : Prop) : Option (Reqs K) → Option (Reqs K) → Prop
  | none, none => True
  | some q, some r => (w → q.weight = r.weight) ∧ (a → q.aniso = r.aniso)
  | _, _ => False

theorem same_refl (w a : Prop) (x : Option (Reqs K)) : Same w a x x := by
  cases x with
  | none => trivial
  | some q => exact ⟨fun _ => rfl, fun _ => rfl⟩

/-- Handling an event with requirements that differ only in allowed fields of the task `t`. -/
theorem handle_same {w a : Prop} {t : Nat} {reqs reqs' view view' : Nat → Option (Reqs K)}
    (hr : ∀ u, u ≠ t → reqs' u = reqs u) (hrt : Same w a (reqs t) (reqs' t))
    (hv : ∀ u, u ≠ t → Same True True (view u) (view' u)) (hvt : Same w a (view t) (view' t)) (e : Event) :
    (∀ u, u ≠ t → Same True True (handle reqs view e u) (handle reqs' view' e u)) ∧
    Same w a (handle reqs view e t) (handle reqs' view' e t) := by
  have key : ∀ u, Same (u ≠ t ∨ w) (u ≠ t ∨ a) (reqs u) (reqs' u) := by
    intro u
    by_cases h : u = t
    · subst h
      simpa using hrt
    · rw [hr u h]
      exact same_refl _ _ _
  have kev : ∀ u, Same (u ≠ t ∨ w) (u ≠ t ∨ a) (view u) (view' u) := by
    intro u
    by_cases h : u = t
    · subst h
      simpa using hvt
    · simpa [h] using hv u h
  have main : ∀ u, Same (u ≠ t ∨ w) (u ≠ t ∨ a) (handle reqs view e u) (handle reqs' view' e u) := by
    intro u
    obtain ⟨y, em⟩ := e
    cases em with
    | subs x => exact kev u
    | task b =>
      by_cases hub : u = b
      · subst hub
        have ku := key u
        have kv := kev u
        cases y with
        | taskAddition =>
          simp only [handle, upd_self]
          exact ku
        | taskRemoval =>
          simp only [handle, upd_self]
          trivial
        | weightChange =>
          simp only [handle]
          cases h1 : view u with
          | none =>
            cases h2 : view' u with
            | none => simp only [h1, h2]; trivial
            | some _ => rw [h1, h2] at kv; exact kv.elim
          | some q =>
            cases h2 : view' u with
            | none => rw [h1, h2] at kv; exact kv.elim
            | some q' =>
              cases h3 : reqs u with
              | none =>
                cases h4 : reqs' u with
                | none => simp only [h1, h2]; rw [h1, h2] at kv; exact kv
                | some _ => rw [h3, h4] at ku; exact ku.elim
              | some r =>
                cases h4 : reqs' u with
                | none => rw [h3, h4] at ku; exact ku.elim
                | some r' =>
                  simp only [upd_self]
                  rw [h1, h2] at kv
                  rw [h3, h4] at ku
                  exact ⟨ku.1, kv.2⟩
        | anisotropicWeightChange =>
          simp only [handle]
          cases h1 : view u with
          | none =>
            cases h2 : view' u with
            | none => simp only [h1, h2]; trivial
            | some _ => rw [h1, h2] at kv; exact kv.elim
          | some q =>
            cases h2 : view' u with
            | none => rw [h1, h2] at kv; exact kv.elim
            | some q' =>
              cases h3 : reqs u with
              | none =>
                cases h4 : reqs' u with
                | none => simp only [h1, h2]; rw [h1, h2] at kv; exact kv
                | some _ => rw [h3, h4] at ku; exact ku.elim
              | some r =>
                cases h4 : reqs' u with
                | none => rw [h3, h4] at ku; exact ku.elim
                | some r' =>
                  simp only [upd_self]
                  rw [h1, h2] at kv
                  rw [h3, h4] at ku
                  exact ⟨kv.1, ku.2⟩
        | substitutionAddition => exact kv
        | substitutionRemoval => exact kv
      · have h1 : ∀ (r v : Nat → Option (Reqs K)), handle r v ⟨y, .task b⟩ u = v u := by
          intro r v
          cases y with
          | taskAddition => exact upd_other _ _ hub
          | taskRemoval => exact upd_other _ _ hub
          | weightChange =>
            simp only [handle]
            cases v b with
            | none => rfl
            | some q =>
              cases r b with
              | none => rfl
              | some q' => exact upd_other _ _ hub
          | anisotropicWeightChange =>
            simp only [handle]
            cases v b with
            | none => rfl
            | some q =>
              cases r b with
              | none => rfl
              | some q' => exact upd_other _ _ hub
          | substitutionAddition => rfl
          | substitutionRemoval => rfl
        rw [h1, h1]
        exact kev u
  refine ⟨?_, ?_⟩
  · intro u hu
    simpa [hu] using main u
  · simpa using main t

theorem handleAll_same {w a : Prop} {t : Nat} {reqs reqs' : Nat → Option (Reqs K)}
    (hr : ∀ u, u ≠ t → reqs' u = reqs u) (hrt : Same w a (reqs t) (reqs' t)) (l : List Event) :
    ∀ view view' : Nat → Option (Reqs K),
    (∀ u, u ≠ t → Same True True (view u) (view' u)) → Same w a (view t) (view' t) →
    (∀ u, u ≠ t → Same True True (handleAll reqs l view u) (handleAll reqs' l view' u)) ∧
    Same w a (handleAll reqs l view t) (handleAll reqs' l view' t) := by
  induction l with
  | nil => intro view view' h1 h2; exact ⟨h1, h2⟩
  | cons e l ih =>
    intro view view' h1 h2
    obtain ⟨a1, a2⟩ := handle_same hr hrt h1 h2 e
    exact ih _ _ a1 a2

/-- What the scheme will know once it has handled the queue. -/
def Will (s : State K) : Prop :=
  (∀ t, t ∈ s.tr → Same True True (s.reqs t) (handleAll s.reqs s.queue s.view t)) ∧
  ∀ t, t ∉ s.tr → handleAll s.reqs s.queue s.view t = none

theorem same_none {w a : Prop} {x : Option (Reqs K)} (h : Same w a none x) : x = none := by
  cases x with
  | none => rfl
  | some _ => exact h.elim

theorem same_some {w a : Prop} {q : Reqs K} {x : Option (Reqs K)} (h : Same w a (some q) x) :
    ∃ r, x = some r ∧ (w → q.weight = r.weight) ∧ (a → q.aniso = r.aniso) := by
  cases x with
  | none => exact h.elim
  | some r => exact ⟨r, rfl, h⟩

theorem same_trans {w a : Prop} {x y z : Option (Reqs K)} (h : Same w a x y) (h' : Same w a y z) : Same w a x z := by
  cases x with
  | none =>
    have := same_none h
    subst this
    exact h'
  | some q =>
    obtain ⟨r, e, h1, h2⟩ := same_some h
    subst e
    obtain ⟨r', e, h3, h4⟩ := same_some h'
    subst e
    exact ⟨fun k => (h1 k).trans (h3 k), fun k => (h2 k).trans (h4 k)⟩

/-- Changing the requirements of `t`: what will be known of the others stays, and of `t` what did not change. -/
theorem set_will {w a : Prop} {s : State K} (h : Will s) {t : Nat} {q q' : Reqs K} (hq : s.reqs t = some q)
    (hs : Same w a (some q) (some q')) :
    (∀ u, u ≠ t → u ∈ s.tr → Same True True ((s.set t q').reqs u) (handleAll (s.set t q').reqs s.queue s.view u)) ∧
    (t ∈ s.tr → Same w a ((s.set t q').reqs t) (handleAll (s.set t q').reqs s.queue s.view t)) ∧
    ∀ u, u ∉ s.tr → handleAll (s.set t q').reqs s.queue s.view u = none := by
  have hr : ∀ u, u ≠ t → (s.set t q').reqs u = s.reqs u := fun u hu => upd_other _ _ hu
  have hrt : Same w a (s.reqs t) ((s.set t q').reqs t) := by
    have e : (s.set t q').reqs t = some q' := upd_self _ _ _
    rw [e, hq]
    exact hs
  obtain ⟨h1, h2⟩ := handleAll_same hr hrt s.queue s.view s.view (fun _ _ => same_refl _ _ _) (same_refl _ _ _)
  have e : (s.set t q').reqs t = some q' := upd_self _ _ _
  refine ⟨?_, ?_, ?_⟩
  · intro u hu hm
    rw [hr u hu]
    exact same_trans (h.1 u hm) (h1 u hu)
  · intro hm
    rw [e]
    have k := h.1 t hm
    rw [hq] at k
    obtain ⟨v, ev, k1, k2⟩ := same_some k
    rw [ev] at h2
    obtain ⟨v', ev', k3, k4⟩ := same_some h2
    rw [ev']
    exact ⟨fun x => ((hs.1 x).symm.trans (k1 trivial)).trans (k3 x), fun x => ((hs.2 x).symm.trans (k2 trivial)).trans (k4 x)⟩
  · intro u hm
    by_cases hu : u = t
    · subst hu
      rw [h.2 u hm] at h2
      exact same_none h2
    · have k := h1 u hu
      rw [h.2 u hm] at k
      exact same_none k

/-- A change of the requirements of `t` in none of the weights, or out of the problem. -/
theorem set_will_quiet {s : State K} (h : Will s) {t : Nat} {q q' : Reqs K} (hq : s.reqs t = some q)
    (hs : t ∈ s.tr → q.weight = q'.weight ∧ q.aniso = q'.aniso) : Will (s.set t q') := by
  by_cases hm : t ∈ s.tr
  · obtain ⟨h1, h2, h3⟩ := set_will (w := True) (a := True) (q' := q') h hq ⟨fun _ => (hs hm).1, fun _ => (hs hm).2⟩
    refine ⟨?_, h3⟩
    intro u hu
    by_cases e : u = t
    · subst e
      exact h2 hu
    · exact h1 u e hu
  · obtain ⟨h1, _, h3⟩ := set_will (w := False) (a := False) (q' := q') h hq ⟨fun k => k.elim, fun k => k.elim⟩
    refine ⟨?_, h3⟩
    intro u hu
    exact h1 u (fun e => hm (e ▸ hu)) hu

theorem handle_other (r v : Nat → Option (Reqs K)) (y : EvType) {b u : Nat} (hub : u ≠ b) :
    handle r v ⟨y, .task b⟩ u = v u := by
  cases y with
  | taskAddition => exact upd_other _ _ hub
  | taskRemoval => exact upd_other _ _ hub
  | weightChange =>
    simp only [handle]
    cases v b with
    | none => rfl
    | some q =>
      cases r b with
      | none => rfl
      | some q' => exact upd_other _ _ hub
  | anisotropicWeightChange =>
    simp only [handle]
    cases v b with
    | none => rfl
    | some q =>
      cases r b with
      | none => rfl
      | some q' => exact upd_other _ _ hub
  | substitutionAddition => rfl
  | substitutionRemoval => rfl

theorem handle_congr {r r' : Nat → Option (Reqs K)} {t : Nat} (hr : ∀ u, u ≠ t → r' u = r u)
    {v v' : Nat → Option (Reqs K)} (hv : ∀ u, u ≠ t → v' u = v u) (e : Event) :
    ∀ u, u ≠ t → handle r' v' e u = handle r v e u := by
  intro x hx
  obtain ⟨y, em⟩ := e
  cases em with
  | subs _ => exact hv x hx
  | task b =>
    by_cases hxb : x = b
    · subst hxb
      have hr' := hr x hx
      have hv' := hv x hx
      cases y with
      | taskAddition => simp only [handle, upd_self]; exact hr'
      | taskRemoval => simp only [handle, upd_self]
      | weightChange =>
        simp only [handle, hv', hr']
        cases hvx : v x with
        | none => simp only [hv', hvx]
        | some _ =>
          cases r x with
          | none => simp only [hv', hvx]
          | some _ => simp only [upd_self]
      | anisotropicWeightChange =>
        simp only [handle, hv', hr']
        cases hvx : v x with
        | none => simp only [hv', hvx]
        | some _ =>
          cases r x with
          | none => simp only [hv', hvx]
          | some _ => simp only [upd_self]
      | substitutionAddition => exact hv'
      | substitutionRemoval => exact hv'
    · rw [handle_other _ _ _ hxb, handle_other _ _ _ hxb]
      exact hv x hx

theorem handleAll_congr {r r' : Nat → Option (Reqs K)} {t : Nat} (hr : ∀ u, u ≠ t → r' u = r u) (l : List Event) :
    ∀ v v' : Nat → Option (Reqs K), (∀ u, u ≠ t → v' u = v u) → ∀ u, u ≠ t → handleAll r' l v' u = handleAll r l v u := by
  induction l with
  | nil => intro v v' hv; exact hv
  | cons e l ih => intro v v' hv; exact ih _ _ (handle_congr hr hv e)

theorem handleAll_silent (r : Nat → Option (Reqs K)) (t : Nat) (l : List Event) :
    ∀ v : Nat → Option (Reqs K), (∀ e ∈ l, e.emitter ≠ .task t) → handleAll r l v t = v t := by
  induction l with
  | nil => intro v _; rfl
  | cons e l ih =>
    intro v h
    have h1 := h e List.mem_cons_self
    have h2 := ih (handle r v e) (fun x hx => h x (List.mem_cons_of_mem _ hx))
    refine Eq.trans h2 ?_
    obtain ⟨y, em⟩ := e
    cases em with
    | subs _ => rfl
    | task b =>
      apply handle_other
      intro hb
      subst hb
      exact h1 rfl

/-- Nothing is known, nor told, of the tasks that do not exist. -/
def Fresh (s : State K) : Prop := ∀ t, s.reqs t = none → s.view t = none ∧ ∀ e ∈ s.queue, e.emitter ≠ .task t

theorem set_fresh {s : State K} (h : Fresh s) (t : Nat) (q : Reqs K) : Fresh (s.set t q) := by
  intro u hu
  by_cases e : u = t
  · subst e
    have : (s.set u q).reqs u = some q := upd_self _ _ _
    rw [this] at hu
    exact absurd hu (by simp)
  · have : (s.set t q).reqs u = s.reqs u := upd_other _ _ e
    rw [this] at hu
    exact h u hu

theorem notify_fresh {s : State K} (h : Fresh s) (y : EvType) {t : Nat} {r : Reqs K} (ht : s.reqs t = some r) :
    Fresh (s.notify y t) := by
  intro u hu
  have hu' : s.reqs u = none := hu
  refine ⟨(h u hu').1, ?_⟩
  intro e he
  have he' : e ∈ s.queue ++ [⟨y, .task t⟩] := he
  rw [List.mem_append, List.mem_singleton] at he'
  rcases he' with he' | he'
  · exact (h u hu').2 e he'
  · subst he'
    intro k
    simp only [Emitter.task.injEq] at k
    subst k
    rw [hu'] at ht
    exact absurd ht (by simp)

theorem step_fresh {s s' : State K} {op : Op K} (hk : Tok s) (h : Fresh s) (hs : step s op = some s') : Fresh s' := by
  cases op with
  | create t args =>
    simp only [SR.step] at hs
    cases hr : s.reqs t with
    | some q => simp only [hr] at hs; exact absurd hs (by simp)
    | none =>
      simp only [hr, Option.bind_eq_some_iff, Option.map_eq_some_iff] at hs
      obtain ⟨q, _, q', _, e⟩ := hs
      subst e
      exact set_fresh h _ _
  | add t =>
    simp only [SR.step] at hs
    cases hr : s.reqs t with
    | none => simp only [hr] at hs; exact absurd hs (by simp)
    | some q =>
      simp only [hr, Option.some.injEq] at hs
      subst hs
      exact notify_fresh (s := ⟨s.reqs, s.tr ++ [t], upd s.tok t true, s.queue, s.view⟩) h _ hr
  | remove t =>
    simp only [SR.step] at hs
    by_cases hm : t ∈ s.tr
    · rw [if_pos hm] at hs
      simp only [Option.some.injEq] at hs
      subst hs
      obtain ⟨r, hr⟩ := hk.2.2 t hm
      exact notify_fresh (s := s) h .taskRemoval hr
    · rw [if_neg hm] at hs
      cases hs
      exact h
  | setPrio t v =>
    simp only [SR.step, Option.map_eq_some_iff] at hs
    obtain ⟨q, _, e⟩ := hs
    subst e
    exact set_fresh h _ _
  | setWeight t v =>
    simp only [SR.step, Option.map_eq_some_iff] at hs
    obtain ⟨q, _, e⟩ := hs
    by_cases hk : s.tok t = true
    · rw [if_pos hk] at e
      subst e
      exact notify_fresh (set_fresh h _ _) _ (upd_self _ _ _)
    · rw [if_neg hk] at e
      subst e
      exact set_fresh h _ _
  | setAniso t v =>
    simp only [SR.step, Option.map_eq_some_iff] at hs
    obtain ⟨q, _, e⟩ := hs
    by_cases hk : s.tok t = true
    · rw [if_pos hk] at e
      subst e
      exact notify_fresh (set_fresh h _ _) _ (upd_self _ _ _)
    · rw [if_neg hk] at e
      subst e
      exact set_fresh h _ _
  | setViol t v =>
    simp only [SR.step, Option.map_eq_some_iff] at hs
    obtain ⟨q, _, e⟩ := hs
    subst e
    exact set_fresh h _ _
  | put t a =>
    simp only [SR.step, Option.map_eq_some_iff] at hs
    obtain ⟨q, _, e⟩ := hs
    subst e
    exact set_fresh h _ _
  | solve =>
    simp only [SR.step, Option.some.injEq] at hs
    subst hs
    intro u hu
    refine ⟨?_, fun e he => absurd he (by simp)⟩
    exact (handleAll_silent _ _ _ _ (h u hu).2).trans (h u hu).1

theorem step_will {s s' : State K} {op : Op K} (hk : Tok s) (hn : Fresh s) (h : Will s) (hf : Followed s op)
    (hs : step s op = some s') : Will s' := by
  cases op with
  | create t args =>
    simp only [SR.step] at hs
    cases hr : s.reqs t with
    | some q => simp only [hr] at hs; exact absurd hs (by simp)
    | none =>
      simp only [hr, Option.bind_eq_some_iff, Option.map_eq_some_iff] at hs
      obtain ⟨q, _, q', _, e⟩ := hs
      subst e
      have hm : t ∉ s.tr := by
        intro hm
        obtain ⟨r, e⟩ := hk.2.2 t hm
        rw [hr] at e
        exact absurd e (by simp)
      have ho : ∀ u, u ≠ t → (s.set t q').reqs u = s.reqs u := fun u hu => upd_other _ _ hu
      have hc := handleAll_congr ho s.queue s.view s.view (fun _ _ => rfl)
      refine ⟨?_, ?_⟩
      · intro u hu
        have e : u ≠ t := fun e => hm (e ▸ hu)
        have k := h.1 u hu
        rw [← hc u e, ← ho u e] at k
        exact k
      · intro u hu
        by_cases e : u = t
        · subst e
          exact (handleAll_silent _ _ _ _ (hn u hr).2).trans (hn u hr).1
        · exact (hc u e).trans (h.2 u hu)
  | add t =>
    simp only [SR.step] at hs
    cases hr : s.reqs t with
    | none => simp only [hr] at hs; exact absurd hs (by simp)
    | some q =>
      simp only [hr, Option.some.injEq] at hs
      subst hs
      have e : ∀ u, handleAll s.reqs (s.queue ++ [⟨.taskAddition, .task t⟩]) s.view u
          = handle s.reqs (handleAll s.reqs s.queue s.view) ⟨.taskAddition, .task t⟩ u := by
        intro u
        rw [handleAll_append]
        rfl
      refine ⟨?_, ?_⟩
      · intro u hu
        have hu' : u ∈ s.tr ++ [t] := hu
        show Same True True (s.reqs u) (handleAll s.reqs (s.queue ++ [⟨.taskAddition, .task t⟩]) s.view u)
        rw [e]
        by_cases hut : u = t
        · subst hut
          simp only [handle, upd_self]
          exact same_refl _ _ _
        · rw [handle_other _ _ _ hut]
          rw [List.mem_append, List.mem_singleton] at hu'
          rcases hu' with hu' | hu'
          · exact h.1 u hu'
          · exact absurd hu' hut
      · intro u hu
        have hu' : u ∉ s.tr ++ [t] := hu
        show handleAll s.reqs (s.queue ++ [⟨.taskAddition, .task t⟩]) s.view u = none
        rw [List.mem_append, List.mem_singleton, not_or] at hu'
        rw [e, handle_other _ _ _ hu'.2]
        exact h.2 u hu'.1
  | remove t =>
    simp only [SR.step] at hs
    by_cases hm : t ∈ s.tr
    · rw [if_pos hm] at hs
      simp only [Option.some.injEq] at hs
      subst hs
      have e : ∀ u, handleAll s.reqs (s.queue ++ [⟨.taskRemoval, .task t⟩]) s.view u
          = handle s.reqs (handleAll s.reqs s.queue s.view) ⟨.taskRemoval, .task t⟩ u := by
        intro u
        rw [handleAll_append]
        rfl
      refine ⟨?_, ?_⟩
      · intro u hu
        have hu' : u ∈ s.tr.erase t := hu
        show Same True True (s.reqs u) (handleAll s.reqs (s.queue ++ [⟨.taskRemoval, .task t⟩]) s.view u)
        rw [hk.1.mem_erase_iff] at hu'
        rw [e, handle_other _ _ _ hu'.1]
        exact h.1 u hu'.2
      · intro u hu
        have hu' : u ∉ s.tr.erase t := hu
        show handleAll s.reqs (s.queue ++ [⟨.taskRemoval, .task t⟩]) s.view u = none
        rw [e]
        by_cases hut : u = t
        · subst hut
          simp only [handle, upd_self]
        · rw [handle_other _ _ _ hut]
          exact h.2 u (fun k => hu' ((hk.1.mem_erase_iff).mpr ⟨hut, k⟩))
    · rw [if_neg hm] at hs
      cases hs
      exact h
  | setPrio t v =>
    simp only [SR.step, Option.map_eq_some_iff] at hs
    obtain ⟨q, hq, e⟩ := hs
    subst e
    exact set_will_quiet h hq (fun _ => ⟨rfl, rfl⟩)
  | setViol t v =>
    simp only [SR.step, Option.map_eq_some_iff] at hs
    obtain ⟨q, hq, e⟩ := hs
    subst e
    exact set_will_quiet h hq (fun _ => ⟨rfl, rfl⟩)
  | put t a =>
    simp only [SR.step, Option.map_eq_some_iff] at hs
    obtain ⟨q, hq, e⟩ := hs
    subst e
    cases a with
    | prio r => exact set_will_quiet h hq (fun _ => ⟨rfl, rfl⟩)
    | viol r => exact set_will_quiet h hq (fun _ => ⟨rfl, rfl⟩)
    | weight r =>
      have hf' : t ∉ s.tr := hf
      exact set_will_quiet h hq (fun k => absurd k hf')
    | aniso r =>
      have hf' : t ∉ s.tr := hf
      exact set_will_quiet h hq (fun k => absurd k hf')
  | setWeight t v =>
    simp only [SR.step, Option.map_eq_some_iff] at hs
    obtain ⟨q, hq, e⟩ := hs
    by_cases hm : t ∈ s.tr
    · rw [if_pos ((hk.2.1 t).mpr hm)] at e
      subst e
      obtain ⟨h1, h2, h3⟩ := set_will (w := False) (a := True) (q' := q.put (.weight ⟨v, false⟩)) h hq
        ⟨fun k => k.elim, fun _ => rfl⟩
      generalize hq' : q.put (.weight ⟨v, false⟩) = q' at h1 h2 h3
      have e : ∀ u, handleAll (s.set t q').reqs (s.queue ++ [⟨.weightChange, .task t⟩]) s.view u
          = handle (s.set t q').reqs (handleAll (s.set t q').reqs s.queue s.view) ⟨.weightChange, .task t⟩ u := by
        intro u
        rw [handleAll_append]
        rfl
      refine ⟨?_, ?_⟩
      · intro u hu
        show Same True True ((s.set t q').reqs u) (handleAll (s.set t q').reqs (s.queue ++ [⟨.weightChange, .task t⟩]) s.view u)
        rw [e]
        by_cases hut : u = t
        · subst hut
          have k := h2 hm
          have er : (s.set u q').reqs u = some q' := upd_self _ _ _
          rw [er] at k ⊢
          obtain ⟨v', ev, _, k2⟩ := same_some k
          simp only [handle, ev, er, upd_self]
          exact ⟨fun _ => rfl, k2⟩
        · rw [handle_other _ _ _ hut]
          exact h1 u hut hu
      · intro u hu
        have hu' : u ∉ s.tr := hu
        show handleAll (s.set t q').reqs (s.queue ++ [⟨.weightChange, .task t⟩]) s.view u = none
        have hut : u ≠ t := fun e => hu' (e ▸ hm)
        rw [e, handle_other _ _ _ hut]
        exact h3 u hu'
    · rw [if_neg (fun k => hm ((hk.2.1 t).mp k))] at e
      subst e
      exact set_will_quiet h hq (fun k => absurd k hm)
  | setAniso t v =>
    simp only [SR.step, Option.map_eq_some_iff] at hs
    obtain ⟨q, hq, e⟩ := hs
    by_cases hm : t ∈ s.tr
    · rw [if_pos ((hk.2.1 t).mpr hm)] at e
      subst e
      obtain ⟨h1, h2, h3⟩ := set_will (w := True) (a := False) (q' := q.put (.aniso ⟨v, false⟩)) h hq
        ⟨fun _ => rfl, fun k => k.elim⟩
      generalize hq' : q.put (.aniso ⟨v, false⟩) = q' at h1 h2 h3
      have e : ∀ u, handleAll (s.set t q').reqs (s.queue ++ [⟨.anisotropicWeightChange, .task t⟩]) s.view u
          = handle (s.set t q').reqs (handleAll (s.set t q').reqs s.queue s.view)
            ⟨.anisotropicWeightChange, .task t⟩ u := by
        intro u
        rw [handleAll_append]
        rfl
      refine ⟨?_, ?_⟩
      · intro u hu
        show Same True True ((s.set t q').reqs u)
          (handleAll (s.set t q').reqs (s.queue ++ [⟨.anisotropicWeightChange, .task t⟩]) s.view u)
        rw [e]
        by_cases hut : u = t
        · subst hut
          have k := h2 hm
          have er : (s.set u q').reqs u = some q' := upd_self _ _ _
          rw [er] at k ⊢
          obtain ⟨v', ev, k1, _⟩ := same_some k
          simp only [handle, ev, er, upd_self]
          exact ⟨k1, fun _ => rfl⟩
        · rw [handle_other _ _ _ hut]
          exact h1 u hut hu
      · intro u hu
        have hu' : u ∉ s.tr := hu
        show handleAll (s.set t q').reqs (s.queue ++ [⟨.anisotropicWeightChange, .task t⟩]) s.view u = none
        have hut : u ≠ t := fun e => hu' (e ▸ hm)
        rw [e, handle_other _ _ _ hut]
        exact h3 u hu'
    · rw [if_neg (fun k => hm ((hk.2.1 t).mp k))] at e
      subst e
      exact set_will_quiet h hq (fun k => absurd k hm)
  | solve =>
    simp only [SR.step, Option.some.injEq] at hs
    subst hs
    exact h

theorem reach_will {s : State K} (h : Reach Followed s) : Fresh s ∧ Will s := by
  induction h with
  | init =>
    refine ⟨fun t _ => ⟨rfl, fun e he => absurd he (by simp [State.init])⟩, ?_, fun t _ => rfl⟩
    intro t ht
    exact absurd ht (by simp [State.init])
  | @step s s' op h hf hs ih =>
    have hF : ∀ (s : State K) (op : Op K), Followed s op → Once s op := by
      intro s op hf
      cases op <;> first | exact hf | trivial
    have hk := reach_tok hF h
    exact ⟨step_fresh hk ih.1 hs, step_will hk ih.1 ih.2 hf hs⟩

/-- **C93 (knowledge, partial).**  After any history in which no task is added while it is in the problem and no object is
assigned to the weight or to the anisotropic weight of a task of the problem, a scheme that handles its events knows
exactly the tasks of the problem, with their current weights.  Missing: the priority levels and the violation evaluations
(`C93_priority_false`), the assignments of objects (`C93_assign_false`), the tasks added twice (`C93_twice_false`). -/
theorem C93_knows_partial {s s' : State K} (h : Reach Followed s) (hs : step s .solve = some s') : Knows s' := by
  obtain ⟨_, h1, h2⟩ := reach_will h
  have hF : ∀ (s : State K) (op : Op K), Followed s op → Once s op := by
    intro s op hf
    cases op <;> first | exact hf | trivial
  have hk := reach_tok hF h
  simp only [SR.step, Option.some.injEq] at hs
  subst hs
  refine ⟨?_, h2⟩
  intro t ht
  obtain ⟨r, hr⟩ := hk.2.2 t ht
  have k := h1 t ht
  rw [hr] at k
  obtain ⟨v, ev, k1, k2⟩ := same_some k
  exact ⟨v, r, ev, hr, (k1 trivial).symm, (k2 trivial).symm⟩

/-! ## The values -/

theorem put_honest {q : Reqs K} (h : Honest q) {a : Arg K} (ha : HonestArg a) : Honest (q.put a) := by
  obtain ⟨h1, h2, h3, h4⟩ := h
  cases a with
  | prio r => exact ⟨ha, h2, h3, h4⟩
  | weight r => exact ⟨h1, ha, h3, h4⟩
  | aniso r => exact ⟨h1, h2, ha, h4⟩
  | viol r => exact ⟨h1, h2, h3, ha⟩

theorem put_nonneg {q : Reqs K} (h : Nonneg q) {a : Arg K} (ha : NonnegArg a) : Nonneg (q.put a) := by
  obtain ⟨h1, h2, h3⟩ := h
  cases a with
  | prio r => exact ⟨ha, h2, h3⟩
  | weight r => exact ⟨h1, ha, h3⟩
  | aniso r => exact ⟨h1, h2, ha⟩
  | viol r => exact ⟨h1, h2, h3⟩

theorem build_inv {I : Reqs K → Prop} {P : Arg K → Prop} (hI : ∀ q a, I q → P a → I (q.put a)) (l : List (Arg K)) :
    ∀ q q', I q → (∀ a ∈ l, P a) → build l q = some q' → I q' := by
  induction l with
  | nil =>
    intro q q' hq _ h
    simp only [build, Option.some.injEq] at h
    exact h ▸ hq
  | cons a l ih =>
    intro q q' hq hP h
    simp only [build] at h
    by_cases hd : l.any (fun b => decide (b.kind = a.kind)) = true
    · rw [if_pos hd] at h
      exact absurd h (by simp)
    · rw [if_neg hd] at h
      exact ih _ _ (hI q a hq (hP a List.mem_cons_self)) (fun b hb => hP b (List.mem_cons_of_mem _ hb)) h

/-- What holds of all requirements in all histories whose operations satisfy `G`. -/
theorem reach_inv {I : Reqs K → Prop} {P : Arg K → Prop} {G : Op K → Prop} (hI : ∀ q a, I q → P a → I (q.put a))
    (hd : I .dflt) (hc : ∀ t l, G (.create t l) → ∀ a ∈ l, P a) (hp : ∀ t a, G (.put t a) → P a)
    (h1 : ∀ t v, G (.setPrio t v) → P (.prio ⟨v, false⟩)) (h2 : ∀ t v, G (.setWeight t v) → P (.weight ⟨v, false⟩))
    (h3 : ∀ t v, G (.setAniso t v) → P (.aniso ⟨v, false⟩)) (h4 : ∀ t v, G (.setViol t v) → P (.viol ⟨v, false⟩))
    {s : State K} (h : Reach (fun _ op => G op) s) : ∀ t q, s.reqs t = some q → I q := by
  have set_inv : ∀ (s : State K) (t : Nat) (q : Reqs K), (∀ u r, s.reqs u = some r → I r) → I q →
      ∀ u r, (s.set t q).reqs u = some r → I r := by
    intro s t q hs hq u r hr
    by_cases e : u = t
    · subst e
      have k : (s.set u q).reqs u = some q := upd_self _ _ _
      rw [k, Option.some.injEq] at hr
      exact hr ▸ hq
    · have k : (s.set t q).reqs u = s.reqs u := upd_other _ _ e
      rw [k] at hr
      exact hs u r hr
  induction h with
  | init => intro t q hq; exact absurd hq (by simp [State.init])
  | @step s s' op _ hf hs ih =>
    cases op with
    | create t args =>
      simp only [SR.step] at hs
      cases hr : s.reqs t with
      | some q => simp only [hr] at hs; exact absurd hs (by simp)
      | none =>
        simp only [hr, Option.bind_eq_some_iff, Option.map_eq_some_iff] at hs
        obtain ⟨q, hq, q', hq', e⟩ := hs
        subst e
        rw [C93_withCallbacks, Option.some.injEq] at hq'
        subst hq'
        exact set_inv s t q ih (build_inv hI args _ _ hd (hc t args hf) hq)
    | add t =>
      simp only [SR.step] at hs
      cases hr : s.reqs t with
      | none => simp only [hr] at hs; exact absurd hs (by simp)
      | some q =>
        simp only [hr, Option.some.injEq] at hs
        subst hs
        exact ih
    | remove t =>
      simp only [SR.step] at hs
      by_cases hm : t ∈ s.tr
      · rw [if_pos hm] at hs
        simp only [Option.some.injEq] at hs
        subst hs
        exact ih
      · rw [if_neg hm] at hs
        cases hs
        exact ih
    | setPrio t v =>
      simp only [SR.step, Option.map_eq_some_iff] at hs
      obtain ⟨q, hq, e⟩ := hs
      subst e
      exact set_inv s t _ ih (hI q _ (ih t q hq) (h1 t v hf))
    | setWeight t v =>
      simp only [SR.step, Option.map_eq_some_iff] at hs
      obtain ⟨q, hq, e⟩ := hs
      have k := set_inv s t _ ih (hI q _ (ih t q hq) (h2 t v hf))
      by_cases hk : s.tok t = true
      · rw [if_pos hk] at e
        subst e
        exact k
      · rw [if_neg hk] at e
        subst e
        exact k
    | setAniso t v =>
      simp only [SR.step, Option.map_eq_some_iff] at hs
      obtain ⟨q, hq, e⟩ := hs
      have k := set_inv s t _ ih (hI q _ (ih t q hq) (h3 t v hf))
      by_cases hk : s.tok t = true
      · rw [if_pos hk] at e
        subst e
        exact k
      · rw [if_neg hk] at e
        subst e
        exact k
    | setViol t v =>
      simp only [SR.step, Option.map_eq_some_iff] at hs
      obtain ⟨q, hq, e⟩ := hs
      subst e
      exact set_inv s t _ ih (hI q _ (ih t q hq) (h4 t v hf))
    | put t a =>
      simp only [SR.step, Option.map_eq_some_iff] at hs
      obtain ⟨q, hq, e⟩ := hs
      subst e
      exact set_inv s t _ ih (hI q _ (ih t q hq) (hp t a hf))
    | solve =>
      simp only [SR.step, Option.some.injEq] at hs
      subst hs
      exact ih

/-- **C93 (default).**  In all histories whose requirement objects say truly whether they are the default ones, so do the
requirements of all tasks. -/
theorem C93_default {s : State K} (h : Reach (fun _ op => Objects HonestArg op) s) : ∀ t q, s.reqs t = some q → Honest q :=
  reach_inv (I := Honest) (P := HonestArg) (fun _ _ hq ha => put_honest hq ha)
    ⟨fun _ => rfl, fun _ => rfl, fun _ => rfl, fun _ => rfl⟩ (fun _ _ h => h) (fun _ _ h => h)
    (fun _ _ _ k => absurd k (by simp)) (fun _ _ _ k => absurd k (by simp)) (fun _ _ _ k => absurd k (by simp))
    (fun _ _ _ k => absurd k (by simp)) h

/-- **C93 (constructors).**  The constructors refuse exactly the negative values, and say that they are not the default. -/
theorem C93_constructors (p : Int) (a : K) (w : List K) (v : Viol) :
    ((mkViol v).value = v ∧ (mkViol v).dflt = false) ∧
    (mkPrio p = none ↔ p < 0) ∧ (mkWeight a = none ↔ a < 0) ∧ (mkAniso w = none ↔ ∃ x ∈ w, x < 0) ∧
    (∀ r, mkPrio p = some r → r.value = p ∧ r.dflt = false) ∧ (∀ r, mkWeight a = some r → r.value = a ∧ r.dflt = false) ∧
    ∀ r, mkAniso w = some r → r.value = w ∧ r.dflt = false := by
  refine ⟨⟨rfl, rfl⟩, ?_, ?_, ?_, ?_, ?_, ?_⟩
  · unfold mkPrio
    by_cases h : p < 0
    · rw [if_pos h]; simp [h]
    · rw [if_neg h]; simp [h]
  · unfold mkWeight
    by_cases h : a < 0
    · rw [if_pos h]; simp [h]
    · rw [if_neg h]; simp [h]
  · unfold mkAniso
    by_cases h : w.any (fun a => decide (a < 0)) = true
    · rw [if_pos h]
      simpa using h
    · rw [if_neg h]
      simpa using h
  · intro r h
    unfold mkPrio at h
    by_cases hp : p < 0
    · rw [if_pos hp] at h; exact absurd h (by simp)
    · rw [if_neg hp, Option.some.injEq] at h
      subst h
      exact ⟨rfl, rfl⟩
  · intro r h
    unfold mkWeight at h
    by_cases hp : a < 0
    · rw [if_pos hp] at h; exact absurd h (by simp)
    · rw [if_neg hp, Option.some.injEq] at h
      subst h
      exact ⟨rfl, rfl⟩
  · intro r h
    unfold mkAniso at h
    by_cases hp : w.any (fun a => decide (a < 0)) = true
    · rw [if_pos hp] at h; exact absurd h (by simp)
    · rw [if_neg hp, Option.some.injEq] at h
      subst h
      exact ⟨rfl, rfl⟩

/-- **C93 (signs, partial).**  The priority levels and weights of all tasks are non-negative if the objects are (as the
constructors ensure) and if no negative value is set.  Missing: the latter is not checked (`C93_negative_false`). -/
theorem C93_nonneg_partial [IsStrictOrderedRing K] {s : State K}
    (h : Reach (fun _ op => Objects NonnegArg op ∧ SetsNonneg op) s) : ∀ t q, s.reqs t = some q → Nonneg q :=
  reach_inv (I := Nonneg) (P := NonnegArg) (fun _ _ hq ha => put_nonneg hq ha)
    ⟨le_refl _, zero_le_one, fun a ha => absurd ha (by simp [Reqs.dflt])⟩ (fun _ _ h => h.1) (fun _ _ h => h.1)
    (fun _ _ h => h.2) (fun _ _ h => h.2) (fun _ _ h => h.2) (fun _ _ _ => trivial) h

end

/-! ## Where it is not so, and cases -/

/-- **C93 (signs, false in full).**  A negative weight can be set. -/
theorem C93_negative_false : ∃ s : State ℚ, Reach (fun _ op => Objects NonnegArg op) s ∧
    ∃ q, s.reqs 0 = some q ∧ ¬ Nonneg q := by
  refine ⟨_, .step (.step .init (op := .create 0 []) (fun a ha => absurd ha (by simp)) rfl) (op := .setWeight 0 (-1))
    trivial rfl, _, rfl, ?_⟩
  intro h
  have := h.2.1
  simp only [Reqs.put] at this
  norm_num at this

/-- **C93 (priorities, false in full).**  The scheme does not learn the changes of the priority level nor of the violation
evaluation, though the history adds no task twice and assigns no object. -/
theorem C93_priority_false : ∃ s s' : State ℚ, Reach Followed s ∧ step s .solve = some s' ∧ 0 ∈ s'.tr ∧
    ∃ v r, s'.view 0 = some v ∧ s'.reqs 0 = some r ∧ v.prio.value = 0 ∧ r.prio.value = 2 ∧ v.viol.value = .l2 ∧
      r.viol.value = .l1 := by
  refine ⟨_, _, .step (.step (.step (.step (.step .init (op := .create 0 []) trivial rfl) (op := .add 0)
    (by simp [Followed, State.set, State.init]) rfl) (op := .solve) trivial rfl) (op := .setPrio 0 2) trivial rfl)
    (op := .setViol 0 .l1) trivial rfl, rfl, ?_, _, _, rfl, rfl, rfl, rfl, rfl, rfl⟩
  show 0 ∈ [0]
  simp

/-- **C93 (assignment, false in full).**  `requirements.weight() = Weight(2)` changes the weight of a task of the problem,
and the scheme does not learn it. -/
theorem C93_assign_false : ∃ s s' : State ℚ, Reach Once s ∧ step s .solve = some s' ∧ ¬ Knows s' := by
  refine ⟨_, _, .step (.step (.step (.step .init (op := .create 0 []) trivial rfl) (op := .add 0)
    (by simp [Once, State.set, State.init]) rfl) (op := .solve) trivial rfl) (op := .put 0 (.weight ⟨2, false⟩)) trivial rfl,
    rfl, ?_⟩
  intro h
  obtain ⟨v, r, hv, hr, e, _⟩ := h.1 0 (by show 0 ∈ [0]; simp)
  have hv' : some (Reqs.dflt : Reqs ℚ) = some v := hv
  have hr' : some ((Reqs.dflt : Reqs ℚ).put (.weight ⟨2, false⟩)) = some r := hr
  rw [Option.some.injEq] at hv' hr'
  subst hv' hr'
  have := congrArg Rq.value e
  simp only [Reqs.dflt, Reqs.put] at this
  norm_num at this

/-- **C93 (added twice, false in full).**  A task that is added twice and removed once is in the problem, but the changes
of its weight are not notified. -/
theorem C93_twice_false : ∃ s s' : State ℚ, Reach (fun _ _ => True) s ∧ 0 ∈ s.tr ∧ step s (.setWeight 0 2) = some s' ∧
    s'.queue = s.queue := by
  refine ⟨_, _, .step (.step (.step (.step .init (op := .create 0 []) trivial rfl) (op := .add 0) trivial rfl)
    (op := .add 0) trivial rfl) (op := .remove 0) trivial rfl, ?_, rfl, rfl⟩
  show 0 ∈ [0]
  simp

/-- A case for `C93_make` and `C93_order`. -/
example : make [Arg.weight ⟨(3 : ℚ), false⟩, .prio ⟨1, false⟩] = some ⟨⟨1, false⟩, ⟨3, false⟩, ⟨[], true⟩, ⟨.l2, true⟩⟩ := rfl

example : make [Arg.weight ⟨(3 : ℚ), false⟩, .prio ⟨1, false⟩] = make [.prio ⟨1, false⟩, .weight ⟨3, false⟩] :=
  C93_order (.swap _ _ _)

/-- A case for `C93_knows_partial` and `C93_notified`: the weight is changed, and once more while the task is out of the
problem. -/
example : ∃ s s' : State ℚ, Reach Followed s ∧ step s .solve = some s' ∧
    s.queue = [⟨.taskAddition, .task 0⟩, ⟨.weightChange, .task 0⟩, ⟨.taskRemoval, .task 0⟩, ⟨.taskAddition, .task 0⟩] ∧
    ∃ v, s'.view 0 = some v ∧ v.weight = ⟨3, false⟩ := by
  refine ⟨_, _, .step (.step (.step (.step (.step (.step .init (op := .create 0 []) trivial rfl) (op := .add 0)
    (by simp [Followed, State.set, State.init]) rfl) (op := .setWeight 0 2) trivial rfl) (op := .remove 0) trivial rfl)
    (op := .setWeight 0 3) trivial rfl) (op := .add 0) ?_ rfl, rfl, rfl, _, rfl, rfl⟩
  show 0 ∉ []
  simp

/-- A case for `C93_nonneg_partial` and `C93_default`. -/
example : ∃ s : State ℚ, Reach (fun _ op => Objects NonnegArg op ∧ SetsNonneg op) s ∧ ∃ q, s.reqs 0 = some q ∧
    q.prio = ⟨1, false⟩ ∧ q.weight = ⟨1, true⟩ := by
  refine ⟨_, .step .init (op := .create 0 [.prio ⟨1, false⟩]) ⟨?_, trivial⟩ rfl, _, rfl, rfl, rfl⟩
  intro a ha
  rw [List.mem_singleton] at ha
  subst ha
  show (0 : Int) ≤ 1
  omega

end Verif.C93
