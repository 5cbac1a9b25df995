import Verif.Model.ProblemUpdate
import Verif.Properties.C14_CallGraph
import Mathlib.Data.List.Nodup

/-!
# C94 The update of a problem refreshes what its constraints need, and nothing else

For every history of a linearized problem (exceptions included) that neither adds a task that it holds nor tries again a
removal that failed, `update()` runs each update that is transitively needed by an output requested for a constraint of
the problem, once, after those it depends upon, and no other.  Hence the values of all these outputs are those of the
current state of the robot and of the variables.  Without the two restrictions it is false.
-/

set_option autoImplicit false

namespace Verif.C94
open Verif Verif.PU Relation
open Verif.CG (Net Call Store)
open Verif.C14 (Needs Dep ReadsDeps)

/-! ## Specification -/

/-- What a scheme reads in a constraint of type `y`: the matrix and the right hand sides. -/
def reads : Ty → Nat → Prop
  | .equal, o => o = jac ∨ o = outE
  | .greater, o => o = jac ∨ o = outL
  | .lower, o => o = jac ∨ o = outU
  | .double, o => o = jac ∨ o = outL ∨ o = outU

/-- The output `o` of the constraint `c` is of use to the problem. -/
def Wanted (E : Env) (s : St) (c o : Nat) : Prop := ∃ t, s.cstr t = some c ∧ reads (E.type t) o

/-- The update `u` is transitively needed by such an output. -/
def Needed (E : Env) (s : St) (u : Call) : Prop :=
  ∃ c o u0, Wanted E s c o ∧ Needs E.net (c, o) u0 ∧ ReflTransGen (Dep E.net) u0 u

/-- A task is not added while the problem has it or its constraint; a removal that failed is not tried again. -/
def Allowed (s : St) : Op → Prop
  | .add t _ => t ∉ s.tr ∧ s.cstr t = none
  | .remove t => t ∈ s.tr ∨ s.cstr t = none
  | _ => True

/-- States reached by operations that satisfy `F`. -/
inductive Life (E : Env) (F : St → Op → Prop) : St → Prop
  | init : Life E F {}
  | step {s s' : St} {op : Op} : Life E F s → F s op → step E s op = some s' → Life E F s'

/-- No operation fails: constraints are built and removals return. -/
def Clean (s : St) : Op → Prop
  | .add t ok => t ∉ s.tr ∧ ok = true
  | .remove t => ∃ s', s.remove t = .ok s' ()
  | _ => True

/-! ## Invariant -/

/-- The outputs are told apart. -/
theorem outputs_distinct : [jac, outL, outU, outE].Nodup := by decide

theorem mem_requested (y : Ty) (o : Nat) : o ∈ requested y ↔ reads y o := by
  cases y <;> simp [requested, reads]

theorem upd_self {α : Type} (f : Nat → α) (a : Nat) (x : α) : upd f a x a = x := if_pos rfl

theorem upd_other {α : Type} (f : Nat → α) {a b : Nat} (x : α) (h : b ≠ a) : upd f a x b = f b := if_neg h

/-- The constraints of the problem are distinct and are the inputs of the updater. -/
structure Cst (E : Env) (s : St) : Prop where
  fresh : ∀ t c, s.cstr t = some c → c < s.next
  inj : ∀ t t' c, s.cstr t = some c → s.cstr t' = some c → t = t'
  ins : ∀ p : Nat × List Nat, p ∈ s.ins ↔ ∃ t, s.cstr t = some p.1 ∧ p.2 = requested (E.type t)

/-- The graph is that of the inputs if it is said to be. -/
structure Gr (E : Env) (s : St) : Prop where
  fin : s.finalized = true → s.upToDate = true
  reach : ∃ reqs, C14.Reach E.net s.graph reqs
  graph : s.upToDate = true → ∃ g reqs, C14.Reach E.net g reqs ∧ (∀ p, p ∈ reqs ↔ p ∈ s.pairs) ∧ CG.update g = .ok s.graph ()

theorem mem_pairs (s : St) (c o : Nat) : (c, o) ∈ s.pairs ↔ ∃ l, (c, l) ∈ s.ins ∧ o ∈ l := by
  simp only [St.pairs, List.mem_flatMap, List.mem_map, Prod.mk.injEq, Prod.exists]
  constructor
  · rintro ⟨a, l, h1, o', h2, rfl, rfl⟩
    exact ⟨l, h1, h2⟩
  · rintro ⟨l, h1, h2⟩
    exact ⟨c, l, h1, o, h2, rfl, rfl⟩

theorem pairs_wanted {E : Env} {s : St} (h : Cst E s) (c o : Nat) : (c, o) ∈ s.pairs ↔ Wanted E s c o := by
  rw [mem_pairs]
  constructor
  · rintro ⟨l, h1, h2⟩
    obtain ⟨t, h3, h4⟩ := (h.ins _).mp h1
    simp only at h3 h4
    subst h4
    exact ⟨t, h3, (mem_requested _ _).mp h2⟩
  · rintro ⟨t, h1, h2⟩
    exact ⟨requested (E.type t), (h.ins _).mpr ⟨t, h1, rfl⟩, (mem_requested _ _).mpr h2⟩

theorem cst_add {E : Env} {s : St} (h : Cst E s) (t : Nat) (hn : s.cstr t = none) {s' : St}
    (h1 : s'.cstr = upd s.cstr t (some s.next)) (h2 : s'.ins = s.ins ++ [(s.next, requested (E.type t))])
    (h3 : s'.next = s.next + 1) : Cst E s' := by
  have hc : ∀ u c, s'.cstr u = some c ↔ (u = t ∧ c = s.next) ∨ s.cstr u = some c := by
    intro u c
    rw [h1]
    by_cases e : u = t
    · subst e
      rw [upd_self, hn]
      simp [eq_comm]
    · rw [upd_other _ _ e]
      simp [e]
  refine ⟨?_, ?_, ?_⟩
  · intro u c hu
    rw [h3]
    rcases (hc u c).mp hu with ⟨-, e⟩ | e
    · omega
    · have := h.fresh u c e
      omega
  · intro u u' c hu hu'
    rcases (hc u c).mp hu with ⟨e1, e2⟩ | e
    · rcases (hc u' c).mp hu' with ⟨e3, -⟩ | e'
      · rw [e1, e3]
      · have := h.fresh u' c e'
        omega
    · rcases (hc u' c).mp hu' with ⟨-, e4⟩ | e'
      · have := h.fresh u c e
        omega
      · exact h.inj u u' c e e'
  · intro p
    rw [h2, List.mem_append, List.mem_singleton, h.ins]
    constructor
    · rintro (⟨u, hu, e⟩ | e)
      · exact ⟨u, (hc u _).mpr (Or.inr hu), e⟩
      · subst e
        exact ⟨t, (hc t _).mpr (Or.inl ⟨rfl, rfl⟩), rfl⟩
    · rintro ⟨u, hu, e⟩
      rcases (hc u _).mp hu with ⟨e1, e2⟩ | e1
      · right
        subst e1
        rw [← e2, ← e]
      · exact Or.inl ⟨u, e1, e⟩

theorem cst_forget {E : Env} {s : St} (h : Cst E s) {t c : Nat} (ht : s.cstr t = some c) : Cst E (s.forget t c) := by
  have hc : ∀ u d, (s.forget t c).cstr u = some d ↔ u ≠ t ∧ s.cstr u = some d := by
    intro u d
    show upd s.cstr t none u = some d ↔ _
    by_cases e : u = t
    · subst e
      rw [upd_self]
      simp
    · rw [upd_other _ _ e]
      simp [e]
  refine ⟨?_, ?_, ?_⟩
  · intro u d hu
    exact h.fresh u d ((hc u d).mp hu).2
  · intro u u' d hu hu'
    exact h.inj u u' d ((hc u d).mp hu).2 ((hc u' d).mp hu').2
  · intro p
    show p ∈ s.ins.filter (fun p => decide (p.1 ≠ c)) ↔ _
    rw [List.mem_filter, h.ins]
    constructor
    · rintro ⟨⟨u, hu, e⟩, hp⟩
      have hp' : p.1 ≠ c := of_decide_eq_true hp
      refine ⟨u, (hc u _).mpr ⟨?_, hu⟩, e⟩
      intro e'
      subst e'
      rw [ht, Option.some.injEq] at hu
      exact hp' hu.symm
    · rintro ⟨u, hu, e⟩
      obtain ⟨h1, h2⟩ := (hc u _).mp hu
      refine ⟨⟨u, h2, e⟩, decide_eq_true ?_⟩
      intro e'
      rw [e'] at h2
      exact h1 (h.inj u t c h2 ht)

/-- The constraints and the inputs are unchanged. -/
theorem cst_same {E : Env} {s s' : St} (h : Cst E s) (h1 : s'.cstr = s.cstr) (h2 : s'.ins = s.ins) (h3 : s'.next = s.next) :
    Cst E s' := by
  refine ⟨?_, ?_, ?_⟩
  · intro t c
    rw [h1, h3]
    exact h.fresh t c
  · intro t t' c
    rw [h1]
    exact h.inj t t' c
  · intro p
    rw [h1, h2]
    exact h.ins p

/-- What `refresh` does to the invariant. -/
theorem refresh_gr {E : Env} {s : St} (h : Gr E s) :
    (∀ s' u, s.refresh E = .ok s' u → Gr E s' ∧ s'.upToDate = true ∧ s'.tr = s.tr ∧ s'.cstr = s.cstr ∧ s'.ins = s.ins ∧
      s'.next = s.next ∧ s'.finalized = s.finalized ∧ s'.subs = s.subs) ∧
    ∀ s', s.refresh E = .throw s' → s.finalized = false → Gr E s' ∧ s'.tr = s.tr ∧ s'.cstr = s.cstr ∧ s'.ins = s.ins ∧
      s'.next = s.next ∧ s'.finalized = s.finalized ∧ s'.subs = s.subs := by
  unfold St.refresh
  by_cases hu : s.upToDate = true
  · rw [if_pos hu]
    refine ⟨?_, ?_⟩
    · intro s' u e
      cases e
      exact ⟨h, hu, rfl, rfl, rfl, rfl, rfl, rfl⟩
    · intro s' e
      cases e
  · rw [if_neg hu]
    obtain ⟨reqs0, hr0⟩ := h.reach
    have hr1 : C14.Reach E.net (CG.clear s.graph) [] := .clear hr0
    cases ha : CG.addInputs E.net E.fuel (E.order s.pairs) (CG.clear s.graph) with
    | error e =>
      refine ⟨fun s' u k => ?_, fun s' k => ?_⟩
      · simp only at k; cases k
      · simp only at k; cases k
    | ok g =>
      have hr2 : C14.Reach E.net g (E.order s.pairs ++ []) := .add E.fuel _ hr1 ha
      rw [List.append_nil] at hr2
      cases hg : CG.update g with
      | ub =>
        refine ⟨fun s' u k => ?_, fun s' k => ?_⟩
        · simp only [hg] at k; cases k
        · simp only [hg] at k; cases k
      | ok g' u' =>
        refine ⟨fun s' u k => ?_, fun s' k => ?_⟩
        · simp only [hg] at k
          cases k
          refine ⟨⟨fun _ => rfl, ⟨_, .update hr2 hg⟩, fun _ => ⟨g, _, hr2, ?_, hg⟩⟩, rfl, rfl, rfl, rfl, rfl, rfl, rfl⟩
          intro p
          exact (E.perm s.pairs).mem_iff
        · simp only [hg] at k; cases k
      | throw g' =>
        refine ⟨fun s' u k => ?_, fun s' k hf => ?_⟩
        · simp only [hg] at k; cases k
        · simp only [hg] at k
          cases k
          refine ⟨⟨fun k => ?_, ⟨_, .updateThrow hr2 hg⟩, fun k => absurd k hu⟩, rfl, rfl, rfl, rfl, rfl, rfl⟩
          have k' : s.finalized = true := k
          rw [hf] at k'
          cases k'

theorem finalize_gr {E : Env} {s : St} (h : Gr E s) (fin : Bool) :
    (∀ s' u, s.finalize E fin = .ok s' u → Gr E s' ∧ s'.upToDate = true ∧ s'.tr = s.tr ∧ s'.cstr = s.cstr ∧ s'.ins = s.ins ∧
      s'.next = s.next ∧ s'.subs = s.subs) ∧
    ∀ s', s.finalize E fin = .throw s' → Gr E s' ∧ s'.tr = s.tr ∧ s'.cstr = s.cstr ∧ s'.ins = s.ins ∧
      s'.next = s.next ∧ s'.subs = s.subs := by
  unfold St.finalize
  by_cases hf : s.finalized = true
  · rw [if_pos hf]
    refine ⟨fun s' u e => ?_, fun s' e => ?_⟩
    · cases e
      exact ⟨h, h.fin hf, rfl, rfl, rfl, rfl, rfl⟩
    · cases e
  · rw [if_neg hf]
    have hf' : s.finalized = false := by simpa using hf
    obtain ⟨h1, h2⟩ := refresh_gr h
    cases hr : s.refresh E with
    | ub =>
      refine ⟨fun s' u e => ?_, fun s' e => ?_⟩
      · simp only at e; cases e
      · simp only at e; cases e
    | throw s1 =>
      obtain ⟨a1, a2, a3, a4, a5, a6, a7⟩ := h2 s1 hr hf'
      refine ⟨fun s' u e => ?_, fun s' e => ?_⟩
      · simp only at e; cases e
      · simp only at e
        cases e
        exact ⟨a1, a2, a3, a4, a5, a7⟩
    | ok s1 u1 =>
      obtain ⟨a1, a0, a2, a3, a4, a5, a6, a7⟩ := h1 s1 u1 hr
      cases fin with
      | true =>
        refine ⟨fun s' u e => ?_, fun s' e => ?_⟩
        · simp only [if_true] at e
          cases e
          exact ⟨⟨fun _ => a0, a1.reach, a1.graph⟩, a0, a2, a3, a4, a5, a7⟩
        · simp only [if_true] at e
          cases e
      | false =>
        refine ⟨fun s' u e => ?_, fun s' e => ?_⟩
        · simp only [Bool.false_eq_true, if_false] at e
          cases e
        · simp only [Bool.false_eq_true, if_false] at e
          cases e
          exact ⟨a1, a2, a3, a4, a5, a7⟩

/-- The graph is left, and neither flag is set. -/
theorem gr_reset {E : Env} {s s' : St} (h : Gr E s) (h1 : s'.graph = s.graph) (h2 : s'.finalized = false)
    (h3 : s'.upToDate = false ∨ (s'.upToDate = s.upToDate ∧ s'.ins = s.ins)) : Gr E s' := by
  refine ⟨?_, ?_, ?_⟩
  · intro k
    rw [h2] at k
    cases k
  · rw [h1]
    exact h.reach
  · intro k
    rcases h3 with h3 | ⟨h3, h4⟩
    · rw [h3] at k
      cases k
    · rw [h3] at k
      obtain ⟨g, reqs, a, b, c⟩ := h.graph k
      refine ⟨g, reqs, a, ?_, ?_⟩
      · intro p
        rw [b p]
        unfold St.pairs
        rw [h4]
      · rw [h1]
        exact c

theorem removeBase_eq (s : St) (t : Nat) : (s.removeBase t).cstr = s.cstr ∧ (s.removeBase t).ins = s.ins ∧
    (s.removeBase t).next = s.next ∧ (s.removeBase t).graph = s.graph ∧ (s.removeBase t).upToDate = s.upToDate ∧
    (s.removeBase t).subs = s.subs := by
  unfold St.removeBase
  by_cases h : t ∈ s.tr
  · rw [if_pos h]
    exact ⟨rfl, rfl, rfl, rfl, rfl, rfl⟩
  · rw [if_neg h]
    exact ⟨rfl, rfl, rfl, rfl, rfl, rfl⟩

theorem removeBase_fin {s : St} {t : Nat} (h : t ∈ s.tr) : (s.removeBase t).finalized = false := by
  unfold St.removeBase
  rw [if_pos h]

theorem removeBase_gr {E : Env} {s : St} (h : Gr E s) (t : Nat) : Gr E (s.removeBase t) := by
  by_cases ht : t ∈ s.tr
  · obtain ⟨-, h2, -, h4, h5, -⟩ := removeBase_eq s t
    exact gr_reset h h4 (removeBase_fin ht) (Or.inr ⟨h5, h2⟩)
  · unfold St.removeBase
    rw [if_neg ht]
    exact h

theorem step_inv {E : Env} {s s' : St} {op : Op} (hc : Cst E s) (hg : Gr E s) (ha : Allowed s op)
    (hs : step E s op = some s') : Cst E s' ∧ Gr E s' := by
  cases op with
  | add t ok =>
    have ha' : t ∉ s.tr ∧ s.cstr t = none := ha
    cases ok with
    | true =>
      simp only [PU.step, St.add, if_true, Option.some.injEq] at hs
      subst hs
      exact ⟨cst_add hc t ha'.2 rfl rfl rfl, gr_reset hg rfl rfl (Or.inl rfl)⟩
    | false =>
      simp only [PU.step, St.add, Bool.false_eq_true, if_false, Option.some.injEq] at hs
      subst hs
      exact ⟨cst_same hc rfl rfl rfl, gr_reset hg rfl rfl (Or.inr ⟨rfl, rfl⟩)⟩
  | remove t =>
    have ha' : t ∈ s.tr ∨ s.cstr t = none := ha
    obtain ⟨e1, e2, e3, e4, e5, e6⟩ := removeBase_eq s t
    have hc1 : Cst E (s.removeBase t) := cst_same hc e1 e2 e3
    have hg1 := removeBase_gr hg t
    cases h1 : (s.removeBase t).cstr t with
    | none =>
      simp only [PU.step, St.remove, h1, Option.some.injEq] at hs
      subst hs
      exact ⟨hc1, hg1⟩
    | some c =>
      have ht : t ∈ s.tr := by
        rcases ha' with h | h
        · exact h
        · rw [e1, h] at h1
          cases h1
      have hf := removeBase_fin ht
      cases h2 : (s.removeBase t).subs c with
      | none =>
        simp only [PU.step, St.remove, h1, h2, Option.some.injEq] at hs
        subst hs
        exact ⟨cst_forget hc1 h1, gr_reset hg1 rfl hf (Or.inl rfl)⟩
      | some b =>
        cases b with
        | true =>
          simp only [PU.step, St.remove, h1, h2, Option.some.injEq] at hs
          subst hs
          refine ⟨cst_forget (s := { s.removeBase t with subs := upd (s.removeBase t).subs c none, finalized := false })
            (cst_same hc1 rfl rfl rfl) h1, gr_reset hg1 rfl rfl (Or.inl rfl)⟩
        | false =>
          simp only [PU.step, St.remove, h1, h2, Option.some.injEq] at hs
          subst hs
          exact ⟨hc1, hg1⟩
  | hint c b =>
    simp only [PU.step, St.hint, Option.some.injEq] at hs
    subst hs
    exact ⟨cst_same hc rfl rfl rfl, gr_reset hg rfl rfl (Or.inr ⟨rfl, rfl⟩)⟩
  | finalize fin =>
    obtain ⟨k1, k2⟩ := finalize_gr hg fin
    cases h : s.finalize E fin with
    | ub => simp only [PU.step, h] at hs; cases hs
    | ok s1 u =>
      simp only [PU.step, h, Option.some.injEq] at hs
      subst hs
      obtain ⟨a, -, -, b, c, d, -⟩ := k1 _ _ h
      exact ⟨cst_same hc b c d, a⟩
    | throw s1 =>
      simp only [PU.step, h, Option.some.injEq] at hs
      subst hs
      obtain ⟨a, -, b, c, d, -⟩ := k2 _ h
      exact ⟨cst_same hc b c d, a⟩
  | update fin =>
    obtain ⟨k1, k2⟩ := finalize_gr hg fin
    cases h : s.finalize E fin with
    | ub => simp only [PU.step, St.update, h] at hs; cases hs
    | ok s1 u =>
      simp only [PU.step, St.update, h, Option.some.injEq] at hs
      subst hs
      obtain ⟨a, -, -, b, c, d, -⟩ := k1 _ _ h
      exact ⟨cst_same hc b c d, a⟩
    | throw s1 =>
      simp only [PU.step, St.update, h, Option.some.injEq] at hs
      subst hs
      obtain ⟨a, -, b, c, d, -⟩ := k2 _ h
      exact ⟨cst_same hc b c d, a⟩

theorem life_inv {E : Env} {s : St} (h : Life E Allowed s) : Cst E s ∧ Gr E s := by
  induction h with
  | init =>
    refine ⟨⟨?_, ?_, ?_⟩, ⟨?_, ⟨[], .init⟩, ?_⟩⟩
    · intro t c k; cases k
    · intro t t' c k; cases k
    · intro p
      constructor
      · intro k; cases k
      · rintro ⟨t, k, -⟩; cases k
    · intro k; cases k
    · intro k; cases k
  | step _ ha hs ih => exact step_inv ih.1 ih.2 ha hs

/-! ## The calls made by an update -/

theorem update_plan {E : Env} {s s' : St} {fin : Bool} {calls : List Call} (h : Life E Allowed s)
    (hu : s.update E fin = .ok s' calls) : s'.tr = s.tr ∧ s'.cstr = s.cstr ∧ calls = s'.graph.plan ∧
    ∃ g reqs, C14.Reach E.net g reqs ∧ (∀ c o, (c, o) ∈ reqs ↔ Wanted E s c o) ∧ CG.update g = .ok s'.graph () := by
  obtain ⟨hc, hg⟩ := life_inv h
  obtain ⟨k1, -⟩ := finalize_gr hg fin
  cases hf : s.finalize E fin with
  | ub => simp only [St.update, hf] at hu; cases hu
  | throw s1 => simp only [St.update, hf] at hu; cases hu
  | ok s1 u =>
    simp only [St.update, hf] at hu
    cases hu
    obtain ⟨a, b, c, d, e, f, -⟩ := k1 _ _ hf
    obtain ⟨g, reqs, r1, r2, r3⟩ := a.graph b
    refine ⟨c, d, rfl, g, reqs, r1, ?_, r3⟩
    intro x o
    rw [r2]
    have : s'.pairs = s.pairs := by unfold St.pairs; rw [e]
    rw [this]
    exact pairs_wanted hc x o

theorem required_needed {E : Env} {s : St} {reqs : List (Nat × Nat)} (h : ∀ c o, (c, o) ∈ reqs ↔ Wanted E s c o) (u : Call) :
    C14.Required E.net reqs u ↔ Needed E s u := by
  constructor
  · rintro ⟨⟨c, o⟩, hp, u0, h1, h2⟩
    exact ⟨c, o, u0, (h c o).mp hp, h1, h2⟩
  · rintro ⟨c, o, u0, hp, h1, h2⟩
    exact ⟨(c, o), (h c o).mpr hp, u0, h1, h2⟩

/-- **C94 (soundness, partial).**  In the histories that neither add a task that is there nor retry a failed removal, an
update that returns makes only calls that are needed by the constraints of the problem, each once and after those it
depends upon.  Missing: the other histories, in which it is false (`C94_stale_false`, `C94_twice_false`). -/
theorem C94_calls_partial {E : Env} {s s' : St} {fin : Bool} {calls : List Call} (h : Life E Allowed s)
    (hu : s.update E fin = .ok s' calls) : calls.Nodup ∧ (∀ u ∈ calls, Needed E s u) ∧
    ∀ a u b, calls = a ++ u :: b → ∀ u', Dep E.net u u' → u' ∈ a := by
  obtain ⟨-, -, e, g, reqs, r1, r2, r3⟩ := update_plan h hu
  subst e
  obtain ⟨h1, h2, h3⟩ := C14.C14_plan_sound r1 r3
  exact ⟨h1, fun u hm => (required_needed r2 u).mp (h2 u hm), h3⟩

/-- **C94 (completeness, partial).**  If moreover no needed update depends upon itself, all needed updates are made. -/
theorem C94_complete_partial {E : Env} {s s' : St} {fin : Bool} {calls : List Call} (h : Life E Allowed s)
    (hu : s.update E fin = .ok s' calls) (hac : ∀ u, Needed E s u → ¬ TransGen (Dep E.net) u u) (u : Call) :
    u ∈ calls ↔ Needed E s u := by
  obtain ⟨-, -, e, g, reqs, r1, r2, r3⟩ := update_plan h hu
  subst e
  obtain ⟨g', k1, k2⟩ := C14.C14_plan_complete r1 (fun u hr => hac u ((required_needed r2 u).mp hr))
  rw [k1] at r3
  cases r3
  exact (k2 u).trans (required_needed r2 u)

/-- **C94 (freshness, partial).**  After such an update every cache that the constraints of the problem need holds what its
update computes from the current values of what it depends upon, and the other caches are as before. -/
theorem C94_fresh_partial {V : Type} {E : Env} {s s' : St} {fin : Bool} {calls : List Call} (h : Life E Allowed s)
    (hu : s.update E fin = .ok s' calls) (hac : ∀ u, Needed E s u → ¬ TransGen (Dep E.net) u u)
    (F : Call → Store V → V) (hF : ReadsDeps E.net F) (v : Store V) :
    (∀ u, Needed E s u → F u (CG.execute F calls v) = CG.execute F calls v u) ∧
    ∀ u, ¬ Needed E s u → CG.execute F calls v u = v u := by
  have hcomp := C94_complete_partial h hu hac
  obtain ⟨-, -, e, g, reqs, r1, r2, r3⟩ := update_plan h hu
  subst e
  refine ⟨?_, ?_⟩
  · intro u hn
    exact C14.C15_execute_refreshes r1 r3 F hF v u ((hcomp u).mpr hn)
  · intro u hn
    exact C14.C15_execute_frame F s'.graph v u (fun k => hn ((hcomp u).mp k))

/-- **C94 (return, partial).**  If the outputs of the constraints have well founded dependencies and the substitutions can
be finalized, the update returns, and leaves the tasks and constraints as they are. -/
theorem C94_returns_partial {E : Env} {s : St} (h : Life E Allowed s) (hac : ∀ u, Needed E s u → ¬ TransGen (Dep E.net) u u)
    (hwf : ∀ c o, Wanted E s c o → Acc (C14.Follows E.net) (.out c o)) :
    ∃ f0, ∀ f, f0 ≤ f → ∃ s' calls, s.update { E with fuel := f } true = .ok s' calls ∧ s'.tr = s.tr ∧ s'.cstr = s.cstr := by
  obtain ⟨hc, hg⟩ := life_inv h
  by_cases hf : s.finalized = true
  · refine ⟨0, fun f _ => ⟨s, s.graph.plan, ?_, rfl, rfl⟩⟩
    simp only [St.update, St.finalize]
    rw [if_pos hf]
  · by_cases hu : s.upToDate = true
    · refine ⟨0, fun f _ => ⟨{ s with finalized := true }, s.graph.plan, ?_, rfl, rfl⟩⟩
      simp only [St.update, St.finalize, St.refresh]
      rw [if_neg hf, if_pos hu]
      rfl
    · obtain ⟨reqs0, hr0⟩ := hg.reach
      have hr1 : C14.Reach E.net (CG.clear s.graph) [] := .clear hr0
      obtain ⟨f0, h0⟩ := C14.C14_add_returns hr1 (E.order s.pairs) (by
        intro p hp
        obtain ⟨c, o⟩ := p
        exact hwf c o ((pairs_wanted hc c o).mp ((E.perm s.pairs).mem_iff.mp hp)))
      refine ⟨f0, fun f hle => ?_⟩
      obtain ⟨g, hg1⟩ := h0 f hle
      have hr2 : C14.Reach E.net g (E.order s.pairs ++ []) := .add f _ hr1 hg1
      rw [List.append_nil] at hr2
      have hw : ∀ c o, (c, o) ∈ E.order s.pairs ↔ Wanted E s c o := by
        intro c o
        rw [(E.perm s.pairs).mem_iff]
        exact pairs_wanted hc c o
      obtain ⟨g', k1, -⟩ := C14.C14_plan_complete hr2 (fun u hr => hac u ((required_needed hw u).mp hr))
      refine ⟨{ s with graph := g', upToDate := true, finalized := true }, g'.plan, ?_, rfl, rfl⟩
      simp only [St.update, St.finalize, St.refresh]
      rw [if_neg hf, if_neg hu, hg1]
      simp only [k1, if_true]

/-- **C94 (tasks).**  In the histories in which every operation succeeds and no task is added while it is in the problem,
the constraints are those of the tasks of the problem, and such histories satisfy the hypothesis of the other theorems. -/
theorem C94_tasks {E : Env} {s : St} (h : Life E Clean s) :
    Life E Allowed s ∧ s.tr.Nodup ∧ ∀ t, t ∈ s.tr ↔ ∃ c, s.cstr t = some c := by
  induction h with
  | init =>
    refine ⟨.init, List.nodup_nil, ?_⟩
    intro t
    constructor
    · intro k; cases k
    · rintro ⟨c, k⟩; cases k
  | @step s s' op _ hcl hs ih =>
    obtain ⟨i1, i2, i3⟩ := ih
    have hall : Allowed s op := by
      cases op with
      | add t ok =>
        have hcl' : t ∉ s.tr ∧ ok = true := hcl
        refine ⟨hcl'.1, ?_⟩
        cases hx : s.cstr t with
        | none => rfl
        | some c => exact absurd ((i3 t).mpr ⟨c, hx⟩) hcl'.1
      | remove t =>
        cases hx : s.cstr t with
        | none => exact Or.inr hx
        | some c => exact Or.inl ((i3 t).mpr ⟨c, hx⟩)
      | hint c b => trivial
      | finalize fin => trivial
      | update fin => trivial
    refine ⟨.step i1 hall hs, ?_⟩
    obtain ⟨hc, hg⟩ := life_inv i1
    have keep : ∀ s1 : St, s1.tr = s.tr → s1.cstr = s.cstr → s1.tr.Nodup ∧ ∀ t, t ∈ s1.tr ↔ ∃ c, s1.cstr t = some c := by
      intro s1 h1 h2
      rw [h1, h2]
      exact ⟨i2, i3⟩
    cases op with
    | add t ok =>
      have hcl' : t ∉ s.tr ∧ ok = true := hcl
      obtain ⟨hn, rfl⟩ := hcl'
      simp only [PU.step, St.add, if_true, Option.some.injEq] at hs
      subst hs
      refine ⟨?_, ?_⟩
      · show (s.tr ++ [t]).Nodup
        rw [List.nodup_append]
        refine ⟨i2, List.nodup_singleton t, ?_⟩
        intro a ha b hb e
        rw [List.mem_singleton] at hb
        exact hn (hb ▸ e ▸ ha)
      · intro u
        show u ∈ s.tr ++ [t] ↔ ∃ c, upd s.cstr t (some s.next) u = some c
        rw [List.mem_append, List.mem_singleton]
        by_cases e : u = t
        · subst e
          rw [upd_self]
          simp
        · rw [upd_other _ _ e, i3 u]
          simp [e]
    | remove t =>
      have hcl' : ∃ s', s.remove t = .ok s' () := hcl
      obtain ⟨e1, -, -, -, -, -⟩ := removeBase_eq s t
      have htr : (s.removeBase t).tr = s.tr.erase t := by
        unfold St.removeBase
        by_cases ht : t ∈ s.tr
        · rw [if_pos ht]
        · rw [if_neg ht, List.erase_of_not_mem ht]
      have fin : ∀ s1 : St, s1.tr = s.tr.erase t → s1.cstr = upd s.cstr t none →
          s1.tr.Nodup ∧ ∀ u, u ∈ s1.tr ↔ ∃ c, s1.cstr u = some c := by
        intro s1 h1 h2
        rw [h1, h2]
        refine ⟨i2.erase t, ?_⟩
        intro u
        rw [i2.mem_erase_iff]
        by_cases e : u = t
        · subst e
          rw [upd_self]
          simp
        · rw [upd_other _ _ e, i3 u]
          simp [e]
      cases h1 : (s.removeBase t).cstr t with
      | none =>
        simp only [PU.step, St.remove, h1, Option.some.injEq] at hs
        subst hs
        refine fin _ htr ?_
        rw [e1]
        funext u
        by_cases e : u = t
        · subst e
          rw [upd_self, ← e1, h1]
        · rw [upd_other _ _ e]
      | some c =>
        cases h2 : (s.removeBase t).subs c with
        | none =>
          simp only [PU.step, St.remove, h1, h2, Option.some.injEq] at hs
          subst hs
          refine fin _ htr ?_
          show upd (s.removeBase t).cstr t none = _
          rw [e1]
        | some b =>
          cases b with
          | true =>
            simp only [PU.step, St.remove, h1, h2, Option.some.injEq] at hs
            subst hs
            refine fin _ htr ?_
            show upd (s.removeBase t).cstr t none = _
            rw [e1]
          | false =>
            obtain ⟨s2, k⟩ := hcl'
            simp only [St.remove, h1, h2] at k
            cases k
    | hint c b =>
      simp only [PU.step, St.hint, Option.some.injEq] at hs
      subst hs
      exact keep _ rfl rfl
    | finalize fin =>
      obtain ⟨k1, k2⟩ := finalize_gr hg fin
      cases h : s.finalize E fin with
      | ub => simp only [PU.step, h] at hs; cases hs
      | ok s1 u =>
        simp only [PU.step, h, Option.some.injEq] at hs
        subst hs
        obtain ⟨-, -, a, b, -⟩ := k1 _ _ h
        exact keep _ a b
      | throw s1 =>
        simp only [PU.step, h, Option.some.injEq] at hs
        subst hs
        obtain ⟨-, a, b, -⟩ := k2 _ h
        exact keep _ a b
    | update fin =>
      obtain ⟨k1, k2⟩ := finalize_gr hg fin
      cases h : s.finalize E fin with
      | ub => simp only [PU.step, St.update, h] at hs; cases hs
      | ok s1 u =>
        simp only [PU.step, St.update, h, Option.some.injEq] at hs
        subst hs
        obtain ⟨-, -, a, b, -⟩ := k1 _ _ h
        exact keep _ a b
      | throw s1 =>
        simp only [PU.step, St.update, h, Option.some.injEq] at hs
        subst hs
        obtain ⟨-, a, b, -⟩ := k2 _ h
        exact keep _ a b

/-! ## Where it is not so, and cases -/

/-- Every constraint is a node whose outputs need its update 0. -/
def demoNet : Net where
  isNode _ := true
  outputDeps _ _ := some [0]
  directDeps _ _ := none
  internalDeps _ _ := []
  inputDeps _ _ := []

def demo : Env := ⟨demoNet, fun _ => .equal, id, fun _ => List.Perm.refl _, 10⟩

/-- The states after a list of operations from nothing. -/
def after (l : List Op) : Option St := l.foldl (fun s op => s.bind fun s => step demo s op) (some {})

/-- The calls of an update after a list of operations, with the tasks and the constraint of the task 0. -/
def callsAfter (l : List Op) : Option (List Call × List Nat × Option Nat) :=
  (after l).bind fun s => match s.update demo true with
    | .ok s' calls => some (calls, s'.tr, s'.cstr 0)
    | _ => none

/-- **C94 (failed removal, false in full).**  A task is removed, which fails because its constraint is part of a substitution
that is not simple; the substitution is removed, the problem is updated, and the task is removed again, which succeeds.
The next update still calls the update of its constraint, that the problem no longer has. -/
theorem C94_stale_false :
    callsAfter [.add 0 true, .hint 0 (some false), .remove 0, .hint 0 none, .update true, .remove 0]
      = some ([(0, 0)], [], none) := by decide

/-- **C94 (added twice, false in full).**  A task is added twice and removed twice: the update of its first constraint is
called by all updates that follow. -/
theorem C94_twice_false :
    callsAfter [.add 0 true, .add 0 true, .remove 0, .remove 0] = some ([(0, 0)], [], none) := by decide

/-- A case in which two constraints are updated, and one after a removal. -/
example : callsAfter [.add 0 true, .add 1 true] = some ([(0, 0), (1, 0)], [0, 1], some 0) := by decide

example : callsAfter [.add 0 true, .add 1 true, .update true, .remove 0] = some ([(1, 0)], [1], none) := by decide

/-- The hypotheses of the theorems are met by a history with a failed removal. -/
example : ∃ s s', Life demo Allowed s ∧ s.update demo true = .ok s' [(0, 0)] ∧
    (∀ u, Needed demo s u → ¬ TransGen (Dep demo.net) u u) := by
  refine ⟨_, _, .step (.step (.step .init (op := .add 0 true) ⟨by simp, rfl⟩ rfl) (op := .hint 0 (some false)) trivial rfl)
    (op := .remove 0) (Or.inl (by simp [St.hint, St.addBase])) rfl, rfl, ?_⟩
  intro u _ h
  obtain ⟨b, hb, -⟩ := TransGen.head'_iff.mp h
  cases hb with
  | intern k => cases k
  | input k => cases k

end Verif.C94
