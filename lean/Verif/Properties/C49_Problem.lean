import Verif.Lemmas.WeightedLeastSquares6
/-!
# C49, C50: tasks and constraints of a linearized problem

Specification. `Run E fail l s`: the sequence `l` of calls leads from an empty problem to the state `s`; all the calls
return, except that `solve` may throw if `fail` is `true` (the user catches the exception and goes on). `Present l t` tells,
from the calls only, whether task `t` should be in the problem.
-/
set_option autoImplicit false
set_option linter.unusedSimpArgs false

namespace Verif.PB
open Verif.SE Verif.LS

/-! ## Specification -/

/-- Effect of a call on the set of tasks. -/
def Call.on (c : Call) (S : Nat → Prop) : Nat → Prop := fun t =>
  match c with
  | .addTask u => t = u ∨ S t
  | .removeTask u => t ≠ u ∧ S t
  | _ => S t

/-- The tasks that should be in the problem after the calls. -/
def Present (l : List Call) : Nat → Prop := l.foldl (fun S c => c.on S) (fun _ => False)

/-- What the user must respect: a task is added when it is not in the problem; a substitution is made of constraints that
exist; a substitution removed by its index is there. -/
def Allowed (l : List Call) (s : State) : Call → Prop
  | .addTask t => ¬ Present l t
  | .addSub x => ∀ c ∈ x.cstrs, c.id < s.pb.nextC
  | .removeSub i => i < s.pb.subs.length
  | _ => True

/-- Sequences of calls. -/
inductive Run (E : Env) (fail : Bool) : List Call → State → Prop
  | init : Run E fail [] {}
  | call (l : List Call) (s s' : State) (c : Call) : Run E fail l s → Allowed l s c → s.call E c = .ok s' () →
      Run E fail (l ++ [c]) s'
  | failed (l : List Call) (s s' : State) : fail = true → Run E fail l s → s.call E .solve = .throw s' →
      Run E fail (l ++ [.solve]) s'

/-! ## Proof -/

theorem Present_snoc (l : List Call) (c : Call) : Present (l ++ [c]) = c.on (Present l) := by
  simp [Present]

theorem removeBase_ok {s s' : State} {t : Nat} (h : s.removeBase t = .ok s' ()) :
    (t ∉ s.pb.tr ∧ s' = s) ∨ (t ∈ s.pb.tr ∧ s'.pb = { s.pb with tr := s.pb.tr.erase t, toks := s.pb.toks.filter (· ≠ t), finalized := false }) := by
  simp only [State.removeBase] at h
  by_cases ht : t ∈ s.pb.tr
  · rw [if_pos ht] at h
    split at h
    · simp at h
    · injection h with h; exact Or.inr ⟨ht, by rw [← h]⟩
  · rw [if_neg ht] at h; injection h with h; exact Or.inl ⟨ht, h.symm⟩

theorem removeStored_ok {s s' : State} {i : Nat} (h : s.removeStored i = .ok s' ()) :
    s'.pb = { s.pb with subs := s.pb.subs.eraseIdx i, finalized := false } := by
  simp only [State.removeStored] at h
  split at h
  · simp at h
  · injection h with h; rw [← h]

/-- `removeTask` on the problem, when it returns: nothing is known of the data of the scheme. -/
theorem removeTask_pinv {E : Env} {s s' : State} {t : Nat} (hp : PInv E s.pb) (h : s.removeTask t = .ok s' ()) :
    PInv E s'.pb ∧ (∀ u, u ∈ s'.pb.tr ↔ (u ≠ t ∧ u ∈ s.pb.tr)) := by
  by_cases ht : t ∈ s.pb.tr
  · obtain ⟨c, hc⟩ := Option.isSome_iff_exists.1 ((get_isSome _ _).2 ((hp.keys t).2 ht))
    have hmem : ∀ u, u ∈ s.pb.tr.erase t ↔ (u ≠ t ∧ u ∈ s.pb.tr) := fun u => hp.trNodup.mem_erase_iff
    simp only [State.removeTask] at h
    cases hb : s.removeBase t with
    | ub => rw [hb] at h; simp at h
    | throw s1 => rw [hb] at h; simp at h
    | ok s1 u =>
      rw [hb] at h
      obtain ⟨hn, _⟩ | ⟨_, h1⟩ := removeBase_ok hb
      · exact absurd ht hn
      simp only [h1, hc] at h
      have hr := hp.remove t
      cases hf : findSub s.pb.subs c with
      | none =>
        simp only [hf] at h
        injection h with h
        rw [← h]
        exact ⟨hr, hmem⟩
      | some i =>
        simp only [hf] at h
        split at h
        · cases hst : s1.removeStored i with
          | ub => rw [hst] at h; simp at h
          | throw s2 => rw [hst] at h; simp at h
          | ok s2 v =>
            rw [hst] at h
            simp only at h
            injection h with h
            have h2 := removeStored_ok hst
            rw [← h]
            simp only [h2, h1]
            refine ⟨?_, hmem⟩
            exact hr.subs _ (fun x hx => hp.subsOld x (List.mem_of_mem_eraseIdx hx))
        · simp at h
  · rw [removeTask_absent hp t ht] at h
    injection h with h
    subst h
    refine ⟨hp, fun u => ⟨fun hu => ⟨fun hh => ht (hh ▸ hu), hu⟩, fun hu => hu.2⟩⟩

/-- The problem after `solve`. -/
theorem solve_pb {E : Env} {s s' : State} (h : (∃ b, s.solve E = .ok s' b) ∨ s.solve E = .throw s') :
    s'.pb = s.pb.finalize E := by
  have idem : (s.pb.finalize E).finalize E = s.pb.finalize E := by
    simp only [Problem.finalize]
    split
    · rfl
    · rfl
  simp only [State.solve, State.getData] at h
  cases hm : s.mem with
  | some m =>
    simp only [hm] at h
    cases hu : updateData E (s.pb.finalize E) m with
    | ub => simp only [hu] at h; simp at h
    | throw m1 => simp only [hu] at h; simp at h; rw [← h]
    | ok m1 u => simp only [hu] at h; simp at h; rw [← h]
  | none =>
    simp only [hm] at h
    cases hp : processProblem E (s.pb.finalize E) (Mem.new E) with
    | ub => simp only [hp] at h; simp at h
    | throw m1 => simp only [hp] at h; simp at h; rw [← h]
    | ok m1 u =>
      simp only [hp, idem] at h
      cases hu : updateData E (s.pb.finalize E) m1 with
      | ub => simp only [hu] at h; simp at h
      | throw m1 => simp only [hu] at h; simp at h; rw [← h]
      | ok m1 u => simp only [hu] at h; simp at h; rw [← h]

theorem run_pinv {E : Env} {f : Bool} {l : List Call} {s : State} (h : Run E f l s) :
    PInv E s.pb ∧ ∀ t, t ∈ s.pb.tr ↔ Present l t := by
  induction h with
  | init => exact ⟨PInv.empty E, by simp [Present]⟩
  | failed l s s' _ _ hs ih =>
    obtain ⟨i1, i2⟩ := ih
    have hs' : s.solve E = .throw s' := by
      simp only [State.call] at hs
      cases hh : s.solve E <;> simp_all [drop]
    have := solve_pb (E := E) (s := s) (Or.inr hs')
    obtain ⟨f1, _, f3, _⟩ := i1.finalize
    rw [this, Present_snoc]
    exact ⟨f1, fun t => by rw [f3, i2]; rfl⟩
  | call l s s' c hr ha hs ih =>
    obtain ⟨i1, i2⟩ := ih
    rw [Present_snoc]
    cases c with
    | addTask t =>
      have ht : t ∉ s.pb.tr := fun hh => ha ((i2 t).1 hh)
      simp only [State.call, State.addTask] at hs
      split at hs
      · simp at hs
      · injection hs with hs
        rw [← hs]
        refine ⟨i1.add t ht, fun u => ?_⟩
        simp only [List.mem_append, List.mem_singleton, i2, Call.on]
        exact or_comm
    | removeTask t =>
      obtain ⟨h1, h2⟩ := removeTask_pinv i1 hs
      exact ⟨h1, fun u => by rw [h2, i2]; rfl⟩
    | addSub x =>
      simp only [State.call, State.addSub] at hs
      split at hs
      · simp at hs
      · injection hs with hs
        rw [← hs]
        refine ⟨i1.subs _ fun y hy => ?_, i2⟩
        rcases List.mem_append.1 hy with hy | hy
        · exact i1.subsOld y hy
        · simp only [List.mem_singleton] at hy; rw [hy]; exact ha
    | removeSub i =>
      have hi : i < s.pb.subs.length := ha
      simp only [State.call, if_pos hi] at hs
      rw [removeStored_ok hs]
      exact ⟨i1.subs _ fun y hy => i1.subsOld y (List.mem_of_mem_eraseIdx hy), i2⟩
    | removeForeignSub =>
      simp only [State.call, State.removeForeign] at hs
      split at hs
      · simp at hs
      · injection hs with hs
        rw [← hs]
        exact ⟨i1.subs s.pb.subs i1.subsOld, i2⟩
    | changeWeight t b =>
      have : s'.pb = s.pb := by
        simp only [State.call, State.changeWeight] at hs
        split at hs
        · split at hs
          · simp at hs
          · injection hs with hs; rw [← hs]
        · injection hs with hs; rw [← hs]
      rw [this]; exact ⟨i1, i2⟩
    | update =>
      simp only [State.call, State.update] at hs
      injection hs with hs
      obtain ⟨f1, _, f3, _⟩ := i1.finalize
      rw [← hs]
      exact ⟨f1, fun t => by rw [f3, i2]; rfl⟩
    | solve =>
      obtain ⟨b, hb⟩ := drop_ok.1 hs
      have := solve_pb (E := E) (s := s) (Or.inl ⟨b, hb⟩)
      obtain ⟨f1, _, f3, _⟩ := i1.finalize
      rw [this]
      exact ⟨f1, fun t => by rw [f3, i2]; rfl⟩

theorem run_inv {E : Env} {l : List Call} {s : State} (h : Run E false l s) : SInv E s := by
  generalize hf : false = f at h
  induction h with
  | init => exact SInv.init E
  | failed l s s' hf' => rw [← hf] at hf'; simp at hf'
  | call l s s' c hr ha hs ih =>
    refine call_inv ih c ?_ hs
    have hp := (run_pinv hr).2
    cases c with
    | addTask t => exact fun hh => ha ((hp t).1 hh)
    | _ => exact ha

/-! ## Properties -/

/-- **C49.** Whatever the sequence of additions and removals of tasks and substitutions, changes of weights, updates and
resolutions (successful or not), the list of tasks contains the tasks present, once each; the map of constraints has exactly one
constraint for each of them and no other key, so that `size()` is the number of constraints; each constraint is that of one
task only and has the size and type of its task; the callbacks registered are those of the tasks present. -/
theorem C49_sync {E : Env} {f : Bool} {l : List Call} {s : State} (h : Run E f l s) :
    (∀ t, t ∈ s.pb.tr ↔ Present l t) ∧ s.pb.tr.Nodup ∧
    (∀ t, (∃ c, (t, c) ∈ s.pb.cons) ↔ Present l t) ∧ (s.pb.cons.map (·.1)).Nodup ∧
    s.pb.cons.length = s.pb.tr.length ∧
    (∀ t u c, (t, c) ∈ s.pb.cons → (u, c) ∈ s.pb.cons → t = u) ∧
    (∀ t c, (t, c) ∈ s.pb.cons → c.size = (E.task t).size ∧ c.type = (E.task t).type) ∧
    (∀ t, t ∈ s.pb.toks ↔ Present l t) := by
  obtain ⟨hp, ht⟩ := run_pinv h
  have hk : ∀ t, (∃ c, (t, c) ∈ s.pb.cons) ↔ t ∈ keysOf s.pb.cons := by
    intro t
    simp only [keysOf, List.mem_map]
    exact ⟨fun ⟨c, hc⟩ => ⟨(t, c), hc, rfl⟩, fun ⟨e, he, hc⟩ => ⟨e.2, by rw [← hc]; exact he⟩⟩
  refine ⟨ht, hp.trNodup, fun t => by rw [hk, hp.keys, ht], hp.keysNodup, ?_, fun t u c h1 h2 => ?_, fun t c h1 => ?_,
    fun t => by rw [hp.toks, ht]⟩
  · have hperm : (keysOf s.pb.cons).Perm s.pb.tr := (List.perm_ext_iff_of_nodup hp.keysNodup hp.trNodup).2 hp.keys
    have := hperm.length_eq
    simpa [keysOf] using this
  · exact hp.inj t u c ((mem_get hp.keysNodup _ _).1 h1) ((mem_get hp.keysNodup _ _).1 h2)
  · exact hp.info t c ((mem_get hp.keysNodup _ _).1 h1)

/-- The calls other than removals and resolutions never throw. -/
theorem C49_no_throw {E : Env} {l : List Call} {s : State} (h : Run E false l s) (c : Call) (hc : Allowed l s c)
    (h1 : ∀ t, c ≠ .removeTask t) (h2 : c ≠ .solve) : ∃ s', s.call E c = .ok s' () := by
  have hi := run_inv h
  cases c with
  | addTask t =>
    obtain ⟨s1, h1, _⟩ := addTask_inv hi t (fun hh => hc (((run_pinv h).2 t).1 hh))
    exact ⟨s1, h1⟩
  | removeTask t => exact absurd rfl (h1 t)
  | addSub x =>
    obtain ⟨s1, h1, _⟩ := addSub_inv hi x hc
    exact ⟨s1, h1⟩
  | removeSub i =>
    obtain ⟨s1, h1, _⟩ := removeStored_inv hi i
    have hl : i < s.pb.subs.length := hc
    exact ⟨s1, by simp only [State.call, if_pos hl, h1]⟩
  | removeForeignSub =>
    obtain ⟨s1, h1, _⟩ := removeForeign_inv hi
    exact ⟨s1, h1⟩
  | changeWeight t b =>
    obtain ⟨s1, h1, _⟩ := changeWeight_inv hi t b
    exact ⟨s1, h1⟩
  | update => exact ⟨_, rfl⟩
  | solve => exact absurd rfl h2

/-- A removal throws exactly when the constraint of the task is used by a substitution and the first such substitution is
not made of one constraint and one variable. -/
theorem C50_throws_iff {E : Env} {l : List Call} {s : State} (h : Run E false l s) (t : Nat) :
    (∃ s', s.call E (.removeTask t) = .throw s') ↔
      ∃ c l₁ x l₂, (t, c) ∈ s.pb.cons ∧ s.pb.subs = l₁ ++ x :: l₂ ∧ c ∈ x.cstrs ∧ (∀ y ∈ l₁, c ∉ y.cstrs) ∧
        ¬ (x.cstrs.length = 1 ∧ x.nvars = 1) := by
  have hi := run_inv h
  have hsplit : ∀ (L : List Sub) (c : Cstr) (i : Nat) (x : Sub), findSub L c = some i → L[i]? = some x →
      ∃ l₁ l₂, L = l₁ ++ x :: l₂ ∧ ∀ y ∈ l₁, c ∉ y.cstrs := by
    intro L
    induction L with
    | nil => intro c i x h; simp [findSub] at h
    | cons y L ih =>
      intro c i x h hx
      simp only [findSub] at h
      by_cases hy : c ∈ y.cstrs
      · rw [if_pos hy] at h; injection h with h; subst h
        simp only [List.getElem?_cons_zero, Option.some.injEq] at hx
        exact ⟨[], L, by rw [hx]; rfl, by simp⟩
      · rw [if_neg hy] at h
        obtain ⟨j, hj, rfl⟩ := Option.map_eq_some_iff.1 h
        simp only [List.getElem?_cons_succ] at hx
        obtain ⟨l₁, l₂, h1, h2⟩ := ih c j x hj hx
        refine ⟨y :: l₁, l₂, by rw [h1]; rfl, fun z hz => ?_⟩
        rcases List.mem_cons.1 hz with rfl | hz
        · exact hy
        · exact h2 z hz
  have hjoin : ∀ (l₁ : List Sub) (x : Sub) (l₂ : List Sub) (c : Cstr), c ∈ x.cstrs → (∀ y ∈ l₁, c ∉ y.cstrs) →
      findSub (l₁ ++ x :: l₂) c = some l₁.length ∧ (l₁ ++ x :: l₂)[l₁.length]? = some x := by
    intro l₁ x l₂ c hc
    induction l₁ with
    | nil => intro _; simp [findSub, hc]
    | cons y l₁ ih =>
      intro hy
      obtain ⟨h1, h2⟩ := ih fun z hz => hy z (List.mem_cons_of_mem _ hz)
      have := hy y (by simp)
      simp [findSub, this, h1]
  have hsim : ∀ x : Sub, x.isSimple = false ↔ ¬ (x.cstrs.length = 1 ∧ x.nvars = 1) := by
    intro x
    rw [← Bool.not_eq_true]
    simp [Sub.isSimple]
  constructor
  · rintro ⟨s', hs⟩
    simp only [State.call] at hs
    by_cases ht : t ∈ s.pb.tr
    · obtain ⟨c, hc⟩ := Option.isSome_iff_exists.1 ((get_isSome _ _).2 ((hi.pb.keys t).2 ht))
      cases hf : findSub s.pb.subs c with
      | none =>
        obtain ⟨s1, h1, h2⟩ := removeTask_unused hi t ht hc ((findSub_none _ _).1 hf)
        rw [h1] at hs; simp at hs
      | some i =>
        obtain ⟨x, hx, hcx⟩ := findSub_some hf
        cases hsi : x.isSimple with
        | true =>
          obtain ⟨s1, h1, h2⟩ := removeTask_simple hi t ht hc hf hx hsi
          rw [h1] at hs; simp at hs
        | false =>
          obtain ⟨l₁, l₂, h1, h2⟩ := hsplit _ _ _ _ hf hx
          exact ⟨c, l₁, x, l₂, (mem_get hi.pb.keysNodup _ _).2 hc, h1, hcx, h2, (hsim x).1 hsi⟩
    · rw [removeTask_absent hi.pb t ht] at hs; simp at hs
  · rintro ⟨c, l₁, x, l₂, h1, h2, h3, h4, h5⟩
    have hc := (mem_get hi.pb.keysNodup _ _).1 h1
    have ht : t ∈ s.pb.tr := (hi.pb.keys t).1 (by rw [← get_isSome, hc]; rfl)
    obtain ⟨g1, g2⟩ := hjoin l₁ x l₂ c h3 h4
    rw [← h2] at g1 g2
    obtain ⟨mem, hm⟩ := removeTask_fails hi t ht hc g1 g2 ((hsim x).2 h5)
    exact ⟨_, hm⟩

/-- **C50**, what holds: when a removal throws, the constraints and the substitutions of the problem are as before the
call. Missing: the list of tasks, the callbacks and the queue of events of the scheme, which are changed (next theorem). -/
theorem C50_failed_removal_partial {E : Env} {l : List Call} {s s' : State} (h : Run E false l s) (t : Nat)
    (hs : s.call E (.removeTask t) = .throw s') :
    s'.pb.cons = s.pb.cons ∧ s'.pb.subs = s.pb.subs ∧ s'.pb.nextC = s.pb.nextC ∧ s'.pb.tr = s.pb.tr.erase t ∧
    (∀ u, u ∈ s'.pb.toks ↔ (u ≠ t ∧ Present l u)) := by
  have hi := run_inv h
  simp only [State.call] at hs
  by_cases ht : t ∈ s.pb.tr
  · obtain ⟨c, hc⟩ := Option.isSome_iff_exists.1 ((get_isSome _ _).2 ((hi.pb.keys t).2 ht))
    cases hf : findSub s.pb.subs c with
    | none =>
      obtain ⟨s1, h1, h2⟩ := removeTask_unused hi t ht hc ((findSub_none _ _).1 hf)
      rw [h1] at hs; simp at hs
    | some i =>
      obtain ⟨x, hx, hcx⟩ := findSub_some hf
      cases hsi : x.isSimple with
      | true =>
        obtain ⟨s1, h1, h2⟩ := removeTask_simple hi t ht hc hf hx hsi
        rw [h1] at hs; simp at hs
      | false =>
        obtain ⟨mem, h1⟩ := removeTask_fails hi t ht hc hf hx hsi
        rw [h1] at hs
        injection hs with hs
        subst hs
        refine ⟨rfl, rfl, rfl, rfl, fun u => ?_⟩
        simp only [List.mem_filter, decide_eq_true_eq, hi.pb.toks, (run_pinv h).2]
        exact and_comm
  · rw [removeTask_absent hi.pb t ht] at hs; simp at hs

/-! ## Examples and counterexamples -/

/-- Tasks: 0 and 1 are constraints of sizes 2 and 1, 2 an objective of size 3, 3 a bound of size 2; 9 has priority 2. Each
uses its own variable, and variable 0. -/
def demo : Env where
  task := fun t => match t with
    | 0 => ⟨2, .equal, 0, .l2⟩
    | 1 => ⟨1, .greaterThan, 0, .l2⟩
    | 2 => ⟨3, .equal, 1, .l2⟩
    | 3 => ⟨2, .lowerThan, 0, .l2⟩
    | 9 => ⟨1, .equal, 2, .l2⟩
    | _ => ⟨1, .equal, 1, .l2⟩
  asBound := fun _ t => t == 3
  ys := fun _ t => [0, t]
  zs := fun _ _ => []
  extraSizes := fun _ => []
  total := fun S => ([0, 1, 2, 3].filter (fun i => S ⟨0, i⟩)).length
  start := fun _ _ => 0
  kind := .qld
  cholesky := false
  autoDamping := false
  scalarizationWeight := 1000

/-- A run with additions, a resolution that fails (task 9 has a priority that is not supported), a removal and a successful
resolution. -/
example : ∃ s, Run demo true [.addTask 0, .addTask 9, .solve, .removeTask 9, .addTask 2, .solve] s ∧ s.pb.tr = [0, 2] ∧
    Present [.addTask 0, .addTask 9, .solve, .removeTask 9, .addTask 2, .solve] 2 ∧
    ¬ Present [.addTask 0, .addTask 9, .solve, .removeTask 9, .addTask 2, .solve] 9 := by
  refine ⟨_, .call _ _ _ _ (.call _ _ _ _ (.call _ _ _ _ (.failed _ _ _ rfl (.call _ _ _ _ (.call _ _ _ _ .init ?_ rfl) ?_ rfl)
    rfl) ?_ rfl) ?_ rfl) ?_ rfl, ?_, ?_, ?_⟩
  · simp [Allowed, Present]
  · simp [Allowed, Present, Call.on]
  · trivial
  · simp [Allowed, Present, Call.on]
  · trivial
  · rfl
  · simp [Present, Call.on]
  · simp [Present, Call.on]

/-- The condition on additions is needed: if a task is added twice, then removed, the problem still lists the task, but has
no constraint for it any more; the next resolution ignores it. -/
theorem C49_double_add :
    ∃ s, ({} : State).calls demo [.addTask 0, .addTask 0, .removeTask 0] = .ok s () ∧ s.pb.tr = [0] ∧ s.pb.cons = [] ∧
      s.pb.toks = [] := ⟨_, rfl, rfl, rfl, rfl⟩

/-- **C50** is false: the constraints of tasks 0 and 1 are used by one substitution; removing task 0 throws, and leaves the
task out of the list of tasks (and without callbacks) while its constraint is still in the problem. The resolutions that
follow throw. -/
theorem C50_failed_removal_false :
    ∃ s s' s'', ({} : State).calls demo [.addTask 0, .addTask 1, .addTask 2,
        .addSub ⟨[⟨0, 2, .equal⟩, ⟨1, 1, .greaterThan⟩], 2⟩, .solve] = .ok s () ∧ s.pb.tr = [0, 1, 2] ∧
      s.call demo (.removeTask 0) = .throw s' ∧ s'.pb.tr = [1, 2] ∧ s'.pb.toks = [2, 1] ∧ s'.pb.cons = s.pb.cons ∧
      s.pb.cons.map (·.1) = [0, 1, 2] ∧ s'.pb ≠ s.pb ∧ s'.call demo .solve = .throw s'' := by
  refine ⟨_, _, _, rfl, rfl, rfl, rfl, rfl, rfl, rfl, ?_, rfl⟩
  decide

/-- Two tasks added, then one of them removed -/
def twoAdded : List Call := [.addTask 0, .addTask 2]

theorem two_run : ∃ s, Run demo false twoAdded s ∧ s.pb.tr = [2, 0] ∨ Run demo false twoAdded s ∧ s.pb.tr = [0, 2] :=
  ⟨_, .inr ⟨.call _ _ _ _ (.call _ _ _ _ .init (by simp [Allowed, Present]) rfl) (by simp [Allowed, Present, Call.on]) rfl, rfl⟩⟩

/-- The tasks of the problem are those added, with their constraints -/
example : ∃ s, (∃ c, (2, c) ∈ s.pb.cons ∧ c.size = 3) ∧ Run demo false twoAdded s := by
  obtain ⟨s, h⟩ := two_run
  have hr : Run demo false twoAdded s := h.elim (·.1) (·.1)
  obtain ⟨-, -, h3, -, -, -, h7, -⟩ := C49_sync hr
  obtain ⟨c, hc⟩ := (h3 2).2 (by simp [Present, twoAdded, Call.on])
  exact ⟨s, ⟨c, hc, (h7 2 c hc).1⟩, hr⟩

/-- A third task is added without exception -/
example : ∃ s s', Run demo false twoAdded s ∧ s.call demo (.addTask 3) = .ok s' () := by
  obtain ⟨s, h⟩ := two_run
  have hr : Run demo false twoAdded s := h.elim (·.1) (·.1)
  obtain ⟨s', h'⟩ := C49_no_throw hr (.addTask 3) (by simp [Allowed, Present, twoAdded, Call.on]) (fun t => by simp) (by simp)
  exact ⟨s, s', hr, h'⟩

/-- The addresses of different variables are different: the structural events never confuse two of them. -/
theorem C49_addresses (v w : PB.V) (h : v.code = w.code) : v = w := by
  have key : ∀ g g' i i' : Nat, 2 ^ g * (2 * i + 1) = 2 ^ g' * (2 * i' + 1) → g = g' ∧ i = i' := by
    intro g
    induction g with
    | zero =>
      intro g' i i' h
      cases g' with
      | zero => simp only [Nat.pow_zero, Nat.one_mul] at h; omega
      | succ g' => rw [Nat.pow_succ, Nat.pow_zero, Nat.mul_comm (2 ^ g') 2, Nat.mul_assoc] at h; omega
    | succ g ih =>
      intro g' i i' h
      cases g' with
      | zero => rw [Nat.pow_succ, Nat.pow_zero, Nat.mul_comm (2 ^ g) 2, Nat.mul_assoc] at h; omega
      | succ g' =>
        rw [Nat.pow_succ, Nat.pow_succ, Nat.mul_comm (2 ^ g) 2, Nat.mul_comm (2 ^ g') 2, Nat.mul_assoc, Nat.mul_assoc] at h
        obtain ⟨h1, h2⟩ := ih g' i i' (by omega)
        exact ⟨by omega, h2⟩
  cases v; cases w
  obtain ⟨h1, h2⟩ := key _ _ _ _ h
  cases h1; cases h2; rfl

end Verif.PB
