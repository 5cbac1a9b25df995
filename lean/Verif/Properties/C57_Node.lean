import Verif.Model.Node
import Verif.Properties.C56_Inputs
/-!
# C57: the dependencies of a node are those declared, and never mixed

In any history of declarations, calls that throw included, the maps of a node are given by the declarations that were accepted; an output never has both a direct dependency and
update dependencies, it has at most one direct dependency, and no update has two functions.
-/
set_option autoImplicit false

namespace Verif.C57
open Verif.Nd
open Verif.Inp (upd)

/-! ## Specification -/

/-- A single declaration -/
inductive Decl where
  /-- the update `u` calls the function `f` -/
  | reg (u f : Nat)
  /-- the output `o` depends on the update `u` -/
  | out (o u : Nat)
  /-- the update `u1` depends on the update `u2` -/
  | int (u1 u2 : Nat)
  /-- the update `u` depends on the output `i` of the source `s` -/
  | inp (u s i : Nat)
  /-- the output `o` is the output `i` of the source `s` -/
  | dir (o s i : Nat)
deriving DecidableEq

/-- The declarations that a call asks for, in order -/
def wants : Op → List Decl
  | .register _ l => l.map fun p => .reg p.1 p.2
  | .output _ os u => os.map fun o => .out o u
  | .internal _ u1 u2 => [.int u1 u2]
  | .input _ _ _ u s i args => (i :: args).map fun j => .inp u s j
  | .direct _ _ _ o s i => [.dir o s i]
  | .inputs _ => []

/-- The call may make the declaration after the declarations `log`. For the input dependencies, only the update and the first output are looked at. -/
def Allowed (op : Op) (log : List Decl) (d : Decl) : Prop :=
  match op, d with
  | .register enU _, .reg u _ => enU u = true ∧ ∀ g, Decl.reg u g ∉ log
  | .output enO _ _, .out o _ => enO o = true ∧ ∀ s i, Decl.dir o s i ∉ log
  | .internal enU _ _, .int u1 u2 => enU u1 = true ∧ enU u2 = true
  | .input _ enU en _ _ i _, .inp u _ _ => enU u = true ∧ en i = true
  | .direct _ enO en _ _ _, .dir o _ i => enO o = true ∧ en i = true ∧ (∀ s j, Decl.dir o s j ∉ log) ∧ ∀ u, Decl.out o u ∉ log
  | _, _ => False

/-- `Takes op log ds log' b`: the declarations `ds` are made in order until one is not allowed. `b` tells that they are all made. -/
inductive Takes (op : Op) : List Decl → List Decl → List Decl → Bool → Prop where
  | done {log} : Takes op log [] log true
  | made {log d ds log' b} (h : Allowed op log d) (ht : Takes op (log ++ [d]) ds log' b) : Takes op log (d :: ds) log' b
  | refused {log d ds} (h : ¬ Allowed op log d) : Takes op log (d :: ds) log false

/-- The state `st` and the declarations made `log`, after some calls. A call that does not make all the declarations it asks for throws. Calls on the inputs themselves make no
declaration. -/
inductive Hist : List Decl → Nd.St → Prop where
  | new : Hist [] {}
  | ok {op log log' st st'} (hh : Hist log st) (ht : Takes op log (wants op) log' true) (hs : step op st = .ok st' ()) : Hist log' st'
  | throw {op log log' b st st'} (hh : Hist log st) (ht : Takes op log (wants op) log' b) (hb : b = false ∨ ∃ o, op = .inputs o)
      (hs : step op st = .throw st') : Hist log' st'

/-- The updates declared for the output `o`, in order -/
def outs (o : Nat) (log : List Decl) : List Nat := log.filterMap fun d => match d with | .out o' u => if o' = o then some u else none | _ => none

/-- The updates declared for the update `u`, in order -/
def ints (u : Nat) (log : List Decl) : List Nat := log.filterMap fun d => match d with | .int u' v => if u' = u then some v else none | _ => none

/-- The maps of the node are given by the declarations. -/
structure Maps (log : List Decl) (st : Nd.St) : Prop where
  /-- functions of the updates -/
  updates : ∀ u f, st.updates u = some f ↔ Decl.reg u f ∈ log
  /-- direct dependencies -/
  direct : ∀ o s i, st.directDeps o = some (s, i) ↔ Decl.dir o s i ∈ log
  /-- update dependencies of the outputs, in the order of the declarations -/
  output : ∀ o l, st.outputDeps o = some l ↔ l = outs o log ∧ l ≠ []
  /-- dependencies between updates, in the order of the declarations -/
  internal : ∀ u l, st.internalDeps u = some l ↔ l = ints u log ∧ l ≠ []
  /-- dependencies of the updates on the inputs -/
  input : ∀ u s i, (∃ m l, st.inputDeps u = some m ∧ m s = some l ∧ i ∈ l) ↔ Decl.inp u s i ∈ log
  /-- no empty map or set -/
  input_ne : ∀ u m, st.inputDeps u = some m → (∃ s, m s ≠ none) ∧ ∀ s, m s ≠ some []

/-! ## Lemmas -/

theorem mem_outs (o u : Nat) (log : List Decl) : u ∈ outs o log ↔ Decl.out o u ∈ log := by
  simp only [outs, List.mem_filterMap]
  constructor
  · rintro ⟨d, hd, h⟩
    cases d <;> simp only [reduceCtorEq] at h
    rename_i o' u'
    by_cases e : o' = o
    · rw [if_pos e] at h; cases h; rw [← e]; exact hd
    · rw [if_neg e] at h; cases h
  · intro h
    exact ⟨_, h, by simp⟩

theorem outs_append (o : Nat) (log : List Decl) (d : Decl) : outs o (log ++ [d]) = outs o log ++ (match d with | .out o' u => if o' = o then [u] else [] | _ => []) := by
  cases d <;> simp only [outs, List.filterMap_append, List.filterMap_cons, List.filterMap_nil, List.append_nil]
  rename_i o' u
  by_cases e : o' = o <;> simp [e]

theorem ints_append (o : Nat) (log : List Decl) (d : Decl) : ints o (log ++ [d]) = ints o log ++ (match d with | .int o' u => if o' = o then [u] else [] | _ => []) := by
  cases d <;> simp only [ints, List.filterMap_append, List.filterMap_cons, List.filterMap_nil, List.append_nil]
  rename_i o' u
  by_cases e : o' = o <;> simp [e]

/-- The maps do not depend on the inputs. -/
theorem maps_ins {log : List Decl} {st : Nd.St} (h : Maps log st) (ins : Inp.St) : Maps log { st with ins := ins } := ⟨h.1, h.2, h.3, h.4, h.5, h.6⟩

theorem maps_new : Maps [] {} := by
  constructor <;> simp [outs, ints]

/-- The state after the declaration -/
def put (d : Decl) (st : Nd.St) : Nd.St :=
  match d with
  | .reg u f => { st with updates := upd st.updates u (some f) }
  | .out o u => { st with outputDeps := upd st.outputDeps o (some ((st.outputDeps o).getD [] ++ [u])) }
  | .int v u => { st with internalDeps := upd st.internalDeps v (some ((st.internalDeps v).getD [] ++ [u])) }
  | .inp u s i => addInputDep u s i st
  | .dir o s i => { st with directDeps := upd st.directDeps o (some (s, i)) }

theorem addInputDep_same (u s i : Nat) (st : Nd.St) : (addInputDep u s i st).updates = st.updates ∧ (addInputDep u s i st).outputDeps = st.outputDeps ∧
    (addInputDep u s i st).internalDeps = st.internalDeps ∧ (addInputDep u s i st).directDeps = st.directDeps ∧ (addInputDep u s i st).ins = st.ins := by
  unfold addInputDep
  cases st.inputDeps u with
  | none => simp
  | some m => cases h : m s <;> simp [h]

theorem getD_outs {log : List Decl} {st : Nd.St} (h : Maps log st) (o : Nat) : (st.outputDeps o).getD [] = outs o log := by
  cases hl : st.outputDeps o with
  | none =>
    by_cases e : outs o log = []
    · simp [e]
    · have := (h.output o _).mpr ⟨rfl, e⟩
      rw [hl] at this; cases this
  | some l => simp [((h.output o l).mp hl).1]

theorem getD_ints {log : List Decl} {st : Nd.St} (h : Maps log st) (o : Nat) : (st.internalDeps o).getD [] = ints o log := by
  cases hl : st.internalDeps o with
  | none =>
    by_cases e : ints o log = []
    · simp [e]
    · have := (h.internal o _).mpr ⟨rfl, e⟩
      rw [hl] at this; cases this
  | some l => simp [((h.internal o l).mp hl).1]

theorem out_some {log : List Decl} {st : Nd.St} (h : Maps log st) (o : Nat) : (st.outputDeps o).isSome = true ↔ ∃ u, Decl.out o u ∈ log := by
  constructor
  · intro hs
    obtain ⟨l, hl⟩ := Option.isSome_iff_exists.mp hs
    obtain ⟨e, hne⟩ := (h.output o l).mp hl
    cases l with
    | nil => exact absurd rfl hne
    | cons u l => exact ⟨u, (mem_outs o u log).mp (by rw [← e]; exact List.mem_cons_self ..)⟩
  · rintro ⟨u, hu⟩
    have hm := (mem_outs o u log).mpr hu
    rw [(h.output o _).mpr ⟨rfl, List.ne_nil_of_mem hm⟩]
    rfl

theorem dir_some {log : List Decl} {st : Nd.St} (h : Maps log st) (o : Nat) : (st.directDeps o).isSome = true ↔ ∃ s i, Decl.dir o s i ∈ log := by
  rw [Option.isSome_iff_exists]
  constructor
  · rintro ⟨⟨s, i⟩, hs⟩; exact ⟨s, i, (h.direct o s i).mp hs⟩
  · rintro ⟨s, i, hs⟩; exact ⟨_, (h.direct o s i).mpr hs⟩

theorem reg_some {log : List Decl} {st : Nd.St} (h : Maps log st) (u : Nat) : (st.updates u).isSome = true ↔ ∃ f, Decl.reg u f ∈ log := by
  rw [Option.isSome_iff_exists]
  exact exists_congr fun f => h.updates u f

/-- A declaration that is allowed is recorded. -/
theorem maps_put {log : List Decl} {st : Nd.St} (h : Maps log st) {op : Op} {d : Decl} (ha : Allowed op log d) : Maps (log ++ [d]) (put d st) := by
  cases d with
  | reg u f =>
    refine ⟨?_, fun o s i => by simp [put, h.direct], fun o l => by rw [outs_append]; simp [put, h.output], fun o l => by rw [ints_append]; simp [put, h.internal],
      fun u' s i => by simp [put, ← h.input], h.input_ne⟩
    intro u' g
    simp only [put, upd, List.mem_append, List.mem_singleton, Decl.reg.injEq]
    by_cases e : u' = u
    · subst e
      rw [if_pos rfl]
      have hn : ∀ g, Decl.reg u' g ∉ log := by
        cases op <;> simp only [Allowed] at ha
        exact ha.2
      simp [hn g, eq_comm]
    · rw [if_neg e]; simp [e, h.updates]
  | out o u =>
    refine ⟨fun o s => by simp [put, h.updates], fun o s i => by simp [put, h.direct], ?_, fun o l => by rw [ints_append]; simp [put, h.internal],
      fun u' s i => by simp [put, ← h.input], h.input_ne⟩
    intro o' l
    rw [outs_append]
    simp only [put, upd]
    by_cases e : o' = o
    · subst e
      rw [if_pos rfl, if_pos rfl, getD_outs h]
      simp only [Option.some.injEq, eq_comm]
      constructor
      · rintro rfl; exact ⟨rfl, by simp⟩
      · exact fun h => h.1
    · rw [if_neg e, if_neg (fun h => e h.symm)]; simp [h.output]
  | int o u =>
    refine ⟨fun o s => by simp [put, h.updates], fun o s i => by simp [put, h.direct], fun o l => by rw [outs_append]; simp [put, h.output], ?_,
      fun u' s i => by simp [put, ← h.input], h.input_ne⟩
    intro o' l
    rw [ints_append]
    simp only [put, upd]
    by_cases e : o' = o
    · subst e
      rw [if_pos rfl, if_pos rfl, getD_ints h]
      simp only [Option.some.injEq, eq_comm]
      constructor
      · rintro rfl; exact ⟨rfl, by simp⟩
      · exact fun h => h.1
    · rw [if_neg e, if_neg (fun h => e h.symm)]; simp [h.internal]
  | dir o s i =>
    refine ⟨fun o s => by simp [put, h.updates], ?_, fun o l => by rw [outs_append]; simp [put, h.output], fun o l => by rw [ints_append]; simp [put, h.internal],
      fun u' s i => by simp [put, ← h.input], h.input_ne⟩
    intro o' s' i'
    simp only [put, upd, List.mem_append, List.mem_singleton, Decl.dir.injEq]
    by_cases e : o' = o
    · subst e
      rw [if_pos rfl]
      have hn : ∀ s j, Decl.dir o' s j ∉ log := by
        cases op <;> simp only [Allowed] at ha
        exact ha.2.2.1
      simp [hn s' i', eq_comm]
    · rw [if_neg e]; simp [e, h.direct]
  | inp u s i =>
    obtain ⟨e1, e2, e3, e4, -⟩ := addInputDep_same u s i st
    simp only [put]
    refine ⟨fun o s => by rw [e1]; simp [h.updates], fun o s i => by rw [e4]; simp [h.direct], fun o l => by rw [outs_append, e2]; simp [h.output],
      fun o l => by rw [ints_append, e3]; simp [h.internal], ?_, ?_⟩
    · intro u' s' i'
      rw [List.mem_append, ← h.input, List.mem_singleton, Decl.inp.injEq]
      unfold addInputDep
      by_cases hu : u' = u
      · subst hu
        cases hm : st.inputDeps u' with
        | none =>
          by_cases hs : s' = s
          · subst hs; simp [upd]
          · simp [upd, hs]
        | some m =>
          cases hl : m s with
          | none =>
            by_cases hs : s' = s
            · subst hs; simp [upd, hl]
            · simp [upd, hs, hl]
          | some l =>
            by_cases hs : s' = s
            · subst hs; simp [upd, hl, C56.mem_insert, or_comm]
            · simp [upd, hs, hl]
      · cases hm : st.inputDeps u with
        | none => simp [upd, hu]
        | some m => cases hl : m s <;> simp [upd, hu, hl]
    · intro u' m' hm'
      have hsm : ∀ (m : Nat → Option (List Nat)) (l : List Nat), (∀ s, m s ≠ some []) → l ≠ [] → (∃ s', upd m s (some l) s' ≠ none) ∧ ∀ s', upd m s (some l) s' ≠ some [] := by
        intro m l h1 h2
        refine ⟨⟨s, by simp [upd]⟩, fun s' => ?_⟩
        by_cases hs : s' = s
        · subst hs; simp [upd, h2]
        · simp [upd, hs, h1]
      unfold addInputDep at hm'
      by_cases hu : u' = u
      · subst hu
        cases hm : st.inputDeps u' with
        | none =>
          simp only [hm, upd, if_true, Option.some.injEq] at hm'
          subst hm'
          exact hsm (fun _ => none) [i] (by simp) (by simp)
        | some m =>
          obtain ⟨-, h2⟩ := h.input_ne u' m hm
          cases hl : m s with
          | none =>
            simp only [hm, hl, upd, if_true, Option.some.injEq] at hm'
            subst hm'
            exact hsm m [i] h2 (by simp)
          | some l =>
            simp only [hm, hl] at hm'
            rw [show upd st.inputDeps u' (some (upd m s (some (Inp.insert i l)))) u' = some (upd m s (some (Inp.insert i l))) from by simp [upd]] at hm'
            simp only [Option.some.injEq] at hm'
            subst hm'
            exact hsm m _ h2 (List.ne_nil_of_mem ((C56.mem_insert i i l).mpr (Or.inl rfl)))
      · apply h.input_ne u' m'
        cases hm : st.inputDeps u with
        | none => simpa [hm, upd, hu] using hm'
        | some m => cases hl : m s <;> simpa [hm, hl, upd, hu] using hm'

theorem addInput_spec (sh : Bool) (en : Nat → Bool) (s i : Nat) (st : Nd.St) : ∃ ins,
    (Nd.addInput sh en s i st = .ok { st with ins := ins } () ∧ en i = true ∨ Nd.addInput sh en s i st = .throw { st with ins := ins } ∧ en i ≠ true) ∧
    (Inp.step (if sh then .addShared en s i [] else .addRef en s i []) st.ins = .ok ins () ∨
      Inp.step (if sh then .addShared en s i [] else .addRef en s i []) st.ins = .throw ins) := by
  obtain ⟨ins, h1, -⟩ := C56.step_spec (if sh then .addShared en s i [] else .addRef en s i []) st.ins
  refine ⟨ins, ?_, h1.imp (·.1) (·.1)⟩
  cases sh <;> simp only [if_true, if_false, Bool.false_eq_true, Inp.step, C56.Accepted] at h1 <;> unfold Nd.addInput <;>
    rcases h1 with ⟨h1, h2⟩ | ⟨h1, h2⟩ <;> simp only [if_true, if_false, Bool.false_eq_true, h1] <;> simp at h2
  all_goals simp [h2]

/-- What a call does. -/
theorem step_spec {log : List Decl} {st : Nd.St} (h : Maps log st) (op : Op) : ∃ log' b st', Takes op log (wants op) log' b ∧ Maps log' st' ∧
    (step op st = .ok st' () ∧ b = true ∨ step op st = .throw st' ∧ (b = false ∨ ∃ o, op = .inputs o)) := by
  cases op with
  | register enU l =>
    -- the calls on the rest of the list are the calls with the shorter list
    have key : ∀ (l' : List (Nat × Nat)) (log : List Decl) (st : Nd.St), Maps log st → ∃ log' b st',
        Takes (.register enU l) log (l'.map fun p => .reg p.1 p.2) log' b ∧ Maps log' st' ∧
        (registerUpdates enU l' st = .ok st' () ∧ b = true ∨ registerUpdates enU l' st = .throw st' ∧ b = false) := by
      intro l'
      induction l' with
      | nil => intro log st h; exact ⟨log, true, st, .done, h, Or.inl ⟨rfl, rfl⟩⟩
      | cons p l' ih =>
        intro log st h
        obtain ⟨u, f⟩ := p
        by_cases ha : Allowed (.register enU l) log (.reg u f)
        · obtain ⟨log', b, st', h1, h2, h3⟩ := ih _ _ (maps_put h ha)
          refine ⟨log', b, st', .made ha h1, h2, ?_⟩
          have hn : (st.updates u).isSome = false := by
            rw [← Bool.not_eq_true, reg_some h]
            rintro ⟨g, hg⟩; exact ha.2 g hg
          simp only [registerUpdates, registerUpdate, ha.1, hn, if_true, Bool.false_eq_true, if_false]
          exact h3
        · refine ⟨log, false, st, .refused ha, h, Or.inr ⟨?_, rfl⟩⟩
          by_cases he : enU u = true
          · have hn : (st.updates u).isSome = true := by
              rw [reg_some h]
              refine Classical.byContradiction fun hc => ha ⟨he, fun g hg => hc ⟨g, hg⟩⟩
            simp [registerUpdates, registerUpdate, he, hn]
          · simp [registerUpdates, registerUpdate, he]
    obtain ⟨log', b, st', h1, h2, h3⟩ := key l log st h
    exact ⟨log', b, st', h1, h2, h3.imp id fun h => ⟨h.1, Or.inl h.2⟩⟩
  | output enO os u =>
    have key : ∀ (os' : List Nat) (log : List Decl) (st : Nd.St), Maps log st → ∃ log' b st',
        Takes (.output enO os u) log (os'.map fun o => .out o u) log' b ∧ Maps log' st' ∧
        (addOutputDependencies enO os' u st = .ok st' () ∧ b = true ∨ addOutputDependencies enO os' u st = .throw st' ∧ b = false) := by
      intro os'
      induction os' with
      | nil => intro log st h; exact ⟨log, true, st, .done, h, Or.inl ⟨rfl, rfl⟩⟩
      | cons o os' ih =>
        intro log st h
        by_cases ha : Allowed (.output enO os u) log (.out o u)
        · obtain ⟨log', b, st', h1, h2, h3⟩ := ih _ _ (maps_put h ha)
          refine ⟨log', b, st', .made ha h1, h2, ?_⟩
          have hn : (st.directDeps o).isSome = false := by
            rw [← Bool.not_eq_true, dir_some h]
            rintro ⟨s, i, hg⟩; exact ha.2 s i hg
          simp only [addOutputDependencies, addOutputDependency, ha.1, hn, if_true, Bool.false_eq_true, if_false]
          exact h3
        · refine ⟨log, false, st, .refused ha, h, Or.inr ⟨?_, rfl⟩⟩
          by_cases he : enO o = true
          · have hn : (st.directDeps o).isSome = true := by
              rw [dir_some h]
              refine Classical.byContradiction fun hc => ha ⟨he, fun s i hg => hc ⟨s, i, hg⟩⟩
            simp [addOutputDependencies, addOutputDependency, he, hn]
          · simp [addOutputDependencies, addOutputDependency, he]
    obtain ⟨log', b, st', h1, h2, h3⟩ := key os log st h
    exact ⟨log', b, st', h1, h2, h3.imp id fun h => ⟨h.1, Or.inl h.2⟩⟩
  | internal enU u1 u2 =>
    by_cases ha : Allowed (.internal enU u1 u2) log (.int u1 u2)
    · exact ⟨_, true, _, .made ha .done, maps_put h ha, Or.inl ⟨by simp [step, addInternalDependency, ha.1, ha.2, put], rfl⟩⟩
    · refine ⟨log, false, st, .refused ha, h, Or.inr ⟨?_, Or.inl rfl⟩⟩
      simp only [step, addInternalDependency]
      by_cases h1 : enU u1 = true <;> by_cases h2 : enU u2 = true
      · exact absurd ⟨h1, h2⟩ ha
      all_goals simp [h1, h2]
  | input sh enU en u s i args =>
    obtain ⟨ins, h1, -⟩ := addInput_spec sh en s i st
    by_cases hu : enU u = true
    · rcases h1 with ⟨h1, hi⟩ | ⟨h1, hi⟩
      · have key : ∀ (l : List Nat) (log : List Decl) (st : Nd.St), Maps log st → ∃ log',
            Takes (.input sh enU en u s i args) log (l.map fun j => .inp u s j) log' true ∧ Maps log' (addInputDeps u s l st) := by
          intro l
          induction l with
          | nil => intro log st h; exact ⟨log, .done, h⟩
          | cons j l ih =>
            intro log st h
            have ha : Allowed (.input sh enU en u s i args) log (.inp u s j) := ⟨hu, hi⟩
            obtain ⟨log', h1, h2⟩ := ih _ _ (maps_put h ha)
            exact ⟨log', .made ha h1, h2⟩
        obtain ⟨log', h2, h3⟩ := key (i :: args) log { st with ins := ins } (maps_ins h ins)
        refine ⟨log', true, _, h2, h3, Or.inl ⟨?_, rfl⟩⟩
        simp [step, addInputDependency, hu, h1]
      · have ha : ¬ Allowed (.input sh enU en u s i args) log (.inp u s i) := fun h => hi h.2
        refine ⟨log, false, _, .refused ha, maps_ins h ins, Or.inr ⟨?_, Or.inl rfl⟩⟩
        simp [step, addInputDependency, hu, h1]
    · have ha : ¬ Allowed (.input sh enU en u s i args) log (.inp u s i) := fun h => hu h.1
      refine ⟨log, false, st, .refused ha, h, Or.inr ⟨?_, Or.inl rfl⟩⟩
      simp [step, addInputDependency, hu]
  | direct sh enO en o s i =>
    obtain ⟨ins, h1, -⟩ := addInput_spec sh en s i st
    by_cases ho : enO o = true
    · by_cases hd : (st.directDeps o).isSome = true
      · have ha : ¬ Allowed (.direct sh enO en o s i) log (.dir o s i) := by
          intro ha
          obtain ⟨s', i', hs⟩ := (dir_some h o).mp hd
          exact ha.2.2.1 s' i' hs
        exact ⟨log, false, st, .refused ha, h, Or.inr ⟨by simp [step, addDirectDependency, ho, hd], Or.inl rfl⟩⟩
      · by_cases hd2 : (st.outputDeps o).isSome = true
        · have ha : ¬ Allowed (.direct sh enO en o s i) log (.dir o s i) := by
            intro ha
            obtain ⟨u, hs⟩ := (out_some h o).mp hd2
            exact ha.2.2.2 u hs
          exact ⟨log, false, st, .refused ha, h, Or.inr ⟨by simp [step, addDirectDependency, ho, hd2], Or.inl rfl⟩⟩
        · rcases h1 with ⟨h1, hi⟩ | ⟨h1, hi⟩
          · have ha : Allowed (.direct sh enO en o s i) log (.dir o s i) :=
              ⟨ho, hi, fun s j hs => hd ((dir_some h o).mpr ⟨s, j, hs⟩), fun u hu => hd2 ((out_some h o).mpr ⟨u, hu⟩)⟩
            refine ⟨_, true, _, .made ha .done, maps_put (maps_ins h ins) ha, Or.inl ⟨?_, rfl⟩⟩
            simp [step, addDirectDependency, ho, hd, hd2, h1, put]
          · have ha : ¬ Allowed (.direct sh enO en o s i) log (.dir o s i) := fun h => hi h.2.1
            refine ⟨log, false, _, .refused ha, maps_ins h ins, Or.inr ⟨?_, Or.inl rfl⟩⟩
            simp [step, addDirectDependency, ho, hd, hd2, h1]
    · have ha : ¬ Allowed (.direct sh enO en o s i) log (.dir o s i) := fun h => ho h.1
      exact ⟨log, false, st, .refused ha, h, Or.inr ⟨by simp [step, addDirectDependency, ho], Or.inl rfl⟩⟩
  | inputs o =>
    obtain ⟨ins, h1, -⟩ := C56.step_spec o st.ins
    refine ⟨log, true, { st with ins := ins }, .done, maps_ins h ins, ?_⟩
    rcases h1 with ⟨h1, -⟩ | ⟨h1, -⟩
    · exact Or.inl ⟨by simp [step, h1], rfl⟩
    · exact Or.inr ⟨by simp [step, h1], Or.inr ⟨o, rfl⟩⟩

theorem takes_unique {op : Op} {log ds l1 l2 : List Decl} {b1 b2 : Bool} (h1 : Takes op log ds l1 b1) (h2 : Takes op log ds l2 b2) : l1 = l2 ∧ b1 = b2 := by
  induction h1 generalizing l2 b2 with
  | done => cases h2; exact ⟨rfl, rfl⟩
  | made h _ ih =>
    cases h2 with
    | made _ h2 => exact ih h2
    | refused h2 => exact absurd h h2
  | refused h =>
    cases h2 with
    | made h2 _ => exact absurd h2 h
    | refused _ => exact ⟨rfl, rfl⟩

theorem hist_maps {log : List Decl} {st : Nd.St} (hh : Hist log st) : Maps log st := by
  induction hh with
  | new => exact maps_new
  | ok hh ht hs ih =>
    obtain ⟨log', b, st', h1, h2, h3⟩ := step_spec ih _
    obtain ⟨rfl, -⟩ := takes_unique ht h1
    rw [hs] at h3
    rcases h3 with ⟨h3, -⟩ | ⟨h3, -⟩ <;> cases h3
    exact h2
  | throw hh ht hb hs ih =>
    obtain ⟨log', b, st', h1, h2, h3⟩ := step_spec ih _
    obtain ⟨rfl, -⟩ := takes_unique ht h1
    rw [hs] at h3
    rcases h3 with ⟨h3, -⟩ | ⟨h3, -⟩ <;> cases h3
    exact h2

/-- A node has no double registration, direct dependency or mix. -/
def Exclusive (log : List Decl) : Prop :=
  (∀ o s i u, Decl.dir o s i ∈ log → Decl.out o u ∉ log) ∧
  (log.Pairwise fun d e => (∀ u f g, ¬ (d = .reg u f ∧ e = .reg u g)) ∧ ∀ o s i s' i', ¬ (d = .dir o s i ∧ e = .dir o s' i'))

theorem takes_exclusive {op : Op} {log ds log' : List Decl} {b : Bool} (h : Takes op log ds log' b) (he : Exclusive log) : Exclusive log' := by
  induction h with
  | done => exact he
  | refused _ => exact he
  | @made log d ds log' b ha _ ih =>
    apply ih
    clear ih
    obtain ⟨e1, e2⟩ := he
    constructor
    · intro o s i u h1 h2
      simp only [List.mem_append, List.mem_singleton] at h1 h2
      rcases h1 with h1 | h1 <;> rcases h2 with h2 | h2
      · exact e1 o s i u h1 h2
      · subst h2
        cases op <;> simp only [Allowed] at ha
        exact ha.2 s i h1
      · subst h1
        cases op <;> simp only [Allowed] at ha
        exact ha.2.2.2 u h2
      · subst h1; cases h2
    · rw [List.pairwise_append]
      refine ⟨e2, by simp, ?_⟩
      intro x hx y hy
      rw [List.mem_singleton] at hy
      subst hy
      constructor
      · rintro u f g ⟨rfl, rfl⟩
        cases op <;> simp only [Allowed] at ha
        exact ha.2 f hx
      · rintro o s i s' i' ⟨rfl, rfl⟩
        cases op <;> simp only [Allowed] at ha
        exact ha.2.2.1 s i hx

theorem hist_exclusive {log : List Decl} {st : Nd.St} (hh : Hist log st) : Exclusive log := by
  induction hh with
  | new => exact ⟨by simp, List.Pairwise.nil⟩
  | ok _ ht _ ih => exact takes_exclusive ht ih
  | throw _ ht _ _ ih => exact takes_exclusive ht ih

/-! ## Properties -/

/-- **C57** In any history of calls, throwing or not: no output has both a direct dependency and update dependencies; no update is registered twice and no output has two direct
dependencies, among the declarations that were made. -/
theorem C57_exclusive {log : List Decl} {st : Nd.St} (hh : Hist log st) :
    (∀ o, st.directDeps o = none ∨ st.outputDeps o = none) ∧
    (log.Pairwise fun d e => (∀ u f g, ¬ (d = .reg u f ∧ e = .reg u g)) ∧ ∀ o s i s' i', ¬ (d = .dir o s i ∧ e = .dir o s' i')) := by
  have hm := hist_maps hh
  obtain ⟨e1, e2⟩ := hist_exclusive hh
  refine ⟨fun o => ?_, e2⟩
  cases hd : st.directDeps o with
  | none => exact Or.inl rfl
  | some p =>
    right
    obtain ⟨s, i⟩ := p
    cases ho : st.outputDeps o with
    | none => rfl
    | some l =>
      obtain ⟨u, hu⟩ := (out_some hm o).mp (by rw [ho]; rfl)
      exact absurd hu (e1 o s i u ((hm.direct o s i).mp hd))

/-- **C57** In any history of calls, the maps of the node are given by the declarations that were made; every further call makes its declarations in order until one is not
allowed, in which case it throws. There is no undefined behaviour. -/
theorem C57_maps {log : List Decl} {st : Nd.St} (hh : Hist log st) :
    Maps log st ∧ ∀ op, ∃ log' b st', Takes op log (wants op) log' b ∧ Hist log' st' ∧
      (step op st = .ok st' () ∧ b = true ∨ step op st = .throw st' ∧ (b = false ∨ ∃ o, op = .inputs o)) := by
  have hm := hist_maps hh
  refine ⟨hm, fun op => ?_⟩
  obtain ⟨log', b, st', h1, -, h3⟩ := step_spec hm op
  refine ⟨log', b, st', h1, ?_, h3⟩
  rcases h3 with ⟨h3, rfl⟩ | ⟨h3, hb⟩
  · exact .ok hh h1 h3
  · exact .throw hh h1 hb h3

/-- **C57** Declarations are never lost: the function of an update, the direct dependency of an output do not change, and the lists of the others only grow. -/
theorem C57_stable {log : List Decl} {st st' : Nd.St} (hh : Hist log st) (op : Op) (hs : step op st = .ok st' () ∨ step op st = .throw st') :
    (∀ u f, st.updates u = some f → st'.updates u = some f) ∧ (∀ o p, st.directDeps o = some p → st'.directDeps o = some p) ∧
    (∀ o, (st.outputDeps o).getD [] <+: (st'.outputDeps o).getD []) ∧ (∀ u, (st.internalDeps u).getD [] <+: (st'.internalDeps u).getD []) := by
  obtain ⟨hm, hop⟩ := C57_maps hh
  obtain ⟨log', b, st1, h1, h2, h3⟩ := hop op
  have e : st1 = st' := by
    rcases h3 with ⟨h3, -⟩ | ⟨h3, -⟩ <;> rw [h3] at hs <;> rcases hs with hs | hs <;> cases hs <;> rfl
  subst e
  have hpre : log <+: log' := by
    generalize wants op = ds at h1
    clear hm hop h2 h3 hs hh
    induction h1 with
    | done => exact List.prefix_refl _
    | refused _ => exact List.prefix_refl _
    | made _ _ ih => exact (List.prefix_append _ _).trans ih
  obtain ⟨ext, rfl⟩ := hpre
  have hm' := hist_maps h2
  refine ⟨?_, ?_, ?_, ?_⟩
  · intro u f h; rw [hm'.updates, List.mem_append]; exact Or.inl ((hm.updates u f).mp h)
  · rintro o ⟨s, i⟩ h; rw [hm'.direct, List.mem_append]; exact Or.inl ((hm.direct o s i).mp h)
  · intro o; rw [getD_outs hm, getD_outs hm', outs, outs, List.filterMap_append]; exact List.prefix_append _ _
  · intro o; rw [getD_ints hm, getD_ints hm', ints, ints, List.filterMap_append]; exact List.prefix_append _ _

/-- The states met in histories without removal of inputs -/
inductive Keeps : Nd.St → Prop where
  | new : Keeps {}
  | next {op st st'} (hh : Keeps st) (hr : ∀ s, op ≠ .inputs (.removeAll s)) (hr' : ∀ s i args, op ≠ .inputs (.removeSome s i args))
      (hs : step op st = .ok st' () ∨ step op st = .throw st') : Keeps st'

theorem addInputDeps_ins (u s : Nat) : ∀ (l : List Nat) (st : Nd.St), (addInputDeps u s l st).ins = st.ins ∧ (addInputDeps u s l st).directDeps = st.directDeps := by
  intro l
  induction l with
  | nil => intro st; exact ⟨rfl, rfl⟩
  | cons i l ih =>
    intro st
    obtain ⟨e1, e2⟩ := ih (addInputDep u s i st)
    obtain ⟨-, -, -, h4, h5⟩ := addInputDep_same u s i st
    exact ⟨e1.trans h5, e2.trans h4⟩

theorem registerUpdates_ins (enU : Nat → Bool) : ∀ (l : List (Nat × Nat)) (st st' : Nd.St), (registerUpdates enU l st = .ok st' () ∨ registerUpdates enU l st = .throw st') →
    st'.ins = st.ins ∧ st'.directDeps = st.directDeps ∧ st'.inputDeps = st.inputDeps := by
  intro l
  induction l with
  | nil => intro st st' h; simp only [registerUpdates, reduceCtorEq, or_false, Outcome.ok.injEq, and_true] at h; subst h; exact ⟨rfl, rfl, rfl⟩
  | cons p l ih =>
    intro st st' h
    obtain ⟨u, f⟩ := p
    simp only [registerUpdates, registerUpdate] at h
    by_cases h1 : enU u = true
    · by_cases h2 : (st.updates u).isSome = true
      · simp [h1, h2] at h; subst h; exact ⟨rfl, rfl, rfl⟩
      · simp only [h1, h2, if_true, Bool.false_eq_true, if_false] at h
        have := ih _ _ h
        exact this
    · simp [h1] at h; subst h; exact ⟨rfl, rfl, rfl⟩

theorem addOutputDependencies_ins (enO : Nat → Bool) (u : Nat) : ∀ (l : List Nat) (st st' : Nd.St),
    (addOutputDependencies enO l u st = .ok st' () ∨ addOutputDependencies enO l u st = .throw st') →
    st'.ins = st.ins ∧ st'.directDeps = st.directDeps ∧ st'.inputDeps = st.inputDeps := by
  intro l
  induction l with
  | nil => intro st st' h; simp only [addOutputDependencies, reduceCtorEq, or_false, Outcome.ok.injEq, and_true] at h; subst h; exact ⟨rfl, rfl, rfl⟩
  | cons o l ih =>
    intro st st' h
    simp only [addOutputDependencies, addOutputDependency] at h
    by_cases h1 : enO o = true
    · by_cases h2 : (st.directDeps o).isSome = true
      · simp [h1, h2] at h; subst h; exact ⟨rfl, rfl, rfl⟩
      · simp only [h1, h2, if_true, Bool.false_eq_true, if_false] at h
        have := ih _ _ h
        exact this
    · simp [h1] at h; subst h; exact ⟨rfl, rfl, rfl⟩

/-- Sources of the map of input dependencies -/
def Uses (st : Nd.St) (s : Nat) : Prop := ∃ u m, st.inputDeps u = some m ∧ m s ≠ none

theorem uses_addInputDep (u s i : Nat) (st : Nd.St) (t : Nat) (h : Uses (addInputDep u s i st) t) : Uses st t ∨ t = s := by
  obtain ⟨v, m, h1, h2⟩ := h
  by_cases ht : t = s
  · exact Or.inr ht
  · left
    unfold addInputDep at h1
    by_cases hv : v = u
    · subst hv
      cases hm : st.inputDeps v with
      | none => simp only [hm, upd, if_true, Option.some.injEq] at h1; subst h1; simp [upd, ht] at h2
      | some m0 =>
        cases hl : m0 s with
        | none => simp only [hm, hl, upd, if_true, Option.some.injEq] at h1; subst h1; exact ⟨v, m0, hm, by simpa [upd, ht] using h2⟩
        | some l => simp only [hm, hl, upd, if_true, Option.some.injEq] at h1; subst h1; exact ⟨v, m0, hm, by simpa [upd, ht] using h2⟩
    · cases hm : st.inputDeps u with
      | none => simp only [hm, upd, if_neg hv] at h1; exact ⟨v, m, h1, h2⟩
      | some m0 =>
        cases hl : m0 s with
        | none => simp only [hm, hl, upd, if_neg hv] at h1; exact ⟨v, m, h1, h2⟩
        | some l => simp only [hm, hl, upd, if_neg hv] at h1; exact ⟨v, m, h1, h2⟩

theorem uses_addInputDeps (u s t : Nat) : ∀ (l : List Nat) (st : Nd.St), Uses (addInputDeps u s l st) t → Uses st t ∨ t = s := by
  intro l
  induction l with
  | nil => intro st h; exact Or.inl h
  | cons i l ih =>
    intro st h
    rcases ih _ h with h | h
    · exact uses_addInputDep u s i st t h
    · exact Or.inr h

theorem adds_only {op : Inp.Op} {ins ins' : Inp.St} (hr : ∀ s, op ≠ .removeAll s) (hr' : ∀ s i args, op ≠ .removeSome s i args)
    (hs : Inp.step op ins = .ok ins' () ∨ Inp.step op ins = .throw ins') :
    (∀ s o, C56.Pair ins s o → C56.Pair ins' s o) ∧ (∀ s, C56.Source ins s → C56.Source ins' s) := by
  obtain ⟨ins1, h1, h2, h3, -⟩ := C56.step_spec op ins
  have e : ins1 = ins' := by
    rcases h1 with ⟨h1, -⟩ | ⟨h1, -⟩ <;> rw [h1] at hs <;> rcases hs with hs | hs <;> cases hs <;> rfl
  subst e
  have hn : ∀ s o, ¬ C56.Removes (C56.Pair ins) op s o := by
    intro s o h
    cases op with
    | removeAll s => exact hr s rfl
    | removeSome s i args => exact hr' s i args rfl
    | addRef en s i args => exact h
    | addShared en s i args => exact h
  refine ⟨fun s o h => (h2 s o).mpr (Or.inr ⟨h, hn s o⟩), fun s h => (h3 s).mpr (Or.inr ⟨h, ?_⟩)⟩
  rintro ⟨-, ⟨o, ho⟩, -⟩
  exact hn s o ho

/-- **C57** As long as no input is removed, the sources of all the dependencies are inputs of the node, with the output used for the direct dependencies. -/
theorem C57_inputs {st : Nd.St} (hh : Keeps st) :
    (∀ o s i, st.directDeps o = some (s, i) → C56.Pair st.ins s i) ∧ (∀ s, Uses st s → C56.Source st.ins s) := by
  induction hh with
  | new => exact ⟨by simp, by rintro s ⟨u, m, h, -⟩; cases h⟩
  | @next op st st' hh hr hr' hs ih =>
    obtain ⟨ih1, ih2⟩ := ih
    have hins : ∀ (sh : Bool) (en : Nat → Bool) (s i : Nat) (ins : Inp.St), (Inp.step (if sh then .addShared en s i [] else .addRef en s i []) st.ins = .ok ins () ∨
        Inp.step (if sh then .addShared en s i [] else .addRef en s i []) st.ins = .throw ins) →
        (∀ s o, C56.Pair st.ins s o → C56.Pair ins s o) ∧ (∀ s, C56.Source st.ins s → C56.Source ins s) ∧ (en i = true → C56.Pair ins s i) := by
      intro sh en s i ins h
      obtain ⟨a1, a2⟩ := adds_only (op := if sh then .addShared en s i [] else .addRef en s i []) (by cases sh <;> simp) (by cases sh <;> simp) h
      refine ⟨a1, a2, fun hi => ?_⟩
      obtain ⟨ins1, h1, h2, -⟩ := C56.step_spec (if sh then .addShared en s i [] else .addRef en s i []) st.ins
      have e : ins1 = ins := by
        rcases h1 with ⟨h1, -⟩ | ⟨h1, -⟩ <;> rw [h1] at h <;> rcases h with h | h <;> cases h <;> rfl
      subst e
      refine (h2 s i).mpr (Or.inl ?_)
      cases sh <;> exact ⟨rfl, [], [], rfl, hi, by simp⟩
    cases op with
    | register enU l =>
      obtain ⟨e1, e2, e3⟩ := registerUpdates_ins enU l st st' hs
      refine ⟨by rw [e1, e2]; exact ih1, ?_⟩
      rintro s ⟨u, m, h1, h2⟩
      rw [e1]; exact ih2 s ⟨u, m, by rw [← e3]; exact h1, h2⟩
    | output enO os u =>
      obtain ⟨e1, e2, e3⟩ := addOutputDependencies_ins enO u os st st' hs
      refine ⟨by rw [e1, e2]; exact ih1, ?_⟩
      rintro s ⟨u, m, h1, h2⟩
      rw [e1]; exact ih2 s ⟨u, m, by rw [← e3]; exact h1, h2⟩
    | internal enU u1 u2 =>
      have e : st'.ins = st.ins ∧ st'.directDeps = st.directDeps ∧ st'.inputDeps = st.inputDeps := by
        simp only [step, addInternalDependency] at hs
        by_cases h1 : enU u1 = true <;> by_cases h2 : enU u2 = true <;> simp [h1, h2] at hs <;> subst hs <;> exact ⟨rfl, rfl, rfl⟩
      obtain ⟨e1, e2, e3⟩ := e
      refine ⟨by rw [e1, e2]; exact ih1, ?_⟩
      rintro s ⟨u, m, h1, h2⟩
      rw [e1]; exact ih2 s ⟨u, m, by rw [← e3]; exact h1, h2⟩
    | input sh enU en u s i args =>
      by_cases hu : enU u = true
      · obtain ⟨ins, h1, h2⟩ := addInput_spec sh en s i st
        obtain ⟨a1, a2, a3⟩ := hins sh en s i ins h2
        simp only [step, addInputDependency, hu, if_true] at hs
        rcases h1 with ⟨h1, hi⟩ | ⟨h1, hi⟩
        · simp only [h1, reduceCtorEq, or_false, Outcome.ok.injEq, and_true] at hs
          obtain ⟨e1, e2⟩ := addInputDeps_ins u s (i :: args) { st with ins := ins }
          subst hs
          refine ⟨?_, fun t ht => ?_⟩
          · intro o s' i' h
            rw [e2] at h; rw [e1]
            exact a1 _ _ (ih1 o s' i' h)
          · rw [e1]
            rcases uses_addInputDeps u s t (i :: args) _ ht with ht | ht
            · exact a2 t (ih2 t ht)
            · obtain ⟨l, hl, -⟩ := a3 hi
              subst ht; exact ⟨l, hl⟩
        · simp only [h1, reduceCtorEq, false_or, Outcome.throw.injEq] at hs
          subst hs
          exact ⟨fun o s' i' h => a1 _ _ (ih1 o s' i' h), fun t ht => a2 t (ih2 t ht)⟩
      · simp [step, addInputDependency, hu] at hs
        subst hs; exact ⟨ih1, ih2⟩
    | direct sh enO en o s i =>
      simp only [step, addDirectDependency] at hs
      by_cases ho : enO o = true
      · by_cases hd : (st.directDeps o).isSome = true
        · simp [ho, hd] at hs; subst hs; exact ⟨ih1, ih2⟩
        · by_cases hd2 : (st.outputDeps o).isSome = true
          · simp [ho, hd2] at hs; subst hs; exact ⟨ih1, ih2⟩
          · obtain ⟨ins, h1, h2⟩ := addInput_spec sh en s i st
            obtain ⟨a1, a2, a3⟩ := hins sh en s i ins h2
            simp only [ho, hd, hd2, if_true, if_false, Bool.false_eq_true] at hs
            rcases h1 with ⟨h1, hi⟩ | ⟨h1, hi⟩
            · simp only [h1, reduceCtorEq, or_false, Outcome.ok.injEq, and_true] at hs
              subst hs
              refine ⟨?_, fun t ht => a2 t (ih2 t ht)⟩
              intro o' s' i' h
              simp only [upd] at h
              by_cases e : o' = o
              · rw [if_pos e] at h; cases h; exact a3 hi
              · rw [if_neg e] at h; exact a1 _ _ (ih1 o' s' i' h)
            · simp only [h1, reduceCtorEq, false_or, Outcome.throw.injEq] at hs
              subst hs
              exact ⟨fun o s' i' h => a1 _ _ (ih1 o s' i' h), fun t ht => a2 t (ih2 t ht)⟩
      · simp [ho] at hs; subst hs; exact ⟨ih1, ih2⟩
    | inputs op =>
      obtain ⟨ins, h1, -⟩ := C56.step_spec op st.ins
      have h2 : Inp.step op st.ins = .ok ins () ∨ Inp.step op st.ins = .throw ins := h1.imp (·.1) (·.1)
      obtain ⟨a1, a2⟩ := adds_only (fun s h => hr s (by rw [h])) (fun s i args h => hr' s i args (by rw [h])) h2
      have e : st' = { st with ins := ins } := by
        rcases h1 with ⟨h1, -⟩ | ⟨h1, -⟩ <;> simp [step, h1] at hs <;> exact hs.symm
      subst e
      exact ⟨fun o s' i' h => a1 _ _ (ih1 o s' i' h), fun t ht => a2 t (ih2 t ht)⟩

/-- **C57** `update(u)` calls the function registered for `u`, and is only allowed for a registered update. -/
theorem C57_update {log : List Decl} {st : Nd.St} (hh : Hist log st) (u : Nat) :
    (∀ f, update u st = .ok st f ↔ Decl.reg u f ∈ log) ∧ (update u st = .ub ↔ ∀ f, Decl.reg u f ∉ log) := by
  have hm := hist_maps hh
  unfold update
  cases hu : st.updates u with
  | none =>
    have : ∀ f, Decl.reg u f ∉ log := by
      intro f hf; rw [← hm.updates, hu] at hf; cases hf
    simp [this]
  | some g =>
    have hg : Decl.reg u g ∈ log := (hm.updates u g).mp hu
    have : ∀ f, Decl.reg u f ∈ log ↔ g = f := by
      intro f; rw [← hm.updates, hu]; simp
    simp [this]

/-- **C57** (what is not checked) An output can be declared to depend on an update that is never registered; and for the input dependencies only the first output is added to the inputs
of the node, the others may even be disabled in the source. -/
theorem C57_unchecked :
    (∃ log st, Hist log st ∧ st.outputDeps 0 = some [3] ∧ update 3 st = .ub) ∧
    (∃ en st, step (.input false (fun _ => true) en 0 9 1 [2]) {} = .ok st () ∧ en 2 = false ∧ (∃ m, st.inputDeps 0 = some m ∧ m 9 = some [2, 1]) ∧ ¬ C56.Pair st.ins 9 2) := by
  constructor
  · refine ⟨[.out 0 3], _, .ok (op := .output (fun _ => true) [0] 3) .new (.made ⟨rfl, by simp⟩ .done) rfl, rfl, rfl⟩
  · refine ⟨fun i => i == 1, _, rfl, rfl, ⟨_, rfl, rfl⟩, ?_⟩
    rintro ⟨l, h1, h2⟩
    have h3 : (some [1] : Option (List Nat)) = some l := h1
    cases h3
    simp at h2

/-! ## Concrete cases -/

/-- Two updates, an output that depends on both, a direct dependency on another output; a second direct dependency is refused and changes nothing. -/
theorem ex_hist : ∃ st, Hist [.reg 0 10, .reg 1 11, .out 5 0, .out 5 1, .dir 6 9 2] st ∧ st.outputDeps 5 = some [0, 1] ∧ st.directDeps 6 = some (9, 2) := by
  refine ⟨_, .throw (op := .direct true (fun _ => true) (fun _ => true) 6 8 0)
    (.ok (op := .direct true (fun _ => true) (fun _ => true) 6 9 2)
      (.ok (op := .output (fun _ => true) [5] 1)
        (.ok (op := .output (fun _ => true) [5] 0)
          (.ok (op := .register (fun _ => true) [(0, 10), (1, 11)]) .new (.made ⟨rfl, by simp⟩ (.made ⟨rfl, by simp⟩ .done)) rfl)
          (.made ⟨rfl, by simp⟩ .done) rfl)
        (.made ⟨rfl, by simp⟩ .done) rfl)
      (.made ⟨rfl, rfl, by simp, by simp⟩ .done) rfl)
    (.refused (by simp [Allowed])) (Or.inl rfl) rfl, rfl, rfl⟩

/-- In this state, the update 1 runs the function 11, the update 2 is undefined, and a further declaration keeps what is there. -/
example : ∃ st : Nd.St, update 1 st = .ok st 11 ∧ update 2 st = .ub ∧ Maps [.reg 0 10, .reg 1 11, .out 5 0, .out 5 1, .dir 6 9 2] st ∧
    (st.directDeps 5 = none ∨ st.outputDeps 5 = none) ∧
    ∀ st', step (.output (fun _ => true) [5] 0) st = .ok st' () → (st.outputDeps 5).getD [] <+: (st'.outputDeps 5).getD [] := by
  obtain ⟨st, h, -, -⟩ := ex_hist
  exact ⟨st, ((C57_update h 1).1 11).2 (by simp), (C57_update h 2).2.2 (by simp), (C57_maps h).1, (C57_exclusive h).1 5,
    fun st' h' => (C57_stable h _ (Or.inl h')).2.2.1 5⟩

end Verif.C57
