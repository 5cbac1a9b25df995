import Verif.Model.GraphLog
import Mathlib.Tactic.Common

/-!
# C91: the sub graph given by the log is what an output depends upon

The specification: outputs and updates are vertices, each logged dependency is an arrow from what depends to what it
depends upon, and a sub graph is what can be reached.  Then what the log says is compared with what the nodes hold.
-/

set_option autoImplicit false
set_option linter.unusedSectionVars false
set_option linter.unusedVariables false

namespace Verif.C91
open Verif.GL

/-! ## Specification -/

/-- An output or an update of a node. -/
inductive Vtx where
  | out (owner : Nat) (id : EnumVal)
  | upd (owner : Nat) (id : EnumVal)
deriving DecidableEq

/-- `Link l v v'`: the log says that `v` depends upon `v'`. -/
inductive Link (l : Log) : Vtx → Vtx → Prop
  | outUpd (d : OutDep) : d ∈ l.outDeps → Link l (.out d.owner d.output) (.upd d.owner d.update)
  | outOut (d : DirDep) : d ∈ l.dirDeps → Link l (.out d.owner d.output) (.out d.source d.input)
  | updOut (d : InDep) : d ∈ l.inDeps → Link l (.upd d.owner d.update) (.out d.source d.input)
  | updUpd (d : IntDep) : d ∈ l.intDeps → Link l (.upd d.owner d.dst) (.upd d.owner d.src)

/-- What can be reached from `s` along `r`. -/
inductive Reach (r : Vtx → Vtx → Prop) (s : Vtx → Prop) : Vtx → Prop
  | start (v : Vtx) : s v → Reach r s v
  | link (v v' : Vtx) : Reach r s v → r v v' → Reach r s v'

/-- The log lacks something about the vertex: an update that was not logged, or a dependency on an input that was not
logged. -/
inductive Missing (l : Log) : Vtx → Prop
  | update (a : Nat) (i : EnumVal) : (∀ u ∈ l.updates, ¬(u.owner = a ∧ u.id = i)) → Missing l (.upd a i)
  | direct (d : DirDep) : d ∈ l.dirDeps →
      (∀ x ∈ l.inputs, ¬(x.owner = d.owner ∧ x.id = d.input ∧ x.source = d.source)) →
      Missing l (.out d.owner d.output)
  | input (d : InDep) : d ∈ l.inDeps →
      (∀ x ∈ l.inputs, ¬(x.owner = d.owner ∧ x.id = d.input ∧ x.source = d.source)) →
      Missing l (.upd d.owner d.update)

/-- The vertex of an output, of an update. -/
def vo (o : Out) : Vtx := .out o.owner o.id
def vu (u : Upd) : Vtx := .upd u.owner u.id

/-- The starting points as a set of vertices. -/
def From (ss : List Out) (v : Vtx) : Prop := ∃ o ∈ ss, v = vo o

/-! ## Lemmas on the loops -/

theorem pushAll_some {D V : Type} (sel : D → Bool) (res : D → Option V) (ds : List D) :
    ∀ (st st' : List V), pushAll sel res ds st = some st' →
      (∀ v : V, v ∈ st' ↔ v ∈ st ∨ ∃ d ∈ ds, sel d = true ∧ res d = some v) ∧
      st'.length = st.length + (ds.filter sel).length ∧
      ∀ d ∈ ds, sel d = true → ∃ v, res d = some v := by
  induction ds with
  | nil =>
    intro st st' h
    obtain rfl : st = st' := by simpa [pushAll] using h
    simp
  | cons d ds ih =>
    intro st st' h
    by_cases hs : sel d = true
    · cases hr : res d with
      | none => simp [pushAll, hs, hr] at h
      | some w =>
        have h' : pushAll sel res ds (w :: st) = some st' := by simpa [pushAll, hs, hr] using h
        obtain ⟨h1, h2, h3⟩ := ih _ _ h'
        refine ⟨fun v => ?_, ?_, ?_⟩
        · rw [h1 v]
          constructor
          · rintro (hv | ⟨e, he, h4⟩)
            · rcases List.mem_cons.mp hv with rfl | hv
              · exact .inr ⟨d, List.mem_cons_self, hs, hr⟩
              · exact .inl hv
            · exact .inr ⟨e, List.mem_cons_of_mem _ he, h4⟩
          · rintro (hv | ⟨e, he, h4, h5⟩)
            · exact .inl (List.mem_cons_of_mem _ hv)
            · rcases List.mem_cons.mp he with rfl | he
              · rw [hr] at h5
                obtain rfl := Option.some.inj h5
                exact .inl List.mem_cons_self
              · exact .inr ⟨e, he, h4, h5⟩
        · rw [h2, List.filter_cons_of_pos hs]
          simp only [List.length_cons]
          omega
        · intro e he h4
          rcases List.mem_cons.mp he with rfl | he
          · exact ⟨w, hr⟩
          · exact h3 e he h4
    · have h' : pushAll sel res ds st = some st' := by simpa [pushAll, hs] using h
      obtain ⟨h1, h2, h3⟩ := ih _ _ h'
      refine ⟨fun v => ?_, ?_, ?_⟩
      · rw [h1 v]
        constructor
        · rintro (hv | ⟨e, he, h4⟩)
          · exact .inl hv
          · exact .inr ⟨e, List.mem_cons_of_mem _ he, h4⟩
        · rintro (hv | ⟨e, he, h4, h5⟩)
          · exact .inl hv
          · rcases List.mem_cons.mp he with rfl | he
            · exact absurd h4 hs
            · exact .inr ⟨e, he, h4, h5⟩
      · rw [h2, List.filter_cons_of_neg (by simpa using hs)]
      · intro e he h4
        rcases List.mem_cons.mp he with rfl | he
        · exact absurd h4 hs
        · exact h3 e he h4

theorem pushAll_none {D V : Type} (sel : D → Bool) (res : D → Option V) (ds : List D) :
    ∀ st : List V, pushAll sel res ds st = none → ∃ d ∈ ds, sel d = true ∧ res d = none := by
  induction ds with
  | nil => intro st h; simp [pushAll] at h
  | cons d ds ih =>
    intro st h
    by_cases hs : sel d = true
    · cases hr : res d with
      | none => exact ⟨d, List.mem_cons_self, hs, hr⟩
      | some w =>
        obtain ⟨e, he, h1⟩ := ih (w :: st) (by simpa [pushAll, hs, hr] using h)
        exact ⟨e, List.mem_cons_of_mem _ he, h1⟩
    · obtain ⟨e, he, h1⟩ := ih st (by simpa [pushAll, hs] using h)
      exact ⟨e, List.mem_cons_of_mem _ he, h1⟩

theorem filter_split {D : Type} (P Q sel : D → Bool) (h : ∀ d, P d = (Q d || sel d)) (h' : ∀ d, sel d = true → Q d = false)
    (ds : List D) : (ds.filter P).length = (ds.filter Q).length + (ds.filter sel).length := by
  induction ds with
  | nil => rfl
  | cons d ds ih =>
    by_cases hs : sel d = true
    · rw [List.filter_cons_of_pos (by rw [h d, hs, Bool.or_true]), List.filter_cons_of_neg (by simp [h' d hs]),
        List.filter_cons_of_pos hs]
      simp only [List.length_cons]
      omega
    · have hs' : sel d = false := by simpa using hs
      by_cases hq : Q d = true
      · rw [List.filter_cons_of_pos (by rw [h d, hq, Bool.true_or]), List.filter_cons_of_pos hq,
          List.filter_cons_of_neg (by simp [hs'])]
        simp only [List.length_cons]
        omega
      · have hq' : Q d = false := by simpa using hq
        rw [List.filter_cons_of_neg (by rw [h d, hs', hq']; simp), List.filter_cons_of_neg (by simp [hq']),
          List.filter_cons_of_neg (by simp [hs'])]
        exact ih

/-- The update is the one the searches find for its owner and id. -/
def Canon (l : Log) (u : Upd) : Prop :=
  l.updates.find? (fun w => decide (w.owner = u.owner ∧ w.id = u.id)) = some u

theorem findUpdate_some (l : Log) (d : OutDep) (u : Upd) (h : findUpdate l.updates d = some u) :
    u ∈ l.updates ∧ u.owner = d.owner ∧ u.id = d.update ∧ Canon l u := by
  have h1 := List.find?_some h
  have h2 := List.mem_of_find?_eq_some h
  simp only [decide_eq_true_eq] at h1
  refine ⟨h2, h1.1, h1.2, ?_⟩
  unfold Canon
  rw [h1.1, h1.2]
  exact h

theorem findFrom_some (l : Log) (d : IntDep) (u : Upd) (h : findFromUpdate l.updates d = some u) :
    u ∈ l.updates ∧ u.owner = d.owner ∧ u.id = d.src ∧ Canon l u := by
  have h1 := List.find?_some h
  have h2 := List.mem_of_find?_eq_some h
  simp only [decide_eq_true_eq] at h1
  refine ⟨h2, h1.1, h1.2, ?_⟩
  unfold Canon
  rw [h1.1, h1.2]
  exact h

theorem findUpdate_none (l : Log) (d : OutDep) (h : findUpdate l.updates d = none) :
    ∀ u ∈ l.updates, ¬(u.owner = d.owner ∧ u.id = d.update) := by
  intro u hu
  have := List.find?_eq_none.mp h u hu
  simpa using this

theorem findFrom_none (l : Log) (d : IntDep) (h : findFromUpdate l.updates d = none) :
    ∀ u ∈ l.updates, ¬(u.owner = d.owner ∧ u.id = d.src) := by
  intro u hu
  have := List.find?_eq_none.mp h u hu
  simpa using this

theorem Canon.unique {l : Log} {u v : Upd} (hu : Canon l u) (hv : Canon l v) (h1 : u.owner = v.owner) (h2 : u.id = v.id) :
    u = v := by
  unfold Canon at hu hv
  rw [h1, h2, hv] at hu
  exact (Option.some.inj hu).symm

theorem findOutput_all (l : Log) (i : Inp) (hi : i ∈ l.inputs) : findOutput (allOutputs l) i = some ⟨i.id, i.source⟩ := by
  cases h : findOutput (allOutputs l) i with
  | none =>
    have := List.find?_eq_none.mp h ⟨i.id, i.source⟩ (by
      unfold allOutputs
      exact List.mem_append_right _ (List.mem_map.mpr ⟨i, hi, rfl⟩))
    simp at this
  | some o =>
    have := List.find?_some h
    simp only [decide_eq_true_eq] at this
    obtain ⟨oi, oo⟩ := o
    simp only at this
    rw [this.1, this.2]

theorem resD_some (l : Log) (d : DirDep) (o : Out) (h : resD l (allOutputs l) d = some o) :
    o = ⟨d.input, d.source⟩ ∧ ∃ x ∈ l.inputs, x.owner = d.owner ∧ x.id = d.input ∧ x.source = d.source := by
  unfold resD at h
  cases hf : findInputD l.inputs d with
  | none => rw [hf] at h; cases h
  | some i =>
    rw [hf] at h
    have h1 := List.find?_some hf
    have h2 := List.mem_of_find?_eq_some hf
    simp only [decide_eq_true_eq] at h1
    have h3 : findOutput (allOutputs l) i = some o := h
    rw [findOutput_all l i h2, h1.2.1, h1.2.2] at h3
    exact ⟨(Option.some.inj h3).symm, i, h2, h1⟩

theorem resI_some (l : Log) (d : InDep) (o : Out) (h : resI l (allOutputs l) d = some o) :
    o = ⟨d.input, d.source⟩ ∧ ∃ x ∈ l.inputs, x.owner = d.owner ∧ x.id = d.input ∧ x.source = d.source := by
  unfold resI at h
  cases hf : findInputI l.inputs d with
  | none => rw [hf] at h; cases h
  | some i =>
    rw [hf] at h
    have h1 := List.find?_some hf
    have h2 := List.mem_of_find?_eq_some hf
    simp only [decide_eq_true_eq] at h1
    have h3 : findOutput (allOutputs l) i = some o := h
    rw [findOutput_all l i h2, h1.2.1, h1.2.2] at h3
    exact ⟨(Option.some.inj h3).symm, i, h2, h1⟩

theorem resD_none (l : Log) (d : DirDep) (h : resD l (allOutputs l) d = none) :
    ∀ x ∈ l.inputs, ¬(x.owner = d.owner ∧ x.id = d.input ∧ x.source = d.source) := by
  unfold resD at h
  cases hf : findInputD l.inputs d with
  | none =>
    intro x hx
    have := List.find?_eq_none.mp hf x hx
    simpa using this
  | some i =>
    rw [hf] at h
    have h3 : findOutput (allOutputs l) i = none := h
    rw [findOutput_all l i (List.mem_of_find?_eq_some hf)] at h3
    cases h3

theorem resI_none (l : Log) (d : InDep) (h : resI l (allOutputs l) d = none) :
    ∀ x ∈ l.inputs, ¬(x.owner = d.owner ∧ x.id = d.input ∧ x.source = d.source) := by
  unfold resI at h
  cases hf : findInputI l.inputs d with
  | none =>
    intro x hx
    have := List.find?_eq_none.mp hf x hx
    simpa using this
  | some i =>
    rw [hf] at h
    have h3 : findOutput (allOutputs l) i = none := h
    rw [findOutput_all l i (List.mem_of_find?_eq_some hf)] at h3
    cases h3

/-! ## The invariant of the search -/

/-- The vertex has been put in the result or waits in a stack. -/
def Seen (st : St) : Vtx → Prop
  | .out a i => (⟨i, a⟩ : Out) ∈ st.outs ∨ (⟨i, a⟩ : Out) ∈ st.ostk
  | .upd a i => (∃ u ∈ st.upds, u.owner = a ∧ u.id = i) ∨ ∃ u ∈ st.ustk, u.owner = a ∧ u.id = i

/-- The vertex is in the result. -/
def Found (st : St) : Vtx → Prop
  | .out a i => (⟨i, a⟩ : Out) ∈ st.outs
  | .upd a i => ∃ u ∈ st.upds, u.owner = a ∧ u.id = i

structure Inv (l : Log) (s : Vtx → Prop) (st : St) : Prop where
  po : ∀ o, o ∈ st.pO ↔ o ∈ st.outs
  pu : ∀ u, u ∈ st.pU ↔ u ∈ st.upds
  no : st.outs.Nodup
  nu : st.upds.Nodup
  ro : ∀ o, o ∈ st.outs ∨ o ∈ st.ostk → Reach (Link l) s (vo o)
  ru : ∀ u, u ∈ st.upds ∨ u ∈ st.ustk → Reach (Link l) s (vu u) ∧ Canon l u
  start : ∀ v, s v → Seen st v
  closed : ∀ v v', Found st v → Link l v v' → Seen st v'
  whole : ∀ v, Found st v → ¬Missing l v

theorem seen_upd {st : St} {u : Upd} (h : u ∈ st.upds ∨ u ∈ st.ustk) : Seen st (vu u) := by
  rcases h with h | h
  · exact .inl ⟨u, h, rfl, rfl⟩
  · exact .inr ⟨u, h, rfl, rfl⟩

/-- How much is left: the stacks, and the dependencies of what is not in the result. -/
def phi (l : Log) (st : St) : Nat :=
  st.ostk.length + st.ustk.length +
  (l.outDeps.filter fun d => decide ((⟨d.output, d.owner⟩ : Out) ∉ st.pO)).length +
  (l.dirDeps.filter fun d => decide ((⟨d.output, d.owner⟩ : Out) ∉ st.pO)).length +
  (l.inDeps.filter fun d => decide (∀ u ∈ st.pU, ¬(u.owner = d.owner ∧ u.id = d.update))).length +
  (l.intDeps.filter fun d => decide (∀ u ∈ st.pU, ¬(u.owner = d.owner ∧ u.id = d.dst))).length

theorem initInv (l : Log) (ss : List Out) : Inv l (From ss) (initSt ss) where
  po := fun o => by simp [initSt]
  pu := fun u => by simp [initSt]
  no := by simp [initSt]
  nu := by simp [initSt]
  ro := fun o h => by
    refine .start _ ⟨o, ?_, rfl⟩
    simpa [initSt] using h
  ru := fun u h => by simp [initSt] at h
  start := fun v hv => by
    obtain ⟨o, ho, rfl⟩ := hv
    exact .inr (by simpa [initSt] using ho)
  closed := fun v v' h => by
    cases v <;> simp [Found, initSt] at h
  whole := fun v h => by
    cases v <;> simp [Found, initSt] at h

theorem seen_mono {st st' : St} (ho : ∀ o, o ∈ st.outs ∨ o ∈ st.ostk → o ∈ st'.outs ∨ o ∈ st'.ostk)
    (hu : ∀ u, u ∈ st.upds ∨ u ∈ st.ustk → u ∈ st'.upds ∨ u ∈ st'.ustk) (v : Vtx) (h : Seen st v) : Seen st' v := by
  cases v with
  | out a i => exact ho _ h
  | upd a i =>
    rcases h with ⟨u, h1, h2⟩ | ⟨u, h1, h2⟩
    · rcases hu u (.inl h1) with h | h
      · exact .inl ⟨u, h, h2⟩
      · exact .inr ⟨u, h, h2⟩
    · rcases hu u (.inr h1) with h | h
      · exact .inl ⟨u, h, h2⟩
      · exact .inr ⟨u, h, h2⟩

/-- What a half iteration on an output does. -/
theorem outStep_spec (l : Log) (s : Vtx → Prop) (st : St) (hi : Inv l s st) :
    (∀ st', outStep l (allOutputs l) st = some st' →
      Inv l s st' ∧ phi l st' + (if st.ostk = [] then 0 else 1) ≤ phi l st) ∧
    (outStep l (allOutputs l) st = none → ∃ v, Reach (Link l) s v ∧ Missing l v) := by
  obtain ⟨outs, upds, ostk, ustk, pO, pU⟩ := st
  cases ostk with
  | nil =>
    refine ⟨fun st' h => ?_, fun h => by simp [outStep] at h⟩
    obtain rfl : _ = st' := by simpa [outStep] using h
    exact ⟨hi, by simp⟩
  | cons o os =>
    by_cases hp : o ∈ pO
    · refine ⟨fun st' h => ?_, fun h => by simp [outStep, hp] at h⟩
      obtain rfl : _ = st' := by simpa [outStep, hp] using h
      have ho : o ∈ outs := (hi.po o).mp hp
      have hm : ∀ v, Seen ⟨outs, upds, o :: os, ustk, pO, pU⟩ v → Seen ⟨outs, upds, os, ustk, pO, pU⟩ v :=
        seen_mono (fun o' h' => by
          rcases h' with h' | h'
          · exact .inl h'
          · rcases List.mem_cons.mp h' with rfl | h'
            · exact .inl ho
            · exact .inr h') (fun u h' => h')
      refine ⟨⟨hi.po, hi.pu, hi.no, hi.nu, ?_, hi.ru, ?_, ?_, ?_⟩, ?_⟩
      · rintro o' (h' | h')
        · exact hi.ro o' (.inl h')
        · exact hi.ro o' (.inr (List.mem_cons_of_mem _ h'))
      · exact fun v hv => hm v (hi.start v hv)
      · exact fun v v' hf hl => hm v' (hi.closed v v' (by cases v <;> exact hf) hl)
      · exact fun v hf => hi.whole v (by cases v <;> exact hf)
      · simp only [phi, List.length_cons, reduceCtorEq, if_false]
        omega
    · have hno : o ∉ outs := fun h => hp ((hi.po o).mpr h)
      have hro : Reach (Link l) s (vo o) := hi.ro o (.inr List.mem_cons_self)
      cases h1 : pushAll (fun d => decide (d.owner = o.owner ∧ d.output = o.id)) (findUpdate l.updates) l.outDeps
          ustk with
      | none =>
        refine ⟨fun st' h => by simp only [outStep, if_neg hp, h1, Option.bind_none, reduceCtorEq] at h, fun _ => ?_⟩
        obtain ⟨d, hd, hs, hr⟩ := pushAll_none _ _ _ _ h1
        simp only [decide_eq_true_eq] at hs
        refine ⟨.upd d.owner d.update, .link _ _ hro ?_, .update _ _ (findUpdate_none l d hr)⟩
        unfold vo
        rw [← hs.1, ← hs.2]
        exact .outUpd d hd
      | some us =>
        cases h2 : pushAll (fun d => decide (d.owner = o.owner ∧ d.output = o.id)) (resD l (allOutputs l)) l.dirDeps
            os with
        | none =>
          refine ⟨fun st' h => by simp only [outStep, if_neg hp, h1, h2, Option.bind_some, Option.bind_none, reduceCtorEq] at h, fun _ => ?_⟩
          obtain ⟨d, hd, hs, hr⟩ := pushAll_none _ _ _ _ h2
          simp only [decide_eq_true_eq] at hs
          refine ⟨vo o, hro, ?_⟩
          unfold vo
          rw [← hs.1, ← hs.2]
          exact .direct d hd (resD_none l d hr)
        | some os' =>
          refine ⟨fun st' h => ?_, fun h => by
            simp only [outStep, if_neg hp, h1, h2, Option.bind_some, reduceCtorEq] at h⟩
          simp only [outStep, if_neg hp, h1, h2, Option.bind_some, Option.some.injEq] at h
          subst h
          obtain ⟨a1, a2, a3⟩ := pushAll_some _ _ _ _ _ h1
          obtain ⟨b1, b2, b3⟩ := pushAll_some _ _ _ _ _ h2
          have hm : ∀ v, Seen ⟨outs, upds, o :: os, ustk, pO, pU⟩ v →
              Seen ⟨outs ++ [o], upds, os', us, o :: pO, pU⟩ v :=
            seen_mono (fun o' h' => by
              rcases h' with h' | h'
              · exact .inl (List.mem_append_left _ h')
              · rcases List.mem_cons.mp h' with rfl | h'
                · exact .inl (List.mem_append_right _ (List.mem_singleton.mpr rfl))
                · exact .inr ((b1 o').mpr (.inl h')))
              (fun u h' => by
              rcases h' with h' | h'
              · exact .inl h'
              · exact .inr ((a1 u).mpr (.inl h')))
          refine ⟨⟨?_, hi.pu, ?_, hi.nu, ?_, ?_, fun v hv => hm v (hi.start v hv), ?_, ?_⟩, ?_⟩
          · intro o'
            have := hi.po o'
            simp only at this
            simp only [List.mem_cons, List.mem_append, List.not_mem_nil, or_false, this]
            exact Or.comm
          · exact List.nodup_append.mpr ⟨hi.no, (by simp), by
              intro x hx y hy
              obtain rfl := List.mem_singleton.mp hy
              rintro rfl
              exact hno hx⟩
          · rintro o' (h' | h')
            · rcases List.mem_append.mp h' with h' | h'
              · exact hi.ro o' (.inl h')
              · obtain rfl := List.mem_singleton.mp h'
                exact hro
            · rcases (b1 o').mp h' with h' | ⟨d, hd, hs, hr⟩
              · exact hi.ro o' (.inr (List.mem_cons_of_mem _ h'))
              · simp only [decide_eq_true_eq] at hs
                obtain ⟨rfl, _⟩ := resD_some l d o' hr
                refine .link _ _ hro ?_
                unfold vo
                rw [← hs.1, ← hs.2]
                exact .outOut d hd
          · rintro u (h' | h')
            · exact hi.ru u (.inl h')
            · rcases (a1 u).mp h' with h' | ⟨d, hd, hs, hr⟩
              · exact hi.ru u (.inr h')
              · simp only [decide_eq_true_eq] at hs
                obtain ⟨_, e1, e2, e3⟩ := findUpdate_some l d u hr
                refine ⟨.link _ _ hro ?_, e3⟩
                unfold vo vu
                rw [← hs.1, ← hs.2, e1, e2]
                exact .outUpd d hd
          · intro v v' hf hl
            cases v with
            | upd a i => exact hm _ (hi.closed (.upd a i) v' hf hl)
            | out a i =>
              rcases List.mem_append.mp hf with hf | hf
              · exact hm _ (hi.closed (.out a i) v' hf hl)
              · have hf := List.mem_singleton.mp hf
                cases hl with
                | outUpd d hd =>
                  have hs : d.owner = o.owner ∧ d.output = o.id := by rw [← hf]; exact ⟨rfl, rfl⟩
                  obtain ⟨u, hu⟩ := a3 d hd (by simpa using hs)
                  obtain ⟨_, e1, e2, _⟩ := findUpdate_some l d u hu
                  exact .inr ⟨u, (a1 u).mpr (.inr ⟨d, hd, by simpa using hs, hu⟩), e1, e2⟩
                | outOut d hd =>
                  have hs : d.owner = o.owner ∧ d.output = o.id := by rw [← hf]; exact ⟨rfl, rfl⟩
                  obtain ⟨x, hx⟩ := b3 d hd (by simpa using hs)
                  obtain ⟨rfl, _⟩ := resD_some l d x hx
                  exact .inr ((b1 _).mpr (.inr ⟨d, hd, by simpa using hs, hx⟩))
          · intro v hf
            cases v with
            | upd a i => exact hi.whole (.upd a i) hf
            | out a i =>
              rcases List.mem_append.mp hf with hf | hf
              · exact hi.whole (.out a i) hf
              · have hf := List.mem_singleton.mp hf
                intro hmiss
                cases hmiss with
                | direct d hd hn =>
                  have hs : d.owner = o.owner ∧ d.output = o.id := by rw [← hf]; exact ⟨rfl, rfl⟩
                  obtain ⟨x, hx⟩ := b3 d hd (by simpa using hs)
                  obtain ⟨_, y, hy, h3⟩ := resD_some l d x hx
                  exact hn y hy h3
          · have e1 := filter_split (fun d : OutDep => decide ((⟨d.output, d.owner⟩ : Out) ∉ pO))
              (fun d => decide ((⟨d.output, d.owner⟩ : Out) ∉ o :: pO))
              (fun d => decide (d.owner = o.owner ∧ d.output = o.id)) (by
                intro d
                have hk : (⟨d.output, d.owner⟩ : Out) = o ↔ d.owner = o.owner ∧ d.output = o.id := by
                  obtain ⟨oi, oo⟩ := o
                  simp only [Out.mk.injEq]
                  exact And.comm
                by_cases hx : (⟨d.output, d.owner⟩ : Out) = o
                · simp [hk.mp hx, show (⟨o.id, o.owner⟩ : Out) ∉ pO from hp]
                · rw [decide_eq_false (fun h => hx (hk.mpr h)), Bool.or_false]
                  simp [hx]) (by
                intro d hd
                simp only [decide_eq_true_eq] at hd
                simp [hd.1, hd.2]) l.outDeps
            have e2 := filter_split (fun d : DirDep => decide ((⟨d.output, d.owner⟩ : Out) ∉ pO))
              (fun d => decide ((⟨d.output, d.owner⟩ : Out) ∉ o :: pO))
              (fun d => decide (d.owner = o.owner ∧ d.output = o.id)) (by
                intro d
                have hk : (⟨d.output, d.owner⟩ : Out) = o ↔ d.owner = o.owner ∧ d.output = o.id := by
                  obtain ⟨oi, oo⟩ := o
                  simp only [Out.mk.injEq]
                  exact And.comm
                by_cases hx : (⟨d.output, d.owner⟩ : Out) = o
                · simp [hk.mp hx, show (⟨o.id, o.owner⟩ : Out) ∉ pO from hp]
                · rw [decide_eq_false (fun h => hx (hk.mpr h)), Bool.or_false]
                  simp [hx]) (by
                intro d hd
                simp only [decide_eq_true_eq] at hd
                simp [hd.1, hd.2]) l.dirDeps
            simp only [phi, List.length_cons, reduceCtorEq, if_false]
            omega

/-- What a half iteration on an update does. -/
theorem updStep_spec (l : Log) (s : Vtx → Prop) (st : St) (hi : Inv l s st) :
    (∀ st', updStep l (allOutputs l) st = some st' →
      Inv l s st' ∧ phi l st' + (if st.ustk = [] then 0 else 1) ≤ phi l st) ∧
    (updStep l (allOutputs l) st = none → ∃ v, Reach (Link l) s v ∧ Missing l v) := by
  obtain ⟨outs, upds, ostk, ustk, pO, pU⟩ := st
  cases ustk with
  | nil =>
    refine ⟨fun st' h => ?_, fun h => by simp [updStep] at h⟩
    obtain rfl : _ = st' := by simpa [updStep] using h
    exact ⟨hi, by simp⟩
  | cons u us =>
    by_cases hp : u ∈ pU
    · refine ⟨fun st' h => ?_, fun h => by simp [updStep, hp] at h⟩
      obtain rfl : _ = st' := by simpa [updStep, hp] using h
      have hu : u ∈ upds := (hi.pu u).mp hp
      have hm : ∀ v, Seen ⟨outs, upds, ostk, u :: us, pO, pU⟩ v → Seen ⟨outs, upds, ostk, us, pO, pU⟩ v :=
        seen_mono (fun o' h' => h') (fun u' h' => by
          rcases h' with h' | h'
          · exact .inl h'
          · rcases List.mem_cons.mp h' with rfl | h'
            · exact .inl hu
            · exact .inr h')
      refine ⟨⟨hi.po, hi.pu, hi.no, hi.nu, hi.ro, ?_, ?_, ?_, ?_⟩, ?_⟩
      · rintro o' (h' | h')
        · exact hi.ru o' (.inl h')
        · exact hi.ru o' (.inr (List.mem_cons_of_mem _ h'))
      · exact fun v hv => hm v (hi.start v hv)
      · exact fun v v' hf hl => hm v' (hi.closed v v' (by cases v <;> exact hf) hl)
      · exact fun v hf => hi.whole v (by cases v <;> exact hf)
      · simp only [phi, List.length_cons, reduceCtorEq, if_false]
        omega
    · have hnu : u ∉ upds := fun h => hp ((hi.pu u).mpr h)
      obtain ⟨hru, hcu⟩ := hi.ru u (.inr List.mem_cons_self)
      have hkey : ∀ w ∈ pU, ¬(w.owner = u.owner ∧ w.id = u.id) := by
        intro w hw hk
        obtain ⟨_, hcw⟩ := hi.ru w (.inl ((hi.pu w).mp hw))
        obtain rfl := hcw.unique hcu hk.1 hk.2
        exact hp hw
      cases h1 : pushAll (fun d => decide (d.owner = u.owner ∧ d.update = u.id)) (resI l (allOutputs l)) l.inDeps
          ostk with
      | none =>
        refine ⟨fun st' h => by simp only [updStep, if_neg hp, h1, Option.bind_none, reduceCtorEq] at h, fun _ => ?_⟩
        obtain ⟨d, hd, hs, hr⟩ := pushAll_none _ _ _ _ h1
        simp only [decide_eq_true_eq] at hs
        refine ⟨vu u, hru, ?_⟩
        unfold vu
        rw [← hs.1, ← hs.2]
        exact .input d hd (resI_none l d hr)
      | some os =>
        cases h2 : pushAll (fun d => decide (d.owner = u.owner ∧ d.dst = u.id)) (findFromUpdate l.updates) l.intDeps
            us with
        | none =>
          refine ⟨fun st' h => by simp only [updStep, if_neg hp, h1, h2, Option.bind_some, Option.bind_none, reduceCtorEq] at h, fun _ => ?_⟩
          obtain ⟨d, hd, hs, hr⟩ := pushAll_none _ _ _ _ h2
          simp only [decide_eq_true_eq] at hs
          refine ⟨.upd d.owner d.src, .link _ _ hru ?_, .update _ _ (findFrom_none l d hr)⟩
          unfold vu
          rw [← hs.1, ← hs.2]
          exact .updUpd d hd
        | some us' =>
          refine ⟨fun st' h => ?_, fun h => by
            simp only [updStep, if_neg hp, h1, h2, Option.bind_some, reduceCtorEq] at h⟩
          simp only [updStep, if_neg hp, h1, h2, Option.bind_some, Option.some.injEq] at h
          subst h
          obtain ⟨a1, a2, a3⟩ := pushAll_some _ _ _ _ _ h1
          obtain ⟨b1, b2, b3⟩ := pushAll_some _ _ _ _ _ h2
          have hm : ∀ v, Seen ⟨outs, upds, ostk, u :: us, pO, pU⟩ v →
              Seen ⟨outs, upds ++ [u], os, us', pO, u :: pU⟩ v :=
            seen_mono (fun o' h' => by
              rcases h' with h' | h'
              · exact .inl h'
              · exact .inr ((a1 o').mpr (.inl h')))
              (fun u' h' => by
              rcases h' with h' | h'
              · exact .inl (List.mem_append_left _ h')
              · rcases List.mem_cons.mp h' with rfl | h'
                · exact .inl (List.mem_append_right _ (List.mem_singleton.mpr rfl))
                · exact .inr ((b1 u').mpr (.inl h')))
          refine ⟨⟨hi.po, ?_, hi.no, ?_, ?_, ?_, fun v hv => hm v (hi.start v hv), ?_, ?_⟩, ?_⟩
          · intro u'
            have := hi.pu u'
            simp only at this
            simp only [List.mem_cons, List.mem_append, List.not_mem_nil, or_false, this]
            exact Or.comm
          · exact List.nodup_append.mpr ⟨hi.nu, (by simp), by
              intro x hx y hy
              obtain rfl := List.mem_singleton.mp hy
              rintro rfl
              exact hnu hx⟩
          · rintro o' (h' | h')
            · exact hi.ro o' (.inl h')
            · rcases (a1 o').mp h' with h' | ⟨d, hd, hs, hr⟩
              · exact hi.ro o' (.inr h')
              · simp only [decide_eq_true_eq] at hs
                obtain ⟨rfl, _⟩ := resI_some l d o' hr
                refine .link _ _ hru ?_
                unfold vo vu
                rw [← hs.1, ← hs.2]
                exact .updOut d hd
          · rintro u' (h' | h')
            · rcases List.mem_append.mp h' with h' | h'
              · exact hi.ru u' (.inl h')
              · obtain rfl := List.mem_singleton.mp h'
                exact ⟨hru, hcu⟩
            · rcases (b1 u').mp h' with h' | ⟨d, hd, hs, hr⟩
              · exact hi.ru u' (.inr (List.mem_cons_of_mem _ h'))
              · simp only [decide_eq_true_eq] at hs
                obtain ⟨_, e1, e2, e3⟩ := findFrom_some l d u' hr
                refine ⟨.link _ _ hru ?_, e3⟩
                unfold vu
                rw [e1, e2, ← hs.1, ← hs.2]
                exact .updUpd d hd
          · intro v v' hf hl
            cases v with
            | out a i => exact hm _ (hi.closed (.out a i) v' hf hl)
            | upd a i =>
              obtain ⟨w, hw, hf⟩ := hf
              rcases List.mem_append.mp hw with hw | hw
              · exact hm _ (hi.closed (.upd a i) v' ⟨w, hw, hf⟩ hl)
              · obtain rfl := List.mem_singleton.mp hw
                cases hl with
                | updOut d hd =>
                  have hs : d.owner = w.owner ∧ d.update = w.id := ⟨hf.1.symm, hf.2.symm⟩
                  obtain ⟨x, hx⟩ := a3 d hd (by simpa using hs)
                  obtain ⟨rfl, _⟩ := resI_some l d x hx
                  exact .inr ((a1 _).mpr (.inr ⟨d, hd, by simpa using hs, hx⟩))
                | updUpd d hd =>
                  have hs : d.owner = w.owner ∧ d.dst = w.id := ⟨hf.1.symm, hf.2.symm⟩
                  obtain ⟨x, hx⟩ := b3 d hd (by simpa using hs)
                  obtain ⟨_, e1, e2, _⟩ := findFrom_some l d x hx
                  exact .inr ⟨x, (b1 x).mpr (.inr ⟨d, hd, by simpa using hs, hx⟩), e1, e2⟩
          · intro v hf
            cases v with
            | out a i => exact hi.whole (.out a i) hf
            | upd a i =>
              obtain ⟨w, hw, hf⟩ := hf
              rcases List.mem_append.mp hw with hw | hw
              · exact hi.whole (.upd a i) ⟨w, hw, hf⟩
              · obtain rfl := List.mem_singleton.mp hw
                intro hmiss
                cases hmiss with
                | update _ _ hn => exact hn w (List.mem_of_find?_eq_some hcu) hf
                | input d hd hn =>
                  have hs : d.owner = w.owner ∧ d.update = w.id := ⟨hf.1.symm, hf.2.symm⟩
                  obtain ⟨x, hx⟩ := a3 d hd (by simpa using hs)
                  obtain ⟨_, y, hy, h3⟩ := resI_some l d x hx
                  exact hn y hy h3
          · have e1 := filter_split
              (fun d : InDep => decide (∀ w ∈ pU, ¬(w.owner = d.owner ∧ w.id = d.update)))
              (fun d => decide (∀ w ∈ u :: pU, ¬(w.owner = d.owner ∧ w.id = d.update)))
              (fun d => decide (d.owner = u.owner ∧ d.update = u.id)) (by
                intro d
                by_cases hx : d.owner = u.owner ∧ d.update = u.id
                · rw [decide_eq_true hx, Bool.or_true]
                  exact decide_eq_true (fun w hw => by rw [hx.1, hx.2]; exact hkey w hw)
                · rw [decide_eq_false hx, Bool.or_false]
                  refine decide_eq_decide.mpr ⟨fun h w hw => ?_, fun h w hw => h w (List.mem_cons_of_mem _ hw)⟩
                  rcases List.mem_cons.mp hw with rfl | hw
                  · exact fun h' => hx ⟨h'.1.symm, h'.2.symm⟩
                  · exact h w hw) (by
                intro d hd
                simp only [decide_eq_true_eq] at hd
                exact decide_eq_false fun h => h u List.mem_cons_self ⟨hd.1.symm, hd.2.symm⟩) l.inDeps
            have e2 := filter_split
              (fun d : IntDep => decide (∀ w ∈ pU, ¬(w.owner = d.owner ∧ w.id = d.dst)))
              (fun d => decide (∀ w ∈ u :: pU, ¬(w.owner = d.owner ∧ w.id = d.dst)))
              (fun d => decide (d.owner = u.owner ∧ d.dst = u.id)) (by
                intro d
                by_cases hx : d.owner = u.owner ∧ d.dst = u.id
                · rw [decide_eq_true hx, Bool.or_true]
                  exact decide_eq_true (fun w hw => by rw [hx.1, hx.2]; exact hkey w hw)
                · rw [decide_eq_false hx, Bool.or_false]
                  refine decide_eq_decide.mpr ⟨fun h w hw => ?_, fun h w hw => h w (List.mem_cons_of_mem _ hw)⟩
                  rcases List.mem_cons.mp hw with rfl | hw
                  · exact fun h' => hx ⟨h'.1.symm, h'.2.symm⟩
                  · exact h w hw) (by
                intro d hd
                simp only [decide_eq_true_eq] at hd
                exact decide_eq_false fun h => h u List.mem_cons_self ⟨hd.1.symm, hd.2.symm⟩) l.intDeps
            simp only [phi, List.length_cons, reduceCtorEq, if_false]
            omega

/-! ## The search -/

/-- The outcome of a search that keeps the invariant. -/
theorem loop_spec (l : Log) (s : Vtx → Prop) : ∀ (n : Nat) (st : St), Inv l s st → phi l st ≤ n →
    (∃ st', Inv l s st' ∧ st'.ostk = [] ∧ st'.ustk = [] ∧ loop l (allOutputs l) n st = .done st'.outs st'.upds) ∨
    (loop l (allOutputs l) n st = .throw ∧ ∃ v, Reach (Link l) s v ∧ Missing l v) := by
  intro n
  induction n with
  | zero =>
    intro st hi hp
    have h1 : st.ostk = [] := by
      cases h : st.ostk with
      | nil => rfl
      | cons o os =>
        simp only [phi, h, List.length_cons] at hp
        omega
    have h2 : st.ustk = [] := by
      cases h : st.ustk with
      | nil => rfl
      | cons o os =>
        simp only [phi, h, List.length_cons] at hp
        omega
    exact .inl ⟨st, hi, h1, h2, by unfold loop; rw [if_pos ⟨h1, h2⟩]⟩
  | succ n ih =>
    intro st hi hp
    by_cases he : st.ostk = [] ∧ st.ustk = []
    · exact .inl ⟨st, hi, he.1, he.2, by unfold loop; rw [if_pos he]⟩
    · obtain ⟨g1, g2⟩ := outStep_spec l s st hi
      cases h1 : outStep l (allOutputs l) st with
      | none =>
        refine .inr ⟨?_, g2 h1⟩
        unfold loop
        rw [if_neg he]
        simp only [h1, Option.bind_none]
      | some st1 =>
        obtain ⟨hi1, hp1⟩ := g1 st1 h1
        obtain ⟨k1, k2⟩ := updStep_spec l s st1 hi1
        cases h2 : updStep l (allOutputs l) st1 with
        | none =>
          refine .inr ⟨?_, k2 h2⟩
          unfold loop
          rw [if_neg he]
          simp only [h1, Option.bind_some, h2]
        | some st2 =>
          obtain ⟨hi2, hp2⟩ := k1 st2 h2
          have hlt : phi l st2 < phi l st := by
            by_cases ho : st.ostk = []
            · have : st1 = st := by
                have h1' := h1
                unfold outStep at h1'
                simp only [ho] at h1'
                exact (Option.some.inj h1').symm
              subst this
              have hu : st1.ustk ≠ [] := fun h => he ⟨ho, h⟩
              rw [if_neg hu] at hp2
              omega
            · rw [if_neg ho] at hp1
              omega
          have hl : loop l (allOutputs l) (n + 1) st = loop l (allOutputs l) n st2 := by
            conv => lhs; unfold loop
            rw [if_neg he]
            simp only [h1, Option.bind_some, h2]
          rw [hl]
          exact ih st2 hi2 (by omega)

theorem phi_init (l : Log) (ss : List Out) : phi l (initSt ss) ≤ ss.length + l.size := by
  unfold phi initSt Log.size
  have h1 := List.length_filter_le (fun d : OutDep => decide ((⟨d.output, d.owner⟩ : Out) ∉ ([] : List Out))) l.outDeps
  have h2 := List.length_filter_le (fun d : DirDep => decide ((⟨d.output, d.owner⟩ : Out) ∉ ([] : List Out))) l.dirDeps
  have h3 := List.length_filter_le
    (fun d : InDep => decide (∀ u ∈ ([] : List Upd), ¬(u.owner = d.owner ∧ u.id = d.update))) l.inDeps
  have h4 := List.length_filter_le
    (fun d : IntDep => decide (∀ u ∈ ([] : List Upd), ¬(u.owner = d.owner ∧ u.id = d.dst))) l.intDeps
  simp only [List.length_reverse, List.length_nil]
  omega

theorem loop_more (l : Log) (all : List Out) : ∀ (n m : Nat) (st : St), n ≤ m → loop l all n st ≠ .more →
    loop l all m st = loop l all n st := by
  intro n
  induction n with
  | zero =>
    intro m st _ h
    by_cases he : st.ostk = [] ∧ st.ustk = []
    · cases m <;> simp only [loop, if_pos he]
    · exact absurd (by simp only [loop, if_neg he]) h
  | succ n ih =>
    intro m st hm h
    obtain ⟨m, rfl⟩ : ∃ k, m = k + 1 := ⟨m - 1, by omega⟩
    by_cases he : st.ostk = [] ∧ st.ustk = []
    · simp only [loop, if_pos he]
    · cases hb : (outStep l all st).bind (updStep l all) with
      | none => simp only [loop, if_neg he, hb]
      | some st' =>
        have e1 : ∀ k, loop l all (k + 1) st = loop l all k st' := by
          intro k
          simp only [loop, if_neg he, hb]
        rw [e1] at h
        rw [e1, e1]
        exact ih m st' (by omega) h

/-- **C91 (it ends).**  On every log, cyclic ones included, the search ends after at most as many iterations as there
are starting points and logged dependencies; more iterations would change nothing. -/
theorem C91_terminates (l : Log) (ss : List Out) :
    followUpDependency l (allOutputs l) ss ≠ .more ∧
    ∀ n, ss.length + l.size ≤ n → loop l (allOutputs l) n (initSt ss) = followUpDependency l (allOutputs l) ss := by
  have h : followUpDependency l (allOutputs l) ss ≠ .more := by
    unfold followUpDependency
    rcases loop_spec l (From ss) _ _ (initInv l ss) (phi_init l ss) with ⟨st, _, _, _, h⟩ | ⟨h, _⟩ <;>
      rw [h] <;> simp
  exact ⟨h, fun n hn => loop_more l _ _ _ _ hn h⟩

theorem reach_found {l : Log} {s : Vtx → Prop} {st : St} (hi : Inv l s st) (ho : st.ostk = []) (hu : st.ustk = [])
    (v : Vtx) (h : Reach (Link l) s v) : Found st v := by
  have hsf : ∀ v, Seen st v → Found st v := by
    intro v hv
    cases v with
    | out a i =>
      rcases hv with h | h
      · exact h
      · rw [ho] at h; cases h
    | upd a i =>
      rcases hv with h | ⟨u, h, _⟩
      · exact h
      · rw [hu] at h; cases h
  induction h with
  | start v hv => exact hsf v (hi.start v hv)
  | link v v' _ hl ih => exact hsf v' (hi.closed v v' ih hl)

/-- **C91 (what is found).**  A search that returns gives exactly the outputs that can be reached, each once, and
exactly the updates that can be reached, one entry for each, all of them in the log. -/
theorem C91_found (l : Log) (ss os : List Out) (us : List Upd)
    (h : followUpDependency l (allOutputs l) ss = .done os us) :
    os.Nodup ∧ us.Pairwise (fun u u' => ¬(u.owner = u'.owner ∧ u.id = u'.id)) ∧
    (∀ a i, (⟨i, a⟩ : Out) ∈ os ↔ Reach (Link l) (From ss) (.out a i)) ∧
    (∀ a i, (∃ u ∈ us, u.owner = a ∧ u.id = i) ↔ Reach (Link l) (From ss) (.upd a i)) ∧
    ∀ u ∈ us, u ∈ l.updates := by
  rcases loop_spec l (From ss) _ _ (initInv l ss) (phi_init l ss) with ⟨st, hi, ho, hu, h'⟩ | ⟨h', _⟩
  · have h2 : Res.done os us = Res.done st.outs st.upds := by rw [← h, ← h']; rfl
    injection h2 with e1 e2
    subst e1
    subst e2
    refine ⟨hi.no, ?_, fun a i => ⟨fun hm => hi.ro _ (.inl hm), reach_found hi ho hu _⟩,
      fun a i => ⟨?_, reach_found hi ho hu _⟩, fun u hm => List.mem_of_find?_eq_some (hi.ru u (.inl hm)).2⟩
    · refine List.Pairwise.imp_of_mem ?_ hi.nu
      intro u u' hm hm' hne hk
      exact hne ((hi.ru u (.inl hm)).2.unique (hi.ru u' (.inl hm')).2 hk.1 hk.2)
    · rintro ⟨u, hm, rfl, rfl⟩
      exact (hi.ru u (.inl hm)).1
  · unfold followUpDependency at h
    rw [h] at h'
    cases h'

/-- **C91 (when it throws).**  A search throws when, and only when, something that can be reached is not wholly in the
log: an update that was never logged, or a dependency on an input that was never logged. -/
theorem C91_throws (l : Log) (ss : List Out) :
    followUpDependency l (allOutputs l) ss = .throw ↔ ∃ v, Reach (Link l) (From ss) v ∧ Missing l v := by
  rcases loop_spec l (From ss) _ _ (initInv l ss) (phi_init l ss) with ⟨st, hi, ho, hu, h'⟩ | ⟨h', hv⟩
  · refine ⟨fun h => ?_, fun ⟨v, hv, hm⟩ => ?_⟩
    · unfold followUpDependency at h
      rw [h] at h'
      cases h'
    · exact absurd hm (hi.whole v (reach_found hi ho hu v hv))
  · exact ⟨fun _ => hv, fun _ => h'⟩


/-! ## Graphs -/

/-- The outputs a graph starts from: the logged inputs of the objects logged as added to it. -/
def GStart (l : Log) (g : Nat) (v : Vtx) : Prop :=
  ∃ ps, l.graphs g = some ps ∧ ∃ i ∈ l.inputs, i.owner ∈ ps ∧ v = .out i.source i.id

/-- The vertex is in one of the two lists. -/
def In (os : List Out) (us : List Upd) : Vtx → Prop
  | .out a i => (⟨i, a⟩ : Out) ∈ os
  | .upd a i => ∃ u ∈ us, u.owner = a ∧ u.id = i

theorem startsOf_spec (l : Log) (p : Nat) : ∀ is : List Inp, (∀ i ∈ is, i ∈ l.inputs) →
    ∃ os, startsOf l p is = some os ∧ ∀ o : Out, o ∈ os ↔ ∃ i ∈ is, i.owner = p ∧ o = ⟨i.id, i.source⟩ := by
  intro is
  induction is with
  | nil => exact fun _ => ⟨[], rfl, fun o => by simp⟩
  | cons i is ih =>
    intro h
    obtain ⟨os, h1, h2⟩ := ih fun j hj => h j (List.mem_cons_of_mem _ hj)
    by_cases hp : i.owner = p
    · refine ⟨⟨i.id, i.source⟩ :: os, ?_, fun o => ?_⟩
      · simp only [startsOf, if_pos hp, findOutput_all l i (h i List.mem_cons_self), Option.bind_some, h1, Option.map_some]
      · rw [List.mem_cons, h2 o]
        constructor
        · rintro (rfl | ⟨j, hj, hk⟩)
          · exact ⟨i, List.mem_cons_self, hp, rfl⟩
          · exact ⟨j, List.mem_cons_of_mem _ hj, hk⟩
        · rintro ⟨j, hj, hk, rfl⟩
          rcases List.mem_cons.mp hj with rfl | hj
          · exact .inl rfl
          · exact .inr ⟨j, hj, hk, rfl⟩
    · refine ⟨os, by simp only [startsOf, if_neg hp, h1], fun o => ?_⟩
      rw [h2 o]
      constructor
      · rintro ⟨j, hj, hk⟩
        exact ⟨j, List.mem_cons_of_mem _ hj, hk⟩
      · rintro ⟨j, hj, hk, rfl⟩
        rcases List.mem_cons.mp hj with rfl | hj
        · exact absurd hk hp
        · exact ⟨j, hj, hk, rfl⟩

theorem starts_spec (l : Log) : ∀ ps : List Nat,
    ∃ os, starts l ps = some os ∧ ∀ o : Out, o ∈ os ↔ ∃ i ∈ l.inputs, i.owner ∈ ps ∧ o = ⟨i.id, i.source⟩ := by
  intro ps
  induction ps with
  | nil => exact ⟨[], rfl, fun o => by simp⟩
  | cons p ps ih =>
    obtain ⟨os, h1, h2⟩ := ih
    obtain ⟨os', h3, h4⟩ := startsOf_spec l p l.inputs fun _ h => h
    refine ⟨os' ++ os, by simp only [starts, h3, Option.bind_some, h1, Option.map_some], fun o => ?_⟩
    rw [List.mem_append, h2 o, h4 o]
    constructor
    · rintro (⟨i, hi, rfl, rfl⟩ | ⟨i, hi, hk, rfl⟩)
      · exact ⟨i, hi, List.mem_cons_self, rfl⟩
      · exact ⟨i, hi, List.mem_cons_of_mem _ hk, rfl⟩
    · rintro ⟨i, hi, hk, rfl⟩
      rcases List.mem_cons.mp hk with rfl | hk
      · exact .inl ⟨i, hi, rfl, rfl⟩
      · exact .inr ⟨i, hi, hk, rfl⟩

theorem reach_congr {r : Vtx → Vtx → Prop} {s s' : Vtx → Prop} (h : ∀ v, s v → s' v) (v : Vtx) (hv : Reach r s v) :
    Reach r s' v := by
  induction hv with
  | start v hv => exact .start v (h v hv)
  | link v v' _ hl ih => exact .link v v' ih hl

/-- **C91 (the sub graph of a graph).**  `subGraph(g)` always ends; when it returns, its lists are, without repetition,
exactly what can be reached from the logged inputs of the objects added to the graph; it throws when, and only when,
something that can be reached is not wholly in the log. -/
theorem C91_graph (l : Log) (g : Nat) :
    subGraph l g ≠ .more ∧
    (∀ os us, subGraph l g = .done os us →
      os.Nodup ∧ us.Pairwise (fun u u' => ¬(u.owner = u'.owner ∧ u.id = u'.id)) ∧
      (∀ v, In os us v ↔ Reach (Link l) (GStart l g) v) ∧ ∀ u ∈ us, u ∈ l.updates) ∧
    (subGraph l g = .throw ↔ ∃ v, Reach (Link l) (GStart l g) v ∧ Missing l v) := by
  cases hg : l.graphs g with
  | none =>
    have hs : subGraph l g = .done [] [] := by unfold subGraph; simp only [hg]
    have hr : ∀ v, ¬Reach (Link l) (GStart l g) v := by
      intro v hv
      induction hv with
      | start v hv =>
        obtain ⟨ps, h, _⟩ := hv
        rw [hg] at h
        cases h
      | link _ _ _ _ ih => exact ih
    rw [hs]
    refine ⟨by simp, fun os us h => ?_, ⟨fun h => (by cases h), fun ⟨v, hv, _⟩ => absurd hv (hr v)⟩⟩
    injection h with h1 h2
    subst h1
    subst h2
    exact ⟨by simp, by simp, fun v => ⟨fun h => (by cases v <;> simp [In] at h), fun h => absurd h (hr v)⟩, by simp⟩
  | some ps =>
    obtain ⟨ss, h1, h2⟩ := starts_spec l ps
    have hs : subGraph l g = followUpDependency l (allOutputs l) ss := by unfold subGraph; simp only [hg, h1]
    have e1 : ∀ v, From ss v → GStart l g v := by
      rintro v ⟨o, ho, rfl⟩
      obtain ⟨i, hi, hk, rfl⟩ := (h2 o).mp ho
      exact ⟨ps, hg, i, hi, hk, rfl⟩
    have e2 : ∀ v, GStart l g v → From ss v := by
      rintro v ⟨ps', hg', i, hi, hk, rfl⟩
      rw [hg] at hg'
      obtain rfl := Option.some.inj hg'
      exact ⟨⟨i.id, i.source⟩, (h2 _).mpr ⟨i, hi, hk, rfl⟩, rfl⟩
    have e3 : ∀ v, Reach (Link l) (From ss) v ↔ Reach (Link l) (GStart l g) v :=
      fun v => ⟨reach_congr e1 v, reach_congr e2 v⟩
    rw [hs]
    refine ⟨(C91_terminates l ss).1, fun os us h => ?_, ?_⟩
    · obtain ⟨a1, a2, a3, a4, a5⟩ := C91_found l ss os us h
      refine ⟨a1, a2, fun v => ?_, a5⟩
      rw [← e3 v]
      cases v with
      | out a i => exact a3 a i
      | upd a i => exact a4 a i
    · rw [C91_throws]
      exact ⟨fun ⟨v, h, h'⟩ => ⟨v, (e3 v).mp h, h'⟩, fun ⟨v, h, h'⟩ => ⟨v, (e3 v).mpr h, h'⟩⟩

/-- **C91 (the sub graph of an output).**  The same for `subGraph(out)`; the output itself is in the list. -/
theorem C91_output (l : Log) (o : Out) :
    subGraphOut l o ≠ .more ∧
    (∀ os us, subGraphOut l o = .done os us →
      o ∈ os ∧ os.Nodup ∧ us.Pairwise (fun u u' => ¬(u.owner = u'.owner ∧ u.id = u'.id)) ∧
      (∀ v, In os us v ↔ Reach (Link l) (fun v => v = .out o.owner o.id) v) ∧ ∀ u ∈ us, u ∈ l.updates) ∧
    (subGraphOut l o = .throw ↔ ∃ v, Reach (Link l) (fun v => v = .out o.owner o.id) v ∧ Missing l v) := by
  have e3 : ∀ v, Reach (Link l) (From [o]) v ↔ Reach (Link l) (fun v => v = .out o.owner o.id) v :=
    fun v => ⟨reach_congr (fun v hv => by
      obtain ⟨o', ho, rfl⟩ := hv
      obtain rfl := List.mem_singleton.mp ho
      rfl) v, reach_congr (fun v hv => ⟨o, List.mem_singleton.mpr rfl, hv⟩) v⟩
  unfold subGraphOut
  refine ⟨(C91_terminates l [o]).1, fun os us h => ?_, ?_⟩
  · obtain ⟨a1, a2, a3, a4, a5⟩ := C91_found l [o] os us h
    refine ⟨(a3 o.owner o.id).mpr (.start _ ⟨o, List.mem_singleton.mpr rfl, rfl⟩), a1, a2, fun v => ?_, a5⟩
    rw [← e3 v]
    cases v with
    | out a i => exact a3 a i
    | upd a i => exact a4 a i
  · rw [C91_throws]
    exact ⟨fun ⟨v, h, h'⟩ => ⟨v, (e3 v).mp h, h'⟩, fun ⟨v, h, h'⟩ => ⟨v, (e3 v).mpr h, h'⟩⟩

/-! ## The log and the nodes -/

/-- `Dep w v v'`: as the nodes are now, `v` depends upon `v'`. -/
inductive Dep (w : World) : Vtx → Vtx → Prop
  | outUpd (a : Nat) (o u : EnumVal) : (o, u) ∈ (w.nodes a).outDeps → Dep w (.out a o) (.upd a u)
  | outOut (a : Nat) (o : EnumVal) (s : Nat) (i : EnumVal) :
      (o, s, i) ∈ (w.nodes a).dirDeps → Dep w (.out a o) (.out s i)
  | updOut (a : Nat) (u : EnumVal) (s : Nat) (i : EnumVal) :
      (u, s, i) ∈ (w.nodes a).inDeps → Dep w (.upd a u) (.out s i)
  | updUpd (a : Nat) (v u : EnumVal) : (v, u) ∈ (w.nodes a).intDeps → Dep w (.upd a v) (.upd a u)

/-- The outputs that the objects added to the graph have as inputs now. -/
def Wants (w : World) (g : Nat) (v : Vtx) : Prop :=
  ∃ a ∈ w.graphs g, ∃ s i, (s, i) ∈ (w.nodes a).inputs ∧ v = .out s i

/-- The logger is never disabled. -/
def On (ops : List Op) : Prop := ∀ op ∈ ops, op ≠ .disable

/-- No input is removed and no node destroyed. -/
def Grows (ops : List Op) : Prop := ∀ op ∈ ops, (∀ a s i, op ≠ .removeInput a s i) ∧ ∀ a, op ≠ .destroy a

/-- All that the nodes hold is in the log, and logged dependencies have their inputs logged. -/
structure Fwd (w : World) : Prop where
  off : w.off = false
  inputs : ∀ a s i, (s, i) ∈ (w.nodes a).inputs → (⟨i, s, a⟩ : Inp) ∈ w.log.inputs
  updates : ∀ a u fn, (u, fn) ∈ (w.nodes a).updates → (⟨u, fn, a⟩ : Upd) ∈ w.log.updates
  outDeps : ∀ a o u, (o, u) ∈ (w.nodes a).outDeps → (⟨u, o, a⟩ : OutDep) ∈ w.log.outDeps
  intDeps : ∀ a v u, (v, u) ∈ (w.nodes a).intDeps → (⟨u, v, a⟩ : IntDep) ∈ w.log.intDeps
  inDeps : ∀ a u s i, (u, s, i) ∈ (w.nodes a).inDeps → (⟨i, u, s, a⟩ : InDep) ∈ w.log.inDeps
  dirDeps : ∀ a o s i, (o, s, i) ∈ (w.nodes a).dirDeps → (⟨i, o, s, a⟩ : DirDep) ∈ w.log.dirDeps
  graphs : ∀ g a, a ∈ w.graphs g → ∃ ps, w.log.graphs g = some ps ∧ a ∈ ps
  inOk : ∀ d ∈ w.log.inDeps, (⟨d.input, d.source, d.owner⟩ : Inp) ∈ w.log.inputs
  dirOk : ∀ d ∈ w.log.dirDeps, (⟨d.input, d.source, d.owner⟩ : Inp) ∈ w.log.inputs

/-- All that is in the log is held by the nodes. -/
structure Bwd (w : World) : Prop where
  inputs : ∀ x ∈ w.log.inputs, (x.source, x.id) ∈ (w.nodes x.owner).inputs
  updates : ∀ x ∈ w.log.updates, (x.id, x.fn) ∈ (w.nodes x.owner).updates
  outDeps : ∀ x ∈ w.log.outDeps, (x.output, x.update) ∈ (w.nodes x.owner).outDeps
  intDeps : ∀ x ∈ w.log.intDeps, (x.dst, x.src) ∈ (w.nodes x.owner).intDeps
  inDeps : ∀ x ∈ w.log.inDeps, (x.update, x.source, x.input) ∈ (w.nodes x.owner).inDeps
  dirDeps : ∀ x ∈ w.log.dirDeps, (x.output, x.source, x.input) ∈ (w.nodes x.owner).dirDeps
  graphs : ∀ g ps, w.log.graphs g = some ps → ∀ a ∈ ps, a ∈ w.graphs g

theorem fwd_addInput (w : World) (h : Fwd w) (a s : Nat) (i : EnumVal) :
    Fwd (w.addInput a s i) ∧ (⟨i, s, a⟩ : Inp) ∈ (w.addInput a s i).log.inputs ∧
    (w.addInput a s i).log.inDeps = w.log.inDeps := by
  obtain ⟨h1, h2, h3, h4, h5, h6, h7, h8, h9, h10⟩ := h
  by_cases hm : (s, i) ∈ (w.nodes a).inputs
  · have e : w.addInput a s i = w := by unfold World.addInput; simp only [if_pos hm]
    rw [e]
    exact ⟨⟨h1, h2, h3, h4, h5, h6, h7, h8, h9, h10⟩, h2 a s i hm, rfl⟩
  · have e : w.addInput a s i = ⟨upd w.nodes a ⟨(w.nodes a).inputs ++ [(s, i)], (w.nodes a).updates, (w.nodes a).outDeps,
        (w.nodes a).intDeps, (w.nodes a).inDeps, (w.nodes a).dirDeps⟩, w.graphs, w.log.addInput a s i, w.off⟩ := by
      unfold World.addInput
      simp only [if_neg hm, World.write, World.set, h1, Bool.false_eq_true, if_false]
    rw [e]
    refine ⟨⟨h1, ?_, ?_, ?_, ?_, ?_, ?_, h8, ?_, ?_⟩, by simp [Log.addInput], rfl⟩ <;>
      simp only [upd, Log.addInput] <;> grind

theorem fwd_step (w : World) (h : Fwd w) (op : Op) (hop : op ≠ .disable) : Fwd (step w op) := by
  obtain ⟨h1, h2, h3, h4, h5, h6, h7, h8, h9, h10⟩ := h
  have hw : Fwd w := ⟨h1, h2, h3, h4, h5, h6, h7, h8, h9, h10⟩
  cases op with
  | disable => exact absurd rfl hop
  | enable => exact ⟨rfl, h2, h3, h4, h5, h6, h7, h8, h9, h10⟩
  | registerUpdate a u fn =>
    by_cases hc : (w.nodes a).updates.any (fun p => decide (p.1 = u)) = true
    · simp only [step, if_pos hc]; exact hw
    · simp only [step, if_neg hc]
      refine ⟨h1, ?_, ?_, ?_, ?_, ?_, ?_, ?_, ?_, ?_⟩ <;>
        simp only [World.write, World.set, h1, Bool.false_eq_true, if_false, upd, Log.registerUpdate] <;> grind
  | addInput a s i => exact (fwd_addInput w hw a s i).1
  | removeInput a s i =>
    refine ⟨h1, ?_, ?_, ?_, ?_, ?_, ?_, h8, h9, h10⟩ <;> simp only [step, World.set, upd] <;> grind
  | addOutputDependency a o u =>
    by_cases hc : (w.nodes a).dirDeps.any (fun p => decide (p.1 = o)) = true
    · simp only [step, if_pos hc]; exact hw
    · simp only [step, if_neg hc]
      refine ⟨h1, ?_, ?_, ?_, ?_, ?_, ?_, ?_, ?_, ?_⟩ <;>
        simp only [World.write, World.set, h1, Bool.false_eq_true, if_false, upd, Log.addOutputDependency] <;> grind
  | addInternalDependency a v u =>
    simp only [step]
    refine ⟨h1, ?_, ?_, ?_, ?_, ?_, ?_, ?_, ?_, ?_⟩ <;>
      simp only [World.write, World.set, h1, Bool.false_eq_true, if_false, upd, Log.addInternalDependency] <;> grind
  | addInputDependency a u s i =>
    simp only [step]
    obtain ⟨hw', hi, _⟩ := fwd_addInput w hw a s i
    generalize w.addInput a s i = w' at hw' hi
    obtain ⟨h1, h2, h3, h4, h5, h6, h7, h8, h9, h10⟩ := hw'
    refine ⟨h1, ?_, ?_, ?_, ?_, ?_, ?_, ?_, ?_, ?_⟩ <;>
      simp only [World.write, World.set, h1, Bool.false_eq_true, if_false, upd, Log.addInputDependency] <;> grind
  | addDirectDependency a o s i =>
    by_cases hc : (w.nodes a).dirDeps.any (fun p => decide (p.1 = o)) = true
    · simp only [step, if_pos hc]; exact hw
    · by_cases hc' : (w.nodes a).outDeps.any (fun p => decide (p.1 = o)) = true
      · simp only [step, if_neg hc, if_pos hc']; exact hw
      · simp only [step, if_neg hc, if_neg hc']
        obtain ⟨hw', hi, _⟩ := fwd_addInput w hw a s i
        generalize w.addInput a s i = w' at hw' hi
        obtain ⟨h1, h2, h3, h4, h5, h6, h7, h8, h9, h10⟩ := hw'
        refine ⟨h1, ?_, ?_, ?_, ?_, ?_, ?_, ?_, ?_, ?_⟩ <;>
          simp only [World.write, World.set, h1, Bool.false_eq_true, if_false, upd, Log.addDirectDependency] <;> grind
  | addGraph g a =>
    simp only [step]
    refine ⟨h1, ?_, ?_, ?_, ?_, ?_, ?_, ?_, ?_, ?_⟩ <;>
      simp only [World.write, h1, Bool.false_eq_true, if_false, upd, Log.addGraphOutput] <;> try assumption
    intro g' b hb
    by_cases hg : g' = g
    · subst hg
      simp only [if_true, List.mem_append, List.mem_singleton] at hb ⊢
      refine ⟨_, rfl, ?_⟩
      rcases hb with hb | hb
      · obtain ⟨ps, hp, hq⟩ := h8 g' b hb
        simp [hp, hq]
      · simp [hb]
    · simp only [if_neg hg] at hb ⊢
      exact h8 g' b hb
  | destroy a =>
    refine ⟨h1, ?_, ?_, ?_, ?_, ?_, ?_, h8, h9, h10⟩ <;> simp only [step, World.set, upd, NodeS.empty] <;> grind

theorem bwd_addInput (w : World) (h : Bwd w) (ho : w.off = false) (a s : Nat) (i : EnumVal) : Bwd (w.addInput a s i) := by
  obtain ⟨h2, h3, h4, h5, h6, h7, h8⟩ := h
  by_cases hm : (s, i) ∈ (w.nodes a).inputs
  · have e : w.addInput a s i = w := by unfold World.addInput; simp only [if_pos hm]
    rw [e]
    exact ⟨h2, h3, h4, h5, h6, h7, h8⟩
  · have e : w.addInput a s i = ⟨upd w.nodes a ⟨(w.nodes a).inputs ++ [(s, i)], (w.nodes a).updates, (w.nodes a).outDeps,
        (w.nodes a).intDeps, (w.nodes a).inDeps, (w.nodes a).dirDeps⟩, w.graphs, w.log.addInput a s i, w.off⟩ := by
      unfold World.addInput
      simp only [if_neg hm, World.write, World.set, ho, Bool.false_eq_true, if_false]
    rw [e]
    refine ⟨?_, ?_, ?_, ?_, ?_, ?_, h8⟩ <;> simp only [upd, Log.addInput] <;> grind

theorem bwd_step (w : World) (hf : Fwd w) (h : Bwd w) (op : Op) (hop : op ≠ .disable)
    (hg : (∀ a s i, op ≠ .removeInput a s i) ∧ ∀ a, op ≠ .destroy a) : Bwd (step w op) := by
  have h1 := hf.off
  obtain ⟨h2, h3, h4, h5, h6, h7, h8⟩ := h
  have hw : Bwd w := ⟨h2, h3, h4, h5, h6, h7, h8⟩
  cases op with
  | disable => exact absurd rfl hop
  | enable => exact ⟨h2, h3, h4, h5, h6, h7, h8⟩
  | registerUpdate a u fn =>
    by_cases hc : (w.nodes a).updates.any (fun p => decide (p.1 = u)) = true
    · simp only [step, if_pos hc]; exact hw
    · simp only [step, if_neg hc]
      refine ⟨?_, ?_, ?_, ?_, ?_, ?_, ?_⟩ <;>
        simp only [World.write, World.set, h1, Bool.false_eq_true, if_false, upd, Log.registerUpdate] <;> grind
  | addInput a s i => exact bwd_addInput w hw h1 a s i
  | removeInput a s i => exact absurd rfl (hg.1 a s i)
  | addOutputDependency a o u =>
    by_cases hc : (w.nodes a).dirDeps.any (fun p => decide (p.1 = o)) = true
    · simp only [step, if_pos hc]; exact hw
    · simp only [step, if_neg hc]
      refine ⟨?_, ?_, ?_, ?_, ?_, ?_, ?_⟩ <;>
        simp only [World.write, World.set, h1, Bool.false_eq_true, if_false, upd, Log.addOutputDependency] <;> grind
  | addInternalDependency a v u =>
    simp only [step]
    refine ⟨?_, ?_, ?_, ?_, ?_, ?_, ?_⟩ <;>
      simp only [World.write, World.set, h1, Bool.false_eq_true, if_false, upd, Log.addInternalDependency] <;> grind
  | addInputDependency a u s i =>
    simp only [step]
    have hw' := bwd_addInput w hw h1 a s i
    have h1 := (fwd_addInput w hf a s i).1.off
    generalize w.addInput a s i = w' at hw' h1
    obtain ⟨h2, h3, h4, h5, h6, h7, h8⟩ := hw'
    refine ⟨?_, ?_, ?_, ?_, ?_, ?_, ?_⟩ <;>
      simp only [World.write, World.set, h1, Bool.false_eq_true, if_false, upd, Log.addInputDependency] <;> grind
  | addDirectDependency a o s i =>
    by_cases hc : (w.nodes a).dirDeps.any (fun p => decide (p.1 = o)) = true
    · simp only [step, if_pos hc]; exact hw
    · by_cases hc' : (w.nodes a).outDeps.any (fun p => decide (p.1 = o)) = true
      · simp only [step, if_neg hc, if_pos hc']; exact hw
      · simp only [step, if_neg hc, if_neg hc']
        have hw' := bwd_addInput w hw h1 a s i
        have h1 := (fwd_addInput w hf a s i).1.off
        generalize w.addInput a s i = w' at hw' h1
        obtain ⟨h2, h3, h4, h5, h6, h7, h8⟩ := hw'
        refine ⟨?_, ?_, ?_, ?_, ?_, ?_, ?_⟩ <;>
          simp only [World.write, World.set, h1, Bool.false_eq_true, if_false, upd, Log.addDirectDependency] <;> grind
  | addGraph g a =>
    simp only [step]
    refine ⟨?_, ?_, ?_, ?_, ?_, ?_, ?_⟩ <;>
      simp only [World.write, h1, Bool.false_eq_true, if_false, upd, Log.addGraphOutput] <;> try assumption
    intro g' ps hp b hb
    by_cases hgg : g' = g
    · subst hgg
      simp only [if_true, Option.some.injEq, List.mem_append, List.mem_singleton] at hp ⊢
      subst hp
      rcases List.mem_append.mp hb with hb | hb
      · cases hq : w.log.graphs g' with
        | none => simp [hq] at hb
        | some qs =>
          rw [hq] at hb
          exact .inl (h8 g' qs hq b hb)
      · exact .inr (List.mem_singleton.mp hb)
    · simp only [if_neg hgg] at hp ⊢
      exact h8 g' ps hp b hb
  | destroy a => exact absurd rfl (hg.2 a)

theorem fwd_foldl : ∀ (ops : List Op) (w : World), Fwd w → On ops → Fwd (ops.foldl step w) := by
  intro ops
  induction ops with
  | nil => exact fun w h _ => h
  | cons op ops ih =>
    exact fun w h ho => ih _ (fwd_step w h op (ho op List.mem_cons_self)) fun o hm => ho o (List.mem_cons_of_mem _ hm)

theorem bwd_foldl : ∀ (ops : List Op) (w : World), Fwd w → Bwd w → On ops → Grows ops → Bwd (ops.foldl step w) := by
  intro ops
  induction ops with
  | nil => exact fun w _ h _ _ => h
  | cons op ops ih =>
    exact fun w hf h ho hg => ih _ (fwd_step w hf op (ho op List.mem_cons_self))
      (bwd_step w hf h op (ho op List.mem_cons_self) (hg op List.mem_cons_self))
      (fun o hm => ho o (List.mem_cons_of_mem _ hm)) fun o hm => hg o (List.mem_cons_of_mem _ hm)

theorem fwd_run (ops : List Op) (ho : On ops) : Fwd (run ops) :=
  fwd_foldl ops .init ⟨rfl, by simp [World.init, NodeS.empty], by simp [World.init, NodeS.empty],
    by simp [World.init, NodeS.empty], by simp [World.init, NodeS.empty], by simp [World.init, NodeS.empty],
    by simp [World.init, NodeS.empty], by simp [World.init], by simp [World.init], by simp [World.init]⟩ ho

theorem bwd_run (ops : List Op) (ho : On ops) (hg : Grows ops) : Bwd (run ops) :=
  bwd_foldl ops .init (fwd_run [] (by intro op h; cases h)) ⟨by simp [World.init], by simp [World.init],
    by simp [World.init], by simp [World.init], by simp [World.init], by simp [World.init], by simp [World.init]⟩ ho hg

theorem dep_link {w : World} (h : Fwd w) {v v' : Vtx} (hd : Dep w v v') : Link w.log v v' := by
  cases hd with
  | outUpd a o u hm => exact .outUpd ⟨u, o, a⟩ (h.outDeps a o u hm)
  | outOut a o s i hm => exact .outOut ⟨i, o, s, a⟩ (h.dirDeps a o s i hm)
  | updOut a u s i hm => exact .updOut ⟨i, u, s, a⟩ (h.inDeps a u s i hm)
  | updUpd a v u hm => exact .updUpd ⟨u, v, a⟩ (h.intDeps a v u hm)

theorem link_dep {w : World} (h : Bwd w) {v v' : Vtx} (hl : Link w.log v v') : Dep w v v' := by
  cases hl with
  | outUpd d hm => exact .outUpd _ _ _ (h.outDeps d hm)
  | outOut d hm => exact .outOut _ _ _ _ (h.dirDeps d hm)
  | updOut d hm => exact .updOut _ _ _ _ (h.inDeps d hm)
  | updUpd d hm => exact .updUpd _ _ _ (h.intDeps d hm)

theorem reach_mono {r r' : Vtx → Vtx → Prop} {s s' : Vtx → Prop} (hr : ∀ v v', r v v' → r' v v') (hs : ∀ v, s v → s' v)
    (v : Vtx) (hv : Reach r s v) : Reach r' s' v := by
  induction hv with
  | start v hv => exact .start v (hs v hv)
  | link v v' _ hl ih => exact .link v v' ih (hr v v' hl)

theorem wants_start {w : World} (h : Fwd w) (g : Nat) (v : Vtx) (hv : Wants w g v) : GStart w.log g v := by
  obtain ⟨a, ha, s, i, hm, rfl⟩ := hv
  obtain ⟨ps, hp, hq⟩ := h.graphs g a ha
  exact ⟨ps, hp, ⟨i, s, a⟩, h.inputs a s i hm, hq, rfl⟩

theorem start_wants {w : World} (h : Bwd w) (g : Nat) (v : Vtx) (hv : GStart w.log g v) : Wants w g v := by
  obtain ⟨ps, hp, i, hi, hq, rfl⟩ := hv
  exact ⟨i.owner, h.graphs g ps hp i.owner hq, i.source, i.id, h.inputs i hi, rfl⟩

/-- **C91 (nothing is left out).**  If the logger is never disabled, whatever else happened, the sub graph of a graph
contains every output and every update that the graph needs as the nodes are now. -/
theorem C91_covers (ops : List Op) (ho : On ops) (g : Nat) (os : List Out) (us : List Upd)
    (h : subGraph (run ops).log g = .done os us) (v : Vtx) (hv : Reach (Dep (run ops)) (Wants (run ops) g) v) :
    In os us v := by
  have hf := fwd_run ops ho
  exact ((((C91_graph (run ops).log g).2.1 os us h).2.2.1) v).mpr
    (reach_mono (fun _ _ => dep_link hf) (wants_start hf g) v hv)

/-- **C91 (and nothing more), partial.**  If moreover no input is removed and no node destroyed, the sub graph of a
graph is exactly what the graph needs, with the functions registered by the nodes; and asking for it throws when, and
only when, an update that is needed was not registered by its node. -/
theorem C91_exact_partial (ops : List Op) (ho : On ops) (hg : Grows ops) (g : Nat) :
    (∀ os us, subGraph (run ops).log g = .done os us →
      (∀ v, In os us v ↔ Reach (Dep (run ops)) (Wants (run ops) g) v) ∧
      ∀ u ∈ us, (u.id, u.fn) ∈ ((run ops).nodes u.owner).updates) ∧
    (subGraph (run ops).log g = .throw ↔ ∃ a i, Reach (Dep (run ops)) (Wants (run ops) g) (.upd a i) ∧
      ∀ fn, (i, fn) ∉ ((run ops).nodes a).updates) := by
  have hf := fwd_run ops ho
  have hb := bwd_run ops ho hg
  have hr : ∀ v, Reach (Link (run ops).log) (GStart (run ops).log g) v ↔ Reach (Dep (run ops)) (Wants (run ops) g) v :=
    fun v => ⟨reach_mono (fun _ _ => link_dep hb) (start_wants hb g) v,
      reach_mono (fun _ _ => dep_link hf) (wants_start hf g) v⟩
  obtain ⟨_, g2, g3⟩ := C91_graph (run ops).log g
  refine ⟨fun os us h => ⟨fun v => ?_, fun u hu => hb.updates u ((g2 os us h).2.2.2 u hu)⟩, ?_⟩
  · rw [← hr v]
    exact (g2 os us h).2.2.1 v
  · rw [g3]
    constructor
    · rintro ⟨v, hv, hm⟩
      cases hm with
      | update a i hn => exact ⟨a, i, (hr _).mp hv, fun fn hm => hn _ (hf.updates a i fn hm) ⟨rfl, rfl⟩⟩
      | direct d hd hn => exact absurd ⟨rfl, rfl, rfl⟩ (hn _ (hf.dirOk d hd))
      | input d hd hn => exact absurd ⟨rfl, rfl, rfl⟩ (hn _ (hf.inOk d hd))
    · rintro ⟨a, i, hv, hn⟩
      refine ⟨.upd a i, (hr _).mpr hv, .update a i ?_⟩
      rintro u hu ⟨rfl, rfl⟩
      exact hn _ (hb.updates u hu)

/-- **C91 (only updates can be missing).**  If the logger is never disabled, asking for a sub graph throws when, and
only when, an update that can be reached was never registered: no input is ever missing from the log. -/
theorem C91_inputs_logged (ops : List Op) (ho : On ops) (g : Nat) :
    subGraph (run ops).log g = .throw ↔ ∃ a i, Reach (Link (run ops).log) (GStart (run ops).log g) (.upd a i) ∧
      ∀ u ∈ (run ops).log.updates, ¬(u.owner = a ∧ u.id = i) := by
  have hf := fwd_run ops ho
  rw [(C91_graph (run ops).log g).2.2]
  constructor
  · rintro ⟨v, hv, hm⟩
    cases hm with
    | update a i hn => exact ⟨a, i, hv, hn⟩
    | direct d hd hn => exact absurd ⟨rfl, rfl, rfl⟩ (hn _ (hf.dirOk d hd))
    | input d hd hn => exact absurd ⟨rfl, rfl, rfl⟩ (hn _ (hf.inOk d hd))
  · rintro ⟨a, i, hv, hn⟩
    exact ⟨_, hv, .update a i hn⟩

/-! ## Concrete logs -/

def e0 : EnumVal := ⟨0, 0⟩
def e1 : EnumVal := ⟨1, 1⟩

/-- Node 1 computes an output with an update that needs an output of node 2, itself computed by an update that needs the
first output: a cycle; the graph 7 takes the output of node 1 through the inputs object 5. -/
def cyc : List Op :=
  [.registerUpdate 1 e0 10, .addOutputDependency 1 e0 e0, .registerUpdate 2 e1 20, .addOutputDependency 2 e1 e1,
    .addInputDependency 1 e0 2 e1, .addInputDependency 2 e1 1 e0, .addInput 5 1 e0, .addGraph 7 5]

example : On cyc ∧ Grows cyc := by
  constructor
  · intro op h
    simp only [cyc, List.mem_cons, List.not_mem_nil, or_false] at h
    rcases h with rfl | rfl | rfl | rfl | rfl | rfl | rfl | rfl <;> simp
  · intro op h
    simp only [cyc, List.mem_cons, List.not_mem_nil, or_false] at h
    rcases h with rfl | rfl | rfl | rfl | rfl | rfl | rfl | rfl <;> simp

/-- The search ends on the cycle and finds both outputs and both updates. -/
example : subGraph (run cyc).log 7 = .done [⟨e0, 1⟩, ⟨e1, 2⟩] [⟨e0, 10, 1⟩, ⟨e1, 20, 2⟩] := by decide

/-- An update is used but never registered: the search throws. -/
example : subGraph (run [.addOutputDependency 1 e0 e0, .addInput 5 1 e0, .addGraph 7 5]).log 7 = .throw := by decide

/-- **C91 (false in general: what is removed stays).**  An input that was removed is still in the sub graph: the graph
needs nothing any more, and the list still has the output and the update. -/
theorem C91_removed_false :
    let ops := [Op.registerUpdate 1 e0 10, .addOutputDependency 1 e0 e0, .addInput 5 1 e0, .addGraph 7 5,
      .removeInput 5 1 e0]
    On ops ∧ subGraph (run ops).log 7 = .done [⟨e0, 1⟩] [⟨e0, 10, 1⟩] ∧
    ∀ v, ¬Reach (Dep (run ops)) (Wants (run ops) 7) v := by
  refine ⟨?_, by decide, ?_⟩
  · intro op h
    simp only [List.mem_cons, List.not_mem_nil, or_false] at h
    rcases h with rfl | rfl | rfl | rfl | rfl <;> simp
  · intro v hv
    induction hv with
    | start v hv =>
      obtain ⟨a, ha, s, i, hm, _⟩ := hv
      have hn : ∀ a ∈ (run [Op.registerUpdate 1 e0 10, .addOutputDependency 1 e0 e0, .addInput 5 1 e0, .addGraph 7 5,
          .removeInput 5 1 e0]).graphs 7, ((run [Op.registerUpdate 1 e0 10, .addOutputDependency 1 e0 e0,
          .addInput 5 1 e0, .addGraph 7 5, .removeInput 5 1 e0]).nodes a).inputs = [] := by decide
      rw [hn a ha] at hm
      cases hm
    | link _ _ _ _ ih => exact ih

/-- **C91 (false in general: an address is used again).**  A node is destroyed and another one takes its address: the
sub graph gives the update of the node that no longer exists. -/
theorem C91_reused_false :
    let ops := [Op.registerUpdate 1 e0 10, .destroy 1, .registerUpdate 1 e0 99, .addOutputDependency 1 e0 e0,
      .addInput 5 1 e0, .addGraph 7 5]
    On ops ∧ subGraph (run ops).log 7 = .done [⟨e0, 1⟩] [⟨e0, 10, 1⟩] ∧ ((run ops).nodes 1).updates = [(e0, 99)] := by
  refine ⟨?_, by decide, by decide⟩
  intro op h
  simp only [List.mem_cons, List.not_mem_nil, or_false] at h
  rcases h with rfl | rfl | rfl | rfl | rfl | rfl <;> simp

/-- **C91 (false when the logger was disabled for a time).**  An input declared while the logger is disabled is not
logged later, when a dependency on it is: asking for the sub graph then throws, though every update is registered. -/
theorem C91_disabled_false :
    let ops := [Op.registerUpdate 1 e0 10, .addOutputDependency 1 e0 e0, .disable, .addInput 1 2 e1, .enable,
      .addInputDependency 1 e0 2 e1, .addInput 5 1 e0, .addGraph 7 5]
    subGraph (run ops).log 7 = .throw ∧ (e0, 10) ∈ ((run ops).nodes 1).updates := by
  decide

end Verif.C91
