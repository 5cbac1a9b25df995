import Verif.Model.NodeLifetime
import Verif.Properties.C14_CallGraph
/-!
# C118: the update graph of a problem only refers to nodes that exist
-/
set_option autoImplicit false

namespace Verif.C118
open Verif Verif.NL

/-! ## Specification -/

/-- The node has been told that it depends on the source. -/
def DependsOn (st : Nd.St) (s : Nat) : Prop :=
  (∃ o i, st.directDeps o = some (s, i)) ∨ ∃ u m l, st.inputDeps u = some m ∧ m s = some l

/-- The node keeps the source alive by a pointer other than `store_`, or is the source. -/
def Held (w : World) (n s : Nat) : Prop := s = n ∨ s ∈ w.member n

/-- The ways of using the graph for which the property holds. A dependency is declared with a shared pointer, or by reference to a
source that a data member of the node keeps, or to the node itself. What a node depends on is not withdrawn from its inputs, nor from its data
members if nothing else keeps it. If the addition of an input to the updater throws, it does so on its first output, or the source was an input. -/
def Kept (w : World) : Op → Prop
  | .declare n (.input sh _ _ _ s _ _) => sh = true ∨ Held w n s
  | .declare n (.direct sh _ _ _ s _) => sh = true ∨ Held w n s
  | .declare n (.inputs (.removeAll s)) => ¬ DependsOn (w.node n) s ∨ Held w n s
  | .declare n (.inputs (.removeSome s _ _)) => ¬ DependsOn (w.node n) s ∨ Held w n s
  | .drop n s => ¬ DependsOn (w.node n) s ∨ s = n ∨ (w.node n).ins.store s = true ∨ s ∈ (w.member n).erase s
  | .addInput en s i args => en i = false ∨ (∀ j ∈ i :: args, en j = true) ∨ w.root.store s = true
  | _ => True

/-- The states that a program reaches by doing what it can, and what `R` allows. -/
inductive Life (R : World → Op → Prop) : World → Prop where
  | start : Life R {}
  | step (w w' : World) (op : Op) : Life R w → w.Can op → R w op → w.step op = some w' → Life R w'

/-- What the construction of the plan visits, starting from the inputs: the outputs of sources (`CallGraph::addOutput`) and the updates of
nodes (`CallGraph::addCall`). -/
inductive Visited (net : CG.Net) (reqs : List (Nat × Nat)) : CG.Item → Prop where
  | req (p : Nat × Nat) : p ∈ reqs → Visited net reqs (.out p.1 p.2)
  | next (a b : CG.Item) : Visited net reqs a → C14.Follows net b a → Visited net reqs b

/-- The source that is read when an item is visited -/
def source : CG.Item → Nat
  | .out s _ => s
  | .call c => c.1

/-- Two descriptions are the same for a source. -/
def Same (net net' : CG.Net) (s : Nat) : Prop :=
  net'.isNode s = net.isNode s ∧ net'.outputDeps s = net.outputDeps s ∧ net'.directDeps s = net.directDeps s ∧
    net'.internalDeps s = net.internalDeps s ∧ net'.inputDeps s = net.inputDeps s

/-! ## Visits -/

theorem addUpdates_same {rec rec' : CG.Item → CG.CSt → Except CG.CErr (CG.CSt × List Nat)} (n : Nat) (us : List Nat)
    (h : ∀ u ∈ us, ∀ st, rec' (.call (n, u)) st = rec (.call (n, u)) st) (st : CG.CSt) :
    CG.addUpdates rec' n us st = CG.addUpdates rec n us st := by
  induction us generalizing st with
  | nil => rfl
  | cons u us ih =>
    simp only [CG.addUpdates]
    rw [h u List.mem_cons_self]
    cases rec (.call (n, u)) st with
    | error e => rfl
    | ok r => simp only; rw [ih (fun v hv => h v (List.mem_cons_of_mem _ hv))]

theorem addDeps_same {rec rec' : CG.Item → CG.CSt → Except CG.CErr (CG.CSt × List Nat)} (id : Nat) (l : List CG.Item)
    (h : ∀ i ∈ l, ∀ st, rec' i st = rec i st) (st : CG.CSt) : CG.addDeps rec' id l st = CG.addDeps rec id l st := by
  induction l generalizing st with
  | nil => rfl
  | cons i l ih =>
    simp only [CG.addDeps]
    rw [h i List.mem_cons_self]
    cases rec i st with
    | error e => rfl
    | ok r =>
      simp only
      cases CG.addEdges id r.2 r.1 with
      | error e => rfl
      | ok st => exact ih (fun v hv => h v (List.mem_cons_of_mem _ hv)) st

theorem go_same {net net' : CG.Net} {reqs : List (Nat × Nat)} (h : ∀ i, Visited net reqs i → Same net net' (source i)) (f : Nat) :
    ∀ i, Visited net reqs i → ∀ st, CG.go net' f i st = CG.go net f i st := by
  induction f with
  | zero => intro i _ st; rfl
  | succ f ih =>
    intro i hi st
    obtain ⟨e1, e2, e3, e4, e5⟩ := h i hi
    cases i with
    | out s o =>
      simp only [source] at e1 e2 e3
      simp only [CG.go, CG.addOutput, e1, e2, e3]
      cases st.visited (s, o) with
      | some ids => rfl
      | none =>
        simp only
        by_cases hn : net.isNode s = true
        · simp only [hn, if_true]
          cases ho : net.outputDeps s o with
          | some us =>
            simp only
            rw [addUpdates_same s us (fun u hu => ih _ (.next _ _ hi (.upd hn ho hu)))]
          | none =>
            simp only
            cases hd : net.directDeps s o with
            | some p => simp only; rw [ih _ (.next _ _ hi (.direct hn ho hd))]
            | none => rfl
        · simp only [hn]; rfl
    | call c =>
      simp only [source] at e4 e5
      have hd : CG.depItems net' c = CG.depItems net c := by simp only [CG.depItems, e4, e5]
      simp only [CG.go, CG.addCall, hd]
      cases st.callId c with
      | some id => rfl
      | none =>
        simp only
        rw [addDeps_same _ _ fun j hj => ih j (.next _ _ hi (C14.follows_dep hj))]

/-- The plan is made from the sources that are visited, and from no other: what the other sources contain does not matter, nor whether they
exist. -/
theorem C118_visits (net net' : CG.Net) (reqs : List (Nat × Nat)) (h : ∀ i, Visited net reqs i → Same net net' (source i)) (f : Nat)
    (st : CG.CSt) : CG.addInputs net' f reqs st = CG.addInputs net f reqs st := by
  have key : ∀ l, (∀ p ∈ l, p ∈ reqs) → ∀ st, CG.addInputs net' f l st = CG.addInputs net f l st := by
    intro l
    induction l with
    | nil => intro _ st; rfl
    | cons p l ih =>
      intro hl st
      simp only [CG.addInputs]
      rw [go_same h f _ (.req p (hl p List.mem_cons_self))]
      cases CG.go net f (.out p.1 p.2) st with
      | error e => rfl
      | ok r => exact ih (fun q hq => hl q (List.mem_cons_of_mem _ hq)) _
  exact key reqs (fun _ h => h) st

theorem needs_visited {net : CG.Net} {reqs : List (Nat × Nat)} {p : Nat × Nat} {c : CG.Call} (h : C14.Needs net p c) :
    Visited net reqs (.out p.1 p.2) → Visited net reqs (.call c) := by
  induction h with
  | upd hn ho hu => exact fun hv => .next _ _ hv (.upd hn ho hu)
  | direct hn ho hd _ ih => exact fun hv => ih (.next _ _ hv (.direct hn ho hd))

theorem dep_visited {net : CG.Net} {reqs : List (Nat × Nat)} {c c' : CG.Call} (h : C14.Dep net c c') (hv : Visited net reqs (.call c)) :
    Visited net reqs (.call c') := by
  cases h with
  | intern hu => exact .next _ _ hv (.intern hu)
  | input h1 h2 h3 => exact needs_visited h3 (.next _ _ hv (.input h1 h2))

theorem required_visited {net : CG.Net} {reqs : List (Nat × Nat)} {c : CG.Call} (h : C14.Required net reqs c) :
    Visited net reqs (.call c) := by
  obtain ⟨p, hp, c0, h0, h1⟩ := h
  induction h1 with
  | refl => exact needs_visited h0 (.req p hp)
  | tail _ hd ih => exact dep_visited hd ih

/-! ## Invariant -/

/-- The node is an input of the updater, or something that leads to an input depends on it. -/
inductive Rooted (w : World) : Nat → Prop where
  | root (n : Nat) : w.root.store n = true → Rooted w n
  | dep (m n : Nat) : Rooted w m → DependsOn (w.node m) n → Rooted w n

structure Inv (w : World) : Prop where
  dep : ∀ n s, DependsOn (w.node n) s → (w.node n).ins.store s = true ∨ Held w n s
  root : ∀ s l, w.root.inputs s = some l → w.root.store s = true
  plan : w.upToDate = true → ∀ n ∈ w.plan, Rooted w n

theorem rooted_exists {w : World} (hd : ∀ n s, DependsOn (w.node n) s → (w.node n).ins.store s = true ∨ Held w n s) {n : Nat}
    (h : Rooted w n) : w.Exists n := by
  induction h with
  | root n h => exact .root n h
  | dep m n _ hm ih =>
    rcases hd m n hm with h | rfl | h
    · exact .store m n ih h
    · exact ih
    · exact .member m n ih h

theorem upd_same {α : Type} (m : Nat → α) (k : Nat) (v : α) : Inp.upd m k v k = v := if_pos rfl
theorem upd_ne {α : Type} (m : Nat → α) {k j : Nat} (v : α) (h : j ≠ k) : Inp.upd m k v j = m j := if_neg h

/-! ### Functions of `Inputs` -/

theorem addRef_spec (en : Nat → Bool) (s : Nat) (is : List Nat) (st st' : Inp.St) (h : left (Inp.addRef en s is st) = some st') :
    st'.store = st.store ∧ ∀ j, j ≠ s → st'.inputs j = st.inputs j := by
  induction is generalizing st with
  | nil => simp only [Inp.addRef, left, Option.some.injEq] at h; subst h; exact ⟨rfl, fun _ _ => rfl⟩
  | cons i is ih =>
    simp only [Inp.addRef, Inp.addOne] at h
    by_cases hen : en i = true
    · simp only [hen, if_true] at h
      cases hl : st.inputs s with
      | none =>
        simp only [hl] at h
        obtain ⟨a, b⟩ := ih _ h
        exact ⟨a, fun j hj => (b j hj).trans (upd_ne _ _ hj)⟩
      | some l =>
        simp only [hl] at h
        obtain ⟨a, b⟩ := ih _ h
        exact ⟨a, fun j hj => (b j hj).trans (upd_ne _ _ hj)⟩
    · simp only [hen] at h
      simp only [left, Bool.false_eq_true, if_false, Option.some.injEq] at h
      subst h; exact ⟨rfl, fun _ _ => rfl⟩

theorem addRef_ok (en : Nat → Bool) (s : Nat) (is : List Nat) (he : ∀ j ∈ is, en j = true) (st : Inp.St) :
    ∃ st', Inp.addRef en s is st = .ok st' () := by
  induction is generalizing st with
  | nil => exact ⟨st, rfl⟩
  | cons i is ih =>
    simp only [Inp.addRef, Inp.addOne, he i List.mem_cons_self, if_true]
    cases st.inputs s with
    | none => exact ih (fun j hj => he j (List.mem_cons_of_mem _ hj)) _
    | some l => exact ih (fun j hj => he j (List.mem_cons_of_mem _ hj)) _

theorem addShared_spec (en : Nat → Bool) (s : Nat) (is : List Nat) (st st' : Inp.St) (h : left (Inp.addShared en s is st) = some st') :
    (∀ j, st.store j = true → st'.store j = true) ∧ (∀ j, j ≠ s → st'.inputs j = st.inputs j) := by
  simp only [Inp.addShared] at h
  cases hr : Inp.addRef en s is st with
  | ok r u =>
    rw [hr] at h
    simp only [left, Option.some.injEq] at h
    obtain ⟨a, b⟩ := addRef_spec en s is st r (by rw [hr]; rfl)
    subst h
    refine ⟨fun j hj => ?_, b⟩
    by_cases hjs : j = s
    · subst hjs; exact upd_same _ _ _
    · exact (upd_ne _ _ hjs).trans (a ▸ hj)
  | throw r =>
    rw [hr] at h
    simp only [left, Option.some.injEq] at h
    obtain ⟨a, b⟩ := addRef_spec en s is st r (by rw [hr]; rfl)
    subst h
    exact ⟨fun j hj => a ▸ hj, b⟩
  | ub => rw [hr] at h; cases h

theorem addShared_stored (en : Nat → Bool) (s : Nat) (is : List Nat) (st st' : Inp.St) (h : Inp.addShared en s is st = .ok st' ()) :
    st'.store s = true := by
  simp only [Inp.addShared] at h
  cases hr : Inp.addRef en s is st with
  | ok r u => rw [hr] at h; cases h; exact upd_same _ _ _
  | throw r => rw [hr] at h; cases h
  | ub => rw [hr] at h; cases h

theorem drop_store (s : Nat) (st : Inp.St) (j : Nat) (hj : j ≠ s) : (Inp.drop s st).store j = st.store j := by
  simp only [Inp.drop]
  split
  · exact upd_ne _ _ hj
  · rfl

/-- Only the removals of a source take it from `store_`. -/
theorem inp_store (op : Inp.Op) (st st' : Inp.St) (h : left (Inp.step op st) = some st') (j : Nat) (hj : st.store j = true) :
    st'.store j = true ∨ op = .removeAll j ∨ ∃ i args, op = .removeSome j i args := by
  cases op with
  | addRef en s i args => exact Or.inl ((addRef_spec en s _ st st' h).1 ▸ hj)
  | addShared en s i args => exact Or.inl ((addShared_spec en s _ st st' h).1 j hj)
  | removeAll s =>
    by_cases hjs : j = s
    · subst hjs; exact Or.inr (Or.inl rfl)
    · left
      simp only [Inp.step, Inp.removeAll] at h
      cases hl : st.inputs s with
      | none => simp only [hl, left, Option.some.injEq] at h; subst h; exact hj
      | some l => simp only [hl, left, Option.some.injEq] at h; subst h; exact (drop_store s st j hjs).trans hj
  | removeSome s i args =>
    by_cases hjs : j = s
    · subst hjs; exact Or.inr (Or.inr ⟨i, args, rfl⟩)
    · left
      simp only [Inp.step, Inp.removeSome] at h
      cases hl : st.inputs s with
      | none => simp only [hl, left, Option.some.injEq] at h; subst h; exact hj
      | some l =>
        simp only [hl] at h
        split at h
        · split at h
          · simp only [left, Option.some.injEq] at h; subst h; exact (drop_store s _ j hjs).trans hj
          · simp only [left, Option.some.injEq] at h; subst h; exact hj
        · simp only [left, Option.some.injEq] at h; subst h; exact hj

/-! ### Functions of the nodes -/

/-- A dependency on `s` was added, if any. -/
structure Adds (s : Nat) (st st' : Nd.St) : Prop where
  ins : st'.ins = st.ins
  old : ∀ j, DependsOn st j → DependsOn st' j
  new : ∀ j, DependsOn st' j → DependsOn st j ∨ j = s

theorem addInputDep_adds (u s i : Nat) (st : Nd.St) : Adds s st (Nd.addInputDep u s i st) := by
  have key : ∀ (m0 m1 : Nat → Option (List Nat)) (l : List Nat), (st.inputDeps u = some m0 ∨ (st.inputDeps u = none ∧ m0 = fun _ => none)) →
      m1 = Inp.upd m0 s (some l) → Adds s st { st with inputDeps := Inp.upd st.inputDeps u (some m1) } := by
    intro m0 m1 l h0 h1
    refine ⟨rfl, ?_, ?_⟩
    · rintro j (h | ⟨v, m, l', h, h'⟩)
      · exact Or.inl h
      · right
        by_cases hv : v = u
        · subst hv
          rcases h0 with h0 | ⟨h0, _⟩
          · rw [h0] at h; cases h
            by_cases hj : j = s
            · exact ⟨v, m1, l, upd_same _ _ _, by rw [h1, hj]; exact upd_same _ _ _⟩
            · exact ⟨v, m1, l', upd_same _ _ _, by rw [h1]; exact (upd_ne _ _ hj).trans h'⟩
          · rw [h0] at h; cases h
        · exact ⟨v, m, l', (upd_ne _ _ hv).trans h, h'⟩
    · rintro j (h | ⟨v, m, l', h, h'⟩)
      · exact Or.inl (Or.inl h)
      · by_cases hv : v = u
        · subst hv
          have h : some m1 = some m := (upd_same st.inputDeps v (some m1)).symm.trans h
          cases h
          by_cases hj : j = s
          · exact Or.inr hj
          · rw [h1] at h'
            have h' := (upd_ne m0 (some l) hj).symm.trans h'
            rcases h0 with h0 | ⟨_, h0⟩
            · exact Or.inl (Or.inr ⟨v, m0, l', h0, h'⟩)
            · rw [h0] at h'; cases h'
        · exact Or.inl (Or.inr ⟨v, m, l', (upd_ne st.inputDeps _ hv).symm.trans h, h'⟩)
  unfold Nd.addInputDep
  cases hu : st.inputDeps u with
  | none => exact key (fun _ => none) _ _ (Or.inr ⟨hu, rfl⟩) rfl
  | some m =>
    simp only
    cases m s with
    | none => exact key m _ _ (Or.inl hu) rfl
    | some l => exact key m _ _ (Or.inl hu) rfl

theorem addInputDeps_adds (u s : Nat) (is : List Nat) (st : Nd.St) : Adds s st (Nd.addInputDeps u s is st) := by
  induction is generalizing st with
  | nil => exact ⟨rfl, fun _ h => h, fun _ h => Or.inl h⟩
  | cons i is ih =>
    have h1 := addInputDep_adds u s i st
    have h2 := ih (Nd.addInputDep u s i st)
    exact ⟨h2.ins.trans h1.ins, fun j h => h2.old j (h1.old j h), fun j h => (h2.new j h).elim (h1.new j) Or.inr⟩

/-- `addInput` of a node: dependencies are as they were, the store grows, and has the source if the pointer is shared. -/
theorem addInput_spec (sh : Bool) (en : Nat → Bool) (s i : Nat) (st st' : Nd.St) (h : left (Nd.addInput sh en s i st) = some st') :
    (∀ j, DependsOn st' j ↔ DependsOn st j) ∧ (∀ j, st.ins.store j = true → st'.ins.store j = true) ∧
      (Nd.addInput sh en s i st = .ok st' () → sh = true → st'.ins.store s = true) := by
  unfold Nd.addInput at h ⊢
  cases sh with
  | true =>
    simp only [if_true] at h ⊢
    cases hr : Inp.addShared en s [i] st.ins with
    | ok r u =>
      rw [hr] at h; simp only [left, Option.some.injEq] at h; subst h
      exact ⟨fun j => Iff.rfl, (addShared_spec en s [i] st.ins r (by rw [hr]; rfl)).1, fun _ _ => addShared_stored en s [i] st.ins r hr⟩
    | throw r =>
      rw [hr] at h; simp only [left, Option.some.injEq] at h; subst h
      exact ⟨fun j => Iff.rfl, (addShared_spec en s [i] st.ins r (by rw [hr]; rfl)).1, fun h => by cases h⟩
    | ub => rw [hr] at h; cases h
  | false =>
    simp only [Bool.false_eq_true, if_false] at h ⊢
    cases hr : Inp.addRef en s [i] st.ins with
    | ok r u =>
      rw [hr] at h; simp only [left, Option.some.injEq] at h; subst h
      exact ⟨fun j => Iff.rfl, fun j hj => (addRef_spec en s [i] st.ins r (by rw [hr]; rfl)).1 ▸ hj, fun _ h => by cases h⟩
    | throw r =>
      rw [hr] at h; simp only [left, Option.some.injEq] at h; subst h
      exact ⟨fun j => Iff.rfl, fun j hj => (addRef_spec en s [i] st.ins r (by rw [hr]; rfl)).1 ▸ hj, fun h => by cases h⟩
    | ub => rw [hr] at h; cases h

/-- What a function of a node does to what it depends on and to its store. -/
structure Told (op : Nd.Op) (st st' : Nd.St) : Prop where
  old : ∀ j, DependsOn st j → DependsOn st' j
  new : ∀ j, DependsOn st' j → DependsOn st j ∨ (∃ sh e1 e2 u i a, op = .input sh e1 e2 u j i a ∧ (sh = true → st'.ins.store j = true)) ∨
    ∃ sh e1 e2 o i, op = .direct sh e1 e2 o j i ∧ (sh = true → st'.ins.store j = true)
  store : ∀ j, st.ins.store j = true → st'.ins.store j = true ∨ op = .inputs (.removeAll j) ∨ ∃ i a, op = .inputs (.removeSome j i a)

theorem told_eq (op : Nd.Op) {st st' : Nd.St} (h1 : st'.ins = st.ins) (h2 : st'.inputDeps = st.inputDeps) (h3 : st'.directDeps = st.directDeps) :
    Told op st st' := by
  have h : ∀ j, DependsOn st' j ↔ DependsOn st j := by intro j; simp only [DependsOn, h2, h3]
  exact ⟨fun j hj => (h j).mpr hj, fun j hj => Or.inl ((h j).mp hj), fun j hj => Or.inl (h1 ▸ hj)⟩

theorem registerUpdates_eq (enU : Nat → Bool) (l : List (Nat × Nat)) (st st' : Nd.St) (h : left (Nd.registerUpdates enU l st) = some st') :
    st'.ins = st.ins ∧ st'.inputDeps = st.inputDeps ∧ st'.directDeps = st.directDeps := by
  induction l generalizing st with
  | nil => simp only [Nd.registerUpdates, left, Option.some.injEq] at h; subst h; exact ⟨rfl, rfl, rfl⟩
  | cons p l ih =>
    simp only [Nd.registerUpdates, Nd.registerUpdate] at h
    by_cases h1 : enU p.1 = true
    · by_cases h2 : (st.updates p.1).isSome = true
      · simp only [h1, h2, if_true, left, Option.some.injEq] at h; subst h; exact ⟨rfl, rfl, rfl⟩
      · simp only [h1, h2, if_true, Bool.false_eq_true, if_false] at h; have hh := ih _ h; exact hh
    · simp only [h1] at h
      simp only [left, Bool.false_eq_true, if_false, Option.some.injEq] at h; subst h; exact ⟨rfl, rfl, rfl⟩

theorem addOutputDependencies_eq (enO : Nat → Bool) (l : List Nat) (u : Nat) (st st' : Nd.St)
    (h : left (Nd.addOutputDependencies enO l u st) = some st') :
    st'.ins = st.ins ∧ st'.inputDeps = st.inputDeps ∧ st'.directDeps = st.directDeps := by
  induction l generalizing st with
  | nil => simp only [Nd.addOutputDependencies, left, Option.some.injEq] at h; subst h; exact ⟨rfl, rfl, rfl⟩
  | cons p l ih =>
    simp only [Nd.addOutputDependencies, Nd.addOutputDependency] at h
    by_cases h1 : enO p = true
    · by_cases h2 : (st.directDeps p).isSome = true
      · simp only [h1, h2, if_true, left, Option.some.injEq] at h; subst h; exact ⟨rfl, rfl, rfl⟩
      · simp only [h1, h2, if_true, Bool.false_eq_true, if_false] at h; have hh := ih _ h; exact hh
    · simp only [h1] at h
      simp only [left, Bool.false_eq_true, if_false, Option.some.injEq] at h; subst h; exact ⟨rfl, rfl, rfl⟩

theorem nd_told (op : Nd.Op) (st st' : Nd.St) (h : left (Nd.step op st) = some st') : Told op st st' := by
  cases op with
  | register enU l => obtain ⟨a, b, c⟩ := registerUpdates_eq enU l st st' h; exact told_eq _ a b c
  | output enO os u => obtain ⟨a, b, c⟩ := addOutputDependencies_eq enO os u st st' h; exact told_eq _ a b c
  | internal enU u1 u2 =>
    simp only [Nd.step, Nd.addInternalDependency] at h
    split at h
    · split at h <;> (simp only [left, Option.some.injEq] at h; subst h; exact told_eq _ rfl rfl rfl)
    · simp only [left, Option.some.injEq] at h; subst h; exact told_eq _ rfl rfl rfl
  | input sh enU en u s i args =>
    simp only [Nd.step, Nd.addInputDependency] at h
    split at h
    · cases hr : Nd.addInput sh en s i st with
      | ok r v =>
        rw [hr] at h; simp only [left, Option.some.injEq] at h
        obtain ⟨a, b, c⟩ := addInput_spec sh en s i st r (by rw [hr]; rfl)
        have hA := addInputDeps_adds u s (i :: args) r
        rw [h] at hA
        refine ⟨fun j hj => hA.old j ((a j).mpr hj), fun j hj => ?_, fun j hj => Or.inl (hA.ins ▸ b j hj)⟩
        rcases hA.new j hj with h1 | rfl
        · exact Or.inl ((a j).mp h1)
        · exact Or.inr (Or.inl ⟨sh, enU, en, u, i, args, rfl, fun hs => hA.ins ▸ c hr hs⟩)
      | throw r =>
        rw [hr] at h; simp only [left, Option.some.injEq] at h; subst h
        obtain ⟨a, b, c⟩ := addInput_spec sh en s i st r (by rw [hr]; rfl)
        exact ⟨fun j hj => (a j).mpr hj, fun j hj => Or.inl ((a j).mp hj), fun j hj => Or.inl (b j hj)⟩
      | ub => rw [hr] at h; cases h
    · simp only [left, Option.some.injEq] at h; subst h; exact told_eq _ rfl rfl rfl
  | direct sh enO en o s i =>
    simp only [Nd.step, Nd.addDirectDependency] at h
    split at h
    · split at h
      · simp only [left, Option.some.injEq] at h; subst h; exact told_eq _ rfl rfl rfl
      · rename_i hno
        split at h
        · simp only [left, Option.some.injEq] at h; subst h; exact told_eq _ rfl rfl rfl
        · cases hr : Nd.addInput sh en s i st with
          | ok r v =>
            rw [hr] at h; simp only [left, Option.some.injEq] at h
            obtain ⟨a, b, c⟩ := addInput_spec sh en s i st r (by rw [hr]; rfl)
            have hrd : r.directDeps = st.directDeps := by
              unfold Nd.addInput at hr
              split at hr <;> cases hr <;> rfl
            subst h
            refine ⟨fun j hj => ?_, fun j hj => ?_, fun j hj => Or.inl (b j hj)⟩
            · rcases (a j).mpr hj with ⟨o', i', h1⟩ | h1
              · by_cases ho : o' = o
                · subst ho; rw [hrd] at h1; rw [h1] at hno; exact absurd rfl hno
                · exact Or.inl ⟨o', i', (upd_ne _ _ ho).trans h1⟩
              · exact Or.inr h1
            · rcases hj with ⟨o', i', h1⟩ | h1
              · by_cases ho : o' = o
                · subst ho
                  have h1 := (upd_same r.directDeps o' (some (s, i))).symm.trans h1
                  cases h1
                  exact Or.inr (Or.inr ⟨sh, enO, en, o', i, rfl, fun hs => c hr hs⟩)
                · exact Or.inl ((a j).mp (Or.inl ⟨o', i', (upd_ne r.directDeps _ ho).symm.trans h1⟩))
              · exact Or.inl ((a j).mp (Or.inr h1))
          | throw r =>
            rw [hr] at h; simp only [left, Option.some.injEq] at h; subst h
            obtain ⟨a, b, c⟩ := addInput_spec sh en s i st r (by rw [hr]; rfl)
            exact ⟨fun j hj => (a j).mpr hj, fun j hj => Or.inl ((a j).mp hj), fun j hj => Or.inl (b j hj)⟩
          | ub => rw [hr] at h; cases h
    · simp only [left, Option.some.injEq] at h; subst h; exact told_eq _ rfl rfl rfl
  | inputs op =>
    simp only [Nd.step] at h
    cases hr : Inp.step op st.ins with
    | ok r v =>
      rw [hr] at h; simp only [left, Option.some.injEq] at h; subst h
      refine ⟨fun _ h => h, fun _ h => Or.inl h, fun j hj => ?_⟩
      rcases inp_store op st.ins r (by rw [hr]; rfl) j hj with h | rfl | ⟨i, a, rfl⟩
      · exact Or.inl h
      · exact Or.inr (Or.inl rfl)
      · exact Or.inr (Or.inr ⟨i, a, rfl⟩)
    | throw r =>
      rw [hr] at h; simp only [left, Option.some.injEq] at h; subst h
      refine ⟨fun _ h => h, fun _ h => Or.inl h, fun j hj => ?_⟩
      rcases inp_store op st.ins r (by rw [hr]; rfl) j hj with h | rfl | ⟨i, a, rfl⟩
      · exact Or.inl h
      · exact Or.inr (Or.inl rfl)
      · exact Or.inr (Or.inr ⟨i, a, rfl⟩)
    | ub => rw [hr] at h; cases h

/-! ### Preservation -/

theorem visited_rooted {w : World} (hi : Inv w) {net : CG.Net} {reqs : List (Nat × Nat)} (hc : w.Can (.refresh net 0 reqs)) {it : CG.Item}
    (h : Visited net reqs it) : Rooted w (source it) := by
  obtain ⟨ha, hr⟩ := hc
  induction h with
  | req p hp => obtain ⟨l, h, _⟩ := hr p hp; exact .root _ (hi.root _ _ h)
  | next a b _ hf ih =>
    cases hf with
    | upd _ _ _ => exact ih
    | direct _ _ hd => exact .dep _ _ ih (Or.inl ⟨_, _, ha.direct _ _ _ _ hd⟩)
    | intern _ => exact ih
    | input h1 _ => obtain ⟨m, h2, h3⟩ := ha.input _ _ _ _ h1; exact .dep _ _ ih (Or.inr ⟨_, m, _, h2, h3⟩)

theorem rooted_mono {w w' : World} {n : Nat} (h1 : ∀ n, w.root.store n = true → w'.root.store n = true)
    (h2 : ∀ m, Rooted w m → ∀ n, DependsOn (w.node m) n → DependsOn (w'.node m) n) (h : Rooted w n) : Rooted w' n := by
  induction h with
  | root n h => exact .root n (h1 n h)
  | dep m n hm hd ih => exact .dep m n ih (h2 m hm n hd)

theorem inv_start : Inv {} := by
  refine ⟨fun n s h => ?_, fun s l h => (by cases h), fun h => (by cases h)⟩
  rcases h with ⟨_, _, h⟩ | ⟨_, _, _, h, _⟩ <;> cases h

theorem inv_step {w w' : World} {op : Op} (hi : Inv w) (hc : w.Can op) (hk : Kept w op) (h : w.step op = some w') : Inv w' := by
  have keep : ∀ w1 : World, w1.node = w.node → w1.member = w.member → w1.root = w.root → w1.plan = w.plan → w1.upToDate = w.upToDate →
      Inv w1 := by
    intro w1 e1 e2 e3 e4 e5
    refine ⟨fun n s hd => ?_, fun s l hl => ?_, fun hu n hn => ?_⟩
    · rw [e1] at hd ⊢; simp only [Held, e2]; exact hi.dep n s hd
    · rw [e3] at hl ⊢; exact hi.root s l hl
    · rw [e5] at hu; rw [e4] at hn
      exact rooted_mono (w := w) (fun n hn => by rw [e3]; exact hn) (fun m _ n hn => by rw [e1]; exact hn) (hi.plan hu n hn)
  cases op with
  | make n =>
    cases h
    refine ⟨fun m s hd => ?_, hi.root, fun hu m hm => ?_⟩
    · by_cases hmn : m = n
      · subst hmn
        simp only [upd_same] at hd
        rcases hd with ⟨_, _, h⟩ | ⟨_, _, _, h, _⟩ <;> cases h
      · simp only [upd_ne _ _ hmn, Held] at hd ⊢
        exact hi.dep m s hd
    · refine rooted_mono (w := w) (fun _ h => h) (fun k hk j hj => ?_) (hi.plan hu m hm)
      have : k ≠ n := fun e => hc (e ▸ rooted_exists hi.dep hk)
      simp only [upd_ne _ _ this]; exact hj
  | copy n => cases h; exact keep _ rfl rfl rfl rfl rfl
  | release n => cases h; exact keep _ rfl rfl rfl rfl rfl
  | hold n s =>
    cases h
    refine ⟨fun m j hd => ?_, hi.root, fun hu m hm => rooted_mono (w := w) (fun _ h => h) (fun _ _ _ h => h) (hi.plan hu m hm)⟩
    rcases hi.dep m j hd with h | h | h
    · exact Or.inl h
    · exact Or.inr (Or.inl h)
    · refine Or.inr (Or.inr ?_)
      by_cases hmn : m = n
      · subst hmn; simp only [upd_same]; exact List.mem_cons_of_mem _ h
      · simp only [upd_ne _ _ hmn]; exact h
  | drop n s =>
    cases h
    refine ⟨fun m j hd => ?_, hi.root, fun hu m hm => rooted_mono (w := w) (fun _ h => h) (fun _ _ _ h => h) (hi.plan hu m hm)⟩
    have hd : DependsOn (w.node m) j := hd
    by_cases hmn : m = n
    · subst hmn
      by_cases hjs : j = s
      · subst hjs
        rcases hk with h | h | h | h
        · exact absurd hd h
        · exact Or.inr (Or.inl h)
        · exact Or.inl h
        · refine Or.inr (Or.inr ?_); simp only [upd_same]; exact h
      · rcases hi.dep m j hd with h | h | h
        · exact Or.inl h
        · exact Or.inr (Or.inl h)
        · refine Or.inr (Or.inr ?_); simp only [upd_same]; exact (List.mem_erase_of_ne hjs).mpr h
    · rcases hi.dep m j hd with h | h | h
      · exact Or.inl h
      · exact Or.inr (Or.inl h)
      · refine Or.inr (Or.inr ?_); simp only [upd_ne _ _ hmn]; exact h
  | declare n op =>
    simp only [World.step, Option.map_eq_some_iff] at h
    obtain ⟨st, hst, rfl⟩ := h
    have ht := nd_told op _ _ hst
    refine ⟨fun m j hd => ?_, hi.root, fun hu m hm => ?_⟩
    · by_cases hmn : m = n
      · subst hmn
        simp only [upd_same] at hd ⊢
        rcases ht.new j hd with h | ⟨sh, e1, e2, u, i, a, rfl, h⟩ | ⟨sh, e1, e2, o, i, rfl, h⟩
        · rcases hi.dep m j h with h1 | h1
          · rcases ht.store j h1 with h2 | rfl | ⟨i, a, rfl⟩
            · exact Or.inl h2
            · exact Or.inr (Or.resolve_left hk (fun hn => hn h))
            · exact Or.inr (Or.resolve_left hk (fun hn => hn h))
          · exact Or.inr h1
        · exact (show sh = true ∨ Held w m j from hk).imp h id
        · exact (show sh = true ∨ Held w m j from hk).imp h id
      · simp only [upd_ne _ _ hmn] at hd ⊢
        exact hi.dep m j hd
    · refine rooted_mono (w := w) (fun _ h => h) (fun k _ j hj => ?_) (hi.plan hu m hm)
      by_cases hkn : k = n
      · subst hkn; simp only [upd_same]; exact ht.old j hj
      · simp only [upd_ne _ _ hkn]; exact hj
  | addInput en s i args =>
    simp only [World.step, World.addInput] at h
    cases hr : Inp.addShared en s (i :: args) w.root with
    | ok r u =>
      rw [hr] at h; cases h
      obtain ⟨a, b⟩ := addShared_spec en s _ w.root r (by rw [hr]; rfl)
      refine ⟨hi.dep, fun j l hl => ?_, fun hu => by cases hu⟩
      by_cases hj : j = s
      · subst hj; exact addShared_stored en j _ w.root r hr
      · exact a j (hi.root j l ((b j hj).symm.trans hl))
    | throw r =>
      rw [hr] at h; cases h
      obtain ⟨a, b⟩ := addShared_spec en s _ w.root r (by rw [hr]; rfl)
      refine ⟨hi.dep, fun j l hl => ?_, fun hu m hm => rooted_mono (w := w) a (fun _ _ _ h => h) (hi.plan hu m hm)⟩
      by_cases hj : j = s
      · subst hj
        rcases hk with h | h | h
        · simp only [Inp.addShared, Inp.addRef, Inp.addOne, h, Bool.false_eq_true, if_false] at hr
          cases hr
          exact hi.root j l hl
        · obtain ⟨st', h'⟩ := addRef_ok en j (i :: args) h w.root
          simp only [Inp.addShared, h'] at hr; cases hr
        · exact a j h
      · exact a j (hi.root j l ((b j hj).symm.trans hl))
    | ub => rw [hr] at h; cases h
  | removeInput s =>
    simp only [World.step, World.removeInput, Inp.removeAll] at h
    cases hl : w.root.inputs s with
    | none => rw [hl] at h; cases h; exact hi
    | some l =>
      rw [hl] at h; cases h
      refine ⟨hi.dep, fun j l hl => ?_, fun hu => by cases hu⟩
      by_cases hj : j = s
      · subst hj
        have : (none : Option (List Nat)) = some l := (upd_same _ _ _).symm.trans hl
        cases this
      · exact (drop_store s w.root j hj).trans (hi.root j l ((upd_ne w.root.inputs none hj).symm.trans hl))
  | refresh net f reqs =>
    simp only [World.step, World.refresh] at h
    split at h
    · cases h; exact hi
    · rename_i hup
      cases hA : CG.addInputs net f reqs (CG.clear {}) with
      | error e => rw [hA] at h; cases h
      | ok st =>
        rw [hA] at h
        simp only at h
        cases hU : CG.update st with
        | ub => rw [hU] at h; cases h
        | throw st' =>
          rw [hU] at h; cases h
          exact ⟨hi.dep, hi.root, fun hu => absurd hu hup⟩
        | ok st' u =>
          rw [hU] at h; cases h
          refine ⟨hi.dep, hi.root, fun _ n hn => ?_⟩
          simp only [List.mem_map] at hn
          obtain ⟨c, hc', rfl⟩ := hn
          have hreach : C14.Reach net st (reqs ++ []) := .add f reqs .init hA
          rw [List.append_nil] at hreach
          have hreq := (C14.C14_plan_sound hreach hU).2.1 c hc'
          exact rooted_mono (w := w) (fun _ h => h) (fun _ _ _ h => h) (visited_rooted hi hc (required_visited hreq))

theorem life_inv {w : World} (h : Life Kept w) : Inv w := by
  induction h with
  | start => exact inv_start
  | step w w' op _ hc hk hs ih => exact inv_step ih hc hk hs

/-! ## Theorems -/

/-- When the plan is made, all the sources that are visited exist. -/
theorem C118_refresh_partial {w : World} (h : Life Kept w) (net : CG.Net) (f : Nat) (reqs : List (Nat × Nat))
    (hc : w.Can (.refresh net f reqs)) (it : CG.Item) (hv : Visited net reqs it) : w.Exists (source it) :=
  rooted_exists (life_inv h).dep (visited_rooted (life_inv h) hc hv)

/-- As long as the updater is up to date, the plan only calls nodes that exist. -/
theorem C118_run_partial {w : World} (h : Life Kept w) (hu : w.upToDate = true) (n : Nat) (hn : n ∈ w.plan) : w.Exists n :=
  rooted_exists (life_inv h).dep ((life_inv h).plan hu n hn)

/-- `refresh` then `run`, as in the first update of a problem after a change: whatever happened before, the nodes called exist, also when
`refresh` throws, for then the plan is empty. -/
theorem C118_update_partial {w w' : World} (h : Life Kept w) (net : CG.Net) (f : Nat) (reqs : List (Nat × Nat))
    (hc : w.Can (.refresh net f reqs)) (hs : w.step (.refresh net f reqs) = some w') (n : Nat) (hn : n ∈ w'.plan) : w'.Exists n := by
  have h' : Life Kept w' := .step w w' _ h hc trivial hs
  by_cases hu : w'.upToDate = true
  · exact C118_run_partial h' hu n hn
  · simp only [World.step, World.refresh] at hs
    split at hs
    · rename_i hup; cases hs; exact absurd hup hu
    · cases hA : CG.addInputs net f reqs (CG.clear {}) with
      | error e => rw [hA] at hs; cases hs
      | ok st =>
        rw [hA] at hs
        simp only at hs
        cases hU : CG.update st with
        | ub => rw [hU] at hs; cases hs
        | ok st' u => rw [hU] at hs; cases hs; exact absurd rfl hu
        | throw st' =>
          rw [hU] at hs; cases hs
          have : st'.plan = [] := by
            unfold CG.update at hU
            split at hU
            · cases hU
            · cases hU; rfl
            · split at hU <;> cases hU
          simp only [this] at hn
          cases hn

/-- What exists and is an input of the updater: every input given and not removed since is kept, with all that it depends upon, whatever
pointers the program drops. -/
theorem C118_inputs_partial {w : World} (h : Life Kept w) (s : Nat) (l : List Nat) (hs : w.root.inputs s = some l) (n : Nat)
    (hn : Relation.ReflTransGen (fun m n => DependsOn (w.node m) n) s n) : w.Exists n := by
  refine rooted_exists (life_inv h).dep ?_
  induction hn with
  | refl => exact .root _ ((life_inv h).root s l hs)
  | tail _ hd ih => exact .dep _ _ ih hd

/-! ## Examples and counterexamples -/

/-- What exists is in any set that has the pointers of the program and of the updater and is closed by those of its nodes. -/
theorem exists_sub {w : World} (P : Nat → Prop) (h1 : ∀ n ∈ w.prog, P n) (h2 : ∀ n, w.root.store n = true → P n)
    (h3 : ∀ m n, P m → (w.node m).ins.store n = true → P n) (h4 : ∀ m n, P m → n ∈ w.member m → P n) {n : Nat} (h : w.Exists n) : P n := by
  induction h with
  | prog n h => exact h1 n h
  | root n h => exact h2 n h
  | store m n _ h ih => exact h3 m n ih h
  | member m n _ h ih => exact h4 m n ih h

/-- All the outputs and updates are enabled. -/
def all : Nat → Bool := fun _ => true

def next (w : World) (op : Op) : World := (w.step op).getD {}

/-- Two nodes are created. -/
def a1 : World := next {} (.make 1)
def a2 : World := next a1 (.make 0)

theorem a2_life (R : World → Op → Prop) (h : ∀ w n, R w (.make n)) : Life R a2 := by
  refine .step a1 _ (.make 0) (.step {} _ (.make 1) .start ?_ (h _ _) rfl) ?_ (h _ _) rfl
  · exact exists_sub (fun _ => False) (fun n h => by cases h) (fun n h => by cases h) (fun _ _ h => h.elim) (fun _ _ h => h.elim)
  · intro h
    have := exists_sub (fun n => n = 1) (fun n h => by simpa [a1, next, World.step] using h) (fun n h => by cases h)
      (fun m n hm h => by subst hm; cases h) (fun m n hm h => by subst hm; cases h) h
    cases this

/-- The first computes its output 0 by its update 0. -/
def a3 : World := next a2 (.declare 0 (.output all [0] 0))
/-- The update depends on the output 0 of the second, given by shared pointer. -/
def a4 : World := next a3 (.declare 0 (.input true all all 0 1 0 []))
/-- The output is an input of the updater, and the program drops its pointers. -/
def a5 : World := next a4 (.addInput all 0 0 [])
def a6 : World := next a5 (.release 0)
def a7 : World := next a6 (.release 1)

/-- The nodes as described in `a4` -/
def net : CG.Net := ⟨fun _ => true, fun n o => if n = 0 ∧ o = 0 then some [0] else none, fun _ _ => none, fun _ _ => [],
  fun n u => if n = 0 ∧ u = 0 then [(1, [0])] else []⟩

theorem a2_exists : a2.Exists 0 ∧ a2.Exists 1 :=
  ⟨.prog 0 (by decide), .prog 1 (by decide)⟩

theorem a3_life (R : World → Op → Prop) (h : ∀ w n, R w (.make n)) (h' : ∀ w n e l u, R w (.declare n (.output e l u))) : Life R a3 :=
  .step a2 _ (.declare 0 (.output all [0] 0)) (a2_life R h) ⟨a2_exists.1, fun s h => (by cases h)⟩ (h' _ _ _ _ _) rfl

theorem a3_exists : a3.Exists 0 ∧ a3.Exists 1 := ⟨.prog 0 (by decide), .prog 1 (by decide)⟩

theorem a5_life : Life Kept a5 := by
  have h4 : Life Kept a4 := .step a3 _ (.declare 0 (.input true all all 0 1 0 [])) (a3_life Kept (fun _ _ => trivial) (fun _ _ _ _ _ => trivial))
    ⟨a3_exists.1, fun s h => by cases h; exact a3_exists.2⟩ (Or.inl rfl) rfl
  exact .step a4 _ (.addInput all 0 0 []) h4 (.prog 0 (by decide)) (Or.inr (Or.inl (fun _ _ => rfl))) rfl

theorem a7_life : Life Kept a7 :=
  .step a6 _ (.release 1) (.step a5 _ (.release 0) a5_life (by show (0 : Nat) ∈ a5.prog; decide) trivial rfl)
    (by show (1 : Nat) ∈ a6.prog; decide) trivial rfl

theorem a7_agrees : a7.Agrees net := by
  refine ⟨fun n o s i h => (by cases h), fun n u s os h => ?_⟩
  simp only [net] at h
  split at h
  · rename_i e
    obtain ⟨rfl, rfl⟩ := e
    simp only [List.mem_singleton, Prod.mk.injEq] at h
    obtain ⟨rfl, rfl⟩ := h
    exact ⟨_, rfl, rfl⟩
  · cases h

theorem net_visited : Visited net [(0, 0)] (.out 1 0) := by
  have h1 : Visited net [(0, 0)] (.out 0 0) := .req (0, 0) List.mem_cons_self
  have h2 : Visited net [(0, 0)] (.call (0, 0)) := .next _ _ h1 (.upd (us := [0]) rfl rfl List.mem_cons_self)
  exact .next _ _ h2 (.input (c := (0, 0)) (os := [0]) (by decide) List.mem_cons_self)

/-- The plan is made after the program has dropped its pointers. -/
def a8 : World := next a7 (.refresh net 10 [(0, 0)])

theorem a7_can : a7.Can (.refresh net 10 [(0, 0)]) := by
  refine ⟨a7_agrees, fun p hp => ?_⟩
  simp only [List.mem_singleton] at hp
  subst hp
  exact ⟨[0], rfl, List.mem_cons_self⟩

/-- The case is not trivial: the program has no pointer left, and the plan calls the node 0, and visits the node 1. -/
example : Life Kept a8 ∧ a8.prog = [] ∧ a8.upToDate = true ∧ a8.plan = [0] ∧ a7.Exists 1 :=
  ⟨.step a7 _ (.refresh net 10 [(0, 0)]) a7_life a7_can trivial (by rfl), by rfl, by rfl, by rfl,
    C118_refresh_partial a7_life net 10 [(0, 0)] a7_can _ net_visited⟩

/-- Without conditions -/
def Free (_ : World) (_ : Op) : Prop := True

theorem life_free {w : World} (h : Life Kept w) : Life Free w := by
  induction h with
  | start => exact .start
  | step w w' op _ hc _ hs ih => exact .step w w' op ih hc trivial hs

/-- The property is false when a node removes an input it depends upon: the dependency stays, and nothing keeps the source. -/
theorem C118_remove_false : ∃ w net f reqs it, Life Free w ∧ w.Can (.refresh net f reqs) ∧ Visited net reqs it ∧ ¬ w.Exists (source it) := by
  let w := next a7 (.declare 0 (.inputs (.removeAll 1)))
  have h0 : a7.Exists 0 := .root 0 rfl
  have hw : Life Free w := .step a7 _ (.declare 0 (.inputs (.removeAll 1))) (life_free a7_life) ⟨h0, fun s h => by cases h; exact .store 0 1 h0 rfl⟩ trivial rfl
  refine ⟨w, net, 10, [(0, 0)], .out 1 0, hw, ⟨⟨fun n o s i h => (by cases h), fun n u s os h => ?_⟩, a7_can.2⟩, net_visited, fun h => ?_⟩
  · obtain ⟨m, h1, h2⟩ := a7_agrees.input n u s os h
    refine ⟨m, ?_, h2⟩
    by_cases hn : n = 0
    · subst hn; exact h1
    · rw [← h1]; exact congrArg (fun st : Nd.St => st.inputDeps u) (upd_ne a7.node _ hn)
  · have hs : (1 : Nat) = 0 := exists_sub (fun n => n = 0) (fun n h => by cases h)
      (fun n h => by
        by_cases hn : n = 0
        · exact hn
        · have : w.root.store n = false := (upd_ne _ _ hn).trans rfl
          rw [this] at h; cases h)
      (fun m n hm h => by
        subst hm
        by_cases hn : n = 1
        · subst hn; cases h
        · have : (w.node 0).ins.store n = false := (upd_ne _ _ hn).trans (upd_ne _ _ hn)
          rw [this] at h; cases h)
      (fun m n hm h => by subst hm; cases h) h
    cases hs

/-- The property is false when a dependency is declared by reference to a source that the node does not keep. -/
theorem C118_reference_false :
    ∃ w net f reqs it, Life Free w ∧ w.Can (.refresh net f reqs) ∧ Visited net reqs it ∧ ¬ w.Exists (source it) := by
  let b4 := next a3 (.declare 0 (.input false all all 0 1 0 []))
  let b5 := next b4 (.addInput all 0 0 [])
  let w := next b5 (.release 1)
  have h4 : Life Free b4 := .step a3 _ (.declare 0 (.input false all all 0 1 0 [])) (a3_life Free (fun _ _ => trivial) (fun _ _ _ _ _ => trivial))
    ⟨a3_exists.1, fun s h => by cases h; exact a3_exists.2⟩ trivial rfl
  have h5 : Life Free b5 := .step b4 _ (.addInput all 0 0 []) h4 (.prog 0 (by decide)) trivial rfl
  have hw : Life Free w := .step b5 _ (.release 1) h5 (by show (1 : Nat) ∈ b5.prog; decide) trivial rfl
  refine ⟨w, net, 10, [(0, 0)], .out 1 0, hw, ⟨⟨fun n o s i h => (by cases h), fun n u s os h => ?_⟩, a7_can.2⟩, net_visited, fun h => ?_⟩
  · simp only [net] at h
    split at h
    · rename_i e
      obtain ⟨rfl, rfl⟩ := e
      simp only [List.mem_singleton, Prod.mk.injEq] at h
      obtain ⟨rfl, rfl⟩ := h
      exact ⟨_, rfl, rfl⟩
    · cases h
  · have hs : (1 : Nat) = 0 := exists_sub (fun n => n = 0) (fun n h => List.mem_singleton.mp h)
      (fun n h => by
        by_cases hn : n = 0
        · exact hn
        · have : w.root.store n = false := (upd_ne _ _ hn).trans rfl
          rw [this] at h; cases h)
      (fun m n hm h => by subst hm; cases h)
      (fun m n hm h => by subst hm; cases h) h
    cases hs

/-- The property is false when the addition of an input to the updater throws on an output that is not the first: the source stays in
`inputs_`, and is not in `store_`. -/
theorem C118_throw_false :
    ∃ w net f reqs it, Life Free w ∧ w.Can (.refresh net f reqs) ∧ Visited net reqs it ∧ ¬ w.Exists (source it) := by
  let en : Nat → Bool := fun i => decide (i = 0)
  let b3 := next a2 (.addInput en 1 0 [1])
  let w := next b3 (.release 1)
  have h3 : Life Free b3 := .step a2 _ (.addInput en 1 0 [1]) (a2_life Free (fun _ _ => trivial)) a2_exists.2 trivial rfl
  have hw : Life Free w := .step b3 _ (.release 1) h3 (by show (1 : Nat) ∈ b3.prog; decide) trivial rfl
  let n0 : CG.Net := ⟨fun _ => false, fun _ _ => none, fun _ _ => none, fun _ _ => [], fun _ _ => []⟩
  refine ⟨w, n0, 10, [(1, 0)], .out 1 0, hw, ⟨⟨fun n o s i h => (by cases h), fun n u s os h => by cases h⟩, fun p hp => ?_⟩,
    .req (1, 0) List.mem_cons_self, fun h => ?_⟩
  · simp only [List.mem_singleton] at hp
    subst hp
    exact ⟨[0], rfl, List.mem_cons_self⟩
  · have hs : (1 : Nat) = 0 := exists_sub (fun n => n = 0) (fun n h => List.mem_singleton.mp h) (fun n h => by cases h)
      (fun m n hm h => by subst hm; cases h) (fun m n hm h => by subst hm; cases h) h
    cases hs

/-- When the updater is not up to date, the plan may call a node that is destroyed: an input was removed, and `refresh` was not called
since. -/
theorem C118_stale_false : ∃ w n, Life Kept w ∧ n ∈ w.plan ∧ ¬ w.Exists n := by
  let w := next a8 (.removeInput 0)
  have h8 : Life Kept a8 := .step a7 _ (.refresh net 10 [(0, 0)]) a7_life a7_can trivial (by rfl)
  have hw : Life Kept w := .step a8 _ (.removeInput 0) h8 (.root 0 (by rfl)) trivial (by rfl)
  refine ⟨w, 0, hw, by show (0 : Nat) ∈ [0]; decide, fun h => ?_⟩
  exact exists_sub (fun _ => False) (fun n h => by have : n ∈ ([] : List Nat) := h; cases this)
    (fun n h => by
      by_cases hn : n = 0
      · subst hn; have : false = true := h; cases this
      · have : w.root.store n = false := (upd_ne _ _ hn).trans (upd_ne _ _ hn)
        rw [this] at h; cases h)
    (fun _ _ h => h.elim) (fun _ _ h => h.elim) h

end Verif.C118
