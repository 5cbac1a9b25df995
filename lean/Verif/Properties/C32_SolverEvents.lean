import Verif.Model.SolverEvents
/-!
# C32: solver events cancel correctly

Specification: a sequence of additions and removals of elements of a set, applied one by one. Only legal sequences are
considered: an element is added when absent and removed when present.
-/
set_option autoImplicit false

namespace Verif.SE

/-! ## Specification -/

/-- An elementary change of a set: addition or removal of an element. -/
inductive Change (α : Type) where
  | add (x : α)
  | remove (x : α)

/-- The set after one change. -/
def Change.on {α : Type} (S : α → Prop) : Change α → α → Prop
  | .add x => fun y => S y ∨ y = x
  | .remove x => fun y => S y ∧ y ≠ x

/-- The set after a sequence of changes applied one by one. -/
def after {α : Type} (S : α → Prop) : List (Change α) → α → Prop
  | [] => S
  | c :: l => after (c.on S) l

/-- A change is legal for the set `S`. -/
def Change.Legal {α : Type} (S : α → Prop) : Change α → Prop
  | .add x => ¬ S x
  | .remove x => S x

/-- A sequence of changes each legal when it arises. -/
def LegalSeq {α : Type} (S : α → Prop) : List (Change α) → Prop
  | [] => True
  | c :: l => c.Legal S ∧ LegalSeq (c.on S) l

/-- What the recorded lists should say: they are the two differences between the initial and the final set. -/
structure Net {α : Type} (S T : α → Prop) (added removed : List α) : Prop where
  nodupA : added.Nodup
  nodupR : removed.Nodup
  memA : ∀ x, x ∈ added ↔ (T x ∧ ¬ S x)
  memR : ∀ x, x ∈ removed ↔ (S x ∧ ¬ T x)

/-- Changes of the set of constraints in a sequence of notifications. -/
def consOf : List Op → List (Change Cstr)
  | [] => []
  | .addConstraint c :: l => .add c :: consOf l
  | .removeConstraint c :: l => .remove c :: consOf l
  | _ :: l => consOf l

/-- Changes of the set of bounds. -/
def boundsOf : List Op → List (Change Cstr)
  | [] => []
  | .addBound c :: l => .add c :: boundsOf l
  | .removeBound c :: l => .remove c :: boundsOf l
  | _ :: l => boundsOf l

/-- Changes of the set of objectives. -/
def objsOf : List Op → List (Change Cstr)
  | [] => []
  | .addObjective o :: l => .add o.c :: objsOf l
  | .removeObjective c :: l => .remove c :: objsOf l
  | _ :: l => objsOf l

/-- Changes of the set of variables. -/
def varsOf : List Op → List (Change Nat)
  | [] => []
  | .addVariable v :: l => .add v :: varsOf l
  | .removeVariable v :: l => .remove v :: varsOf l
  | _ :: l => varsOf l

/-! ## One step -/

theorem net_add {α : Type} [DecidableEq α] {S T : α → Prop} {a r : List α} (h : Net S T a r) (x : α) (hx : ¬ T x) :
    Net S ((Change.add x).on T) (addIfPair x a r).1 (addIfPair x a r).2.1 := by
  obtain ⟨h1, h2, h3, h4⟩ := h
  unfold addIfPair
  by_cases hm : x ∈ r
  · rw [if_pos hm]
    have hS : S x := ((h4 x).1 hm).1
    refine ⟨h1, h2.erase x, fun y => ?_, fun y => ?_⟩
    · rw [h3]
      simp only [Change.on]
      grind
    · rw [h2.mem_erase_iff, h4]
      simp only [Change.on]
      grind
  · rw [if_neg hm]
    have hS : ¬ S x := fun hs => hm ((h4 x).2 ⟨hs, hx⟩)
    have hxa : x ∉ a := fun ha => hx ((h3 x).1 ha).1
    refine ⟨?_, h2, fun y => ?_, fun y => ?_⟩
    · rw [List.nodup_append]
      refine ⟨h1, by simp, ?_⟩
      intro b hb c hc
      simp only [List.mem_singleton] at hc
      subst hc
      rintro rfl
      exact hxa hb
    · simp only [List.mem_append, List.mem_singleton, h3, Change.on]
      grind
    · rw [h4]
      simp only [Change.on]
      grind

theorem net_remove {α : Type} [DecidableEq α] {S T : α → Prop} {a r : List α} (h : Net S T a r) (x : α) (hx : T x) :
    Net S ((Change.remove x).on T) (addIfPair x r a).2.1 (addIfPair x r a).1 := by
  obtain ⟨h1, h2, h3, h4⟩ := h
  unfold addIfPair
  by_cases hm : x ∈ a
  · rw [if_pos hm]
    refine ⟨h1.erase x, h2, fun y => ?_, fun y => ?_⟩
    · rw [h1.mem_erase_iff, h3]
      simp only [Change.on]
      grind
    · rw [h4]
      have := (h3 x).1 hm
      simp only [Change.on]
      grind
  · rw [if_neg hm]
    have hS : S x := Classical.byContradiction fun hs => hm ((h3 x).2 ⟨hx, hs⟩)
    have hxr : x ∉ r := fun ha => ((h4 x).1 ha).2 hx
    refine ⟨h1, ?_, fun y => ?_, fun y => ?_⟩
    · rw [List.nodup_append]
      refine ⟨h2, by simp, ?_⟩
      intro b hb c hc
      simp only [List.mem_singleton] at hc
      subst hc
      rintro rfl
      exact hxr hb
    · rw [h3]
      simp only [Change.on]
      grind
    · simp only [List.mem_append, List.mem_singleton, h4, Change.on]
      grind

theorem Net.refl {α : Type} (S : α → Prop) : Net S S [] [] :=
  ⟨by simp, by simp, fun x => by simp, fun x => by simp⟩

/-! ## Constraints, bounds, variables -/

theorem net_cons (ops : List Op) : ∀ (S T : Cstr → Prop) (s : SolverEvents),
    Net S T s.addedConstraints s.removedConstraints → LegalSeq T (consOf ops) →
    Net S (after T (consOf ops)) (run s ops).addedConstraints (run s ops).removedConstraints := by
  induction ops with
  | nil => intro S T s h _; exact h
  | cons o l ih =>
    intro S T s h hl
    show Net S _ (run (apply s o) l).addedConstraints (run (apply s o) l).removedConstraints
    cases o with
    | addConstraint c => exact ih S _ _ (net_add h c hl.1) hl.2
    | removeConstraint c => exact ih S _ _ (net_remove h c hl.1) hl.2
    | addObjective o =>
      refine ih S _ _ ?_ hl
      simp only [apply, addObjective]; split <;> exact h
    | removeObjective o =>
      refine ih S _ _ ?_ hl
      simp only [apply, removeObjective]; split <;> exact h
    | _ => exact ih S _ _ h hl

theorem net_bounds (ops : List Op) : ∀ (S T : Cstr → Prop) (s : SolverEvents),
    Net S T s.addedBounds s.removedBounds → LegalSeq T (boundsOf ops) →
    Net S (after T (boundsOf ops)) (run s ops).addedBounds (run s ops).removedBounds := by
  induction ops with
  | nil => intro S T s h _; exact h
  | cons o l ih =>
    intro S T s h hl
    show Net S _ (run (apply s o) l).addedBounds (run (apply s o) l).removedBounds
    cases o with
    | addBound c => exact ih S _ _ (net_add h c hl.1) hl.2
    | removeBound c => exact ih S _ _ (net_remove h c hl.1) hl.2
    | addObjective o =>
      refine ih S _ _ ?_ hl
      simp only [apply, addObjective]; split <;> exact h
    | removeObjective o =>
      refine ih S _ _ ?_ hl
      simp only [apply, removeObjective]; split <;> exact h
    | _ => exact ih S _ _ h hl

theorem net_vars (ops : List Op) : ∀ (S T : Nat → Prop) (s : SolverEvents),
    Net S T s.addedVariables s.removedVariables → LegalSeq T (varsOf ops) →
    Net S (after T (varsOf ops)) (run s ops).addedVariables (run s ops).removedVariables := by
  induction ops with
  | nil => intro S T s h _; exact h
  | cons o l ih =>
    intro S T s h hl
    show Net S _ (run (apply s o) l).addedVariables (run (apply s o) l).removedVariables
    cases o with
    | addVariable c => exact ih S _ _ (net_add h c hl.1) hl.2
    | removeVariable c => exact ih S _ _ (net_remove h c hl.1) hl.2
    | addObjective o =>
      refine ih S _ _ ?_ hl
      simp only [apply, addObjective]; split <;> exact h
    | removeObjective o =>
      refine ih S _ _ ?_ hl
      simp only [apply, removeObjective]; split <;> exact h
    | _ => exact ih S _ _ h hl

/-! ## Objectives -/

theorem map_eraseObj (c : Cstr) (l : List Objective) : (eraseObj c l).map (·.c) = (l.map (·.c)).erase c := by
  induction l with
  | nil => rfl
  | cons o l ih =>
    simp only [eraseObj, List.map_cons]
    by_cases h : o.c = c
    · rw [if_pos h, h, List.erase_cons_head]
    · rw [if_neg h, List.erase_cons_tail (by simpa using h), List.map_cons, ih]

theorem addObjective_pair (s : SolverEvents) (o : Objective) :
    (addObjective s o).addedObjectives.map (·.c)
        = (addIfPair o.c (s.addedObjectives.map (·.c)) s.removedObjectives).1 ∧
      (addObjective s o).removedObjectives
        = (addIfPair o.c (s.addedObjectives.map (·.c)) s.removedObjectives).2.1 := by
  simp only [addObjective, addIfPair]
  split <;> simp

theorem removeObjective_pair (s : SolverEvents) (c : Cstr) :
    (removeObjective s c).addedObjectives.map (·.c)
        = (addIfPair c s.removedObjectives (s.addedObjectives.map (·.c))).2.1 ∧
      (removeObjective s c).removedObjectives
        = (addIfPair c s.removedObjectives (s.addedObjectives.map (·.c))).1 := by
  simp only [removeObjective, addIfPair]
  split <;> simp [map_eraseObj]

theorem net_objs (ops : List Op) : ∀ (S T : Cstr → Prop) (s : SolverEvents),
    Net S T (s.addedObjectives.map (·.c)) s.removedObjectives → LegalSeq T (objsOf ops) →
    Net S (after T (objsOf ops)) ((run s ops).addedObjectives.map (·.c)) (run s ops).removedObjectives := by
  induction ops with
  | nil => intro S T s h _; exact h
  | cons o l ih =>
    intro S T s h hl
    show Net S _ ((run (apply s o) l).addedObjectives.map (·.c)) (run (apply s o) l).removedObjectives
    cases o with
    | addObjective o =>
      refine ih S _ _ ?_ hl.2
      obtain ⟨e1, e2⟩ := addObjective_pair s o
      simp only [apply, e1, e2]
      exact net_add h o.c hl.1
    | removeObjective c =>
      refine ih S _ _ ?_ hl.2
      obtain ⟨e1, e2⟩ := removeObjective_pair s c
      simp only [apply, e1, e2]
      exact net_remove h c hl.1
    | _ => exact ih S _ _ h hl

/-! ## The property -/

/-- **C32.** For every interleaving of notifications legal for the initial sets of constraints, bounds, objectives and
variables, the lists recorded are, without repetition, exactly the differences between the initial sets and the sets
obtained by applying the notifications one by one. -/
theorem C32_net_differences (ops : List Op) (C B O : Cstr → Prop) (V : Nat → Prop)
    (hC : LegalSeq C (consOf ops)) (hB : LegalSeq B (boundsOf ops)) (hO : LegalSeq O (objsOf ops))
    (hV : LegalSeq V (varsOf ops)) :
    Net C (after C (consOf ops)) (run {} ops).addedConstraints (run {} ops).removedConstraints ∧
    Net B (after B (boundsOf ops)) (run {} ops).addedBounds (run {} ops).removedBounds ∧
    Net O (after O (objsOf ops)) ((run {} ops).addedObjectives.map (·.c)) (run {} ops).removedObjectives ∧
    Net V (after V (varsOf ops)) (run {} ops).addedVariables (run {} ops).removedVariables :=
  ⟨net_cons ops C C {} (Net.refl C) hC, net_bounds ops B B {} (Net.refl B) hB,
    net_objs ops O O {} (Net.refl O) hO, net_vars ops V V {} (Net.refl V) hV⟩

/-- **C32**, consequence in the words of the property: the recorded lists are disjoint and removing the removed
elements and adding the added ones gives the same set as the notifications one by one. -/
theorem C32_apply {α : Type} {S T : α → Prop} {added removed : List α} (h : Net S T added removed) :
    (∀ x, x ∈ added → x ∉ removed) ∧ ∀ x, T x ↔ ((S x ∧ x ∉ removed) ∨ x ∈ added) := by
  obtain ⟨_, _, h3, h4⟩ := h
  refine ⟨fun x ha hr => ((h4 x).1 hr).2 ((h3 x).1 ha).1, fun x => ?_⟩
  rw [h3, h4]
  refine ⟨fun h => ?_, ?_⟩
  · by_cases hs : S x
    · exact Or.inl ⟨hs, fun hn => hn.2 h⟩
    · exact Or.inr ⟨h, hs⟩
  · rintro (⟨hs, hn⟩ | h)
    · exact Classical.byContradiction fun ht => hn ⟨hs, ht⟩
    · exact h.1

/-! ## Weight events -/

theorem addScalar_spec (c : Cstr) (l : List WeightEvent) (hn : (l.map (·.c)).Nodup) :
    ((addScalar c l).map (·.c)).Nodup ∧
    (∀ e, e ∈ addScalar c l ↔ (e.c ≠ c ∧ e ∈ l) ∨
      (e.c = c ∧ e.scalar = true ∧ (⟨c, true, e.vector⟩ ∈ l ∨ ⟨c, false, e.vector⟩ ∈ l ∨
        (c ∉ l.map (·.c) ∧ e.vector = false)))) := by
  induction l with
  | nil =>
    refine ⟨by simp [addScalar], fun e => ?_⟩
    cases e
    simp only [addScalar, List.mem_singleton, WeightEvent.mk.injEq, List.not_mem_nil, and_false, List.map_nil,
      not_false_eq_true, true_and, false_or]
  | cons a l ih =>
    simp only [List.map_cons, List.nodup_cons] at hn
    obtain ⟨hn1, hn2⟩ := hn
    obtain ⟨i1, i2⟩ := ih hn2
    simp only [addScalar]
    by_cases h : a.c = c
    · rw [if_pos h]
      subst h
      refine ⟨by simpa using ⟨by simpa using hn1, hn2⟩, fun e => ?_⟩
      have hnot : ∀ e ∈ l, e.c ≠ a.c := by
        intro e he hc
        exact hn1 (by rw [← hc]; exact List.mem_map_of_mem he)
      obtain ⟨ac, as, av⟩ := a
      obtain ⟨ec, es, ev⟩ := e
      simp only [List.mem_cons, WeightEvent.mk.injEq, List.map_cons] at hnot ⊢
      constructor
      · rintro (⟨rfl, rfl, rfl⟩ | h)
        · refine Or.inr ⟨rfl, rfl, ?_⟩
          cases as <;> simp
        · exact Or.inl ⟨hnot _ h, Or.inr h⟩
      · rintro (⟨h1, h2⟩ | ⟨rfl, rfl, h⟩)
        · rcases h2 with ⟨rfl, _⟩ | h2
          · exact absurd rfl h1
          · exact Or.inr h2
        · left
          rcases h with (⟨_, _, rfl⟩ | h) | (⟨_, _, rfl⟩ | h) | h
          · exact ⟨rfl, rfl, rfl⟩
          · exact absurd rfl (hnot _ h)
          · exact ⟨rfl, rfl, rfl⟩
          · exact absurd rfl (hnot _ h)
          · simp at h
    · rw [if_neg h]
      have hmem : ∀ x, x ∈ (addScalar c l).map (·.c) → x = c ∨ x ∈ l.map (·.c) := by
        intro x hx
        obtain ⟨e, he, rfl⟩ := List.mem_map.1 hx
        rcases (i2 e).1 he with ⟨_, h⟩ | ⟨h, _⟩
        · exact Or.inr (List.mem_map_of_mem h)
        · exact Or.inl h
      refine ⟨?_, fun e => ?_⟩
      · simp only [List.map_cons, List.nodup_cons]
        refine ⟨fun hx => ?_, i1⟩
        rcases hmem _ hx with h' | h'
        · exact h h'
        · exact hn1 h'
      · simp only [List.mem_cons, i2, List.map_cons]
        have hne : c ≠ a.c := fun h' => h h'.symm
        constructor
        · rintro (rfl | ⟨h1, h2⟩ | ⟨h1, h2, h3⟩)
          · exact Or.inl ⟨h, Or.inl rfl⟩
          · exact Or.inl ⟨h1, Or.inr h2⟩
          · refine Or.inr ⟨h1, h2, ?_⟩
            grind
        · rintro (⟨h1, rfl | h2⟩ | ⟨h1, h2, h3⟩)
          · exact Or.inl rfl
          · exact Or.inr (Or.inl ⟨h1, h2⟩)
          · refine Or.inr (Or.inr ⟨h1, h2, ?_⟩)
            grind

theorem addVector_spec (c : Cstr) (l : List WeightEvent) (hn : (l.map (·.c)).Nodup) :
    ((addVector c l).map (·.c)).Nodup ∧
    (∀ e, e ∈ addVector c l ↔ (e.c ≠ c ∧ e ∈ l) ∨
      (e.c = c ∧ e.vector = true ∧ (⟨c, e.scalar, true⟩ ∈ l ∨ ⟨c, e.scalar, false⟩ ∈ l ∨
        (c ∉ l.map (·.c) ∧ e.scalar = false)))) := by
  induction l with
  | nil =>
    refine ⟨by simp [addVector], fun e => ?_⟩
    cases e
    simp only [addVector, List.mem_singleton, WeightEvent.mk.injEq, List.not_mem_nil, and_false, List.map_nil,
      not_false_eq_true, true_and, false_or]
    grind
  | cons a l ih =>
    simp only [List.map_cons, List.nodup_cons] at hn
    obtain ⟨hn1, hn2⟩ := hn
    obtain ⟨i1, i2⟩ := ih hn2
    simp only [addVector]
    by_cases h : a.c = c
    · rw [if_pos h]
      subst h
      refine ⟨by simpa using ⟨by simpa using hn1, hn2⟩, fun e => ?_⟩
      have hnot : ∀ e ∈ l, e.c ≠ a.c := by
        intro e he hc
        exact hn1 (by rw [← hc]; exact List.mem_map_of_mem he)
      obtain ⟨ac, as, av⟩ := a
      obtain ⟨ec, es, ev⟩ := e
      simp only [List.mem_cons, WeightEvent.mk.injEq, List.map_cons] at hnot ⊢
      constructor
      · rintro (⟨rfl, rfl, rfl⟩ | h)
        · refine Or.inr ⟨rfl, rfl, ?_⟩
          cases av <;> simp
        · exact Or.inl ⟨hnot _ h, Or.inr h⟩
      · rintro (⟨h1, h2⟩ | ⟨rfl, rfl, h⟩)
        · rcases h2 with ⟨rfl, _⟩ | h2
          · exact absurd rfl h1
          · exact Or.inr h2
        · left
          rcases h with (⟨_, rfl, _⟩ | h) | (⟨_, rfl, _⟩ | h) | h
          · exact ⟨rfl, rfl, rfl⟩
          · exact absurd rfl (hnot _ h)
          · exact ⟨rfl, rfl, rfl⟩
          · exact absurd rfl (hnot _ h)
          · simp at h
    · rw [if_neg h]
      have hmem : ∀ x, x ∈ (addVector c l).map (·.c) → x = c ∨ x ∈ l.map (·.c) := by
        intro x hx
        obtain ⟨e, he, rfl⟩ := List.mem_map.1 hx
        rcases (i2 e).1 he with ⟨_, h⟩ | ⟨h, _⟩
        · exact Or.inr (List.mem_map_of_mem h)
        · exact Or.inl h
      refine ⟨?_, fun e => ?_⟩
      · simp only [List.map_cons, List.nodup_cons]
        refine ⟨fun hx => ?_, i1⟩
        rcases hmem _ hx with h' | h'
        · exact h h'
        · exact hn1 h'
      · simp only [List.mem_cons, i2, List.map_cons]
        have hne : c ≠ a.c := fun h' => h h'.symm
        constructor
        · rintro (rfl | ⟨h1, h2⟩ | ⟨h1, h2, h3⟩)
          · exact Or.inl ⟨h, Or.inl rfl⟩
          · exact Or.inl ⟨h1, Or.inr h2⟩
          · refine Or.inr ⟨h1, h2, ?_⟩
            grind
        · rintro (⟨h1, rfl | h2⟩ | ⟨h1, h2, h3⟩)
          · exact Or.inl rfl
          · exact Or.inr (Or.inl ⟨h1, h2⟩)
          · refine Or.inr (Or.inr ⟨h1, h2, ?_⟩)
            grind

/-- What the list of weight events should be after the notifications `ops`. -/
structure Weights (ops : List Op) (we : List WeightEvent) : Prop where
  one : (we.map (·.c)).Nodup
  mem : ∀ e, e ∈ we ↔ (Op.scalarWeight e.c ∈ ops ∨ Op.vectorWeight e.c ∈ ops) ∧
    (e.scalar = true ↔ Op.scalarWeight e.c ∈ ops) ∧ (e.vector = true ↔ Op.vectorWeight e.c ∈ ops)

theorem Weights.mem_map {ops : List Op} {we : List WeightEvent} (h : Weights ops we) (c : Cstr) :
    c ∈ we.map (·.c) ↔ (Op.scalarWeight c ∈ ops ∨ Op.vectorWeight c ∈ ops) := by
  rw [List.mem_map]
  constructor
  · rintro ⟨e, he, rfl⟩
    exact ((h.mem e).1 he).1
  · intro hc
    refine ⟨⟨c, decide (Op.scalarWeight c ∈ ops), decide (Op.vectorWeight c ∈ ops)⟩, (h.mem _).2 ⟨hc, ?_, ?_⟩, rfl⟩ <;>
      simp

theorem Weights.scalar {ops : List Op} {we : List WeightEvent} (h : Weights ops we) (c : Cstr) :
    Weights (ops ++ [.scalarWeight c]) (addScalar c we) := by
  obtain ⟨a1, a2⟩ := addScalar_spec c we h.one
  refine ⟨a1, fun e => ?_⟩
  rw [a2, h.mem_map, h.mem, h.mem, h.mem]
  obtain ⟨ec, es, ev⟩ := e
  simp only [List.mem_append, List.mem_singleton, Op.scalarWeight.injEq, reduceCtorEq, or_false]
  by_cases hc : ec = c
  · subst hc
    cases es <;> cases ev <;> by_cases h1 : Op.scalarWeight ec ∈ ops <;> by_cases h2 : Op.vectorWeight ec ∈ ops <;>
      simp [h1, h2]
  · simp [hc]

theorem Weights.vector {ops : List Op} {we : List WeightEvent} (h : Weights ops we) (c : Cstr) :
    Weights (ops ++ [.vectorWeight c]) (addVector c we) := by
  obtain ⟨a1, a2⟩ := addVector_spec c we h.one
  refine ⟨a1, fun e => ?_⟩
  rw [a2, h.mem_map, h.mem, h.mem, h.mem]
  obtain ⟨ec, es, ev⟩ := e
  simp only [List.mem_append, List.mem_singleton, Op.vectorWeight.injEq, reduceCtorEq, or_false]
  by_cases hc : ec = c
  · subst hc
    cases es <;> cases ev <;> by_cases h1 : Op.scalarWeight ec ∈ ops <;> by_cases h2 : Op.vectorWeight ec ∈ ops <;>
      simp [h1, h2]
  · simp [hc]

theorem Weights.other {ops : List Op} {we : List WeightEvent} (h : Weights ops we) (o : Op)
    (h1 : ∀ c, o ≠ .scalarWeight c) (h2 : ∀ c, o ≠ .vectorWeight c) : Weights (ops ++ [o]) we := by
  refine ⟨h.one, fun e => ?_⟩
  rw [h.mem]
  have e1 : ∀ c, Op.scalarWeight c ∈ ops ++ [o] ↔ Op.scalarWeight c ∈ ops := fun c => by
    simp [(h1 c).symm]
  have e2 : ∀ c, Op.vectorWeight c ∈ ops ++ [o] ↔ Op.vectorWeight c ∈ ops := fun c => by
    simp [(h2 c).symm]
  rw [e1, e2]

/-- **C32, weights.** After any sequence of notifications there is exactly one weight event for each constraint whose
weights changed, with the two flags telling which kinds of weight changed. -/
theorem C32_weight_events (ops : List Op) : Weights ops (run {} ops).weightEvents := by
  have key : ∀ (l pre : List Op) (s : SolverEvents), Weights pre s.weightEvents →
      Weights (pre ++ l) (run s l).weightEvents := by
    intro l
    induction l with
    | nil => intro pre s h; simpa [run] using h
    | cons o l ih =>
      intro pre s h
      have : Weights (pre ++ [o]) (apply s o).weightEvents := by
        cases o with
        | scalarWeight c => exact h.scalar c
        | vectorWeight c => exact h.vector c
        | addObjective o =>
          have e : (apply s (.addObjective o)).weightEvents = s.weightEvents := by
            simp only [apply, addObjective]; split <;> rfl
          rw [e]
          exact h.other _ (fun c => by simp) (fun c => by simp)
        | removeObjective o =>
          have e : (apply s (.removeObjective o)).weightEvents = s.weightEvents := by
            simp only [apply, removeObjective]; split <;> rfl
          rw [e]
          exact h.other _ (fun c => by simp) (fun c => by simp)
        | _ => exact h.other _ (fun c => by simp) (fun c => by simp)
      have := ih (pre ++ [o]) (apply s o) this
      simpa [run] using this
  have := key ops [] {} ⟨by simp, fun e => by simp⟩
  simpa using this

/-! ## Variables moved inside the vector -/

/-- **C32, hidden changes.** The mapping of the variables is recomputed if and only if some variable was added or
removed, even when the notifications cancel one another. -/
theorem C32_need_mapping (ops : List Op) :
    needMappingUpdate (run {} ops) = true ↔ ∃ v, Op.addVariable v ∈ ops ∨ Op.removeVariable v ∈ ops := by
  have set : ∀ (o : Op) (s : SolverEvents) (v : Nat), o = .addVariable v ∨ o = .removeVariable v →
      needMappingUpdate (apply s o) = true := by
    rintro o s v (rfl | rfl)
    · simp only [apply, addVariable, addIfPair, needMappingUpdate]
      by_cases hm : v ∈ s.removedVariables <;> simp [hm]
    · simp only [apply, removeVariable, addIfPair, needMappingUpdate]
      by_cases hm : v ∈ s.addedVariables <;> simp [hm]
  have same : ∀ (o : Op) (s : SolverEvents), (∀ v, o ≠ .addVariable v) → (∀ v, o ≠ .removeVariable v) →
      needMappingUpdate (apply s o) = needMappingUpdate s := by
    intro o s h1 h2
    cases o with
    | addObjective o => simp only [apply, addObjective]; split <;> rfl
    | removeObjective o => simp only [apply, removeObjective]; split <;> rfl
    | addVariable v => exact absurd rfl (h1 v)
    | removeVariable v => exact absurd rfl (h2 v)
    | _ => rfl
  have key : ∀ (l : List Op) (s : SolverEvents), needMappingUpdate (run s l) = true ↔
      (needMappingUpdate s = true ∨ ∃ v, Op.addVariable v ∈ l ∨ Op.removeVariable v ∈ l) := by
    intro l
    induction l with
    | nil => intro s; simp [run]
    | cons o l ih =>
      intro s
      show needMappingUpdate (run (apply s o) l) = true ↔ _
      rw [ih]
      by_cases hv : ∃ v, o = .addVariable v ∨ o = .removeVariable v
      · obtain ⟨v, hv⟩ := hv
        have : needMappingUpdate (apply s o) = true := set o s v hv
        refine ⟨fun _ => Or.inr ⟨v, ?_⟩, fun _ => Or.inl this⟩
        rcases hv with rfl | rfl <;> simp
      · rw [same o s (fun v h => hv ⟨v, Or.inl h⟩) (fun v h => hv ⟨v, Or.inr h⟩)]
        have : ∀ v, (Op.addVariable v ∈ o :: l ∨ Op.removeVariable v ∈ o :: l) ↔
            (Op.addVariable v ∈ l ∨ Op.removeVariable v ∈ l) := by
          intro v
          simp only [List.mem_cons]
          grind
        simp only [this]
  rw [key]
  simp [needMappingUpdate]

/-! ## The data of an objective -/

/-- The notification concerns the objective `c`. -/
def Op.onObjective (c : Cstr) : Op → Prop
  | .addObjective o => o.c = c
  | .removeObjective d => d = c
  | _ => False

theorem mem_eraseObj (c : Cstr) (l : List Objective) (hn : (l.map (·.c)).Nodup) (o : Objective) :
    o ∈ eraseObj c l ↔ (o ∈ l ∧ o.c ≠ c) := by
  induction l with
  | nil => simp [eraseObj]
  | cons a l ih =>
    simp only [List.map_cons, List.nodup_cons] at hn
    simp only [eraseObj]
    by_cases h : a.c = c
    · rw [if_pos h]
      have : ∀ o ∈ l, o.c ≠ c := by
        intro o ho hc
        exact hn.1 (by rw [h, ← hc]; exact List.mem_map_of_mem ho)
      grind
    · rw [if_neg h]
      simp only [List.mem_cons, ih hn.2]
      grind

/-- The data recorded for an objective are those of the last notification about it, which is an addition. -/
theorem C32_objective_data (ops : List Op) (O : Cstr → Prop) (h : LegalSeq O (objsOf ops)) :
    ∀ o ∈ (run {} ops).addedObjectives,
      ∃ l₁ l₂, ops = l₁ ++ .addObjective o :: l₂ ∧ ∀ op ∈ l₂, ¬ op.onObjective o.c := by
  have key : ∀ (l pre : List Op) (s : SolverEvents) (T : Cstr → Prop), LegalSeq T (objsOf l) →
      Net O T (s.addedObjectives.map (·.c)) s.removedObjectives →
      (∀ o ∈ s.addedObjectives, ∃ l₁ l₂, pre = l₁ ++ .addObjective o :: l₂ ∧ ∀ op ∈ l₂, ¬ op.onObjective o.c) →
      ∀ o ∈ (run s l).addedObjectives,
        ∃ l₁ l₂, pre ++ l = l₁ ++ .addObjective o :: l₂ ∧ ∀ op ∈ l₂, ¬ op.onObjective o.c := by
    intro l
    induction l with
    | nil => intro pre s T _ _ h3; simpa [run] using h3
    | cons op l ih =>
      intro pre s T h1 h2 h3
      have goal : (∃ T', LegalSeq T' (objsOf l) ∧
          Net O T' ((apply s op).addedObjectives.map (·.c)) (apply s op).removedObjectives) ∧
          (∀ o ∈ (apply s op).addedObjectives,
            ∃ l₁ l₂, pre ++ [op] = l₁ ++ .addObjective o :: l₂ ∧ ∀ op' ∈ l₂, ¬ op'.onObjective o.c) := by
        have ext : ∀ (o : Objective), ¬ op.onObjective o.c →
            (∃ l₁ l₂, pre = l₁ ++ .addObjective o :: l₂ ∧ ∀ op' ∈ l₂, ¬ op'.onObjective o.c) →
            ∃ l₁ l₂, pre ++ [op] = l₁ ++ .addObjective o :: l₂ ∧ ∀ op' ∈ l₂, ¬ op'.onObjective o.c := by
          rintro o ho ⟨l₁, l₂, rfl, h⟩
          refine ⟨l₁, l₂ ++ [op], by simp, fun op' h' => ?_⟩
          rcases List.mem_append.1 h' with h' | h'
          · exact h op' h'
          · rw [List.mem_singleton.1 h']; exact ho
        cases op with
        | addObjective a =>
          obtain ⟨e1, e2⟩ := addObjective_pair s a
          refine ⟨⟨_, h1.2, ?_⟩, fun o ho => ?_⟩
          · simp only [apply, e1, e2]; exact net_add h2 a.c h1.1
          · have hna : a.c ∉ s.addedObjectives.map (·.c) := fun hm => h1.1 ((h2.memA _).1 hm).1
            simp only [apply, addObjective] at ho
            have ho' : o ∈ s.addedObjectives ∨ o = a := by
              split at ho
              · exact Or.inl ho
              · simpa using ho
            rcases ho' with ho' | rfl
            · refine ext o ?_ (h3 o ho')
              intro hc
              have hc' : a.c = o.c := hc
              exact hna (by rw [hc']; exact List.mem_map_of_mem ho')
            · exact ⟨pre, [], rfl, by simp⟩
        | removeObjective c =>
          obtain ⟨e1, e2⟩ := removeObjective_pair s c
          refine ⟨⟨_, h1.2, ?_⟩, fun o ho => ?_⟩
          · simp only [apply, e1, e2]; exact net_remove h2 c h1.1
          · simp only [apply, removeObjective] at ho
            have ho' : o ∈ s.addedObjectives ∧ o.c ≠ c := by
              split at ho
              · exact (mem_eraseObj c _ h2.nodupA o).1 ho
              · next hm => exact ⟨ho, fun hc => hm (by rw [← hc]; exact List.mem_map_of_mem ho)⟩
            refine ext o ?_ (h3 o ho'.1)
            intro hc
            exact ho'.2 (Eq.symm hc)
        | _ => exact ⟨⟨T, h1, h2⟩, fun o ho => ext o (fun h => h) (h3 o ho)⟩
      obtain ⟨⟨T', hT1, hT2⟩, g⟩ := goal
      have := ih (pre ++ [op]) (apply s op) T' hT1 hT2 g
      simpa [run] using this
  simpa using key ops [] {} O h (Net.refl O) (by simp)

/-- The data of an objective removed and added back are lost: nothing is recorded, so the solver goes on with the
former scalarization weight. (The weighted scheme never does this: it creates a new constraint for a task added
back.) -/
theorem C32_readded_objective_keeps_old_data (o : Objective) :
    run {} [.removeObjective o.c, .addObjective o] = {} := by
  simp [run, apply, removeObjective, addObjective]

/-! ## Non-vacuity -/

private def c1 : Cstr := ⟨1, 2, .equal⟩
private def c2 : Cstr := ⟨2, 3, .doubleSided⟩

example : LegalSeq (fun c => c = c1)
    (consOf [.addConstraint c2, .removeConstraint c1, .addBound c2, .removeConstraint c2, .addConstraint c1]) := by
  simp [consOf, LegalSeq, Change.Legal, Change.on, c1, c2]

example : (run {} [.addConstraint c2, .removeConstraint c1, .scalarWeight c2, .addVariable 3, .vectorWeight c2,
    .removeVariable 3]) = ⟨[⟨c2, true, true⟩], [c2], [], [], [c1], [], [], [], [], true⟩ := by decide

/-- The records made while a constraint replaces another one -/
example : Net (fun c => c = c1) (after (fun c => c = c1) [.add c2, .remove c1]) [c2] [c1] :=
  (C32_net_differences [.addConstraint c2, .removeConstraint c1] (fun c => c = c1) (fun _ => False) (fun _ => False) (fun _ => False)
    (by simp [consOf, LegalSeq, Change.Legal, Change.on, c1, c2]) trivial trivial trivial).1

end Verif.SE
