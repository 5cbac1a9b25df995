import Verif.Lemmas.WeightedLeastSquares2
/-!
# Handling the events
-/
set_option autoImplicit false
set_option linter.unusedSimpArgs false

namespace Verif.PB
open Verif.SE Verif.LS

/-! ## Variables -/

theorem addVars_spec : ∀ (l vars : List V), (∀ v, (addVars vars l).1.count v = vars.count v + l.count v) ∧
    (∀ o ∈ (addVars vars l).2, ∃ i, o = .addVariable i) ∧ ((addVars vars l).2 = [] → ∀ v ∈ l, v ∈ vars) := by
  intro l
  induction l with
  | nil => intro vars; simp [addVars]
  | cons w l ih =>
    intro vars
    obtain ⟨i1, i2, i3⟩ := ih (w :: vars)
    simp only [addVars]
    refine ⟨fun v => ?_, fun o ho => ?_, fun h => ?_⟩
    · rw [i1]; simp only [List.count_cons]; omega
    · split at ho
      · exact i2 o ho
      · rcases List.mem_cons.1 ho with rfl | ho
        · exact ⟨_, rfl⟩
        · exact i2 o ho
    · by_cases hw : w ∈ vars
      · rw [if_pos hw] at h
        intro v hv
        rcases List.mem_cons.1 hv with rfl | hv
        · exact hw
        · rcases List.mem_cons.1 (i3 h v hv) with rfl | h'
          · exact hw
          · exact h'
      · rw [if_neg hw] at h; simp at h

theorem addVars_same {l vars : List V} (h : (addVars vars l).2 = []) : setOf (addVars vars l).1 = setOf vars := by
  obtain ⟨h1, _, h3⟩ := addVars_spec l vars
  funext v
  simp only [setOf]
  rw [Bool.eq_iff_iff, List.contains_iff_mem, List.contains_iff_mem]
  have := h1 v
  rw [← List.count_pos_iff, ← List.count_pos_iff, this]
  constructor
  · intro hp
    by_cases hv : v ∈ l
    · exact List.count_pos_iff.2 (h3 h v hv)
    · rw [List.count_eq_zero.2 hv] at hp; omega
  · intro hp; omega

theorem removeVars_spec : ∀ (l vars : List V), (∀ o ∈ (removeVars vars l).2.1, ∃ i, o = .removeVariable i) ∧
    ((removeVars vars l).2.2 = true → ∀ v, (removeVars vars l).1.count v + l.count v = vars.count v) ∧
    ((removeVars vars l).2.2 = true → (removeVars vars l).2.1 = [] → ∀ v, v ∈ vars → v ∈ (removeVars vars l).1) := by
  intro l
  induction l with
  | nil => intro vars; simp [removeVars]
  | cons w l ih =>
    intro vars
    obtain ⟨i1, i2, i3⟩ := ih (vars.erase w)
    simp only [removeVars]
    by_cases hw : w ∈ vars
    · rw [if_pos hw]
      simp only
      refine ⟨fun o ho => ?_, fun h v => ?_, fun h he v hv => ?_⟩
      · split at ho
        · exact i1 o ho
        · rcases List.mem_cons.1 ho with rfl | ho
          · exact ⟨_, rfl⟩
          · exact i1 o ho
      · have := i2 h v
        rw [List.count_erase] at this
        have hp : 0 < vars.count w := List.count_pos_iff.2 hw
        simp only [List.count_cons]
        by_cases hv : w = v
        · subst hv
          simp only [beq_self_eq_true, if_true] at this ⊢; omega
        · have h1 : (v == w) = false := by simpa using Ne.symm hv
          have h2 : (w == v) = false := by simpa using hv
          simp only [h1, h2, Bool.false_eq_true, if_false] at this ⊢; omega
      · by_cases hm : w ∈ vars.erase w
        · rw [if_pos hm] at he
          refine i3 h he v ?_
          by_cases hvw : v = w
          · rw [hvw]; exact hm
          · exact (List.mem_erase_of_ne hvw).2 hv
        · rw [if_neg hm] at he; simp at he
    · rw [if_neg hw]; simp

theorem removeVars_same {l vars : List V} (h : (removeVars vars l).2.2 = true) (he : (removeVars vars l).2.1 = []) :
    setOf (removeVars vars l).1 = setOf vars := by
  obtain ⟨_, h2, h3⟩ := removeVars_spec l vars
  funext v
  simp only [setOf]
  rw [Bool.eq_iff_iff, List.contains_iff_mem, List.contains_iff_mem]
  refine ⟨fun hv => ?_, h3 h he v⟩
  have := h2 h v
  rw [← List.count_pos_iff] at hv ⊢
  omega

theorem removeVars_ok : ∀ (l vars : List V), (∀ v, l.count v ≤ vars.count v) → (removeVars vars l).2.2 = true := by
  intro l
  induction l with
  | nil => intro vars _; rfl
  | cons w l ih =>
    intro vars h
    have hw : w ∈ vars := by
      have := h w
      rw [List.count_cons] at this
      simp only [beq_self_eq_true, if_true] at this
      exact List.count_pos_iff.1 (by omega)
    simp only [removeVars, if_pos hw]
    apply ih
    intro v
    have := h v
    rw [List.count_cons] at this
    rw [List.count_erase]
    by_cases hv : w = v
    · subst hv; simp only [beq_self_eq_true, if_true] at this ⊢; omega
    · have h1 : (v == w) = false := by simpa using Ne.symm hv
      have h2 : (w == v) = false := by simpa using hv
      simp only [h1, h2, Bool.false_eq_true, if_false] at this ⊢; omega

/-! ## Changes by category -/

/-- The changes of one category in a sequence of notifications. -/
def chOf : Cat → List Op → List (Change Cstr)
  | .cstr => consOf
  | .bnd => boundsOf
  | .obj => objsOf

theorem chOf_append (k : Cat) (l m : List Op) : chOf k (l ++ m) = chOf k l ++ chOf k m := by
  induction l with
  | nil => cases k <;> rfl
  | cons o l ih =>
    cases k <;> simp only [chOf] at ih ⊢ <;> cases o <;>
      simp only [List.cons_append, consOf, boundsOf, objsOf, ih]

theorem chOf_addVars (k : Cat) {l : List Op} (h : ∀ o ∈ l, ∃ i, o = .addVariable i) : chOf k l = [] := by
  induction l with
  | nil => cases k <;> rfl
  | cons o l ih =>
    obtain ⟨i, rfl⟩ := h o (by simp)
    have := ih (fun o ho => h o (List.mem_cons_of_mem _ ho))
    cases k <;> simpa only [chOf, consOf, boundsOf, objsOf] using this

theorem chOf_removeVars (k : Cat) {l : List Op} (h : ∀ o ∈ l, ∃ i, o = .removeVariable i) : chOf k l = [] := by
  induction l with
  | nil => cases k <;> rfl
  | cons o l ih =>
    obtain ⟨i, rfl⟩ := h o (by simp)
    have := ih (fun o ho => h o (List.mem_cons_of_mem _ ho))
    cases k <;> simpa only [chOf, consOf, boundsOf, objsOf] using this

theorem chOf_addOp (E : Env) (p : Problem) (k : Cat) (mp t : Nat) (c : Cstr) :
    chOf k [addOp E p mp t c] = if catOf E p t = k then [.add c] else [] := by
  simp only [addOp]
  cases catOf E p t <;> cases k <;> rfl

theorem chOf_removeOp (E : Env) (p : Problem) (k : Cat) (t : Nat) (c : Cstr) :
    chOf k [removeOp E p t c] = if catOf E p t = k then [.remove c] else [] := by
  simp only [removeOp]
  cases catOf E p t <;> cases k <;> rfl

theorem after_append {α : Type} (S : α → Prop) (l m : List (Change α)) : after S (l ++ m) = after (after S l) m := by
  induction l generalizing S with
  | nil => rfl
  | cons c l ih => exact ih _

theorem legalSeq_append {α : Type} (S : α → Prop) (l m : List (Change α)) :
    LegalSeq S (l ++ m) ↔ (LegalSeq S l ∧ LegalSeq (after S l) m) := by
  induction l generalizing S with
  | nil => simp [LegalSeq, after]
  | cons c l ih => simp only [List.cons_append, LegalSeq, after, ih, and_assoc]

/-- The constraints of a category, with the additional constraints `X`. -/
def CSet (E : Env) (p : Problem) (X : List Cstr) (k : Cat) (m : List (Nat × Cstr)) (c : Cstr) : Prop :=
  CatSet E p m k c ∨ (k = .cstr ∧ c ∈ X)

theorem CatSet_put {E : Env} {p : Problem} {m : List (Nat × Cstr)} {t : Nat} {c : Cstr} (hm : get m t = none)
    (hu : uses p.subs c = false) (k : Cat) (d : Cstr) :
    CatSet E p (put m t c) k d ↔ (CatSet E p m k d ∨ (d = c ∧ catOf E p t = k)) := by
  constructor
  · rintro ⟨u, h1, h2, h3⟩
    rw [get_put] at h1
    by_cases hut : u = t
    · rw [if_pos hut] at h1; injection h1 with h1
      exact Or.inr ⟨h1.symm, hut ▸ h3⟩
    · rw [if_neg hut] at h1; exact Or.inl ⟨u, h1, h2, h3⟩
  · rintro (⟨u, h1, h2, h3⟩ | ⟨rfl, h3⟩)
    · have : u ≠ t := fun h => by rw [h, hm] at h1; simp at h1
      exact ⟨u, by rw [get_put, if_neg this]; exact h1, h2, h3⟩
    · exact ⟨t, by rw [get_put, if_pos rfl], hu, h3⟩

theorem CatSet_del {E : Env} {p : Problem} {m : List (Nat × Cstr)} {t : Nat} {c : Cstr} (hm : get m t = some c)
    (hi : ∀ t u c, get m t = some c → get m u = some c → t = u) (k : Cat) (d : Cstr) :
    CatSet E p (del m t) k d ↔ (CatSet E p m k d ∧ d ≠ c) := by
  constructor
  · rintro ⟨u, h1, h2, h3⟩
    rw [get_del] at h1
    by_cases hut : u = t
    · rw [if_pos hut] at h1; simp at h1
    · rw [if_neg hut] at h1
      refine ⟨⟨u, h1, h2, h3⟩, ?_⟩
      rintro rfl
      exact hut (hi _ _ _ h1 hm)
  · rintro ⟨⟨u, h1, h2, h3⟩, hd⟩
    have : u ≠ t := fun h => by
      rw [h, hm] at h1; injection h1 with h1; exact hd h1.symm
    exact ⟨u, by rw [get_del, if_neg this]; exact h1, h2, h3⟩

theorem CatSet_same {E : Env} {p : Problem} {m : List (Nat × Cstr)} {t : Nat} {c : Cstr} (hm : get m t = some c)
    (hi : ∀ t u c, get m t = some c → get m u = some c → t = u) {k : Cat} (h : CatSet E p m k c) : catOf E p t = k := by
  obtain ⟨u, h1, _, h3⟩ := h
  rw [hi t u c hm h1]; exact h3

/-! ## One event -/

/-- In the queue, an addition of a task is not followed by another addition or a removal of the same task. -/
def AddLast : List EQ.Event → Prop
  | [] => True
  | e :: q => (∀ t, e = ⟨.taskAddition, .task t⟩ →
      (⟨.taskAddition, .task t⟩ : EQ.Event) ∉ q ∧ (⟨.taskRemoval, .task t⟩ : EQ.Event) ∉ q) ∧ AddLast q

/-- Number of occurrences of a variable in the live constraints of a map, in absence of additional variables. -/
def occ (E : Env) (p : Problem) (m : List (Nat × Cstr)) (v : V) : Nat :=
  (m.map (fun e => if uses p.subs e.2 then 0 else ((E.ys p.subs e.1).map (fun i => (⟨0, i⟩ : V))).count v)).sum

/-- What is required of the memory `m` and of the events `q` still in the queue to handle them. -/
structure Ready (E : Env) (p : Problem) (X : List Cstr) (m : Mem) (q : List EQ.Event) : Prop where
  keysNodup : (keysOf m.map).Nodup
  inj : ∀ t u c, get m.map t = some c → get m.map u = some c → t = u
  other : ∀ c ∈ X, ∀ t, get m.map t ≠ some c
  legal : EQ.Legal (· ∈ keysOf m.map) q
  final : ∀ t, EQ.present (· ∈ keysOf m.map) q t ↔ t ∈ keysOf p.cons
  addLast : AddLast q
  same : ∀ t, t ∈ keysOf m.map → (⟨.taskRemoval, .task t⟩ : EQ.Event) ∉ q → get m.map t = get p.cons t
  fresh : ∀ t c, (⟨.taskAddition, .task t⟩ : EQ.Event) ∈ q → get p.cons t = some c →
    (∀ u, get m.map u ≠ some c) ∧ uses p.subs c = false
  gone : ∀ t c, (⟨.taskRemoval, .task t⟩ : EQ.Event) ∈ q → get m.map t = some c → uses p.subs c = false
  noSub : ∀ e ∈ q, isSubEvent e = false

/-- What handling events ensures: `ops` are the notifications. -/
structure Handled (E : Env) (p : Problem) (X : List Cstr) (m m' : Mem) (ops : List Op) : Prop where
  legal : ∀ k, LegalSeq (CSet E p X k m.map) (chOf k ops)
  after : ∀ k, after (CSet E p X k m.map) (chOf k ops) = CSet E p X k m'.map
  solver : m'.solver = m.solver
  held : m'.held = m.held
  maxp : m'.maxp = m.maxp
  vars : (∀ i, Op.addVariable i ∉ ops ∧ Op.removeVariable i ∉ ops) → setOf m'.vars = setOf m.vars
  count : (∀ S t, E.zs S t = []) → (∀ v, m.vars.count v = occ E p m.map v) → ∀ v, m'.vars.count v = occ E p m'.map v
  weight : ∀ o, Op.addObjective o ∈ ops → ∃ t, get p.cons t = some o.c ∧ catOf E p t = .obj ∧ accepted E t = true ∧
    o.scalarizationWeight = weightOf E m.maxp t
  acc : ∀ t c, get m'.map t = some c → get m.map t = some c ∨ accepted E t = true

theorem Handled.refl {E : Env} {p : Problem} {X : List Cstr} (m m' : Mem) (h1 : m'.map = m.map) (h2 : m'.solver = m.solver)
    (h3 : m'.held = m.held) (h4 : m'.maxp = m.maxp) (h5 : m'.vars = m.vars) (ops : List Op)
    (h6 : ∀ k, chOf k ops = []) (h7 : ∀ o, Op.addObjective o ∉ ops) : Handled E p X m m' ops := by
  refine ⟨fun k => by rw [h6]; trivial, fun k => by rw [h6, h1]; rfl, h2, h3, h4, fun _ => by rw [h5], fun _ h => ?_,
    fun o ho => absurd ho (h7 o), fun t c hc => Or.inl (by rw [← h1]; exact hc)⟩
  rw [h5, h1]; exact h

theorem Handled.trans {E : Env} {p : Problem} {X : List Cstr} {m m' m'' : Mem} {ops ops' : List Op}
    (h : Handled E p X m m' ops) (g : Handled E p X m' m'' ops') : Handled E p X m m'' (ops ++ ops') := by
  refine ⟨fun k => ?_, fun k => ?_, g.solver.trans h.solver, g.held.trans h.held, g.maxp.trans h.maxp, fun hv => ?_,
    fun hz hc => g.count hz (h.count hz hc), fun o ho => ?_, fun t c hc => (g.acc t c hc).elim (h.acc t c) Or.inr⟩
  · rw [chOf_append, legalSeq_append]
    refine ⟨h.legal k, ?_⟩
    rw [h.after]; exact g.legal k
  · rw [chOf_append, after_append, h.after, g.after]
  · rw [g.vars fun i => ⟨fun hi => (hv i).1 (List.mem_append_right _ hi), fun hi => (hv i).2 (List.mem_append_right _ hi)⟩,
      h.vars fun i => ⟨fun hi => (hv i).1 (List.mem_append_left _ hi), fun hi => (hv i).2 (List.mem_append_left _ hi)⟩]
  · rcases List.mem_append.1 ho with ho | ho
    · exact h.weight o ho
    · obtain ⟨t, h1, h2, h3, h4⟩ := g.weight o ho
      exact ⟨t, h1, h2, h3, by rw [h4, h.maxp]⟩

theorem varsOf_noz {E : Env} (hz : ∀ S t, E.zs S t = []) (p : Problem) (t : Nat) :
    varsOf E p t = (E.ys p.subs t).map (fun i => (⟨0, i⟩ : V)) := by
  simp [varsOf, hz]

/-- Addition of a task. -/
theorem onAddTask_spec {E : Env} {p : Problem} {X : List Cstr} {m m' : Mem} {t : Nat} {ops : List Op} {c : Cstr}
    (hc : get p.cons t = some c) (hm : get m.map t = none) (hf : ∀ u, get m.map u ≠ some c) (hu : uses p.subs c = false)
    (hx : c ∉ X) (h : onAddTask E p m t = .ok m' ops) :
    Handled E p X m m' ops ∧ m'.map = put m.map t c ∧ m'.queue = m.queue := by
  simp only [onAddTask, hc, hm, Option.isSome_none, Bool.false_eq_true, if_false] at h
  by_cases ha : accepted E t = false
  · rw [if_pos ha] at h; simp at h
  · rw [if_neg ha] at h
    injection h with h1 h2
    subst h1
    subst h2
    obtain ⟨v1, v2, v3⟩ := addVars_spec (varsOf E p t) m.vars
    have hk : ∀ k, chOf k ((addVars m.vars (varsOf E p t)).2 ++ [addOp E p m.maxp t c]) =
        if catOf E p t = k then [.add c] else [] := by
      intro k
      rw [chOf_append, chOf_addVars k v2, chOf_addOp, List.nil_append]
    refine ⟨⟨fun k => ?_, fun k => ?_, rfl, rfl, rfl, fun hv => ?_, fun hz hcount v => ?_, fun o ho => ?_, fun u d hd => ?_⟩, rfl, rfl⟩
    · rw [hk]
      split
      · refine ⟨?_, trivial⟩
        rintro (⟨u, hu, _⟩ | ⟨_, hcx⟩)
        · exact hf u hu
        · exact hx hcx
      · trivial
    · rw [hk]
      funext d
      apply propext
      simp only [CSet, CatSet_put hm hu]
      split
      · next hcat =>
        simp only [after, Change.on, CSet]
        simp [hcat]
        constructor
        · rintro ((h | h) | h)
          · exact Or.inl (Or.inl h)
          · exact Or.inr h
          · exact Or.inl (Or.inr h)
        · rintro ((h | h) | h)
          · exact Or.inl (Or.inl h)
          · exact Or.inr h
          · exact Or.inl (Or.inr h)
      · next hcat => simp [after, CSet, hcat]
    · refine addVars_same ?_
      cases hl : (addVars m.vars (varsOf E p t)).2 with
      | nil => rfl
      | cons o l =>
        obtain ⟨i, hi⟩ := v2 o (by rw [hl]; simp)
        refine absurd ?_ (hv i).1
        rw [hl, hi]; simp
    · show (addVars m.vars (varsOf E p t)).1.count v = _
      rw [v1, hcount, varsOf_noz hz]
      simp only [occ]
      rw [sum_put _ _ _ _ hm, if_neg (by rw [hu]; simp)]
    · rcases List.mem_append.1 ho with ho | ho
      · obtain ⟨i, hi⟩ := v2 _ ho
        simp at hi
      · simp only [List.mem_singleton, addOp] at ho
        cases hcat : catOf E p t with
        | bnd => rw [hcat] at ho; simp at ho
        | cstr => rw [hcat] at ho; simp at ho
        | obj =>
          rw [hcat] at ho
          simp only at ho
          injection ho with ho
          subst ho
          exact ⟨t, hc, hcat, by simpa using ha, rfl⟩
    · simp only [get_put] at hd
      split at hd
      · next hut => rw [hut]; exact Or.inr (by simpa using ha)
      · exact Or.inl hd

/-- Removal of a task. -/
theorem onRemoveTask_spec {E : Env} {p : Problem} {X : List Cstr} {m m' : Mem} {t : Nat} {ops : List Op} {c : Cstr}
    (hm : get m.map t = some c) (hn : (keysOf m.map).Nodup)
    (hi : ∀ t u c, get m.map t = some c → get m.map u = some c → t = u) (hu : uses p.subs c = false)
    (hx : c ∉ X) (h : onRemoveTask E p m t = .ok m' ops) :
    Handled E p X m m' ops ∧ m'.map = del m.map t ∧ m'.queue = m.queue := by
  simp only [onRemoveTask, hm, hu, Bool.false_eq_true, if_false] at h
  obtain ⟨v1, v2, v3⟩ := removeVars_spec (varsOf E p t) m.vars
  by_cases hr : (removeVars m.vars (varsOf E p t)).2.2 = true
  · rw [if_pos hr] at h
    injection h with h1 h2
    subst h1
    subst h2
    have hk : ∀ k, chOf k ((removeVars m.vars (varsOf E p t)).2.1 ++ [removeOp E p t c]) =
        if catOf E p t = k then [.remove c] else [] := by
      intro k
      rw [chOf_append, chOf_removeVars k v1, chOf_removeOp, List.nil_append]
    refine ⟨⟨fun k => ?_, fun k => ?_, rfl, rfl, rfl, fun hv => ?_, fun hz hcount v => ?_, fun o ho => ?_, fun u d hd => ?_⟩, rfl, rfl⟩
    · rw [hk]
      split
      · next hcat => exact ⟨Or.inl ⟨t, hm, hu, hcat⟩, trivial⟩
      · trivial
    · rw [hk]
      funext d
      apply propext
      simp only [CSet, CatSet_del hm hi]
      split
      · next hcat =>
        simp only [after, Change.on, CSet]
        constructor
        · rintro ⟨h | h, hd⟩
          · exact Or.inl ⟨h, hd⟩
          · exact Or.inr h
        · rintro (⟨h, hd⟩ | h)
          · exact ⟨Or.inl h, hd⟩
          · exact ⟨Or.inr h, fun he => hx (he ▸ h.2)⟩
      · next hcat =>
        simp only [after, CSet]
        constructor
        · rintro (h | h)
          · refine Or.inl ⟨h, ?_⟩
            rintro rfl
            exact hcat (CatSet_same hm hi h)
          · exact Or.inr h
        · rintro (h | h)
          · exact Or.inl h.1
          · exact Or.inr h
    · refine removeVars_same hr ?_
      cases hl : (removeVars m.vars (varsOf E p t)).2.1 with
      | nil => rfl
      | cons o l =>
        obtain ⟨i, hi⟩ := v1 o (by rw [hl]; simp)
        refine absurd ?_ (hv i).2
        rw [hl, hi]; simp
    · have h1 := v2 hr v
      have h2 := hcount v
      rw [varsOf_noz hz] at h1
      have h3 := sum_del (fun e => if uses p.subs e.2 then 0 else ((E.ys p.subs e.1).map (fun i => (⟨0, i⟩ : V))).count v) m.map hn t c hm
      simp only [hu, Bool.false_eq_true, if_false] at h3
      show (removeVars m.vars (varsOf E p t)).1.count v = _
      rw [varsOf_noz hz]
      simp only [occ] at h2 ⊢
      omega
    · rcases List.mem_append.1 ho with ho | ho
      · obtain ⟨i, hi⟩ := v1 _ ho
        simp at hi
      · simp only [List.mem_singleton, removeOp] at ho
        cases hcat : catOf E p t <;> rw [hcat] at ho <;> simp at ho
    · simp only [get_del] at hd
      split at hd
      · simp at hd
      · exact Or.inl hd
  · rw [if_neg hr] at h; simp at h

/-! ## The loop -/

theorem event_spec {E : Env} {p : Problem} {X : List Cstr} (hpi : ∀ t u c, get p.cons t = some c → get p.cons u = some c → t = u)
    (hx : ∀ c ∈ X, ∀ t, get p.cons t ≠ some c) {q : List EQ.Event} {m m1 : Mem} {e : EQ.Event} {o1 : List Op}
    (hr : Ready E p X m (e :: q)) (h1 : onEvent E p { m with queue := q } e = .ok m1 o1) :
    Handled E p X m m1 o1 ∧ Ready E p X m1 q ∧ m1.queue = q := by
  obtain ⟨hle, hlq⟩ := hr.legal
  obtain ⟨ty, em⟩ := e
  have hns := hr.noSub _ (List.mem_cons_self ..)
  cases em with
  | subs s =>
    simp only [EQ.LegalEvent] at hle
    rcases hle with rfl | rfl <;> simp [isSubEvent] at hns
  | task t =>
    simp only [EQ.LegalEvent] at hle
    rcases hle with ⟨rfl, hne⟩ | ⟨rfl, hme⟩ | ⟨hw, hme⟩
    · -- addition
      obtain ⟨na, nr⟩ := hr.addLast.1 t rfl
      have hpt : t ∈ keysOf p.cons := by
        rw [← hr.final]
        show EQ.present (EQ.stepSet _ _) q t
        have : ∀ (l : List EQ.Event) (S : Nat → Prop), S t → (⟨.taskRemoval, .task t⟩ : EQ.Event) ∉ l → EQ.present S l t := by
          intro l
          induction l with
          | nil => intro S hS _; exact hS
          | cons a l ihl =>
            intro S hS hn
            refine ihl _ ?_ (fun hh => hn (List.mem_cons_of_mem _ hh))
            simp only [EQ.stepSet]
            split
            · trivial
            · split
              · next hh => exact absurd (by rw [hh]; simp) hn
              · exact hS
        refine this q _ ?_ nr
        simp [EQ.stepSet]
      obtain ⟨c, hc⟩ := Option.isSome_iff_exists.1 ((get_isSome _ _).2 hpt)
      have hmt : get m.map t = none := by rw [get_none]; exact hne
      obtain ⟨hf, hu⟩ := hr.fresh t c (by simp) hc
      obtain ⟨g1, g2, g3⟩ := onAddTask_spec (X := X) (m := { m with queue := q }) hc hmt hf hu
        (fun hcx => hx c hcx t hc) h1
      have hkeys : ∀ u, u ∈ keysOf m1.map ↔ (u = t ∨ u ∈ keysOf m.map) := by
        intro u
        rw [g2, ← get_isSome, get_put, ← get_isSome]
        by_cases hut : u = t <;> simp [hut]
      have hset : (fun u => u ∈ keysOf m1.map) = EQ.stepSet (· ∈ keysOf m.map) ⟨.taskAddition, .task t⟩ := by
        funext u
        apply propext
        rw [hkeys]
        by_cases hut : u = t
        · simp [EQ.stepSet, hut]
        · have : t ≠ u := fun h => hut h.symm
          simp [EQ.stepSet, hut, this]
      refine ⟨⟨g1.legal, g1.after, g1.solver, g1.held, g1.maxp, g1.vars, g1.count, g1.weight, g1.acc⟩, ⟨?_, ?_, ?_, ?_, ?_, hr.addLast.2, ?_, ?_, ?_, ?_⟩, g3⟩
      · rw [g2]; exact keys_put _ _ _ hr.keysNodup
      · intro u v d h1 h2
        rw [g2, get_put] at h1 h2
        split at h1 <;> split at h2
        · simp_all
        · injection h1 with h1; exact absurd (h1 ▸ h2) (hf v)
        · injection h2 with h2; exact absurd (h2 ▸ h1) (hf u)
        · exact hr.inj u v d h1 h2
      · intro d hd u h1
        rw [g2, get_put] at h1
        split at h1
        · injection h1 with h1; exact hx d hd t (h1 ▸ hc)
        · exact hr.other d hd u h1
      · rw [hset]; exact hlq
      · rw [hset]; exact hr.final
      · intro u hu' hnr
        rw [g2, get_put]
        by_cases hut : u = t
        · rw [if_pos hut, hut, hc]
        · rw [if_neg hut]
          refine hr.same u (((hkeys u).1 hu').resolve_left hut) ?_
          simp [hnr]
      · intro u d hau hd
        have hut : u ≠ t := fun h => na (h ▸ hau)
        obtain ⟨k1, k2⟩ := hr.fresh u d (List.mem_cons_of_mem _ hau) hd
        refine ⟨fun w hw => ?_, k2⟩
        rw [g2, get_put] at hw
        split at hw
        · injection hw with hw
          exact hut (hpi u t d hd (by rw [hc, hw]))
        · exact k1 w hw
      · intro u d hru hd
        have hut : u ≠ t := fun h => nr (h ▸ hru)
        rw [g2, get_put, if_neg hut] at hd
        exact hr.gone u d (List.mem_cons_of_mem _ hru) hd
      · exact fun e he => hr.noSub e (List.mem_cons_of_mem _ he)
    · -- removal
      obtain ⟨c, hc⟩ := Option.isSome_iff_exists.1 ((get_isSome _ _).2 hme)
      have hu := hr.gone t c (by simp) hc
      obtain ⟨g1, g2, g3⟩ := onRemoveTask_spec (X := X) (m := { m with queue := q }) hc hr.keysNodup hr.inj hu
        (fun hcx => hr.other c hcx t hc) h1
      have hkeys : ∀ u, u ∈ keysOf m1.map ↔ (u ≠ t ∧ u ∈ keysOf m.map) := by
        intro u
        rw [g2, ← get_isSome, get_del, ← get_isSome]
        by_cases hut : u = t <;> simp [hut]
      have hset : (fun u => u ∈ keysOf m1.map) = EQ.stepSet (· ∈ keysOf m.map) ⟨.taskRemoval, .task t⟩ := by
        funext u
        apply propext
        rw [hkeys]
        by_cases hut : u = t
        · simp [EQ.stepSet, hut]
        · have : t ≠ u := fun h => hut h.symm
          simp [EQ.stepSet, hut, this]
      refine ⟨⟨g1.legal, g1.after, g1.solver, g1.held, g1.maxp, g1.vars, g1.count, g1.weight, g1.acc⟩, ⟨?_, ?_, ?_, ?_, ?_, hr.addLast.2, ?_, ?_, ?_, ?_⟩, g3⟩
      · rw [g2]; exact keys_del _ _ hr.keysNodup
      · intro u v d h1 h2
        rw [g2, get_del] at h1 h2
        split at h1
        · simp at h1
        · split at h2
          · simp at h2
          · exact hr.inj u v d h1 h2
      · intro d hd u h1
        rw [g2, get_del] at h1
        split at h1
        · simp at h1
        · exact hr.other d hd u h1
      · rw [hset]; exact hlq
      · rw [hset]; exact hr.final
      · intro u hu' hnr
        obtain ⟨hut, hu''⟩ := (hkeys u).1 hu'
        rw [g2, get_del, if_neg hut]
        refine hr.same u hu'' ?_
        simp [hut, hnr]
      · intro u d hau hd
        obtain ⟨k1, k2⟩ := hr.fresh u d (List.mem_cons_of_mem _ hau) hd
        refine ⟨fun w hw => ?_, k2⟩
        rw [g2, get_del] at hw
        split at hw
        · simp at hw
        · exact k1 w hw
      · intro u d hru hd
        rw [g2, get_del] at hd
        split at hd
        · simp at hd
        · exact hr.gone u d (List.mem_cons_of_mem _ hru) hd
      · exact fun e he => hr.noSub e (List.mem_cons_of_mem _ he)
    · -- weights
      have hadd : (⟨ty, .task t⟩ : EQ.Event) ≠ ⟨.taskAddition, .task t⟩ ∧ (⟨ty, .task t⟩ : EQ.Event) ≠ ⟨.taskRemoval, .task t⟩ := by
        constructor <;> (intro hh; injection hh with hh _; subst hh; simp [EQ.Event.isWeight] at hw)
      have hout : ∃ o, o1 = [o] ∧ m1 = { m with queue := q } ∧ (∀ k, chOf k [o] = []) ∧ ∀ x, o ≠ .addObjective x := by
        have : ∀ b, onWeight E p { m with queue := q } t b = .ok m1 o1 →
            ∃ o, o1 = [o] ∧ m1 = { m with queue := q } ∧ (∀ k, chOf k [o] = []) ∧ ∀ x, o ≠ .addObjective x := by
          intro b hb
          simp only [onWeight] at hb
          split at hb
          · simp at hb
          · split at hb
            · simp at hb
            · injection hb with hb1 hb2
              refine ⟨_, hb2.symm, hb1.symm, fun k => ?_, fun x => ?_⟩
              · cases b <;> cases k <;> rfl
              · cases b <;> simp
        cases ty <;> simp [EQ.Event.isWeight] at hw
        · exact this true h1
        · exact this false h1
      obtain ⟨o, rfl, rfl, ho, hx'⟩ := hout
      have hset : EQ.stepSet (· ∈ keysOf m.map) ⟨ty, .task t⟩ = (· ∈ keysOf m.map) := by
        funext u
        simp only [EQ.stepSet]
        rw [if_neg, if_neg]
        · intro hh; injection hh with h1 h2; injection h2 with h2; subst h2; exact hadd.2 (by rw [h1])
        · intro hh; injection hh with h1 h2; injection h2 with h2; subst h2; exact hadd.1 (by rw [h1])
      refine ⟨Handled.refl m { m with queue := q } rfl rfl rfl rfl rfl _ ho (fun x hox => hx' x ?_), ⟨hr.keysNodup, hr.inj, hr.other, ?_, ?_, hr.addLast.2, ?_, ?_, ?_, ?_⟩, rfl⟩
      · exact (List.mem_singleton.1 hox).symm
      · have := hlq; rw [hset] at this; exact this
      · have := hr.final
        simp only [EQ.present, hset] at this; exact this
      · intro u hu' hnr
        refine hr.same u hu' ?_
        simp only [List.mem_cons, not_or]
        refine ⟨?_, hnr⟩
        intro hh; injection hh with h3 h2; injection h2 with h2; subst h2; exact hadd.2 (by rw [← h3])
      · intro u d hau hd; exact hr.fresh u d (List.mem_cons_of_mem _ hau) hd
      · intro u d hru hd; exact hr.gone u d (List.mem_cons_of_mem _ hru) hd
      · exact fun e he => hr.noSub e (List.mem_cons_of_mem _ he)

theorem handle_spec {E : Env} {p : Problem} {X : List Cstr} (hpi : ∀ t u c, get p.cons t = some c → get p.cons u = some c → t = u)
    (hx : ∀ c ∈ X, ∀ t, get p.cons t ≠ some c) : ∀ (q : List EQ.Event) (m m' : Mem) (ops : List Op),
    Ready E p X m q → handle E p q m = .ok m' ops → q ≠ [] ∨ m.queue = [] →
    Handled E p X m m' ops ∧ Ready E p X m' [] ∧ m'.queue = [] := by
  intro q
  induction q with
  | nil =>
    intro m m' ops hr h hq
    simp only [handle] at h
    injection h with h1 h2
    subst h1; subst h2
    refine ⟨Handled.refl _ _ rfl rfl rfl rfl rfl _ (fun k => by cases k <;> rfl) (by simp), hr, ?_⟩
    simpa using hq
  | cons e q ih =>
    intro m m' ops hr h _
    simp only [handle] at h
    cases h1 : onEvent E p { m with queue := q } e with
    | ub => rw [h1] at h; simp at h
    | throw m1 => rw [h1] at h; simp at h
    | ok m1 o1 =>
      rw [h1] at h
      simp only at h
      obtain ⟨s1, s2, s3⟩ := event_spec hpi hx hr h1
      cases h2 : handle E p q m1 with
      | ub => rw [h2] at h; simp at h
      | throw m2 => rw [h2] at h; simp at h
      | ok m2 o2 =>
        rw [h2] at h
        simp only at h
        injection h with h3 h4
        subst h3; subst h4
        obtain ⟨t1, t2, t3⟩ := ih m1 m2 o2 s2 h2 (by
          by_cases hq : q = []
          · exact Or.inr (s3.trans hq)
          · exact Or.inl hq)
        exact ⟨s1.trans t1, t2, t3⟩

/-! ## Absence of failures -/

theorem event_not_ub {E : Env} {p : Problem} {X : List Cstr} {q : List EQ.Event} {m : Mem} {e : EQ.Event}
    (hr : Ready E p X m (e :: q)) : onEvent E p { m with queue := q } e ≠ .ub := by
  obtain ⟨ty, em⟩ := e
  have hw : ∀ t b, onWeight E p { m with queue := q } t b ≠ .ub := by
    intro t b h
    simp only [onWeight] at h
    split at h
    · simp at h
    · split at h <;> simp at h
  cases em with
  | subs s => cases ty <;> simp [onEvent]
  | task t =>
    cases ty with
    | weightChange => exact hw t true
    | anisotropicWeightChange => exact hw t false
    | substitutionAddition => simp [onEvent]
    | substitutionRemoval => simp [onEvent]
    | taskAddition =>
      have hm : get m.map t = none := by
        rw [get_none]
        have := hr.legal.1
        simpa [EQ.LegalEvent, EQ.Event.isWeight] using this
      intro h
      simp only [onEvent, onAddTask, hm, Option.isSome_none, Bool.false_eq_true, if_false] at h
      split at h
      · simp at h
      · split at h <;> simp at h
    | taskRemoval =>
      intro h
      simp only [onEvent, onRemoveTask] at h
      split at h
      · simp at h
      · split at h
        · simp at h
        · split at h <;> simp at h

theorem handle_not_ub {E : Env} {p : Problem} {X : List Cstr} (hpi : ∀ t u c, get p.cons t = some c → get p.cons u = some c → t = u)
    (hx : ∀ c ∈ X, ∀ t, get p.cons t ≠ some c) : ∀ (q : List EQ.Event) (m : Mem), Ready E p X m q → handle E p q m ≠ .ub := by
  intro q
  induction q with
  | nil => intro m _ h; simp [handle] at h
  | cons e q ih =>
    intro m hr h
    simp only [handle] at h
    cases h1 : onEvent E p { m with queue := q } e with
    | ub => exact event_not_ub hr h1
    | throw m1 => rw [h1] at h; simp at h
    | ok m1 o1 =>
      rw [h1] at h
      simp only at h
      have := ih m1 (event_spec hpi hx hr h1).2.1
      cases h2 : handle E p q m1 with
      | ub => exact this h2
      | throw m2 => rw [h2] at h; simp at h
      | ok m2 o2 => rw [h2] at h; simp at h

/-- Conditions for the events to be handled without exception. -/
structure Smooth (E : Env) (p : Problem) (q : List EQ.Event) : Prop where
  noz : ∀ S t, E.zs S t = []
  accept : ∀ t, (⟨.taskAddition, .task t⟩ : EQ.Event) ∈ q → accepted E t = true
  weight : ∀ e ∈ q, e.isWeight = true → ∀ t, e.emitter = .task t → t ∈ keysOf p.cons ∧ (E.task t).prio ≠ 0

theorem occ_ge {E : Env} {p : Problem} {m : List (Nat × Cstr)} (hn : (keysOf m).Nodup) {t : Nat} {c : Cstr} (h : get m t = some c)
    (hu : uses p.subs c = false) (v : V) : ((E.ys p.subs t).map (fun i => (⟨0, i⟩ : V))).count v ≤ occ E p m v := by
  have := sum_del (fun e => if uses p.subs e.2 then 0 else ((E.ys p.subs e.1).map (fun i => (⟨0, i⟩ : V))).count v) m hn t c h
  simp only [hu, Bool.false_eq_true, if_false] at this
  simp only [occ]; omega

theorem event_ok {E : Env} {p : Problem} {X : List Cstr} {q : List EQ.Event} {m : Mem} {e : EQ.Event}
    (hr : Ready E p X m (e :: q)) (hs : Smooth E p (e :: q)) (hcount : ∀ v, m.vars.count v = occ E p m.map v) :
    ∃ m1 o1, onEvent E p { m with queue := q } e = .ok m1 o1 := by
  obtain ⟨ty, em⟩ := e
  have hns := hr.noSub _ (List.mem_cons_self ..)
  have hle := hr.legal.1
  cases em with
  | subs s =>
    simp only [EQ.LegalEvent] at hle
    rcases hle with rfl | rfl <;> simp [isSubEvent] at hns
  | task t =>
    have hw : ∀ b, (⟨ty, .task t⟩ : EQ.Event).isWeight = true → ∃ m1 o1, onWeight E p { m with queue := q } t b = .ok m1 o1 := by
      intro b hw
      obtain ⟨h1, h2⟩ := hs.weight _ (List.mem_cons_self ..) hw t rfl
      obtain ⟨c, hc⟩ := Option.isSome_iff_exists.1 ((get_isSome _ _).2 h1)
      exact ⟨_, _, by simp only [onWeight, hc, if_neg h2]; rfl⟩
    cases ty with
    | weightChange => exact hw true rfl
    | anisotropicWeightChange => exact hw false rfl
    | substitutionAddition => simp [isSubEvent] at hns
    | substitutionRemoval => simp [isSubEvent] at hns
    | taskAddition =>
      have hm : get m.map t = none := by
        rw [get_none]
        simpa [EQ.LegalEvent, EQ.Event.isWeight] using hle
      have ha := hs.accept t (by simp)
      simp only [onEvent, onAddTask, hm, Option.isSome_none, Bool.false_eq_true, if_false, ha, Bool.true_eq_false]
      split
      · exact ⟨_, _, rfl⟩
      · exact ⟨_, _, rfl⟩
    | taskRemoval =>
      have hme : t ∈ keysOf m.map := by simpa [EQ.LegalEvent, EQ.Event.isWeight] using hle
      obtain ⟨c, hc⟩ := Option.isSome_iff_exists.1 ((get_isSome _ _).2 hme)
      have hu := hr.gone t c (by simp) hc
      have hv : (removeVars m.vars (varsOf E p t)).2.2 = true := by
        apply removeVars_ok
        intro v
        rw [hcount, varsOf_noz hs.noz]
        exact occ_ge hr.keysNodup hc hu v
      simp only [onEvent, onRemoveTask, hc, hu, Bool.false_eq_true, if_false, hv, if_true]
      exact ⟨_, _, rfl⟩

theorem handle_ok {E : Env} {p : Problem} {X : List Cstr} (hpi : ∀ t u c, get p.cons t = some c → get p.cons u = some c → t = u)
    (hx : ∀ c ∈ X, ∀ t, get p.cons t ≠ some c) : ∀ (q : List EQ.Event) (m : Mem), Ready E p X m q → Smooth E p q →
    (∀ v, m.vars.count v = occ E p m.map v) → ∃ m' ops, handle E p q m = .ok m' ops := by
  intro q
  induction q with
  | nil => intro m _ _ _; exact ⟨m, [], rfl⟩
  | cons e q ih =>
    intro m hr hs hcount
    obtain ⟨m1, o1, h1⟩ := event_ok hr hs hcount
    obtain ⟨s1, s2, s3⟩ := event_spec hpi hx hr h1
    obtain ⟨m2, o2, h2⟩ := ih m1 s2 ⟨hs.noz, fun t ht => hs.accept t (List.mem_cons_of_mem _ ht),
      fun e he => hs.weight e (List.mem_cons_of_mem _ he)⟩ (s1.count hs.noz hcount)
    exact ⟨m2, o1 ++ o2, by simp only [handle, h1, h2]⟩

end Verif.PB
