import Verif.Model.EventQueue
/-!
# C31: the compression of the event queue preserves its meaning

`K` is the set of tasks known by the computation data when its queue is empty, that is after a resolution. A history is
the list of all the events notified by the problem since then.
-/
set_option autoImplicit false

namespace Verif.EQ

/-! ## Specification -/

/-- The tasks present after an event. -/
def stepSet (S : Nat → Prop) (e : Event) : Nat → Prop := fun t =>
  if e = ⟨.taskAddition, .task t⟩ then True else if e = ⟨.taskRemoval, .task t⟩ then False else S t

/-- The tasks present after processing a list of events one by one, starting with the tasks `S`. -/
def present (S : Nat → Prop) : List Event → Nat → Prop
  | [] => S
  | e :: l => present (stepSet S e) l

/-- Is the event a change of weight? -/
def Event.isWeight (e : Event) : Bool := e.type == .weightChange || e.type == .anisotropicWeightChange

/-- The events that can be notified when the tasks present are `S`: adding an absent task, removing a present one,
changing the weights of a present one, and any event about substitutions. -/
def LegalEvent (S : Nat → Prop) (e : Event) : Prop :=
  match e.emitter with
  | .task t => (e.type = .taskAddition ∧ ¬ S t) ∨ (e.type = .taskRemoval ∧ S t) ∨ (e.isWeight = true ∧ S t)
  | .subs _ => e.type = .substitutionAddition ∨ e.type = .substitutionRemoval

/-- Each event of the list is legal when it arises. -/
def Legal (S : Nat → Prop) : List Event → Prop
  | [] => True
  | e :: l => LegalEvent S e ∧ Legal (stepSet S e) l

/-- The events about task `t`. -/
def about (t : Nat) (l : List Event) : List Event := l.filter (fun e => e.emitter = .task t)

/-- The weight changes of task `t` since it was last added or removed, in reverse order. -/
def recentWeights (t : Nat) (l : List Event) : List Event := (about t l).reverse.takeWhile Event.isWeight

/-! ## The loop of `addEvent` -/

theorem scan_spec (em : Emitter) : ∀ (q : List Event) (add : Bool),
    (scan em q add).1 = q.filter (fun e => !decide (e.emitter = em ∧ e.type ≠ .taskRemoval)) ∧
    ((q.filter (fun e => decide (e.emitter = em ∧ e.type = .taskAddition))).length = 0 →
      (scan em q add).2 = (add, true)) ∧
    ((q.filter (fun e => decide (e.emitter = em ∧ e.type = .taskAddition))).length = 1 →
      (scan em q add).2 = (false, add)) := by
  intro q
  induction q with
  | nil => intro add; simp [scan]
  | cons e q ih =>
    intro add
    obtain ⟨i1, i2, i3⟩ := ih add
    obtain ⟨j1, j2, j3⟩ := ih false
    simp only [scan]
    by_cases h : e.emitter = em ∧ e.type ≠ .taskRemoval
    · rw [if_pos h]
      by_cases ha : e.type = .taskAddition
      · rw [if_pos ha]
        simp only [List.filter_cons, h.1, ha]
        refine ⟨by simpa using j1, by simp, fun hl => ?_⟩
        simp only [true_and, decide_true, if_true, List.length_cons] at hl
        have := j2 (by simpa using hl)
        simp [this]
      · rw [if_neg ha]
        simp only [List.filter_cons, h.1, ha]
        refine ⟨by simpa [h.2] using i1, ?_, ?_⟩
        · intro hl; exact i2 (by simpa using hl)
        · intro hl; exact i3 (by simpa using hl)
    · rw [if_neg h]
      have ha : ¬ (e.emitter = em ∧ e.type = .taskAddition) := by
        rintro ⟨h1, h2⟩
        exact h ⟨h1, by rw [h2]; simp⟩
      simp only [List.filter_cons]
      refine ⟨by simp [h, i1], ?_, ?_⟩
      · intro hl; exact i2 (by simpa [ha] using hl)
      · intro hl; exact i3 (by simpa [ha] using hl)

/-! ## The events about one task in the queue -/

/-- The possible events about a task in the queue, `k` telling if the task was known when the queue was empty, `p` if it
is present now. -/
inductive Shape (t : Nat) : Prop → Prop → List Event → Prop where
  | kept (k p : Prop) (ws : List Event) (hk : k) (hp : p) (hw : ∀ e ∈ ws, e.isWeight = true) : Shape t k p ws
  | replaced (k p : Prop) (ws : List Event) (hk : k) (hp : p) (hw : ∀ e ∈ ws, e.isWeight = true) :
      Shape t k p (⟨.taskRemoval, .task t⟩ :: ⟨.taskAddition, .task t⟩ :: ws)
  | removed (k p : Prop) (hk : k) (hp : ¬ p) : Shape t k p [⟨.taskRemoval, .task t⟩]
  | added (k p : Prop) (ws : List Event) (hk : ¬ k) (hp : p) (hw : ∀ e ∈ ws, e.isWeight = true) :
      Shape t k p (⟨.taskAddition, .task t⟩ :: ws)
  | absent (k p : Prop) (hk : ¬ k) (hp : ¬ p) : Shape t k p []

theorem about_append (t : Nat) (l m : List Event) : about t (l ++ m) = about t l ++ about t m :=
  List.filter_append ..

theorem about_other (t : Nat) (e : Event) (h : e.emitter ≠ .task t) : about t [e] = [] := by
  simp [about, h]

theorem about_self (t : Nat) (e : Event) (h : e.emitter = .task t) : about t [e] = [e] := by
  simp [about, h]

theorem stepSet_other (S : Nat → Prop) (e : Event) (t : Nat) (h : e.emitter ≠ .task t) : stepSet S e t = S t := by
  have h1 : e ≠ ⟨.taskAddition, .task t⟩ := fun he => h (by rw [he])
  have h2 : e ≠ ⟨.taskRemoval, .task t⟩ := fun he => h (by rw [he])
  simp [stepSet, h1, h2]

/-- Emitters and types agree. -/
def Typed (e : Event) : Prop :=
  match e.emitter with
  | .task _ => e.type ≠ .substitutionAddition ∧ e.type ≠ .substitutionRemoval
  | .subs _ => e.type = .substitutionAddition ∨ e.type = .substitutionRemoval

theorem LegalEvent.typed {S : Nat → Prop} {e : Event} (h : LegalEvent S e) : Typed e := by
  obtain ⟨ty, em⟩ := e
  cases em with
  | task t =>
    simp only [LegalEvent, Typed] at h ⊢
    cases ty <;> simp_all [Event.isWeight]
  | subs s => exact h

/-- State of the queue: relation between the known tasks, the tasks present and the queue. -/
structure Inv (K P : Nat → Prop) (q : List Event) : Prop where
  shape : ∀ t, Shape t (K t) (P t) (about t q)
  typed : ∀ e ∈ q, Typed e

theorem weight_facts {e : Event} (h : e.isWeight = true) :
    e.type ≠ .taskAddition ∧ e.type ≠ .taskRemoval := by
  obtain ⟨ty, em⟩ := e
  cases ty <;> simp_all [Event.isWeight]

/-- Effect of a removal on a list of events of the task. -/
def dropNonRemoval (l : List Event) : List Event := l.filter (fun e => decide (e.type = .taskRemoval))

theorem about_filter_self (t : Nat) (q : List Event) :
    about t (q.filter (fun e => !decide (e.emitter = .task t ∧ e.type ≠ .taskRemoval))) =
      dropNonRemoval (about t q) := by
  simp only [about, dropNonRemoval, List.filter_filter]
  apply List.filter_congr
  intro e _
  by_cases h1 : e.emitter = .task t <;> by_cases h2 : e.type = .taskRemoval <;> simp [h1, h2]

theorem about_filter_other (t u : Nat) (h : t ≠ u) (q : List Event) :
    about u (q.filter (fun e => !decide (e.emitter = .task t ∧ e.type ≠ .taskRemoval))) = about u q := by
  simp only [about, List.filter_filter]
  apply List.filter_congr
  intro e _
  by_cases h1 : e.emitter = .task u
  · have : ¬ (Emitter.task u = Emitter.task t) := fun he => h (by injection he with he; exact he.symm)
    simp [h1, this]
  · simp [h1]

theorem adds_eq (t : Nat) (q : List Event) :
    q.filter (fun e => decide (e.emitter = .task t ∧ e.type = .taskAddition)) =
      (about t q).filter (fun e => decide (e.type = .taskAddition)) := by
  simp only [about, List.filter_filter]
  apply List.filter_congr
  intro e _
  by_cases h1 : e.emitter = .task t <;> by_cases h2 : e.type = .taskAddition <;> simp [h1, h2]

theorem drop_weights {ws : List Event} (h : ∀ e ∈ ws, e.isWeight = true) : dropNonRemoval ws = [] := by
  rw [dropNonRemoval, List.filter_eq_nil_iff]
  intro e he
  simpa using (weight_facts (h e he)).2

theorem adds_weights {ws : List Event} (h : ∀ e ∈ ws, e.isWeight = true) :
    ws.filter (fun e => decide (e.type = .taskAddition)) = [] := by
  rw [List.filter_eq_nil_iff]
  intro e he
  simpa using (weight_facts (h e he)).1

/-- What `addEvent` does for a removal, on a queue satisfying the invariant. -/
theorem addEvent_removal {K P : Nat → Prop} {q : List Event} (h : Inv K P q) (t : Nat) (hp : P t) :
    ∃ q', addEvent q ⟨.taskRemoval, .task t⟩ = some q' ∧
      (∀ u, u ≠ t → about u q' = about u q) ∧ (K t → about t q' = [⟨.taskRemoval, .task t⟩]) ∧
      (¬ K t → about t q' = []) ∧
      List.Sublist q' (q ++ [⟨.taskRemoval, .task t⟩]) ∧
      (∀ p : Event → Bool, (∀ t ty, p ⟨ty, .task t⟩ = false) → q'.filter p = q.filter p) := by
  obtain ⟨s1, s2, s3⟩ := scan_spec (.task t) q true
  have hsub : List.Sublist (scan (.task t) q true).1 q := by rw [s1]; exact List.filter_sublist
  have hsubs : ∀ p : Event → Bool, (∀ t ty, p ⟨ty, .task t⟩ = false) →
      (scan (.task t) q true).1.filter p = q.filter p := by
    intro p hp
    rw [s1, List.filter_filter]
    apply List.filter_congr
    intro e _
    obtain ⟨ty, em⟩ := e
    cases em with
    | task u => simp [hp]
    | subs s => simp
  rw [adds_eq] at s2 s3
  have hsh := h.shape t
  have hcase : ((∃ ws, K t ∧ about t q = ws ∧ ∀ e ∈ ws, e.isWeight = true) ∨
      (∃ ws, K t ∧ about t q = ⟨.taskRemoval, .task t⟩ :: ⟨.taskAddition, .task t⟩ :: ws ∧
        ∀ e ∈ ws, e.isWeight = true) ∨
      (∃ ws, ¬ K t ∧ about t q = ⟨.taskAddition, .task t⟩ :: ws ∧ ∀ e ∈ ws, e.isWeight = true)) := by
    generalize about t q = l at hsh
    cases hsh with
    | kept ws hk _ hw => exact Or.inl ⟨_, hk, rfl, hw⟩
    | replaced ws hk _ hw => exact Or.inr (Or.inl ⟨ws, hk, rfl, hw⟩)
    | removed hk hp' => exact absurd hp hp'
    | added ws hk _ hw => exact Or.inr (Or.inr ⟨ws, hk, rfl, hw⟩)
    | absent hk hp' => exact absurd hp hp'
  have hother : ∀ u, u ≠ t → about u (scan (.task t) q true).1 = about u q := by
    intro u hu
    rw [s1, about_filter_other t u (Ne.symm hu)]
  have hself : about t (scan (.task t) q true).1 = dropNonRemoval (about t q) := by
    rw [s1, about_filter_self]
  have hrem : ∀ u, u ≠ t → about u [⟨.taskRemoval, .task t⟩] = [] := by
    intro u hu
    apply about_other
    intro he
    exact hu (by injection he with he; exact he.symm)
  have hremt : about t [⟨.taskRemoval, .task t⟩] = [⟨.taskRemoval, .task t⟩] := about_self t _ rfl
  rcases hcase with ⟨ws, hk, he, hw⟩ | ⟨ws, hk, he, hw⟩ | ⟨ws, hk, he, hw⟩
  · have e2 := s2 (by rw [he, adds_weights hw]; rfl)
    refine ⟨(scan (.task t) q true).1 ++ [⟨.taskRemoval, .task t⟩], ?_, ?_, ?_, ?_, ?_, ?_⟩
    · simp [addEvent, e2]
    · intro u hu
      rw [about_append, hother u hu, hrem u hu, List.append_nil]
    · intro _
      rw [about_append, hself, he, drop_weights hw, hremt, List.nil_append]
    · intro hk'; exact absurd hk hk'
    · exact hsub.append_right _
    · intro p hp
      rw [List.filter_append, hsubs p hp]
      simp [hp]
  · have e3 := s3 (by rw [he]; simp [adds_weights hw])
    refine ⟨(scan (.task t) q true).1, ?_, hother, ?_, ?_, ?_, hsubs⟩
    · simp [addEvent, e3]
    · intro _
      rw [hself, he]
      have := drop_weights hw
      simp only [dropNonRemoval] at this ⊢
      simp [this]
    · intro hk'; exact absurd hk hk'
    · exact hsub.trans (List.sublist_append_left ..)
  · have e3 := s3 (by rw [he]; simp [adds_weights hw])
    refine ⟨(scan (.task t) q true).1, ?_, hother, ?_, ?_, ?_, hsubs⟩
    · simp [addEvent, e3]
    · intro hk'; exact absurd hk' hk
    · intro _
      rw [hself, he]
      have := drop_weights hw
      simp only [dropNonRemoval] at this ⊢
      simp [this]
    · exact hsub.trans (List.sublist_append_left ..)

/-- One event, on a queue satisfying the invariant. -/
theorem addEvent_step {K P : Nat → Prop} {q : List Event} (h : Inv K P q) (e : Event) (he : LegalEvent P e) :
    ∃ q', addEvent q e = some q' ∧ Inv K (stepSet P e) q' ∧ List.Sublist q' (q ++ [e]) ∧
      (∀ t, recentWeights t q' = recentWeights t (about t q ++ about t [e])) ∧
      (∀ p : Event → Bool, (∀ t ty, p ⟨ty, .task t⟩ = false) → q'.filter p = (q ++ [e]).filter p) := by
  have aa : ∀ t l, about t (about t l) = about t l := by
    intro t l; simp [about, List.filter_filter]
  by_cases hr : e.type = .taskRemoval
  · obtain ⟨ty, em⟩ := e
    simp only at hr
    subst hr
    cases em with
    | subs s => simp [LegalEvent] at he
    | task t =>
      have hp : P t := by simpa [LegalEvent, Event.isWeight] using he
      obtain ⟨q', h1, h2, h3, h4, h5, h6⟩ := addEvent_removal h t hp
      have hne : ∀ u, u ≠ t → (⟨.taskRemoval, .task t⟩ : Event).emitter ≠ .task u := by
        intro u hu he
        exact hu (by injection he with he; exact he.symm)
      refine ⟨q', h1, ⟨fun u => ?_, fun e he => ?_⟩, h5, fun u => ?_, fun p hp' => ?_⟩
      · by_cases hu : u = t
        · subst hu
          have hnot : ¬ stepSet P ⟨.taskRemoval, .task u⟩ u := by simp [stepSet]
          by_cases hk : K u
          · rw [h3 hk]; exact .removed _ _ hk hnot
          · rw [h4 hk]; exact .absent _ _ hk hnot
        · rw [h2 u hu, stepSet_other P _ u (hne u hu)]
          exact h.shape u
      · have := h5.subset he
        rcases List.mem_append.1 this with h' | h'
        · exact h.typed e h'
        · rw [List.mem_singleton.1 h']; simp [Typed]
      · by_cases hu : u = t
        · subst hu
          have e1 : about u [⟨.taskRemoval, .task u⟩] = [⟨.taskRemoval, .task u⟩] := about_self u _ rfl
          simp only [recentWeights, about_append, aa, e1]
          by_cases hk : K u
          · rw [h3 hk]; simp [Event.isWeight]
          · rw [h4 hk]; simp [Event.isWeight]
        · rw [about_other u _ (hne u hu)]
          simp only [recentWeights, aa, h2 u hu, List.append_nil]
      · rw [h6 p hp', List.filter_append]; simp [hp']
  · refine ⟨q ++ [e], by simp [addEvent, hr], ⟨fun u => ?_, fun e' he' => ?_⟩, List.Sublist.refl _, fun u => ?_,
      fun p hp' => rfl⟩
    · by_cases hu : e.emitter = .task u
      · rw [about_append, about_self u e hu]
        obtain ⟨ty, em⟩ := e
        simp only at hu hr
        subst hu
        have hsh := h.shape u
        by_cases ha : ty = .taskAddition
        · subst ha
          have hnp : ¬ P u := by simpa [LegalEvent, Event.isWeight] using he
          have hin : stepSet P ⟨.taskAddition, .task u⟩ u := by simp [stepSet]
          generalize about u q = l at hsh
          cases hsh with
          | kept ws _ hp => exact absurd hp hnp
          | replaced ws _ hp => exact absurd hp hnp
          | added ws _ hp => exact absurd hp hnp
          | removed hk _ => exact .replaced _ _ [] hk hin (by simp)
          | absent hk _ => exact .added _ _ [] hk hin (by simp)
        · have hw : (⟨ty, .task u⟩ : Event).isWeight = true ∧ P u := by
            simpa [LegalEvent, ha, hr] using he
          have hst : stepSet P ⟨ty, .task u⟩ u = P u := by
            simp [stepSet, ha, hr]
          have app : ∀ ws : List Event, (∀ e ∈ ws, e.isWeight = true) →
              ∀ e ∈ ws ++ [⟨ty, .task u⟩], e.isWeight = true := by
            intro ws h e he
            rcases List.mem_append.1 he with h' | h'
            · exact h e h'
            · rw [List.mem_singleton.1 h']; exact hw.1
          rw [hst]
          generalize about u q = l at hsh
          cases hsh with
          | kept ws hk hp hws => exact .kept _ _ _ hk hp (app _ hws)
          | replaced ws hk hp hws => exact .replaced _ _ (ws ++ [_]) hk hp (app _ hws)
          | added ws hk hp hws => exact .added _ _ (ws ++ [_]) hk hp (app _ hws)
          | removed _ hp => exact absurd hw.2 hp
          | absent _ hp => exact absurd hw.2 hp
      · rw [about_append, about_other u e hu, List.append_nil, stepSet_other P e u hu]
        exact h.shape u
    · rcases List.mem_append.1 he' with h' | h'
      · exact h.typed e' h'
      · rw [List.mem_singleton.1 h']; exact he.typed
    · simp only [recentWeights, about_append, aa]

/-- Legality of a list of events about one task, `p` telling if the task is present at first. -/
def LegalOne (t : Nat) (p : Prop) : List Event → Prop
  | [] => True
  | e :: l => LegalEvent (fun _ => p) e ∧ LegalOne t (stepSet (fun _ => p) e t) l

theorem legal_of_about : ∀ (q : List Event) (K : Nat → Prop), (∀ e ∈ q, Typed e) →
    (∀ t, LegalOne t (K t) (about t q)) → Legal K q := by
  intro q
  induction q with
  | nil => intro K _ _; trivial
  | cons e q ih =>
    intro K ht hl
    refine ⟨?_, ih _ (fun e' he' => ht e' (List.mem_cons_of_mem _ he')) fun u => ?_⟩
    · obtain ⟨ty, em⟩ := e
      cases em with
      | task t =>
        have := hl t
        simp only [about, List.filter_cons, decide_true, if_true, LegalOne] at this
        exact this.1
      | subs s =>
        have := ht ⟨ty, .subs s⟩ (by simp)
        exact this
    · by_cases hu : e.emitter = .task u
      · have := hl u
        simp only [about, List.filter_cons, hu, decide_true, if_true, LegalOne] at this
        exact this.2
      · rw [stepSet_other K e u hu]
        have := hl u
        simpa [about, List.filter_cons, hu] using this

theorem present_congr (t : Nat) : ∀ (q : List Event) (S T : Nat → Prop), (S t ↔ T t) →
    (present S q t ↔ present T q t) := by
  intro q
  induction q with
  | nil => intro S T h; exact h
  | cons e q ih =>
    intro S T h
    apply ih
    simp only [stepSet]
    split
    · exact Iff.rfl
    · split
      · exact Iff.rfl
      · exact h

/-- The presence of a task depends on the events about it only. -/
theorem present_about : ∀ (q : List Event) (K : Nat → Prop) (t : Nat),
    present K q t ↔ present (fun _ => K t) (about t q) t := by
  intro q
  induction q with
  | nil => intro K t; exact Iff.rfl
  | cons e q ih =>
    intro K t
    show present (stepSet K e) q t ↔ _
    rw [ih]
    by_cases hu : e.emitter = .task t
    · simp only [about, List.filter_cons, hu, decide_true, if_true, present]
      exact present_congr t _ _ _ Iff.rfl
    · rw [stepSet_other K e t hu]
      have : about t (e :: q) = about t q := by simp [about, hu]
      rw [this]

theorem present_weights (t : Nat) : ∀ (ws : List Event) (S : Nat → Prop), (∀ e ∈ ws, e.isWeight = true) →
    (present S ws t ↔ S t) := by
  intro ws
  induction ws with
  | nil => intro S _; exact Iff.rfl
  | cons e ws ih =>
    intro S h
    show present (stepSet S e) ws t ↔ _
    rw [ih _ (fun e he => h e (List.mem_cons_of_mem _ he))]
    obtain ⟨h1, h2⟩ := weight_facts (h e (by simp))
    have a1 : e ≠ ⟨.taskAddition, .task t⟩ := fun he => h1 (by rw [he])
    have a2 : e ≠ ⟨.taskRemoval, .task t⟩ := fun he => h2 (by rw [he])
    simp [stepSet, a1, a2]

theorem legalOne_weights (t : Nat) : ∀ (ws : List Event) (p : Prop), p → (∀ e ∈ ws, e.isWeight = true) →
    (∀ e ∈ ws, e.emitter = .task t) → LegalOne t p ws := by
  intro ws
  induction ws with
  | nil => intro p _ _ _; trivial
  | cons e ws ih =>
    intro p hp h he
    obtain ⟨h1, h2⟩ := weight_facts (h e (by simp))
    have a1 : e ≠ ⟨.taskAddition, .task t⟩ := fun he => h1 (by rw [he])
    have a2 : e ≠ ⟨.taskRemoval, .task t⟩ := fun he => h2 (by rw [he])
    refine ⟨?_, ih _ ?_ (fun e he => h e (List.mem_cons_of_mem _ he)) fun e h' => he e (List.mem_cons_of_mem _ h')⟩
    · simp [LegalEvent, he e (by simp), h e (by simp), hp]
    · simpa [stepSet, a1, a2] using hp

theorem Inv.legal {K P : Nat → Prop} {q : List Event} (h : Inv K P q) :
    Legal K q ∧ ∀ t, present K q t ↔ P t := by
  have hem : ∀ t, ∀ e ∈ about t q, e.emitter = .task t := by
    intro t e he
    simpa using (List.mem_filter.1 he).2
  refine ⟨legal_of_about q K h.typed fun t => ?_, fun t => ?_⟩
  · have hsh := h.shape t
    have hm := hem t
    generalize about t q = l at hsh hm
    cases hsh with
    | kept ws hk _ hw => exact legalOne_weights t _ _ hk hw hm
    | replaced ws hk _ hw =>
      refine ⟨by simpa [LegalEvent, Event.isWeight] using hk, ?_, ?_⟩
      · simp [LegalEvent, stepSet]
      · apply legalOne_weights t _ _ _ hw (fun e he => hm e (by simp [he]))
        simp [stepSet]
    | removed hk _ => exact ⟨by simpa [LegalEvent, Event.isWeight] using hk, trivial⟩
    | added ws hk _ hw =>
      refine ⟨by simpa [LegalEvent, Event.isWeight] using hk, ?_⟩
      apply legalOne_weights t _ _ _ hw (fun e he => hm e (by simp [he]))
      simp [stepSet]
    | absent _ _ => trivial
  · rw [present_about]
    have hsh := h.shape t
    generalize about t q = l at hsh
    cases hsh with
    | kept ws hk hp hw => simp [present_weights t _ _ hw, hk, hp]
    | replaced ws hk hp hw => simp only [present]; rw [present_weights t _ _ hw]; simp [stepSet, hp]
    | removed hk hp => simp [present, stepSet, hp]
    | added ws hk hp hw => simp only [present]; rw [present_weights t _ _ hw]; simp [stepSet, hp]
    | absent hk hp => simp [present, hk, hp]

/-- The state of the queue after a legal history. -/
theorem queue_inv (K : Nat → Prop) (h : List Event) (hl : Legal K h) :
    ∃ q, addEvents [] h = some q ∧ Inv K (present K h) q ∧ List.Sublist q h ∧
      (∀ t, recentWeights t q = recentWeights t h) ∧
      (∀ p : Event → Bool, (∀ t ty, p ⟨ty, .task t⟩ = false) → q.filter p = h.filter p) := by
  have aa : ∀ t l, about t (about t l) = about t l := by
    intro t l; simp [about, List.filter_filter]
  have ext : ∀ t (l m n : List Event), recentWeights t l = recentWeights t m →
      recentWeights t (l ++ n) = recentWeights t (m ++ n) := by
    intro t l m n h
    simp only [recentWeights, about_append, List.reverse_append, List.takeWhile_append] at h ⊢
    rw [h]
  have key : ∀ (l pre : List Event) (P : Nat → Prop) (q : List Event), Legal P l → Inv K P q →
      List.Sublist q pre → (∀ t, recentWeights t q = recentWeights t pre) →
      (∀ p : Event → Bool, (∀ t ty, p ⟨ty, .task t⟩ = false) → q.filter p = pre.filter p) →
      ∃ q', addEvents q l = some q' ∧ Inv K (present P l) q' ∧ List.Sublist q' (pre ++ l) ∧
        (∀ t, recentWeights t q' = recentWeights t (pre ++ l)) ∧
        (∀ p : Event → Bool, (∀ t ty, p ⟨ty, .task t⟩ = false) → q'.filter p = (pre ++ l).filter p) := by
    intro l
    induction l with
    | nil =>
      intro pre P q _ hi hs hr hp
      exact ⟨q, rfl, hi, by simpa using hs, by simpa using hr, by simpa using hp⟩
    | cons e l ih =>
      intro pre P q hl hi hs hr hp
      obtain ⟨q1, h1, h2, h3, h4, h5⟩ := addEvent_step hi e hl.1
      have := ih (pre ++ [e]) _ q1 hl.2 h2 (h3.trans (hs.append_right _)) (fun t => by
          rw [h4 t]
          have e1 : recentWeights t (about t q ++ about t [e]) = recentWeights t (q ++ [e]) := by
            simp only [recentWeights, about_append, aa]
          rw [e1]
          exact ext t q pre [e] (hr t))
        (fun p hp' => by rw [h5 p hp', List.filter_append, List.filter_append, hp p hp'])
      obtain ⟨q', g1, g2, g3, g4, g5⟩ := this
      exact ⟨q', by simp only [addEvents, h1, g1], g2, by simpa using g3, by simpa using g4, by simpa using g5⟩
  have h0 : Inv K K [] := by
    refine ⟨fun t => ?_, by simp⟩
    by_cases hk : K t
    · exact .kept _ _ [] hk hk (by simp)
    · exact .absent _ _ hk hk
  obtain ⟨q, h1, h2, h3, h4, h5⟩ := key h [] K [] hl h0 (List.Sublist.refl _) (fun _ => rfl) (fun _ _ => rfl)
  exact ⟨q, h1, h2, h3, by simpa using h4, by simpa using h5⟩

/-! ## The properties -/

/-- **C31.** For every legal history, no assertion fails while the events are queued, the queue is itself a legal
history, extracted in order from the full one, and processing it from the known tasks leads to the same set of tasks as
processing the full history. -/
theorem C31_same_tasks (K : Nat → Prop) (h : List Event) (hl : Legal K h) :
    ∃ q, addEvents [] h = some q ∧ List.Sublist q h ∧ Legal K q ∧ ∀ t, present K q t ↔ present K h t := by
  obtain ⟨q, h1, h2, h3, _, _⟩ := queue_inv K h hl
  exact ⟨q, h1, h3, h2.legal.1, h2.legal.2⟩

/-- **C31, weights.** The queue tells the same changes of weights as the full history, since the last addition or
removal of each task, and the same events about substitutions. -/
theorem C31_same_weights_and_substitutions (K : Nat → Prop) (h q : List Event) (hl : Legal K h)
    (hq : addEvents [] h = some q) :
    (∀ t, recentWeights t q = recentWeights t h) ∧
      ∀ s, q.filter (fun e => e.emitter = .subs s) = h.filter (fun e => e.emitter = .subs s) := by
  obtain ⟨q', h1, _, _, h4, h5⟩ := queue_inv K h hl
  rw [hq] at h1
  injection h1 with h1
  subst h1
  exact ⟨h4, fun s => h5 _ (by simp)⟩

/-- **C31, cancellation.** A task neither known nor present any more (added then removed between two resolutions) leaves
no event. A task known and not present leaves its removal only. -/
theorem C31_cancelled (K : Nat → Prop) (h q : List Event) (hl : Legal K h) (hq : addEvents [] h = some q) (t : Nat)
    (hp : ¬ present K h t) :
    (¬ K t → ∀ e ∈ q, e.emitter ≠ .task t) ∧ (K t → about t q = [⟨.taskRemoval, .task t⟩]) := by
  obtain ⟨q', h1, h2, _, _, _⟩ := queue_inv K h hl
  rw [hq] at h1
  injection h1 with h1
  subst h1
  have hsh := h2.shape t
  constructor
  · intro hk e he hem
    have hin : e ∈ about t q := List.mem_filter.2 ⟨he, by simpa using hem⟩
    generalize about t q = l at hsh hin
    cases hsh with
    | kept _ hk' => exact hk hk'
    | replaced _ hk' => exact hk hk'
    | removed hk' => exact hk hk'
    | added _ _ hp' => exact hp hp'
    | absent _ _ => simp at hin
  · intro hk
    generalize about t q = l at hsh
    cases hsh with
    | kept _ _ hp' => exact absurd hp' hp
    | replaced _ _ hp' => exact absurd hp' hp
    | removed => rfl
    | added _ hk' => exact absurd hk hk'
    | absent hk' => exact absurd hk hk'

/-- **C31, no dangling emitter.** Each queued event refers to a task which is either present (owned by the problem) or
known (owned by the computation data): additions and changes of weights refer to present tasks, removals to known
tasks. -/
theorem C31_emitters_alive (K : Nat → Prop) (h q : List Event) (hl : Legal K h) (hq : addEvents [] h = some q)
    (e : Event) (he : e ∈ q) (t : Nat) (ht : e.emitter = .task t) :
    (e.type = .taskRemoval → K t) ∧ (e.type ≠ .taskRemoval → present K h t) := by
  obtain ⟨q', h1, h2, _, _, _⟩ := queue_inv K h hl
  rw [hq] at h1
  injection h1 with h1
  subst h1
  have hsh := h2.shape t
  have hin : e ∈ about t q := List.mem_filter.2 ⟨he, by simpa using ht⟩
  generalize about t q = l at hsh hin
  cases hsh with
  | kept ws hk hp hw => exact ⟨fun _ => hk, fun _ => hp⟩
  | replaced ws hk hp hw => exact ⟨fun _ => hk, fun _ => hp⟩
  | removed hk hp => exact ⟨fun _ => hk, fun hn => by simp_all⟩
  | added ws hk hp hw =>
    refine ⟨fun hr => ?_, fun _ => hp⟩
    rcases List.mem_cons.1 hin with rfl | hin
    · simp at hr
    · exact absurd hr (weight_facts (hw e hin)).2
  | absent _ _ => simp at hin

/-! ## Non-vacuity -/

private def A (t : Nat) : Event := ⟨.taskAddition, .task t⟩
private def R (t : Nat) : Event := ⟨.taskRemoval, .task t⟩
private def W (t : Nat) : Event := ⟨.weightChange, .task t⟩
private def hist : List Event := [A 1, W 1, W 0, R 0, ⟨.substitutionAddition, .subs 3⟩, R 1, A 0, W 0, A 2, R 2, W 0]

example : Legal (fun t => t = 0) hist := by
  simp [hist, Legal, LegalEvent, stepSet, A, R, W, Event.isWeight]

example : addEvents [] hist = some [R 0, ⟨.substitutionAddition, .subs 3⟩, A 0, W 0, W 0] := by decide

example : recentWeights 0 hist = [W 0, W 0] := by decide

/-- The assertion does fail on an illegal history. -/
example : addEvents [] [A 1, A 1, R 1] = none := by decide

-- the theorems applied to this history
theorem hist_legal : Legal (fun t => t = 0) hist := by
  simp [hist, Legal, LegalEvent, stepSet, A, R, W, Event.isWeight]

example := C31_same_tasks _ hist hist_legal
example := C31_same_weights_and_substitutions _ hist _ hist_legal (by decide : addEvents [] hist = some [R 0, ⟨.substitutionAddition, .subs 3⟩, A 0, W 0, W 0])
example : (W 0).type ≠ .taskRemoval → present (fun t => t = 0) hist 0 :=
  (C31_emitters_alive _ hist _ hist_legal (by decide : addEvents [] hist = some [R 0, ⟨.substitutionAddition, .subs 3⟩, A 0, W 0, W 0])
    (W 0) (by simp) 0 rfl).2
example : ∀ e ∈ [R 0, ⟨.substitutionAddition, .subs 3⟩, A 0, W 0, W 0], e.emitter ≠ .task 1 :=
  (C31_cancelled _ hist _ hist_legal (by decide) 1 (by simp [hist, present, stepSet, A, R, W])).1 (by decide)

end Verif.EQ
