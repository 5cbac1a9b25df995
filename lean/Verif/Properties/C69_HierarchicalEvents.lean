import Verif.Model.HierarchicalEvents
import Verif.Properties.C68_Hierarchical
/-!
# C69: what a resolution by the hierarchical scheme hands to LexLS after changes of the problem

When a resolution returns, the solutions of what was handed to LexLS are those of the lexicographic problem of the tasks, priorities, weights and substitutions of that time.

This is proved for the histories of calls that return, and with the priorities changed before the first resolution or for tasks that are not in the problem. It is false otherwise: a resolution that follows the addition or removal of a task, or a
change of weight, throws, and after at most as many resolutions as events a resolution returns that is about the former problem (`C69_stale`). A change of priority has no effect at all (`C69_priority`).
-/
set_option autoImplicit false
set_option linter.unusedSectionVars false

namespace Verif.C69
open Verif.HE Verif.SE
open Verif.PB (Sub del put isSubEvent)

variable {K : Type} [Field K] [LinearOrder K] [IsStrictOrderedRing K]

/-! ## Specification -/

/-- The calls of the user; the values at the time of a resolution are those given with it. -/
inductive Call (K : Type) where
  | addTask (t : Nat)
  | removeTask (t : Nat)
  | addSub (x : Sub)
  | removeSub (i : Nat)
  | removeForeignSub
  | setWeight (t w : Nat) (scalar : Bool)
  | setPriority (t p : Nat)
  | solve (v : Snap → Nat → Nat → HLS.Val K)

/-- A call returns. -/
inductive Returns (E : Env K) : State K → Call K → State K → Prop
  | addTask {s s' t} (h : s.addTask E t = .ok s' ()) : Returns E s (.addTask t) s'
  | removeTask {s s' t} (h : s.removeTask t = .ok s' ()) : Returns E s (.removeTask t) s'
  | addSub {s s' x} (h : s.addSub x = .ok s' ()) : Returns E s (.addSub x) s'
  | removeSub {s s' i} (h : s.removeSub i = .ok s' ()) : Returns E s (.removeSub i) s'
  | removeForeignSub {s s'} (h : s.removeForeign = .ok s' ()) : Returns E s .removeForeignSub s'
  | setWeight {s s' t w b} (h : s.setWeight t w b = .ok s' ()) : Returns E s (.setWeight t w b) s'
  | setPriority {s t p} : Returns E s (.setPriority t p) (s.setPriority t p)
  | solve {s s' v r} (h : s.solve E v = .ok s' r) : Returns E s (.solve v) s'

/-- Is the addition of the task still to be handled? -/
def Pending (s : State K) (t : Nat) : Prop := ∃ m, s.mem = some m ∧ (⟨.taskAddition, .task t⟩ : EQ.Event) ∈ m.queue

/-- What is asked of the calls: a task is added when it is not in the problem and removed when it is; substitutions removed are in the problem; the priority of a task is not changed once it is in the problem and there was a resolution; with
substitutions, a task is not removed between its addition and the next resolution. -/
def Asked (s : State K) : Call K → Prop
  | .addTask t => t ∉ s.pb.tr
  | .removeTask t => t ∈ s.pb.tr ∧ (s.pb.subs = [] ∨ ¬ Pending s t)
  | .removeSub i => i < s.pb.subs.length
  | .setPriority t _ => s.mem = none ∨ t ∉ s.pb.tr
  | _ => True

/-- A new problem -/
def start (prio wgt : Nat → Nat) : State K := ⟨{}, prio, wgt, none⟩

/-- The histories of calls that return -/
inductive Run (E : Env K) (prio wgt : Nat → Nat) : List (Call K) → State K → Prop
  | start : Run E prio wgt [] (start prio wgt)
  | call {l s s' c} (h : Run E prio wgt l s) (ha : Asked s c) (hr : Returns E s c s') : Run E prio wgt (l ++ [c]) s'

/-- Is the task in the problem after the calls? -/
def present (t : Nat) : Bool → List (Call K) → Bool
  | b, [] => b
  | b, .addTask u :: l => present t (b || u == t) l
  | b, .removeTask u :: l => present t (b && u != t) l
  | b, _ :: l => present t b l

/-- Its priority and its weights: those given last -/
def prioOf (t : Nat) : Nat → List (Call K) → Nat
  | p, [] => p
  | p, .setPriority u q :: l => prioOf t (if u = t then q else p) l
  | p, _ :: l => prioOf t p l

def wgtOf (t : Nat) : Nat → List (Call K) → Nat
  | w, [] => w
  | w, .setWeight u x _ :: l => wgtOf t (if u = t then x else w) l
  | w, _ :: l => wgtOf t w l

/-! ## The queue -/

/-- The events that the removal of a task leaves in the queue -/
def kept (em : EQ.Emitter) (e : EQ.Event) : Bool := decide (e.emitter ≠ em ∨ e.type = .taskRemoval)

theorem scan_fst (em : EQ.Emitter) (q : List EQ.Event) : ∀ a : Bool, (EQ.scan em q a).1 = q.filter (kept em) := by
  induction q with
  | nil => intro _; rfl
  | cons e q ih =>
    intro a
    by_cases h : e.emitter = em ∧ e.type ≠ .taskRemoval
    · have hk : ¬ kept em e = true := by simp [kept, h.1, h.2]
      rw [List.filter_cons, if_neg hk]
      by_cases h2 : e.type = .taskAddition
      · simp only [EQ.scan, if_pos h, if_pos h2]; exact ih false
      · simp only [EQ.scan, if_pos h, if_neg h2]; exact ih a
    · have hk : kept em e = true := by
        simp only [kept, decide_eq_true_eq]
        by_contra hh
        rw [not_or, not_not] at hh
        exact h hh
      rw [List.filter_cons, if_pos hk]
      simp only [EQ.scan, if_neg h, ih a]

theorem scan_add (em : EQ.Emitter) (q : List EQ.Event) : ∀ a : Bool, (EQ.scan em q a).2.1 = true ↔ a = true ∧ (⟨.taskAddition, em⟩ : EQ.Event) ∉ q := by
  induction q with
  | nil => intro a; simp [EQ.scan]
  | cons e q ih =>
    intro a
    by_cases h : e.emitter = em ∧ e.type ≠ .taskRemoval
    · by_cases h2 : e.type = .taskAddition
      · have : e = ⟨.taskAddition, em⟩ := by
          obtain ⟨_, _⟩ := e
          simp only at h h2
          rw [h.1, h2]
        simp only [EQ.scan, if_pos h, if_pos h2, ih false, Bool.false_eq_true, false_and, false_iff]
        intro hh
        exact hh.2 (by rw [this]; exact List.mem_cons_self ..)
      · have : (⟨.taskAddition, em⟩ : EQ.Event) ≠ e := fun hh => h2 (by rw [← hh])
        simp only [EQ.scan, if_pos h, if_neg h2, ih a, List.mem_cons, this, false_or]
    · have : (⟨.taskAddition, em⟩ : EQ.Event) ≠ e := fun hh => h (by rw [← hh]; exact ⟨rfl, fun hc => by cases hc⟩)
      simp only [EQ.scan, if_neg h, ih a, List.mem_cons, this, false_or]

/-- What a removal does to the queue -/
theorem addEvent_removal {q q' : List EQ.Event} {t : Nat} (h : EQ.addEvent q ⟨.taskRemoval, .task t⟩ = some q') :
    q' = q.filter (kept (.task t)) ++
      if (⟨.taskAddition, .task t⟩ : EQ.Event) ∈ q then [] else [⟨.taskRemoval, .task t⟩] := by
  unfold EQ.addEvent at h
  rw [if_pos rfl] at h
  by_cases h1 : (EQ.scan (.task t) q true).2.2 = true
  · simp only [h1, if_true] at h
    obtain rfl := Option.some.inj h
    have hf := scan_fst (.task t) q true
    have ha := scan_add (.task t) q true
    by_cases h2 : (⟨.taskAddition, .task t⟩ : EQ.Event) ∈ q
    · have : (EQ.scan (.task t) q true).2.1 ≠ true := fun hh => (ha.mp hh).2 h2
      rw [if_neg this, if_pos h2, hf, List.append_nil]
    · have : (EQ.scan (.task t) q true).2.1 = true := ha.mpr ⟨rfl, h2⟩
      rw [if_pos this, if_neg h2, hf]
  · simp only [if_neg h1] at h; cases h

theorem addEvent_other {q q' : List EQ.Event} {e : EQ.Event} (he : e.type ≠ .taskRemoval) (h : EQ.addEvent q e = some q') : q' = q ++ [e] := by
  unfold EQ.addEvent at h
  rw [if_neg he] at h
  exact (Option.some.inj h).symm

/-! ## Invariant -/

/-- No event of the queue is about the task. -/
def quiet (q : List EQ.Event) (t : Nat) : Bool := q.all (fun e => decide (e.emitter ≠ .task t))

/-- The tasks of the problem -/
structure PInv (s : State K) : Prop where
  tr : s.pb.tr = s.pb.cons.map Prod.fst
  nodup : s.pb.tr.Nodup
  toks : ∀ t, t ∈ s.pb.toks ↔ t ∈ s.pb.tr
  extraNil : s.pb.finalized = true → s.pb.subs = [] → s.pb.extra = []

/-- The data of the scheme and the problem, when no event about substitutions is in the queue -/
structure MInv (E : Env K) (s : State K) (m : Mem K) : Prop where
  built : ∃ sol, m.solver = some sol ∧ C68.Hist E.opts (pbOf E m.src) sol
  subs : m.src.subs = s.pb.subs
  gen : s.pb.subs ≠ [] → s.pb.gen = m.gen ∧ m.src.extra = s.pb.extra ∧ (s.pb.finalized = true ∨ m.queue ≠ [])
  extra : s.pb.subs = [] → m.src.extra = []
  same : (itemsOf s.pb s.prio s.wgt).filter (fun i => quiet m.queue i.task) = m.src.items.filter (fun i => quiet m.queue i.task)
  gone : ∀ i ∈ m.src.items, i.task ∈ s.pb.tr ∨ (⟨.taskRemoval, .task i.task⟩ : EQ.Event) ∈ m.queue
  fresh : ∀ t, (⟨.taskAddition, .task t⟩ : EQ.Event) ∈ m.queue → (⟨.taskRemoval, .task t⟩ : EQ.Event) ∈ m.queue ∨ ∀ i ∈ m.src.items, i.task ≠ t

/-- The whole -/
structure Inv (E : Env K) (s : State K) : Prop where
  pb : PInv s
  mem : ∀ m, s.mem = some m → m.queue.any isSubEvent = false → MInv E s m
  ev : ∀ m, s.mem = some m → ∀ e ∈ m.queue, isSubEvent e = true → ∀ t, e.emitter ≠ .task t

theorem note_some {mem mem' : Option (Mem K)} {e : EQ.Event} (h : note mem e = some mem') {m' : Mem K} (hm : mem' = some m') :
    ∃ m q, mem = some m ∧ EQ.addEvent m.queue e = some q ∧ m' = { m with queue := q } := by
  unfold note at h
  cases mem with
  | none => obtain rfl := Option.some.inj h; cases hm
  | some m =>
    simp only at h
    cases hq : EQ.addEvent m.queue e with
    | none => rw [hq] at h; cases h
    | some q =>
      rw [hq] at h
      obtain rfl := Option.some.inj h
      exact ⟨m, q, rfl, hq, (Option.some.inj hm).symm⟩

theorem addEvent_mem {q q' : List EQ.Event} {e : EQ.Event} (h : EQ.addEvent q e = some q') : ∀ x ∈ q', x ∈ q ∨ x = e := by
  intro x hx
  by_cases he : e.type = .taskRemoval
  · unfold EQ.addEvent at h
    rw [if_pos he] at h
    by_cases h1 : (EQ.scan e.emitter q true).2.2 = true
    · simp only [h1, if_true] at h
      obtain rfl := Option.some.inj h
      have hf := scan_fst e.emitter q true
      by_cases h2 : (EQ.scan e.emitter q true).2.1 = true
      · rw [if_pos h2, hf] at hx
        rcases List.mem_append.mp hx with hx | hx
        · exact Or.inl (List.mem_filter.mp hx).1
        · exact Or.inr (List.mem_singleton.mp hx)
      · rw [if_neg h2, hf] at hx
        exact Or.inl (List.mem_filter.mp hx).1
    · simp only [if_neg h1] at h; cases h
  · rw [addEvent_other he h] at hx
    rcases List.mem_append.mp hx with hx | hx
    · exact Or.inl hx
    · exact Or.inr (List.mem_singleton.mp hx)

theorem note_ev {mem mem' : Option (Mem K)} {e : EQ.Event} (h : note mem e = some mem') (he : isSubEvent e = true → ∀ t, e.emitter ≠ .task t)
    (hm : ∀ m, mem = some m → ∀ e ∈ m.queue, isSubEvent e = true → ∀ t, e.emitter ≠ .task t) : ∀ m, mem' = some m → ∀ e ∈ m.queue, isSubEvent e = true → ∀ t, e.emitter ≠ .task t := by
  intro m' hm' x hx
  obtain ⟨m, q, e1, e2, rfl⟩ := note_some h hm'
  rcases addEvent_mem e2 x hx with hx | rfl
  · exact hm m e1 x hx
  · exact he

theorem quiet_snoc (q : List EQ.Event) (e : EQ.Event) (t : Nat) : quiet (q ++ [e]) t = (quiet q t && decide (e.emitter ≠ .task t)) := by
  simp [quiet]

theorem mem_get_nodup {l : List (Nat × Cstr)} (h : (l.map Prod.fst).Nodup) {t : Nat} {c : Cstr} : PB.get l t = some c ↔ (t, c) ∈ l := by
  unfold PB.get
  induction l with
  | nil => simp
  | cons e l ih =>
    simp only [List.map_cons, List.nodup_cons] at h
    rw [List.lookup_cons]
    by_cases he : t = e.1
    · subst he
      simp only [beq_self_eq_true, List.mem_cons]
      constructor
      · intro hh; left; rw [← Option.some.inj hh]
      · rintro (hh | hh)
        · rw [← hh]
        · exact absurd (List.mem_map.mpr ⟨_, hh, rfl⟩) h.1
    · have : (t == e.1) = false := by simpa using he
      rw [this, List.mem_cons]
      simp only [ih h.2]
      constructor
      · exact Or.inr
      · rintro (hh | hh)
        · exact absurd (by rw [← hh]) he
        · exact hh

theorem del_fst (l : List (Nat × Cstr)) (t : Nat) : (del l t).map Prod.fst = (l.map Prod.fst).filter (fun u => decide (u ≠ t)) := by
  unfold del
  rw [List.filter_map]; rfl

theorem erase_nodup {l : List Nat} (h : l.Nodup) (t : Nat) : l.erase t = l.filter (fun u => decide (u ≠ t)) := by
  rw [h.erase_eq_filter]
  exact List.filter_congr fun u _ => by cases hh : decide (u = t) <;> simp_all

theorem put_new {l : List (Nat × Cstr)} {t : Nat} (h : t ∉ l.map Prod.fst) (c : Cstr) : put l t c = l ++ [(t, c)] := by
  unfold put
  congr 1
  unfold del
  rw [List.filter_eq_self]
  exact fun e he => by simpa using fun hh => h (List.mem_map.mpr ⟨e, he, hh⟩)

theorem filter_more {α : Type} {A B : List α} {Q R : α → Bool} (h : A.filter Q = B.filter Q) (hr : ∀ i, R i = true → Q i = true) : A.filter R = B.filter R := by
  have key : ∀ L : List α, L.filter R = (L.filter Q).filter R := fun L => by
    rw [List.filter_filter]
    refine List.filter_congr fun i _ => ?_
    cases hri : R i with
    | false => rfl
    | true => rw [hr i hri]; rfl
  rw [key A, key B, h]

theorem any_append_false {q : List EQ.Event} {e : EQ.Event} (h : (q ++ [e]).any isSubEvent = false) : q.any isSubEvent = false ∧ isSubEvent e = false := by
  rw [List.any_append] at h
  have := Bool.or_eq_false_iff.mp h
  exact ⟨this.1, by simpa using this.2⟩

theorem inv_addTask {E : Env K} {s s' : State K} {t : Nat} (hi : Inv E s) (ha : t ∉ s.pb.tr) (h : s.addTask E t = .ok s' ()) : Inv E s' := by
  unfold State.addTask at h
  cases hn : note s.mem ⟨.taskAddition, .task t⟩ with
  | none => rw [hn] at h; cases h
  | some mem =>
    rw [hn] at h
    injection h with h
    subst h
    have hk : t ∉ s.pb.cons.map Prod.fst := hi.pb.tr ▸ ha
    refine ⟨⟨?_, ?_, ?_, ?_⟩, ?_, note_ev hn (fun hh => by cases hh) hi.ev⟩
    · show s.pb.tr ++ [t] = (put s.pb.cons t _).map Prod.fst
      rw [put_new hk, List.map_append, ← hi.pb.tr]; rfl
    · show (s.pb.tr ++ [t]).Nodup
      rw [List.nodup_append]
      exact ⟨hi.pb.nodup, List.nodup_singleton _, fun a h1 b h2 hab => by rw [List.mem_singleton] at h2; subst h2; subst hab; exact ha h1⟩
    · intro u
      show u ∈ t :: s.pb.toks.filter (fun x => decide (x ≠ t)) ↔ u ∈ s.pb.tr ++ [t]
      simp only [List.mem_cons, List.mem_filter, hi.pb.toks, List.mem_append, List.not_mem_nil, or_false]
      by_cases hu : u = t <;> simp [hu]
    · intro hf; cases hf
    · intro m' hm' hs
      obtain ⟨m, q, e1, e2, rfl⟩ := note_some hn hm'
      have e3 := addEvent_other (by intro hc; cases hc) e2
      subst e3
      obtain ⟨b, h1, h2, h3, h4, h5, h6⟩ := hi.mem m e1 (any_append_false hs).1
      refine ⟨b, h1, fun hne => ?_, h3, ?_, ?_, ?_⟩
      · obtain ⟨g1, g2, _⟩ := h2 hne
        exact ⟨g1, g2, Or.inr (by simp)⟩
      · have hit : itemsOf { s.pb with
            tr := s.pb.tr ++ [t]
            toks := t :: s.pb.toks.filter (· ≠ t)
            finalized := false
            cons := put s.pb.cons t ⟨s.pb.nextC, E.size t, E.type t⟩
            nextC := s.pb.nextC + 1 } s.prio s.wgt = itemsOf s.pb s.prio s.wgt ++ [⟨t, ⟨s.pb.nextC, E.size t, E.type t⟩, s.prio t, s.wgt t⟩] := by
          unfold itemsOf
          simp only [put_new hk, List.map_append, List.map_cons, List.map_nil]
        show (itemsOf _ s.prio s.wgt).filter (fun i => quiet (m.queue ++ [⟨.taskAddition, .task t⟩]) i.task) = m.src.items.filter (fun i => quiet (m.queue ++ [⟨.taskAddition, .task t⟩]) i.task)
        rw [hit, List.filter_append]
        have : ([⟨t, ⟨s.pb.nextC, E.size t, E.type t⟩, s.prio t, s.wgt t⟩] : List Item).filter (fun i => quiet (m.queue ++ [⟨.taskAddition, .task t⟩]) i.task) = [] := by
          simp [quiet_snoc]
        rw [this, List.append_nil]
        exact filter_more h4 fun i hr => by rw [quiet_snoc] at hr; exact (Bool.and_eq_true_iff.mp hr).1
      · intro i hi'
        rcases h5 i hi' with hh | hh
        · exact Or.inl (List.mem_append_left _ hh)
        · exact Or.inr (List.mem_append_left _ hh)
      · intro u hu
        rcases List.mem_append.mp hu with hu | hu
        · rcases h6 u hu with hh | hh
          · exact Or.inl (List.mem_append_left _ hh)
          · exact Or.inr hh
        · have : u = t := by
            have := List.mem_singleton.mp hu
            injection this with _ this
            injection this
          subst this
          by_cases hx : ∃ i ∈ m.src.items, i.task = u
          · obtain ⟨i, hi1, hi2⟩ := hx
            rcases h5 i hi1 with hh | hh
            · rw [hi2] at hh; exact absurd hh ha
            · rw [hi2] at hh; exact Or.inl (List.mem_append_left _ hh)
          · exact Or.inr fun i hi1 hi2 => hx ⟨i, hi1, hi2⟩

/-- After an event about substitutions, nothing is asked of the data. -/
theorem sub_event {mem mem' : Option (Mem K)} {ty : EQ.EvType} {i : Nat} (hty : ty = .substitutionAddition ∨ ty = .substitutionRemoval) (h : note mem ⟨ty, .subs i⟩ = some mem') {m' : Mem K} (hm : mem' = some m') :
    m'.queue.any isSubEvent = true := by
  obtain ⟨m, q, _, e2, rfl⟩ := note_some h hm
  have := addEvent_other (by rcases hty with rfl | rfl <;> (intro hc; cases hc)) e2
  subst this
  rw [List.any_append]
  rcases hty with rfl | rfl <;> simp [isSubEvent]

theorem inv_sub {E : Env K} {s' : State K} (hp : PInv s') (h : ∀ m, s'.mem = some m → m.queue.any isSubEvent = true)
    (hv : ∀ m, s'.mem = some m → ∀ e ∈ m.queue, isSubEvent e = true → ∀ t, e.emitter ≠ .task t) : Inv E s' :=
  ⟨hp, fun m hm hs => (by rw [h m hm] at hs; cases hs), hv⟩

theorem inv_addSub {E : Env K} {s s' : State K} {x : Sub} (hi : Inv E s) (h : s.addSub x = .ok s' ()) : Inv E s' := by
  unfold State.addSub at h
  cases hn : note s.mem ⟨.substitutionAddition, .subs s.pb.subs.length⟩ with
  | none => rw [hn] at h; cases h
  | some mem =>
    rw [hn] at h
    injection h with h
    subst h
    exact inv_sub ⟨hi.pb.tr, hi.pb.nodup, hi.pb.toks, fun hf => by cases hf⟩ (fun m hm => sub_event (Or.inl rfl) hn hm) (note_ev hn (fun _ t hh => by cases hh) hi.ev)

theorem inv_removeSub {E : Env K} {s s' : State K} {i : Nat} (hi : Inv E s) (h : s.removeSub i = .ok s' ()) : Inv E s' := by
  unfold State.removeSub at h
  cases hn : note s.mem ⟨.substitutionRemoval, .subs i⟩ with
  | none => rw [hn] at h; cases h
  | some mem =>
    rw [hn] at h
    injection h with h
    subst h
    exact inv_sub ⟨hi.pb.tr, hi.pb.nodup, hi.pb.toks, fun hf => by cases hf⟩ (fun m hm => sub_event (Or.inr rfl) hn hm) (note_ev hn (fun _ t hh => by cases hh) hi.ev)

theorem inv_removeForeign {E : Env K} {s s' : State K} (hi : Inv E s) (h : s.removeForeign = .ok s' ()) : Inv E s' := by
  unfold State.removeForeign at h
  cases hn : note s.mem ⟨.substitutionRemoval, .subs 0⟩ with
  | none => rw [hn] at h; cases h
  | some mem =>
    rw [hn] at h
    injection h with h
    subst h
    exact inv_sub ⟨hi.pb.tr, hi.pb.nodup, hi.pb.toks, fun hf => by cases hf⟩ (fun m hm => sub_event (Or.inr rfl) hn hm) (note_ev hn (fun _ t hh => by cases hh) hi.ev)

theorem itemsOf_wgt {p : PB.Problem} {prio wgt wgt' : Nat → Nat} {prio' : Nat → Nat} (h : ∀ t ∈ p.cons.map Prod.fst, prio t = prio' t ∧ wgt t = wgt' t) : itemsOf p prio wgt = itemsOf p prio' wgt' := by
  unfold itemsOf
  refine List.map_congr_left fun e he => ?_
  obtain ⟨h1, h2⟩ := h e.1 (List.mem_map.mpr ⟨e, he, rfl⟩)
  rw [h1, h2]

theorem inv_setPriority {E : Env K} {s : State K} {t p : Nat} (hi : Inv E s) (ha : s.mem = none ∨ t ∉ s.pb.tr) : Inv E (s.setPriority t p) := by
  refine ⟨⟨hi.pb.tr, hi.pb.nodup, hi.pb.toks, hi.pb.extraNil⟩, fun m hm hs => ?_, hi.ev⟩
  rcases ha with ha | ha
  · have hm : s.mem = some m := hm
    rw [ha] at hm; cases hm
  · obtain ⟨b, h1, h2, h3, h4, h5, h6⟩ := hi.mem m hm hs
    refine ⟨b, h1, h2, h3, ?_, h5, h6⟩
    show (itemsOf s.pb (fun u => if u = t then p else s.prio u) s.wgt).filter _ = _
    rw [← h4, itemsOf_wgt (prio := fun u => if u = t then p else s.prio u) (prio' := s.prio) (wgt := s.wgt) (wgt' := s.wgt) fun u hu => ⟨if_neg fun hh => ha (by rw [hi.pb.tr, ← hh]; exact hu), rfl⟩]

theorem inv_setWeight {E : Env K} {s s' : State K} {t w : Nat} {b : Bool} (hi : Inv E s) (h : s.setWeight t w b = .ok s' ()) : Inv E s' := by
  unfold State.setWeight at h
  by_cases ht : t ∈ s.pb.toks
  · simp only [if_pos ht] at h
    cases hn : note s.mem ⟨if b then .weightChange else .anisotropicWeightChange, .task t⟩ with
    | none => rw [hn] at h; cases h
    | some mem =>
      rw [hn] at h
      injection h with h
      subst h
      refine ⟨⟨hi.pb.tr, hi.pb.nodup, hi.pb.toks, hi.pb.extraNil⟩, fun m' hm' hs => ?_, note_ev hn (fun hh => by cases b <;> cases hh) hi.ev⟩
      obtain ⟨m, q, e1, e2, rfl⟩ := note_some hn hm'
      have e3 := addEvent_other (by cases b <;> (intro hc; cases hc)) e2
      subst e3
      obtain ⟨b', h1, h2, h3, h4, h5, h6⟩ := hi.mem m e1 (any_append_false hs).1
      refine ⟨b', h1, fun hne => ?_, h3, ?_, fun i hi' => (h5 i hi').imp_right fun hh => List.mem_append_left _ hh, fun u hu => ?_⟩
      · obtain ⟨g1, g2, _⟩ := h2 hne
        exact ⟨g1, g2, Or.inr (by simp)⟩
      · show (itemsOf s.pb s.prio (fun u => if u = t then w else s.wgt u)).filter (fun i => quiet (m.queue ++ [⟨if b then .weightChange else .anisotropicWeightChange, .task t⟩]) i.task) =
          m.src.items.filter (fun i => quiet (m.queue ++ [⟨if b then .weightChange else .anisotropicWeightChange, .task t⟩]) i.task)
        have h4' := filter_more h4 (R := fun i => quiet (m.queue ++ [(⟨if b then .weightChange else .anisotropicWeightChange, .task t⟩ : EQ.Event)]) i.task)
          fun i hr => by rw [quiet_snoc] at hr; exact (Bool.and_eq_true_iff.mp hr).1
        rw [← h4']
        unfold itemsOf
        rw [List.filter_map, List.filter_map]
        refine List.map_congr_left fun e he => ?_
        have hq := (List.mem_filter.mp he).2
        simp only [Function.comp, quiet_snoc, Bool.and_eq_true, decide_eq_true_eq] at hq
        have hne : e.1 ≠ t := fun hh => hq.2 (by rw [hh])
        show (⟨e.1, e.2, s.prio e.1, if e.1 = t then w else s.wgt e.1⟩ : Item) = ⟨e.1, e.2, s.prio e.1, s.wgt e.1⟩
        rw [if_neg hne]
      · rcases List.mem_append.mp hu with hu | hu
        · exact (h6 u hu).imp_left fun hh => List.mem_append_left _ hh
        · have := List.mem_singleton.mp hu
          injection this with this _
          cases b <;> cases this
  · simp only [if_neg ht] at h
    injection h with h
    subst h
    have htr : t ∉ s.pb.tr := fun hh => ht ((hi.pb.toks t).mpr hh)
    refine ⟨⟨hi.pb.tr, hi.pb.nodup, hi.pb.toks, hi.pb.extraNil⟩, fun m hm hs => ?_, hi.ev⟩
    obtain ⟨b', h1, h2, h3, h4, h5, h6⟩ := hi.mem m hm hs
    refine ⟨b', h1, h2, h3, ?_, h5, h6⟩
    show (itemsOf s.pb s.prio (fun u => if u = t then w else s.wgt u)).filter _ = _
    rw [← h4, itemsOf_wgt (prio := s.prio) (prio' := s.prio) (wgt := fun u => if u = t then w else s.wgt u) (wgt' := s.wgt) fun u hu => ⟨rfl, if_neg fun hh => htr (by rw [hi.pb.tr, ← hh]; exact hu)⟩]

theorem quiet_removal {q : List EQ.Event} {t u : Nat} (hu : u ≠ t) (l : List EQ.Event) (hl : ∀ e ∈ l, e.emitter = .task t) : quiet (q.filter (kept (.task t)) ++ l) u = quiet q u := by
  rw [Bool.eq_iff_iff]
  simp only [quiet, List.all_eq_true, List.mem_append, List.mem_filter, decide_eq_true_eq]
  constructor
  · intro h e he hc
    have hk : kept (.task t) e = true := by
      simp only [kept, decide_eq_true_eq]
      left; rw [hc]; intro hh; injection hh with hh; exact hu hh
    exact h e (Or.inl ⟨he, hk⟩) hc
  · rintro h e (he | he) hc
    · exact h e he.1 hc
    · rw [hl e he] at hc; injection hc with hc; exact hu hc.symm

theorem del_items (s : State K) (t : Nat) (p : PB.Problem) (hp : p.cons = del s.pb.cons t) : itemsOf p s.prio s.wgt = (itemsOf s.pb s.prio s.wgt).filter (fun i => decide (i.task ≠ t)) := by
  unfold itemsOf
  rw [hp, List.filter_map]
  rfl

/-- The removal of a task by the base class and from the map, when no substitution is removed -/
theorem minv_remove {E : Env K} {s : State K} {t : Nat} (hi : Inv E s) (ha : s.pb.subs = [] ∨ ¬ Pending s t) {m : Mem K} (hm : s.mem = some m) {q : List EQ.Event}
    (hq : EQ.addEvent m.queue ⟨.taskRemoval, .task t⟩ = some q) (hs : q.any isSubEvent = false) {s' : State K} (htr : s'.pb.tr = s.pb.tr.erase t) (hcons : s'.pb.cons = del s.pb.cons t)
    (hsubs : s'.pb.subs = s.pb.subs) (hex : s'.pb.extra = s.pb.extra) (hgen : s'.pb.gen = s.pb.gen) (hpr : s'.prio = s.prio) (hwg : s'.wgt = s.wgt) : MInv E s' { m with queue := q } := by
  have hq' := addEvent_removal hq
  have hsub : m.queue.any isSubEvent = false := by
    rw [Bool.eq_false_iff]
    intro hh
    obtain ⟨e, he, hse⟩ := List.any_eq_true.mp hh
    have hk : kept (.task t) e = true := by
      simp only [kept, decide_eq_true_eq]
      exact Or.inl (hi.ev m hm e he hse t)
    have : q.any isSubEvent = true := List.any_eq_true.mpr ⟨e, by rw [hq']; exact List.mem_append_left _ (List.mem_filter.mpr ⟨he, hk⟩), hse⟩
    rw [this] at hs; cases hs
  obtain ⟨b, h1, h2, h3, h4, h5, h6⟩ := hi.mem m hm hsub
  have hrem : ∀ u, (⟨.taskRemoval, .task u⟩ : EQ.Event) ∈ m.queue → (⟨.taskRemoval, .task u⟩ : EQ.Event) ∈ q := fun u hu => by
    rw [hq']
    exact List.mem_append_left _ (List.mem_filter.mpr ⟨hu, by simp [kept]⟩)
  have hmine : (⟨.taskRemoval, .task t⟩ : EQ.Event) ∈ q ∨ ∀ i ∈ m.src.items, i.task ≠ t := by
    by_cases hadd : (⟨.taskAddition, .task t⟩ : EQ.Event) ∈ m.queue
    · exact (h6 t hadd).imp_left (hrem t)
    · left; rw [hq', if_neg hadd]; simp
  have hquiet : ∀ u, u ≠ t → quiet q u = quiet m.queue u := fun u hu => by
    rw [hq']
    refine quiet_removal hu _ fun e he => ?_
    split at he
    · cases he
    · rw [List.mem_singleton.mp he]
  have hnotq : (⟨.taskRemoval, .task t⟩ : EQ.Event) ∈ q → quiet q t = false := fun h => by
    rw [Bool.eq_false_iff]
    intro hh
    have := List.all_eq_true.mp hh _ h
    simp at this
  refine ⟨b, h1.trans hsubs.symm, fun hne => ?_, fun he => h3 (hsubs ▸ he), ?_, fun i hi' => ?_, fun u hu => ?_⟩
  · rw [hsubs] at hne
    rw [hgen, hex]
    obtain ⟨g1, g2, _⟩ := h2 hne
    refine ⟨g1, g2, Or.inr ?_⟩
    have hadd : (⟨.taskAddition, .task t⟩ : EQ.Event) ∉ m.queue := fun hh => by
      rcases ha with ha | ha
      · exact hne ha
      · exact ha ⟨m, hm, hh⟩
    show q ≠ []
    rw [hq', if_neg hadd]; simp
  · rw [hpr, hwg, del_items s t s'.pb hcons]
    show List.filter (fun i => quiet q i.task) _ = m.src.items.filter (fun i => quiet q i.task)
    rw [List.filter_filter]
    have hB : m.src.items.filter (fun i => quiet q i.task) = m.src.items.filter (fun i => quiet q i.task && decide (i.task ≠ t)) := by
      refine List.filter_congr fun i hi' => ?_
      by_cases hit : i.task = t
      · rcases hmine with hh | hh
        · rw [hit, hnotq hh]; rfl
        · exact absurd hit (hh i hi')
      · simp [hit]
    rw [hB]
    refine filter_more h4 fun i hr => ?_
    simp only [Bool.and_eq_true, decide_eq_true_eq] at hr
    rw [← hquiet _ hr.2]
    exact hr.1
  · by_cases hit : i.task = t
    · right
      rcases hmine with hh | hh
      · rw [hit]; exact hh
      · exact absurd hit (hh i hi')
    · rcases h5 i hi' with hh | hh
      · left
        rw [htr, erase_nodup hi.pb.nodup, List.mem_filter]
        exact ⟨hh, by simpa using hit⟩
      · exact Or.inr (hrem _ hh)
  · have hu' : (⟨.taskAddition, .task u⟩ : EQ.Event) ∈ m.queue ∧ u ≠ t := by
      show _ ∧ _
      have hu : (⟨.taskAddition, .task u⟩ : EQ.Event) ∈ q := hu
      rw [hq'] at hu
      rcases List.mem_append.mp hu with hu | hu
      · obtain ⟨g1, g2⟩ := List.mem_filter.mp hu
        refine ⟨g1, fun hh => ?_⟩
        subst hh
        simp [kept] at g2
      · split at hu
        · cases hu
        · have := List.mem_singleton.mp hu
          injection this with this _
          cases this
    exact (h6 u hu'.1).imp_left (hrem u)

theorem pinv_remove {s s' : State K} {t : Nat} (hp : PInv s) (htr : s'.pb.tr = s.pb.tr.erase t) (hcons : s'.pb.cons = del s.pb.cons t) (htok : s'.pb.toks = s.pb.toks.filter (fun x => decide (x ≠ t)))
    (hf : s'.pb.finalized = false) : PInv s' := by
  refine ⟨?_, ?_, fun u => ?_, fun h => by rw [hf] at h; cases h⟩
  · rw [htr, hcons, del_fst, erase_nodup hp.nodup, hp.tr]
  · rw [htr]; exact hp.nodup.erase t
  · rw [htr, htok, erase_nodup hp.nodup, List.mem_filter, List.mem_filter, hp.toks]

theorem inv_removeTask {E : Env K} {s s' : State K} {t : Nat} (hi : Inv E s) (ht : t ∈ s.pb.tr) (ha : s.pb.subs = [] ∨ ¬ Pending s t) (h : s.removeTask t = .ok s' ()) : Inv E s' := by
  unfold State.removeTask State.removeBase at h
  rw [if_pos ht] at h
  cases hn : note s.mem ⟨.taskRemoval, .task t⟩ with
  | none => rw [hn] at h; cases h
  | some mem =>
    rw [hn] at h
    simp only at h
    have hev := note_ev hn (fun hh => by cases hh) hi.ev
    obtain ⟨c, hc⟩ : ∃ c, PB.get s.pb.cons t = some c := by
      rw [hi.pb.tr] at ht
      obtain ⟨e, he, rfl⟩ := List.mem_map.mp ht
      exact ⟨e.2, (mem_get_nodup (hi.pb.tr ▸ hi.pb.nodup)).mpr he⟩
    rw [hc] at h
    simp only at h
    cases hf : PB.findSub s.pb.subs c with
    | none =>
      rw [hf] at h
      injection h with h
      subst h
      refine ⟨pinv_remove hi.pb rfl rfl rfl rfl, fun m' hm' hs => ?_, hev⟩
      obtain ⟨m, q, e1, e2, rfl⟩ := note_some hn hm'
      exact minv_remove hi ha e1 e2 hs rfl rfl rfl rfl rfl rfl rfl
    | some i =>
      rw [hf] at h
      simp only at h
      by_cases hsimple : ((s.pb.subs[i]?).map PB.Sub.isSimple).getD false = true
      · rw [if_pos hsimple] at h
        unfold State.removeSub at h
        simp only at h
        cases hn2 : note mem ⟨.substitutionRemoval, .subs i⟩ with
        | none => rw [hn2] at h; cases h
        | some mem' =>
          rw [hn2] at h
          injection h with h
          subst h
          exact inv_sub (pinv_remove hi.pb rfl rfl rfl rfl) (fun m hm => sub_event (Or.inr rfl) hn2 hm) (note_ev hn2 (fun _ t hh => by cases hh) hev)
      · rw [if_neg hsimple] at h; cases h

/-! ## Resolution -/

theorem build_ok {E : Env K} {sn : Snap} {g : Nat} {m₀ m : Mem K} (h : build E sn g = .ok m₀ m) : ∃ sol, m = ⟨[], some sol, sn, g⟩ ∧ C68.Hist E.opts (pbOf E sn) sol := by
  unfold build at h
  cases hp : HLS.processProblem E.opts (pbOf E sn) with
  | ok u sol =>
    rw [hp] at h
    injection h with _ h
    exact ⟨sol, h.symm, .build hp⟩
  | throw _ => rw [hp] at h; cases h
  | ub => rw [hp] at h; cases h

/-- The data is about the problem of the time. -/
structure Current (E : Env K) (s : State K) (m : Mem K) : Prop where
  queue : m.queue = []
  built : ∃ sol, m.solver = some sol ∧ C68.Hist E.opts (pbOf E m.src) sol
  src : m.src = s.snap
  gen : s.pb.subs ≠ [] → m.gen = s.pb.gen
  fin : s.pb.finalized = true

theorem finalize_fields (E : Env K) (p : PB.Problem) : (finalize E p).tr = p.tr ∧ (finalize E p).cons = p.cons ∧ (finalize E p).toks = p.toks ∧ (finalize E p).subs = p.subs ∧ (finalize E p).finalized = true := by
  unfold finalize
  by_cases h : p.finalized = true
  · rw [if_pos h]; exact ⟨rfl, rfl, rfl, rfl, h⟩
  · rw [if_neg h]; exact ⟨rfl, rfl, rfl, rfl, rfl⟩

theorem finalize_idem (E : Env K) (p : PB.Problem) : finalize E (finalize E p) = finalize E p := by
  conv_lhs => rw [finalize, if_pos (finalize_fields E p).2.2.2.2]

theorem pinv_finalize {E : Env K} {s : State K} (hp : PInv s) (mem : Option (Mem K)) : PInv (⟨finalize E s.pb, s.prio, s.wgt, mem⟩ : State K) := by
  obtain ⟨f1, f2, f3, f4, f5⟩ := finalize_fields E s.pb
  refine ⟨?_, ?_, fun t => ?_, fun _ hs => ?_⟩
  · show (finalize E s.pb).tr = (finalize E s.pb).cons.map Prod.fst
    rw [f1, f2]; exact hp.tr
  · show (finalize E s.pb).tr.Nodup
    rw [f1]; exact hp.nodup
  · show t ∈ (finalize E s.pb).toks ↔ t ∈ (finalize E s.pb).tr
    rw [f1, f3]; exact hp.toks t
  · show (finalize E s.pb).extra = []
    have hs : (finalize E s.pb).subs = [] := hs
    rw [f4] at hs
    unfold finalize
    by_cases h : s.pb.finalized = true
    · rw [if_pos h]; exact hp.extraNil h hs
    · rw [if_neg h]
      show PB.mkExtra _ (E.extraSizes s.pb.subs) = []
      rw [hs, E.extraNil]; rfl

/-- Data about the problem of the time satisfies the invariant. -/
theorem current_inv {E : Env K} {s : State K} {m : Mem K} (hp : PInv s) (h : Current E s m) (hm : s.mem = some m) : Inv E s := by
  refine ⟨hp, fun m' hm' _ => ?_, fun m' hm' e he => ?_⟩
  · rw [hm] at hm'
    obtain rfl := Option.some.inj hm'
    refine ⟨h.built, by rw [h.src]; rfl, fun hne => ⟨(h.gen hne).symm, by rw [h.src]; rfl, Or.inl h.fin⟩, fun he => ?_, ?_, fun i hi => ?_, fun t ht => ?_⟩
    · rw [h.src]; exact hp.extraNil h.fin he
    · rw [h.src]; rfl
    · left
      rw [h.src] at hi
      obtain ⟨e, he, rfl⟩ := List.mem_map.mp hi
      rw [hp.tr]
      exact List.mem_map.mpr ⟨e, he, rfl⟩
    · rw [h.queue] at ht; cases ht
  · rw [hm] at hm'
    obtain rfl := Option.some.inj hm'
    rw [h.queue] at he; cases he

/-- After the events were handled without an exception, the data is about the problem of the time. -/
theorem update_current {E : Env K} {s : State K} {m m₀ m' : Mem K} (hi : Inv E s) (hm : s.mem = some m)
    (h : updateData E (finalize E s.pb) (⟨finalize E s.pb, s.prio, s.wgt, s.mem⟩ : State K).snap m = .ok m₀ m') (mem : Option (Mem K)) :
    Current E (⟨finalize E s.pb, s.prio, s.wgt, mem⟩ : State K) m' := by
  obtain ⟨f1, f2, f3, f4, f5⟩ := finalize_fields E s.pb
  unfold updateData at h
  by_cases hq : m.queue.isEmpty = true
  · rw [if_pos hq] at h
    injection h with _ h
    subst h
    have hq' : m.queue = [] := List.isEmpty_iff.mp hq
    obtain ⟨b, h1, h2, h3, h4, h5, h6⟩ := hi.mem m hm (by rw [hq']; rfl)
    have hall : ∀ L : List Item, L.filter (fun i => quiet m.queue i.task) = L := fun L => List.filter_eq_self.mpr fun i _ => by rw [hq']; rfl
    rw [hall, hall] at h4
    have hfin : s.pb.subs ≠ [] → finalize E s.pb = s.pb := fun hne => by
      obtain ⟨_, _, g3⟩ := h2 hne
      rcases g3 with g3 | g3
      · unfold finalize; rw [if_pos g3]
      · exact absurd hq' g3
    refine ⟨hq', b, ?_, fun hne => ?_, f5⟩
    · have hex : m.src.extra = (finalize E s.pb).extra := by
        by_cases hne : s.pb.subs = []
        · rw [h3 hne]
          exact ((pinv_finalize (E := E) hi.pb none).extraNil f5 (f4.trans hne)).symm
        · rw [hfin hne]; exact (h2 hne).2.1
      show m.src = ⟨itemsOf (finalize E s.pb) s.prio s.wgt, (finalize E s.pb).subs, (finalize E s.pb).extra⟩
      have hit : itemsOf (finalize E s.pb) s.prio s.wgt = itemsOf s.pb s.prio s.wgt := by unfold itemsOf; rw [f2]
      rw [hit, h4, f4, ← h1, ← hex]
    · have hne : (finalize E s.pb).subs ≠ [] := hne
      rw [f4] at hne
      show m.gen = (finalize E s.pb).gen
      rw [hfin hne]; exact (h2 hne).1.symm
  · rw [if_neg hq] at h
    by_cases hs : m.queue.any isSubEvent = true
    · rw [if_pos hs] at h
      obtain ⟨sol, rfl, hh⟩ := build_ok h
      exact ⟨rfl, ⟨sol, rfl, hh⟩, rfl, fun _ => rfl, f5⟩
    · rw [if_neg hs] at h; cases h

theorem solveWith_ok {E : Env K} {v : Snap → Nat → Nat → HLS.Val K} {p : PB.Problem} {m : Mem K} {r : Mem K × Option (List (HLS.Obj K))} (h : solveWith E v p m = .ok () r) :
    (p.tr.length ≤ p.subs.length ∧ r = (m, none)) ∨
      ∃ sol sol' objs, p.tr.length > p.subs.length ∧ m.solver = some sol ∧ sol.solve E.opts (v m.src m.gen) = .ok () (sol', objs) ∧ r = ({ m with solver := some sol' }, some objs) := by
  unfold solveWith at h
  by_cases hl : p.tr.length > p.subs.length
  · rw [if_pos hl] at h
    right
    cases hsol : m.solver with
    | none => rw [hsol] at h; cases h
    | some sol =>
      rw [hsol] at h
      simp only at h
      cases hr : sol.solve E.opts (v m.src m.gen) with
      | ok u x =>
        rw [hr] at h
        injection h with _ h
        exact ⟨sol, x.1, x.2, hl, rfl, hr, h.symm⟩
      | throw _ => rw [hr] at h; cases h
      | ub => rw [hr] at h; cases h
  · rw [if_neg hl] at h
    injection h with _ h
    exact Or.inl ⟨by omega, h.symm⟩

/-- What a resolution that returns does -/
theorem solve_current {E : Env K} {v : Snap → Nat → Nat → HLS.Val K} {s s' : State K} {r : Option (List (HLS.Obj K))} (hi : Inv E s) (h : s.solve E v = .ok s' r) :
    s'.pb = finalize E s.pb ∧ s'.prio = s.prio ∧ s'.wgt = s.wgt ∧ ∃ m m', s'.mem = some m' ∧ Current E s' m ∧ Current E s' m' ∧ solveWith E v s'.pb m = .ok () (m', r) := by
  have hget : ∃ s₁ m, s.getData E = .ok s₁ m ∧ Inv E s₁ ∧ s₁.mem = some m ∧ finalize E s₁.pb = finalize E s.pb ∧ s₁.prio = s.prio ∧ s₁.wgt = s.wgt := by
    unfold State.getData
    cases hm : s.mem with
    | some m => exact ⟨s, m, rfl, hi, hm, rfl, rfl, rfl⟩
    | none =>
      simp only
      cases hb : build E (⟨finalize E s.pb, s.prio, s.wgt, none⟩ : State K).snap (finalize E s.pb).gen with
      | ok m₀ m =>
        refine ⟨_, m, rfl, ?_, rfl, finalize_idem E s.pb, rfl, rfl⟩
        obtain ⟨sol, rfl, hh⟩ := build_ok hb
        exact current_inv (pinv_finalize hi.pb _) ⟨rfl, ⟨sol, rfl, hh⟩, rfl, fun _ => rfl, (finalize_fields E s.pb).2.2.2.2⟩ rfl
      | throw m₀ =>
        exfalso
        unfold State.solve State.getData at h
        rw [hm] at h
        simp only [hb] at h
        cases h
      | ub =>
        exfalso
        unfold State.solve State.getData at h
        rw [hm] at h
        simp only [hb] at h
        cases h
  obtain ⟨s₁, m, g1, g2, g3, g4, g5, g6⟩ := hget
  unfold State.solve at h
  rw [g1] at h
  simp only at h
  cases hu : updateData E (finalize E s₁.pb) (⟨finalize E s₁.pb, s₁.prio, s₁.wgt, s₁.mem⟩ : State K).snap m with
  | ub => rw [hu] at h; cases h
  | throw _ => rw [hu] at h; cases h
  | ok m₀ m' =>
    rw [hu] at h
    simp only at h
    have hcur := fun mem => update_current g2 g3 hu mem
    cases hw : solveWith E v (finalize E s₁.pb) m' with
    | ub => rw [hw] at h; cases h
    | throw _ => rw [hw] at h; cases h
    | ok u x =>
      rw [hw] at h
      injection h with h1 h2
      subst h1 h2
      refine ⟨g4, g5, g6, m', x.1, rfl, hcur _, ?_, hw⟩
      rcases solveWith_ok hw with ⟨_, hx⟩ | ⟨sol, sol', objs, _, hsol, hr, hx⟩
      · rw [hx]; exact hcur _
      · rw [hx]
        obtain ⟨c1, ⟨sol₀, c2, c3⟩, c4, c5, c6⟩ := hcur (some x.1)
        rw [c2] at hsol
        obtain rfl := Option.some.inj hsol
        exact ⟨c1, ⟨sol', rfl, .solve c3 _ hr⟩, by rw [hx] at c4; exact c4, by rw [hx] at c5; exact c5, by rw [hx] at c6; exact c6⟩

theorem run_inv {E : Env K} {prio wgt : Nat → Nat} {l : List (Call K)} {s : State K} (h : Run E prio wgt l s) : Inv E s := by
  induction h with
  | start => exact ⟨⟨rfl, List.nodup_nil, fun t => Iff.rfl, fun _ _ => rfl⟩, fun m hm => (by cases hm), fun m hm => (by cases hm)⟩
  | @call l s s' c h ha hr ih =>
    cases hr with
    | addTask hh => exact inv_addTask ih ha hh
    | removeTask hh => exact inv_removeTask ih ha.1 ha.2 hh
    | addSub hh => exact inv_addSub ih hh
    | removeSub hh => exact inv_removeSub ih hh
    | removeForeignSub hh => exact inv_removeForeign ih hh
    | setWeight hh => exact inv_setWeight ih hh
    | setPriority => exact inv_setPriority ih ha
    | solve hh =>
      obtain ⟨h1, h2, h3, m, m', hm', _, hc, _⟩ := solve_current ih hh
      refine current_inv ?_ hc hm'
      have := pinv_finalize (E := E) ih.pb s'.mem
      rw [← h1, ← h2, ← h3] at this
      exact this

/-! ## What the problem is after the calls -/

/-- The constraints of the tasks are of the size and type of the tasks, the additional ones are those of the substitutions, and all are distinct. -/
structure Rec (E : Env K) (p : PB.Problem) : Prop where
  tasks : ∀ e ∈ p.cons, e.2.size = E.size e.1 ∧ e.2.type = E.type e.1
  extra : p.finalized = true → p.extra.map Cstr.size = E.extraSizes p.subs
  ids : (p.cons.map (fun e => e.2.id) ++ p.extra.map Cstr.id).Nodup
  next : ∀ i ∈ p.cons.map (fun e => e.2.id) ++ p.extra.map Cstr.id, i < p.nextC

theorem mkExtra_size (l : List Nat) : ∀ n, (PB.mkExtra n l).map Cstr.size = l := by
  induction l with
  | nil => intro _; rfl
  | cons k l ih => intro n; simp only [PB.mkExtra, List.map_cons, ih]

theorem mkExtra_ids (l : List Nat) : ∀ n, (PB.mkExtra n l).map Cstr.id = List.range' n l.length := by
  induction l with
  | nil => intro _; rfl
  | cons k l ih => intro n; simp only [PB.mkExtra, List.map_cons, ih, List.length_cons, List.range'_succ]

theorem rec_finalize {E : Env K} {p : PB.Problem} (h : Rec E p) : Rec E (finalize E p) := by
  by_cases hf : p.finalized = true
  · unfold finalize; rw [if_pos hf]; exact h
  · unfold finalize; rw [if_neg hf]
    have hlt : ∀ i ∈ p.cons.map (fun e => e.2.id), i < p.nextC := fun i hi => h.next i (List.mem_append_left _ hi)
    refine ⟨h.tasks, fun _ => mkExtra_size _ _, ?_, fun i hi => ?_⟩
    · show (p.cons.map (fun e => e.2.id) ++ (PB.mkExtra p.nextC (E.extraSizes p.subs)).map Cstr.id).Nodup
      rw [mkExtra_ids, List.nodup_append]
      refine ⟨(List.nodup_append.mp h.ids).1, List.nodup_range', fun i hi j hj hij => ?_⟩
      have := hlt i hi
      have := (List.mem_range'_1.mp hj).1
      omega
    · show i < p.nextC + (E.extraSizes p.subs).length
      have hi : i ∈ p.cons.map (fun e => e.2.id) ++ (PB.mkExtra p.nextC (E.extraSizes p.subs)).map Cstr.id := hi
      rw [mkExtra_ids] at hi
      rcases List.mem_append.mp hi with hi | hi
      · have := hlt i hi; omega
      · exact (List.mem_range'_1.mp hi).2

theorem rec_sub {E : Env K} {p p' : PB.Problem} (h : Rec E p) (hc : List.Sublist p'.cons p.cons) (he : p'.extra = p.extra) (hf : p'.finalized = false) (hn : p'.nextC = p.nextC) : Rec E p' := by
  have hs : List.Sublist (p'.cons.map (fun e => e.2.id) ++ p'.extra.map Cstr.id) (p.cons.map (fun e => e.2.id) ++ p.extra.map Cstr.id) := by
    rw [he]; exact (hc.map _).append_right _
  exact ⟨fun e hh => h.tasks e (hc.subset hh), fun hh => (by rw [hf] at hh; cases hh), h.ids.sublist hs, fun i hi => by rw [hn]; exact h.next i (hs.subset hi)⟩

/-- What a removal that returns leaves of the problem -/
theorem removeTask_pb {s s' : State K} {t : Nat} (ht : t ∈ s.pb.tr) (h : s.removeTask t = .ok s' ()) : s'.pb.tr = s.pb.tr.erase t ∧ List.Sublist s'.pb.cons s.pb.cons ∧ s'.pb.extra = s.pb.extra ∧
    s'.pb.finalized = false ∧ s'.pb.nextC = s.pb.nextC ∧ s'.prio = s.prio ∧ s'.wgt = s.wgt := by
  unfold State.removeTask State.removeBase at h
  rw [if_pos ht] at h
  cases hn : note s.mem ⟨.taskRemoval, .task t⟩ with
  | none => rw [hn] at h; cases h
  | some mem =>
    rw [hn] at h
    simp only at h
    cases hc : PB.get s.pb.cons t with
    | none =>
      rw [hc] at h
      injection h with h
      subst h
      exact ⟨rfl, List.Sublist.refl _, rfl, rfl, rfl, rfl, rfl⟩
    | some c =>
      rw [hc] at h
      simp only at h
      cases hf : PB.findSub s.pb.subs c with
      | none =>
        rw [hf] at h
        injection h with h
        subst h
        exact ⟨rfl, List.filter_sublist, rfl, rfl, rfl, rfl, rfl⟩
      | some i =>
        rw [hf] at h
        simp only at h
        by_cases hsimple : ((s.pb.subs[i]?).map PB.Sub.isSimple).getD false = true
        · rw [if_pos hsimple] at h
          unfold State.removeSub at h
          simp only at h
          cases hn2 : note mem ⟨.substitutionRemoval, .subs i⟩ with
          | none => rw [hn2] at h; cases h
          | some mem' =>
            rw [hn2] at h
            injection h with h
            subst h
            exact ⟨rfl, List.filter_sublist, rfl, rfl, rfl, rfl, rfl⟩
        · rw [if_neg hsimple] at h; cases h

theorem addTask_pb {E : Env K} {s s' : State K} {t : Nat} (h : s.addTask E t = .ok s' ()) : s'.pb.tr = s.pb.tr ++ [t] ∧ s'.pb.cons = put s.pb.cons t ⟨s.pb.nextC, E.size t, E.type t⟩ ∧ s'.pb.extra = s.pb.extra ∧
    s'.pb.finalized = false ∧ s'.pb.nextC = s.pb.nextC + 1 ∧ s'.prio = s.prio ∧ s'.wgt = s.wgt := by
  unfold State.addTask at h
  cases hn : note s.mem ⟨.taskAddition, .task t⟩ with
  | none => rw [hn] at h; cases h
  | some mem =>
    rw [hn] at h
    injection h with h
    subst h
    exact ⟨rfl, rfl, rfl, rfl, rfl, rfl, rfl⟩

theorem setWeight_pb {s s' : State K} {t w : Nat} {b : Bool} (h : s.setWeight t w b = .ok s' ()) : s'.pb = s.pb ∧ s'.prio = s.prio ∧ s'.wgt = fun u => if u = t then w else s.wgt u := by
  unfold State.setWeight at h
  by_cases ht : t ∈ s.pb.toks
  · simp only [if_pos ht] at h
    cases hn : note s.mem ⟨if b then .weightChange else .anisotropicWeightChange, .task t⟩ with
    | none => rw [hn] at h; cases h
    | some mem =>
      rw [hn] at h
      injection h with h
      subst h
      exact ⟨rfl, rfl, rfl⟩
  · simp only [if_neg ht] at h
    injection h with h
    subst h
    exact ⟨rfl, rfl, rfl⟩

/-- The calls about substitutions -/
def SubCall (s s' : State K) : Prop := (∃ x, s.addSub x = .ok s' ()) ∨ (∃ i, s.removeSub i = .ok s' ()) ∨ s.removeForeign = .ok s' ()

theorem subCall_pb {s s' : State K} (h : SubCall s s') : s'.pb.tr = s.pb.tr ∧ s'.pb.cons = s.pb.cons ∧ s'.pb.extra = s.pb.extra ∧ s'.pb.finalized = false ∧ s'.pb.nextC = s.pb.nextC ∧ s'.prio = s.prio ∧ s'.wgt = s.wgt ∧
    ∀ m, s'.mem = some m → m.queue.any isSubEvent = true := by
  rcases h with ⟨x, h⟩ | ⟨i, h⟩ | h
  · unfold State.addSub at h
    cases hn : note s.mem ⟨.substitutionAddition, .subs s.pb.subs.length⟩ with
    | none => rw [hn] at h; cases h
    | some mem =>
      rw [hn] at h
      injection h with h
      subst h
      exact ⟨rfl, rfl, rfl, rfl, rfl, rfl, rfl, fun m hm => sub_event (Or.inl rfl) hn hm⟩
  · unfold State.removeSub at h
    cases hn : note s.mem ⟨.substitutionRemoval, .subs i⟩ with
    | none => rw [hn] at h; cases h
    | some mem =>
      rw [hn] at h
      injection h with h
      subst h
      exact ⟨rfl, rfl, rfl, rfl, rfl, rfl, rfl, fun m hm => sub_event (Or.inr rfl) hn hm⟩
  · unfold State.removeForeign at h
    cases hn : note s.mem ⟨.substitutionRemoval, .subs 0⟩ with
    | none => rw [hn] at h; cases h
    | some mem =>
      rw [hn] at h
      injection h with h
      subst h
      exact ⟨rfl, rfl, rfl, rfl, rfl, rfl, rfl, fun m hm => sub_event (Or.inr rfl) hn hm⟩

theorem run_rec {E : Env K} {prio wgt : Nat → Nat} {l : List (Call K)} {s : State K} (h : Run E prio wgt l s) : Rec E s.pb := by
  induction h with
  | start => exact ⟨fun e he => (by cases he), fun hh => (by cases hh), List.nodup_nil, fun i hi => (by cases hi)⟩
  | @call l s s' c h ha hr ih =>
    have hi := run_inv h
    have hsub : SubCall s s' → Rec E s'.pb := fun hs => by
      obtain ⟨_, h2, h3, h4, h5, _⟩ := subCall_pb hs
      exact rec_sub ih (by rw [h2]) h3 h4 h5
    cases hr with
    | @addTask _ t hh =>
      obtain ⟨_, h2, h3, h4, h5, _⟩ := addTask_pb hh
      have hk : t ∉ s.pb.cons.map Prod.fst := hi.pb.tr ▸ ha
      rw [put_new hk] at h2
      refine ⟨fun e he => ?_, fun hf => (by rw [h4] at hf; cases hf), ?_, fun i hi' => ?_⟩
      · rw [h2] at he
        rcases List.mem_append.mp he with he | he
        · exact ih.tasks e he
        · rw [List.mem_singleton.mp he]; exact ⟨rfl, rfl⟩
      · rw [h2, h3, List.map_append, List.append_assoc]
        show (_ ++ ([s.pb.nextC] ++ _)).Nodup
        have : List.Perm (s.pb.cons.map (fun e => e.2.id) ++ ([s.pb.nextC] ++ s.pb.extra.map Cstr.id)) (s.pb.nextC :: (s.pb.cons.map (fun e => e.2.id) ++ s.pb.extra.map Cstr.id)) := List.perm_middle
        rw [this.nodup_iff, List.nodup_cons]
        exact ⟨fun hm => Nat.lt_irrefl _ (ih.next _ hm), ih.ids⟩
      · rw [h5]
        rw [h2, h3, List.map_append] at hi'
        rcases List.mem_append.mp hi' with hi' | hi'
        · rcases List.mem_append.mp hi' with hi' | hi'
          · exact Nat.lt_succ_of_lt (ih.next i (List.mem_append_left _ hi'))
          · rw [List.mem_singleton.mp hi']; exact Nat.lt_succ_self _
        · exact Nat.lt_succ_of_lt (ih.next i (List.mem_append_right _ hi'))
    | removeTask hh =>
      obtain ⟨_, h2, h3, h4, h5, _⟩ := removeTask_pb ha.1 hh
      exact rec_sub ih h2 h3 h4 h5
    | addSub hh => exact hsub (Or.inl ⟨_, hh⟩)
    | removeSub hh => exact hsub (Or.inr (Or.inl ⟨_, hh⟩))
    | removeForeignSub hh => exact hsub (Or.inr (Or.inr hh))
    | setWeight hh => rw [(setWeight_pb hh).1]; exact ih
    | setPriority => exact ih
    | solve hh => rw [(solve_current hi hh).1]; exact rec_finalize ih

theorem present_snoc (t : Nat) (l : List (Call K)) (c : Call K) : ∀ b, present t b (l ++ [c]) = present t (present t b l) [c] := by
  induction l with
  | nil => intro b; rfl
  | cons d l ih => intro b; cases d <;> exact ih _

theorem prioOf_snoc (t : Nat) (l : List (Call K)) (c : Call K) : ∀ b, prioOf t b (l ++ [c]) = prioOf t (prioOf t b l) [c] := by
  induction l with
  | nil => intro b; rfl
  | cons d l ih => intro b; cases d <;> exact ih _

theorem wgtOf_snoc (t : Nat) (l : List (Call K)) (c : Call K) : ∀ b, wgtOf t b (l ++ [c]) = wgtOf t (wgtOf t b l) [c] := by
  induction l with
  | nil => intro b; rfl
  | cons d l ih => intro b; cases d <;> exact ih _

/-- The tasks of the problem, and their requirements, are those of the history. -/
theorem run_history {E : Env K} {prio wgt : Nat → Nat} {l : List (Call K)} {s : State K} (h : Run E prio wgt l s) (t : Nat) :
    (t ∈ s.pb.tr ↔ present t false l = true) ∧ s.prio t = prioOf t (prio t) l ∧ s.wgt t = wgtOf t (wgt t) l := by
  induction h with
  | start => exact ⟨⟨fun hh => (by cases hh), fun hh => (by cases hh)⟩, rfl, rfl⟩
  | @call l s s' c h ha hr ih =>
    have hi := run_inv h
    obtain ⟨i1, i2, i3⟩ := ih
    rw [present_snoc, prioOf_snoc, wgtOf_snoc, ← i2, ← i3]
    have hsub : SubCall s s' → (t ∈ s'.pb.tr ↔ present t false l = true) ∧ s'.prio t = s.prio t ∧ s'.wgt t = s.wgt t := fun hs => by
      obtain ⟨h1, _, _, _, _, h6, h7, _⟩ := subCall_pb hs
      exact ⟨by rw [h1]; exact i1, by rw [h6], by rw [h7]⟩
    cases hr with
    | @addTask _ u hh =>
      obtain ⟨h1, _, _, _, _, h6, h7⟩ := addTask_pb hh
      refine ⟨?_, by rw [h6]; rfl, by rw [h7]; rfl⟩
      rw [h1, List.mem_append, List.mem_singleton, i1]
      show _ ↔ (present t false l || u == t) = true
      rw [Bool.or_eq_true, beq_iff_eq]
      exact or_congr Iff.rfl ⟨Eq.symm, Eq.symm⟩
    | @removeTask _ u hh =>
      obtain ⟨h1, _, _, _, _, h6, h7⟩ := removeTask_pb ha.1 hh
      refine ⟨?_, by rw [h6]; rfl, by rw [h7]; rfl⟩
      rw [h1, erase_nodup hi.pb.nodup, List.mem_filter, i1]
      show _ ↔ (present t false l && u != t) = true
      rw [Bool.and_eq_true, bne_iff_ne, decide_eq_true_eq]
      exact and_congr Iff.rfl ⟨Ne.symm, Ne.symm⟩
    | addSub hh => exact hsub (Or.inl ⟨_, hh⟩)
    | removeSub hh => exact hsub (Or.inr (Or.inl ⟨_, hh⟩))
    | removeForeignSub hh => exact hsub (Or.inr (Or.inr hh))
    | @setWeight _ u w b hh =>
      obtain ⟨h1, h2, h3⟩ := setWeight_pb hh
      refine ⟨by rw [h1]; exact i1, by rw [h2]; rfl, ?_⟩
      rw [h3]
      show (if t = u then w else s.wgt t) = if u = t then w else s.wgt t
      simp only [eq_comm]
    | @setPriority u p =>
      refine ⟨i1, ?_, rfl⟩
      show (if t = u then p else s.prio t) = if u = t then p else s.prio t
      simp only [eq_comm]
    | @solve _ v r hh =>
      obtain ⟨h1, h2, h3, _⟩ := solve_current hi hh
      rw [h1, h2, h3, (finalize_fields E s.pb).1]
      exact ⟨i1, rfl, rfl⟩

/-! ## Theorems -/

/-- The problem is made of the tasks of the history `l` with the requirements given last, and of the additional constraints of the substitutions. -/
structure Described (E : Env K) (prio wgt : Nat → Nat) (l : List (Call K)) (sn : Snap) : Prop where
  tasks : ∀ t, (∃ i ∈ sn.items, i.task = t) ↔ present t false l = true
  once : (sn.items.map Item.task).Nodup
  item : ∀ i ∈ sn.items, i.c.size = E.size i.task ∧ i.c.type = E.type i.task ∧ i.prio = prioOf i.task (prio i.task) l ∧ i.wgt = wgtOf i.task (wgt i.task) l
  extra : sn.extra.map Cstr.size = E.extraSizes sn.subs
  ids : (sn.items.map (fun i => i.c.id) ++ sn.extra.map Cstr.id).Nodup

/-- The problem given to LexLS is that of the tasks `sn`: each constraint has the priority of its task, its size, its type and its columns. -/
structure Reads (E : Env K) (sn : Snap) (p : HLS.Pb) : Prop where
  n : p.n = E.total sn
  cstrs : List.Forall₂ (fun (i : Item) (c : HLS.Cstr) => c.id = i.c.id ∧ c.prio = i.prio ∧ c.size = i.c.size ∧ (c.ty = .equal ↔ i.c.type = .equal) ∧ (c.ty = .greater ↔ i.c.type = .greaterThan) ∧
    (c.ty = .lower ↔ i.c.type = .lowerThan) ∧ (c.ty = .both ↔ i.c.type = .doubleSided) ∧ c.vet = E.vet i.task ∧ c.asBound = E.asBound sn.subs i.c ∧ (c.used = true ↔ ∃ s ∈ sn.subs, i.c ∈ s.cstrs) ∧ c.start = E.start sn i.c ∧
    c.cols = E.cols sn i.c) sn.items p.cstrs
  extra : List.Forall₂ (fun (k : Cstr) (c : HLS.Cstr) => c.id = k.id ∧ c.prio = 0 ∧ c.size = k.size ∧ c.asBound = false ∧ c.used = false ∧ c.cols = E.cols sn k) sn.extra p.extra

theorem reads (E : Env K) (sn : Snap) : Reads E sn (pbOf E sn) := by
  refine ⟨rfl, ?_, ?_⟩
  · show List.Forall₂ _ sn.items (sn.items.map (cstrOf E sn))
    rw [List.forall₂_map_right_iff, List.forall₂_same]
    intro i _
    refine ⟨rfl, rfl, rfl, ?_, ?_, ?_, ?_, rfl, rfl, ?_, rfl, rfl⟩
    · show tyOf i.c.type = _ ↔ _; cases i.c.type <;> simp [tyOf]
    · show tyOf i.c.type = _ ↔ _; cases i.c.type <;> simp [tyOf]
    · show tyOf i.c.type = _ ↔ _; cases i.c.type <;> simp [tyOf]
    · show tyOf i.c.type = _ ↔ _; cases i.c.type <;> simp [tyOf]
    · show PB.uses sn.subs i.c = true ↔ _
      simp [PB.uses]
  · show List.Forall₂ _ sn.extra (sn.extra.map (extraOf E sn))
    rw [List.forall₂_map_right_iff, List.forall₂_same]
    intro i _
    exact ⟨rfl, rfl, rfl, rfl, rfl, rfl⟩

/-- **C69 (partial)** After any calls that returned, when a resolution returns, the solutions of what was handed to LexLS are those of the lexicographic problem of the tasks of that time, with their priorities and weights of that time.
What is missing: the resolutions after one that threw an exception (`C69_stale`) and the changes of priority of tasks that are in the problem (`C69_priority`), for which this is false. `v` gives the values that the assignments write, which depend on
the generation of the substitutions only when there are some. -/
theorem C69_partial {E : Env K} {prio wgt : Nat → Nat} {l : List (Call K)} {s s' : State K} (hr : Run E prio wgt l s) {v : Snap → Nat → Nat → HLS.Val K} (hv : ∀ sn g g', sn.subs = [] → v sn g = v sn g') {objs : List (HLS.Obj K)}
    (h : s.solve E v = .ok s' (some objs)) (hw : C68.WF (pbOf E s'.snap)) (hp : C68.Placed E.opts (pbOf E s'.snap)) (hc : C68.Consistent (pbOf E s'.snap) E.opts.big (v s'.snap s'.pb.gen)) :
    Described E prio wgt l s'.snap ∧ s'.snap.subs = s.pb.subs ∧ Reads E s'.snap (pbOf E s'.snap) ∧ ∀ x, C68.LexSolution (pbOf E s'.snap).n objs x ↔ C68.LexMin (C68.goals E.opts (pbOf E s'.snap) (v s'.snap s'.pb.gen)) x := by
  have hi := run_inv hr
  obtain ⟨h1, h2, h3, m, m', hm', hcur, _, hs⟩ := solve_current hi h
  obtain ⟨f1, f2, f3, f4, f5⟩ := finalize_fields E s.pb
  have hrec : Rec E s'.pb := by rw [h1]; exact rec_finalize (run_rec hr)
  have hhist := run_history hr
  have htr : s'.pb.cons.map Prod.fst = s.pb.tr := by rw [h1, f2]; exact hi.pb.tr.symm
  refine ⟨⟨fun t => ?_, ?_, fun i hit => ?_, ?_, ?_⟩, ?_, reads E _, ?_⟩
  · rw [← (hhist t).1, ← htr]
    constructor
    · rintro ⟨i, hit, rfl⟩
      obtain ⟨e, he, rfl⟩ := List.mem_map.mp hit
      exact List.mem_map.mpr ⟨e, he, rfl⟩
    · intro ht
      obtain ⟨e, he, rfl⟩ := List.mem_map.mp ht
      exact ⟨_, List.mem_map.mpr ⟨e, he, rfl⟩, rfl⟩
  · show ((s'.pb.cons.map _).map Item.task).Nodup
    rw [List.map_map]
    show (s'.pb.cons.map Prod.fst).Nodup
    rw [htr]; exact hi.pb.nodup
  · obtain ⟨e, he, rfl⟩ := List.mem_map.mp hit
    refine ⟨(hrec.tasks e he).1, (hrec.tasks e he).2, ?_, ?_⟩
    · show s'.prio e.1 = _
      rw [h2]; exact (hhist e.1).2.1
    · show s'.wgt e.1 = _
      rw [h3]; exact (hhist e.1).2.2
  · exact hrec.extra (by rw [h1]; exact f5)
  · have := hrec.ids
    show ((s'.pb.cons.map _).map (fun i : Item => i.c.id) ++ s'.pb.extra.map Cstr.id).Nodup
    rw [List.map_map]
    exact this
  · show s'.pb.subs = _
    rw [h1, f4]
  · rcases solveWith_ok hs with ⟨_, hx⟩ | ⟨sol, sol', objs', _, hsol, hrun, hx⟩
    · injection hx with _ hx; cases hx
    · injection hx with _ hx
      injection hx with hx
      subst hx
      obtain ⟨_, ⟨sol₀, c2, c3⟩, c4, c5, _⟩ := hcur
      rw [c2] at hsol
      obtain rfl := Option.some.inj hsol
      have hve : v m.src m.gen = v s'.snap s'.pb.gen := by
        by_cases hn : s'.pb.subs = []
        · rw [c4]; exact hv _ _ _ hn
        · rw [c4, c5 hn]
      rw [hve] at hrun
      rw [c4] at c3
      exact C68.C68_partial hw hp c3 hc hrun

/-- **C69** With an event to handle that is not about substitutions, a resolution throws an exception. At least one event is taken off the queue and the solver is as before. -/
theorem C69_pending (E : Env K) (v : Snap → Nat → Nat → HLS.Val K) {s : State K} {m : Mem K} (hm : s.mem = some m) (hq : m.queue ≠ []) (hs : m.queue.any isSubEvent = false) :
    s.solve E v = .throw ⟨finalize E s.pb, s.prio, s.wgt, some { m with queue := rest (finalize E s.pb) m.queue }⟩ ∧ (rest (finalize E s.pb) m.queue).length < m.queue.length ∧ rest (finalize E s.pb) m.queue <:+ m.queue := by
  have hrest : ∀ q : List EQ.Event, (rest (finalize E s.pb) q).length ≤ q.length ∧ rest (finalize E s.pb) q <:+ q := by
    intro q
    induction q with
    | nil => exact ⟨le_refl _, List.suffix_refl _⟩
    | cons e q ih =>
      have h1 : (rest (finalize E s.pb) q).length ≤ (e :: q).length ∧ rest (finalize E s.pb) q <:+ e :: q := ⟨by rw [List.length_cons]; omega, ih.2.trans (List.suffix_cons _ _)⟩
      have h2 : q.length ≤ (e :: q).length ∧ q <:+ e :: q := ⟨by rw [List.length_cons]; omega, List.suffix_cons _ _⟩
      unfold rest
      split
      · split
        · exact h1
        · exact h2
      · split
        · exact h1
        · exact h2
      · exact h2
  refine ⟨?_, ?_, (hrest _).2⟩
  · unfold State.solve State.getData
    rw [hm]
    simp only
    unfold updateData
    have hq' : ¬ m.queue.isEmpty = true := fun hh => hq (List.isEmpty_iff.mp hh)
    rw [if_neg hq', if_neg (by rw [hs]; exact Bool.false_ne_true)]
  · cases hh : m.queue with
    | nil => exact absurd hh hq
    | cons e q =>
      have := (hrest q).1
      unfold rest
      split
      · split <;> (simp only [List.length_cons]; omega)
      · split <;> (simp only [List.length_cons]; omega)
      · simp

/-- Resolutions that throw exceptions whatever the values -/
inductive Threw (E : Env K) : Nat → State K → State K → Prop
  | none (s) : Threw E 0 s s
  | more {k s s₁ s'} (h : ∀ v, s.solve E v = .throw s₁) (ht : Threw E k s₁ s') : Threw E (k + 1) s s'

/-- **C69** After the events, some resolutions throw exceptions, at most one for each event, and then the solver is used as it was: the problem solved is that of the time of its construction. -/
theorem C69_stale (E : Env K) : ∀ (n : Nat) {s : State K} {m : Mem K} {sol : HLS.Solver K} (_ : s.mem = some m) (_ : m.queue.length = n) (_ : m.queue.any isSubEvent = false) (_ : m.solver = some sol)
    (_ : C68.Hist E.opts (pbOf E m.src) sol), ∃ (k : Nat) (s' : State K), k ≤ n ∧ (0 < n → 0 < k) ∧ Threw E k s s' ∧ (0 < k → s'.pb = finalize E s.pb) ∧ s'.prio = s.prio ∧ s'.wgt = s.wgt ∧
      ∀ (v : Snap → Nat → Nat → HLS.Val K) (s'' : State K) (objs : List (HLS.Obj K)), s'.solve E v = .ok s'' (some objs) → C68.WF (pbOf E m.src) → C68.Placed E.opts (pbOf E m.src) →
        C68.Consistent (pbOf E m.src) E.opts.big (v m.src m.gen) → ∀ x, C68.LexSolution (pbOf E m.src).n objs x ↔ C68.LexMin (C68.goals E.opts (pbOf E m.src) (v m.src m.gen)) x := by
  intro n
  induction n using Nat.strong_induction_on with
  | _ n ih =>
    intro s m sol hm hn hs hsol hh
    by_cases hq : m.queue = []
    · refine ⟨0, s, Nat.zero_le _, fun h0 => ?_, .none s, fun h0 => absurd h0 (Nat.lt_irrefl 0), rfl, rfl, fun v s'' objs hr hw hp hc => ?_⟩
      · rw [← hn, hq] at h0; exact absurd h0 (Nat.lt_irrefl 0)
      · unfold State.solve State.getData at hr
        rw [hm] at hr
        simp only at hr
        unfold updateData at hr
        rw [if_pos (by rw [hq]; rfl)] at hr
        simp only at hr
        cases hw' : solveWith E v (finalize E s.pb) m with
        | ub => rw [hw'] at hr; cases hr
        | throw _ => rw [hw'] at hr; cases hr
        | ok u r =>
          rw [hw'] at hr
          injection hr with _ hr
          rcases solveWith_ok hw' with ⟨_, hx⟩ | ⟨sol₀, sol', objs', _, hs0, hrun, hx⟩
          · rw [hx] at hr; cases hr
          · rw [hx] at hr
            injection hr with hr
            subst hr
            rw [hsol] at hs0
            obtain rfl := Option.some.inj hs0
            exact C68.C68_partial hw hp hh hc hrun
    · have h3 : m.queue.any isSubEvent = false → (rest (finalize E s.pb) m.queue).any isSubEvent = false := fun hs => by
        rw [Bool.eq_false_iff] at hs ⊢
        intro hany
        obtain ⟨e, he, hse⟩ := List.any_eq_true.mp hany
        exact hs (List.any_eq_true.mpr ⟨e, (C69_pending E (fun _ _ _ => ⟨fun _ _ => 0, fun _ => 0, fun _ => 0⟩) hm hq (Bool.eq_false_iff.mpr hs)).2.2.subset he, hse⟩)
      obtain ⟨_, h2, _⟩ := C69_pending E (fun _ _ _ => ⟨fun _ _ => 0, fun _ => 0, fun _ => 0⟩) hm hq hs
      obtain ⟨k, s', k1, _, k3, k4, k5, k6, k7⟩ := ih (rest (finalize E s.pb) m.queue).length (by omega) (s := ⟨finalize E s.pb, s.prio, s.wgt, some { m with queue := rest (finalize E s.pb) m.queue }⟩) rfl rfl (h3 hs) hsol hh
      refine ⟨k + 1, s', by omega, fun _ => Nat.succ_pos _, .more (fun v => (C69_pending E v hm hq hs).1) k3, fun _ => ?_, k5, k6, k7⟩
      by_cases hk : 0 < k
      · rw [k4 hk]; exact finalize_idem E s.pb
      · have : k = 0 := by omega
        subst this
        cases k3
        rfl

/-- **C69** After a call about substitutions, whatever happened before, a resolution that returns is about the problem of the time. -/
theorem C69_repair {E : Env K} {s₀ s s' : State K} (hc : SubCall s₀ s) {v : Snap → Nat → Nat → HLS.Val K} {objs : List (HLS.Obj K)} (h : s.solve E v = .ok s' (some objs))
    (hw : C68.WF (pbOf E s'.snap)) (hp : C68.Placed E.opts (pbOf E s'.snap)) (hcs : C68.Consistent (pbOf E s'.snap) E.opts.big (v s'.snap s'.pb.gen)) :
    s'.pb = finalize E s.pb ∧ s'.prio = s.prio ∧ s'.wgt = s.wgt ∧ ∀ x, C68.LexSolution (pbOf E s'.snap).n objs x ↔ C68.LexMin (C68.goals E.opts (pbOf E s'.snap) (v s'.snap s'.pb.gen)) x := by
  have hsub := (subCall_pb hc).2.2.2.2.2.2.2
  have key : ∀ (sn : Snap) (g : Nat) (m₀ m : Mem K) (p : PB.Problem) (r : Mem K × Option (List (HLS.Obj K))), build E sn g = .ok m₀ m → solveWith E v p m = .ok () r → r.2 = some objs →
      C68.WF (pbOf E sn) → C68.Placed E.opts (pbOf E sn) → C68.Consistent (pbOf E sn) E.opts.big (v sn g) → ∀ x, C68.LexSolution (pbOf E sn).n objs x ↔ C68.LexMin (C68.goals E.opts (pbOf E sn) (v sn g)) x := by
    intro sn g m₀ m p r hb hs hr hw hp hc
    obtain ⟨sol, rfl, hh⟩ := build_ok hb
    rcases solveWith_ok hs with ⟨_, hx⟩ | ⟨sol₀, sol', objs', _, hs0, hrun, hx⟩
    · rw [hx] at hr; cases hr
    · rw [hx] at hr
      injection hr with hr
      subst hr
      obtain rfl := Option.some.inj hs0
      exact C68.C68_partial hw hp hh hc hrun
  unfold State.solve State.getData at h
  cases hm : s.mem with
  | some m =>
    rw [hm] at h
    simp only at h
    have hs := hsub m hm
    have hq : ¬ m.queue.isEmpty = true := fun hh => by rw [List.isEmpty_iff.mp hh] at hs; cases hs
    unfold updateData at h
    rw [if_neg hq, if_pos hs] at h
    cases hb : build E (⟨finalize E s.pb, s.prio, s.wgt, s.mem⟩ : State K).snap (finalize E s.pb).gen with
    | ub => rw [hb] at h; cases h
    | throw _ => rw [hb] at h; cases h
    | ok m₀ m' =>
      rw [hb] at h
      simp only at h
      cases hw' : solveWith E v (finalize E s.pb) m' with
      | ub => rw [hw'] at h; cases h
      | throw _ => rw [hw'] at h; cases h
      | ok u r =>
        rw [hw'] at h
        injection h with h1 h2
        subst h1
        exact ⟨rfl, rfl, rfl, key _ _ _ _ _ _ hb hw' h2 hw hp hcs⟩
  | none =>
    rw [hm] at h
    simp only at h
    cases hb : build E (⟨finalize E s.pb, s.prio, s.wgt, none⟩ : State K).snap (finalize E s.pb).gen with
    | ub => rw [hb] at h; cases h
    | throw _ => rw [hb] at h; cases h
    | ok m₀ m' =>
      rw [hb] at h
      simp only [finalize_idem] at h
      unfold updateData at h
      obtain ⟨sol, rfl, hh⟩ := build_ok hb
      simp only [List.isEmpty_nil, if_true] at h
      cases hw' : solveWith E v (finalize E s.pb) ⟨[], some sol, (⟨finalize E s.pb, s.prio, s.wgt, none⟩ : State K).snap, (finalize E s.pb).gen⟩ with
      | ub => rw [hw'] at h; cases h
      | throw _ => rw [hw'] at h; cases h
      | ok u r =>
        rw [hw'] at h
        injection h with h1 h2
        subst h1
        exact ⟨rfl, rfl, rfl, key _ _ _ _ _ _ hb hw' h2 hw hp hcs⟩

/-- **C69** A change of priority after a resolution has no effect: the resolutions that follow are handed the same problem. -/
theorem C69_priority {E : Env K} {v : Snap → Nat → Nat → HLS.Val K} {s s' : State K} {m : Mem K} (hm : s.mem = some m) (hq : m.queue = []) (t p : Nat) {r : Option (List (HLS.Obj K))} (h : s.solve E v = .ok s' r) :
    (s.setPriority t p).solve E v = .ok (s'.setPriority t p) r := by
  unfold State.solve State.getData at h ⊢
  have hm' : (s.setPriority t p).mem = some m := hm
  rw [hm] at h
  rw [hm']
  simp only at h ⊢
  unfold updateData at h ⊢
  rw [if_pos (by rw [hq]; rfl)] at h ⊢
  simp only at h ⊢
  have hp : (s.setPriority t p).pb = s.pb := rfl
  rw [hp]
  cases hw : solveWith E v (finalize E s.pb) m with
  | ub => rw [hw] at h; cases h
  | throw _ => rw [hw] at h; cases h
  | ok u r' =>
    rw [hw] at h
    injection h with h1 h2
    subst h1 h2
    rfl

/-! ## Cases that meet the hypotheses -/

/-- A resolution without events returns. -/
theorem again {E : Env K} {s : State K} {sol : HLS.Solver K} {sn : Snap} {g : Nat} (hm : s.mem = some ⟨[], some sol, sn, g⟩) (hl : s.pb.subs.length < s.pb.tr.length) (hh : C68.Hist E.opts (pbOf E sn) sol) (hw : C68.WF (pbOf E sn))
    (hr : ∃ c, (c ∈ (pbOf E sn).cstrs ∧ C68.IsOrd c = true ∨ c ∈ (pbOf E sn).extra) ∧ c.size ≠ 0) (v : Snap → Nat → Nat → HLS.Val K) :
    ∃ (sol' : HLS.Solver K) (objs : List (HLS.Obj K)), s.solve E v = .ok ⟨finalize E s.pb, s.prio, s.wgt, some ⟨[], some sol', sn, g⟩⟩ (some objs) ∧ C68.Hist E.opts (pbOf E sn) sol' := by
  obtain ⟨⟨sol', objs⟩, hs⟩ := (C68.C68_returns hw hh (v sn g)).mpr (Or.inr (Or.inr (Or.inr hr)))
  obtain ⟨f1, _, _, f4, _⟩ := finalize_fields E s.pb
  refine ⟨sol', objs, ?_, .solve hh _ hs⟩
  unfold State.solve State.getData
  rw [hm]
  simp only [updateData, List.isEmpty_nil, if_true, solveWith]
  rw [if_pos (by rw [f1, f4]; exact hl), hs]

/-- A first resolution returns, and one after an event about substitutions too. -/
theorem first {E : Env K} {s : State K} (hm : ∀ m, s.mem = some m → m.queue.any isSubEvent = true) (hl : s.pb.subs.length < s.pb.tr.length) (hw : C68.WF (pbOf E (⟨finalize E s.pb, s.prio, s.wgt, none⟩ : State K).snap)) (ha : ∀ t, E.vet t = .l2)
    (hr : ∃ c, (c ∈ (pbOf E (⟨finalize E s.pb, s.prio, s.wgt, none⟩ : State K).snap).cstrs ∧ C68.IsOrd c = true ∨ c ∈ (pbOf E (⟨finalize E s.pb, s.prio, s.wgt, none⟩ : State K).snap).extra) ∧ c.size ≠ 0) (v : Snap → Nat → Nat → HLS.Val K) :
    ∃ (sol' : HLS.Solver K) (objs : List (HLS.Obj K)),
      s.solve E v = .ok ⟨finalize E s.pb, s.prio, s.wgt, some ⟨[], some sol', (⟨finalize E s.pb, s.prio, s.wgt, none⟩ : State K).snap, (finalize E s.pb).gen⟩⟩ (some objs) ∧
        C68.Hist E.opts (pbOf E (⟨finalize E s.pb, s.prio, s.wgt, none⟩ : State K).snap) sol' := by
  obtain ⟨sol, hb, _⟩ := C68.build_spec E.opts hw fun c hc _ => (C68.accepted_iff c).mpr (by
    obtain ⟨i, _, rfl⟩ := List.mem_map.mp hc
    exact ha _)
  obtain ⟨f1, _, _, f4, _⟩ := finalize_fields E s.pb
  obtain ⟨sol', objs, h1, h2⟩ := again (E := E) (s := ⟨finalize E s.pb, s.prio, s.wgt, some ⟨[], some sol, (⟨finalize E s.pb, s.prio, s.wgt, none⟩ : State K).snap, (finalize E s.pb).gen⟩⟩) rfl
    (by show (finalize E s.pb).subs.length < (finalize E s.pb).tr.length; rw [f1, f4]; exact hl) (.build hb) hw hr v
  refine ⟨sol', objs, ?_, h2⟩
  simp only [finalize_idem] at h1
  rw [← h1]
  unfold State.solve State.getData
  cases hmem : s.mem with
  | none => simp only [build, hb]
  | some m =>
    have hs := hm m hmem
    have hq : ¬ m.queue.isEmpty = true := fun hh => by rw [List.isEmpty_iff.mp hh] at hs; cases hs
    have hsn : (⟨finalize E s.pb, s.prio, s.wgt, s.mem⟩ : State K).snap = (⟨finalize E s.pb, s.prio, s.wgt, none⟩ : State K).snap := rfl
    simp only [updateData, if_neg hq, hs, if_true, hsn, build, hb, finalize_idem, List.isEmpty_nil]

/-- Tasks of size 1 on one unknown: the constraint created in position `i` is `x = i + 1`. -/
def E₀ : Env ℚ := ⟨fun _ => 1, fun _ => .equal, fun _ => .l2, fun _ _ => false, fun _ => [], rfl, fun _ => 1, fun _ _ => 0, fun _ _ _ => true, ⟨10, false, false⟩⟩
def v₀ (_ : Snap) (_ : Nat) (i : Nat) : HLS.Val ℚ := ⟨fun _ _ => 1, fun _ => i + 1, fun _ => 0⟩

theorem wf₀ {sn : Snap} (h : sn.extra = []) : C68.WF (pbOf E₀ sn) := by
  refine ⟨fun c hc => ?_, fun c hc hb => ?_⟩
  · have hc : c ∈ sn.extra.map (extraOf E₀ sn) := hc
    rw [h] at hc; cases hc
  · obtain ⟨i, _, rfl⟩ := List.mem_map.mp hc
    simp [C68.IsBnd, cstrOf, E₀] at hb

theorem placed₀ (sn : Snap) : C68.HasBnd (pbOf E₀ sn) = false := by
  rw [C68.HasBnd, List.any_eq_false]
  intro c hc
  obtain ⟨i, _, rfl⟩ := List.mem_map.mp hc
  simp [C68.IsBnd, cstrOf, E₀]

theorem isBnd₀ (sn : Snap) : ∀ c ∈ (pbOf E₀ sn).cstrs, C68.IsBnd c = false := by
  intro c hc
  obtain ⟨i, _, rfl⟩ := List.mem_map.mp hc
  simp [C68.IsBnd, cstrOf, E₀]

theorem consistent₀ (sn : Snap) (w : Nat → HLS.Val ℚ) : C68.Consistent (pbOf E₀ sn) E₀.opts.big w := by
  intro k _
  have hl : C68.lows (pbOf E₀ sn) w k = [] := by
    rw [C68.lows, List.map_eq_nil_iff, List.filter_eq_nil_iff]
    intro c hc
    rw [isBnd₀ sn c hc, Bool.false_and]; exact Bool.false_ne_true
  have hu : C68.ups (pbOf E₀ sn) w k = [] := by
    rw [C68.ups, List.map_eq_nil_iff, List.filter_eq_nil_iff]
    intro c hc
    rw [isBnd₀ sn c hc, Bool.false_and]; exact Bool.false_ne_true
  refine ⟨0, ⟨by show -(10 : ℚ) ≤ 0; norm_num, fun b hb => ?_⟩, by show (0 : ℚ) ≤ 10; norm_num, fun b hb => ?_⟩
  · rw [hl] at hb; cases hb
  · rw [hu] at hb; cases hb

/-- The problem with the tasks `0`, then `1`, and the priorities `p` and `q` -/
def one (p : Nat) : Snap := ⟨[⟨0, ⟨0, 1, .equal⟩, p, 0⟩], [], []⟩
def two (p q : Nat) : Snap := ⟨[⟨0, ⟨0, 1, .equal⟩, p, 0⟩, ⟨1, ⟨1, 1, .equal⟩, q, 0⟩], [], []⟩

theorem uses₀ (c : Cstr) : PB.uses [] c = false := rfl

theorem goals_one : C68.goals E₀.opts (pbOf E₀ (one 0)) (v₀ (one 0) 1) = [fun x => (x 0 - 1) ^ 2] := by
  unfold C68.goals
  rw [placed₀]
  have hp : C68.priorities (pbOf E₀ (one 0)) = 1 := by decide
  rw [hp]
  simp only [Bool.false_and, Bool.false_eq_true, if_false, List.nil_append, E₀, List.append_nil, false_and, and_false, add_zero]
  show [fun x => C68.levelViol _ _ _ 0 x] = _
  congr 1
  funext x
  simp [C68.levelViol, pbOf, one, cstrOf, C68.IsOrd, C68.cviol, C68.rowViol, C68.dot, v₀, tyOf, uses₀]

theorem goals_same : C68.goals E₀.opts (pbOf E₀ (two 0 0)) (v₀ (two 0 0) 2) = [fun x => (x 0 - 1) ^ 2 + (x 0 - 2) ^ 2] := by
  unfold C68.goals
  rw [placed₀]
  have hp : C68.priorities (pbOf E₀ (two 0 0)) = 1 := by decide
  rw [hp]
  simp only [Bool.false_and, Bool.false_eq_true, if_false, List.nil_append, E₀, List.append_nil, false_and, and_false, add_zero]
  show [fun x => C68.levelViol _ _ _ 0 x] = _
  congr 1
  funext x
  simp [C68.levelViol, pbOf, two, cstrOf, C68.IsOrd, C68.cviol, C68.rowViol, C68.dot, v₀, tyOf, uses₀]
  norm_num

/-- The state after the addition of the task `0` -/
def state₁ : State ℚ := ⟨⟨[0], [0], [(0, ⟨0, 1, .equal⟩)], [], [], 0, 1, false⟩, fun _ => 0, fun _ => 0, none⟩

theorem run₁ : Run E₀ (fun _ => 0) (fun _ => 0) [.addTask 0] state₁ := Run.call (c := .addTask 0) .start (by simp [Asked, start]) (.addTask rfl)

theorem solve₁ : ∃ (sol : HLS.Solver ℚ) (objs : List (HLS.Obj ℚ)), state₁.solve E₀ v₀ = .ok ⟨finalize E₀ state₁.pb, fun _ => 0, fun _ => 0, some ⟨[], some sol, one 0, 1⟩⟩ (some objs) ∧ C68.Hist E₀.opts (pbOf E₀ (one 0)) sol :=
  first (fun _ h => by cases h) (by decide) (wf₀ rfl) (fun _ => rfl) ⟨cstrOf E₀ (one 0) ⟨0, ⟨0, 1, .equal⟩, 0, 0⟩, Or.inl ⟨List.mem_cons_self .., rfl⟩, by decide⟩ v₀

/-- The hypotheses of `C69_partial`: the solution is `x = 1`. -/
example : ∃ (s s' : State ℚ) (l : List (Call ℚ)) (objs : List (HLS.Obj ℚ)), Run E₀ (fun _ => 0) (fun _ => 0) l s ∧ s.solve E₀ v₀ = .ok s' (some objs) ∧ ∀ x, C68.LexSolution 1 objs x ↔ x 0 = 1 := by
  obtain ⟨sol, objs, h1, h2⟩ := solve₁
  refine ⟨state₁, _, _, objs, run₁, h1, fun x => ?_⟩
  have := (C69_partial run₁ (fun _ _ _ _ => rfl) h1 (wf₀ rfl) (Or.inr (Or.inl (placed₀ _))) (consistent₀ _ _)).2.2.2 x
  refine Iff.trans this ?_
  show C68.LexMin (C68.goals E₀.opts (pbOf E₀ (one 0)) (v₀ (one 0) 1)) x ↔ _
  rw [goals_one]
  constructor
  · intro h
    rcases h (fun _ => 1) with h | ⟨h, _⟩
    · simp only [sub_self] at h; nlinarith [sq_nonneg (x 0 - 1)]
    · simp only [sub_self] at h
      have : x 0 - 1 = 0 := pow_eq_zero_iff (n := 2) (by norm_num) |>.mp (by rw [h]; norm_num)
      linarith
  · intro h y
    by_cases hy : y 0 = 1
    · exact Or.inr ⟨by simp only [h, hy], trivial⟩
    · left
      simp only [h, sub_self]
      have : 0 < (y 0 - 1) ^ 2 := lt_of_le_of_ne (sq_nonneg _) (Ne.symm (pow_ne_zero 2 (sub_ne_zero.mpr hy)))
      simpa using this

/-- **C69** The full statement is false: the task `x = 1`, a resolution, the task `x = 2`. The next resolution throws, and the one after returns `x = 1`, whereas the solution of the two tasks is 3/2. -/
theorem C69_not : ∃ (E : Env ℚ) (v : Snap → Nat → Nat → HLS.Val ℚ) (l : List (Call ℚ)) (s s₁ s₂ s₃ s₄ : State ℚ) (objs₁ objs : List (HLS.Obj ℚ)) (x : Nat → ℚ),
    Run E (fun _ => 0) (fun _ => 0) l s ∧ s.solve E v = .ok s₁ (some objs₁) ∧ s₁.addTask E 1 = .ok s₂ () ∧ s₂.solve E v = .throw s₃ ∧ s₃.solve E v = .ok s₄ (some objs) ∧
      C68.WF (pbOf E s₄.snap) ∧ C68.Placed E.opts (pbOf E s₄.snap) ∧ C68.Consistent (pbOf E s₄.snap) E.opts.big (v s₄.snap s₄.pb.gen) ∧
      C68.LexSolution (pbOf E s₄.snap).n objs x ∧ ¬ C68.LexMin (C68.goals E.opts (pbOf E s₄.snap) (v s₄.snap s₄.pb.gen)) x := by
  obtain ⟨sol, objs₁, h1, h2⟩ := solve₁
  obtain ⟨sol', objs, h3, h4⟩ := again (E := E₀) (s := ⟨⟨[0, 1], [1, 0], [(0, ⟨0, 1, .equal⟩), (1, ⟨1, 1, .equal⟩)], [], [], 2, 2, true⟩, fun _ => 0, fun _ => 0, some ⟨[], some sol, one 0, 1⟩⟩) rfl (by show (0 : Nat) < 2; omega) h2 (wf₀ rfl)
    ⟨cstrOf E₀ (one 0) ⟨0, ⟨0, 1, .equal⟩, 0, 0⟩, Or.inl ⟨List.mem_cons_self .., rfl⟩, by decide⟩ v₀
  refine ⟨E₀, v₀, _, state₁, _, _, _, _, objs₁, objs, fun _ => 1, run₁, h1, rfl, rfl, h3, wf₀ rfl, Or.inr (Or.inl (placed₀ _)), consistent₀ _ _, ?_, ?_⟩
  · have hs : sol.solve E₀.opts (v₀ (one 0) 1) = .ok () (sol', objs) := by
      unfold State.solve State.getData at h3
      simp only [updateData, List.isEmpty_nil, if_true, solveWith] at h3
      rw [if_pos (by decide)] at h3
      cases hr : sol.solve E₀.opts (v₀ (one 0) 1) with
      | ub => rw [hr] at h3; cases h3
      | throw _ => rw [hr] at h3; cases h3
      | ok u r =>
        rw [hr] at h3
        injection h3 with e1 e2
        injection e1 with _ _ _ e1
        injection e1 with e1
        injection e1 with _ e1
        injection e1 with e1
        injection e2 with e2
        rw [← e1, ← e2]
    refine (C68.C68_partial (wf₀ rfl) (Or.inr (Or.inl (placed₀ _))) h2 (consistent₀ _ _) hs _).mpr ?_
    rw [goals_one]
    intro y
    by_cases hy : y 0 = 1
    · exact Or.inr ⟨by simp only [hy], trivial⟩
    · left
      have : 0 < (y 0 - 1) ^ 2 := lt_of_le_of_ne (sq_nonneg _) (Ne.symm (pow_ne_zero 2 (sub_ne_zero.mpr hy)))
      simpa using this
  · intro h
    have h : C68.LexMin (C68.goals E₀.opts (pbOf E₀ (two 0 0)) (v₀ (two 0 0) 2)) (fun _ => 1) := h
    rw [goals_same] at h
    rcases h (fun _ => 3 / 2) with h | ⟨h, _⟩
    · norm_num at h
    · norm_num at h

/-- The hypotheses of `C69_repair`: after the removal of a substitution that is not in the problem, the two tasks are handed to LexLS. -/
example (sol : HLS.Solver ℚ) : ∃ (s₀ s s' : State ℚ) (objs : List (HLS.Obj ℚ)), s₀.mem = some ⟨[], some sol, one 0, 1⟩ ∧ SubCall s₀ s ∧ s.solve E₀ v₀ = .ok s' (some objs) ∧
    C68.WF (pbOf E₀ s'.snap) ∧ C68.Placed E₀.opts (pbOf E₀ s'.snap) ∧ C68.Consistent (pbOf E₀ s'.snap) E₀.opts.big (v₀ s'.snap s'.pb.gen) ∧ s'.snap = two 0 0 := by
  let s₀ : State ℚ := ⟨⟨[0, 1], [1, 0], [(0, ⟨0, 1, .equal⟩), (1, ⟨1, 1, .equal⟩)], [], [], 2, 2, true⟩, fun _ => 0, fun _ => 0, some ⟨[], some sol, one 0, 1⟩⟩
  let s : State ℚ := ⟨⟨[0, 1], [1, 0], [(0, ⟨0, 1, .equal⟩), (1, ⟨1, 1, .equal⟩)], [], [], 2, 2, false⟩, fun _ => 0, fun _ => 0, some ⟨[⟨.substitutionRemoval, .subs 0⟩], some sol, one 0, 1⟩⟩
  have hc : SubCall s₀ s := Or.inr (Or.inr rfl)
  obtain ⟨sol', objs, h1, _⟩ := first (E := E₀) (s := s) (fun m hm => (subCall_pb hc).2.2.2.2.2.2.2 m hm) (by show (0 : Nat) < 2; omega) (wf₀ rfl) (fun _ => rfl)
    ⟨cstrOf E₀ (two 0 0) ⟨0, ⟨0, 1, .equal⟩, 0, 0⟩, Or.inl ⟨List.mem_cons_self .., rfl⟩, by decide⟩ v₀
  exact ⟨s₀, s, _, objs, rfl, hc, h1, wf₀ rfl, Or.inr (Or.inl (placed₀ _)), consistent₀ _ _, rfl⟩

/-- The hypotheses of `C69_stale` and `C69_pending`: the state after the resolution and the addition of the task `1` -/
example : ∃ (s : State ℚ) (m : Mem ℚ) (sol : HLS.Solver ℚ), s.mem = some m ∧ m.queue.length = 1 ∧ m.queue.any isSubEvent = false ∧ m.solver = some sol ∧ C68.Hist E₀.opts (pbOf E₀ m.src) sol := by
  obtain ⟨sol, objs₁, h1, h2⟩ := solve₁
  exact ⟨⟨⟨[0, 1], [1, 0], [(0, ⟨0, 1, .equal⟩), (1, ⟨1, 1, .equal⟩)], [], [], 1, 2, false⟩, fun _ => 0, fun _ => 0, some ⟨[⟨.taskAddition, .task 1⟩], some sol, one 0, 1⟩⟩, _, sol, rfl, rfl, rfl, rfl, h2⟩

/-- The hypotheses of `C69_priority` -/
example : ∃ (s s' : State ℚ) (m : Mem ℚ) (objs : List (HLS.Obj ℚ)), s.mem = some m ∧ m.queue = [] ∧ s.solve E₀ v₀ = .ok s' (some objs) := by
  obtain ⟨sol, objs₁, h1, h2⟩ := solve₁
  obtain ⟨sol', objs, h3, _⟩ := again (E := E₀) (s := ⟨finalize E₀ state₁.pb, fun _ => 0, fun _ => 0, some ⟨[], some sol, one 0, 1⟩⟩) rfl (by show (0 : Nat) < 1; omega) h2 (wf₀ rfl)
    ⟨cstrOf E₀ (one 0) ⟨0, ⟨0, 1, .equal⟩, 0, 0⟩, Or.inl ⟨List.mem_cons_self .., rfl⟩, by decide⟩ v₀
  exact ⟨_, _, _, objs, rfl, rfl, h3⟩

end Verif.C69
