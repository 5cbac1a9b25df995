import Verif.Model.TaskLifetime
import Verif.Lemmas.WeightedLeastSquares
/-!
# C117: what a problem and its schemes remember of destroyed tasks
-/
set_option autoImplicit false

namespace Verif.C117
open Verif Verif.TL Verif.PB

/-! ## Specification -/

/-- The problem or the data of the scheme has the address of `t`, in one of its members or as the emitter of an event. -/
def Recorded (s : TL.State) (t : Nat) : Prop :=
  t ∈ s.s.pb.tr ∨ t ∈ s.s.pb.toks ∨ t ∈ s.s.pb.cons.map (·.1) ∨
    ∃ m, s.s.mem = some m ∧ (t ∈ m.map.map (·.1) ∨ ∃ e ∈ m.queue, e.emitter = .task t)

/-- The program does not add a task that the problem has, and no addition of a task throws. -/
def Good (s : TL.State) : TL.Op → Prop
  | .addThrows _ => False
  | .call _ (.addTask t) => t ∉ s.s.pb.tr
  | _ => True

/-- States reached from an empty problem when each operation satisfies `D` -/
inductive Reach (D : TL.State → TL.Op → Prop) : TL.State → Prop where
  | init : Reach D {}
  | step (s s' : TL.State) (op : TL.Op) : Reach D s → s.can op = true → D s op → s.step op = some s' → Reach D s'

/-- States of a problem that is not linearized, when no task is added that the problem has -/
inductive PReach : Plain → Prop where
  | init : PReach {}
  | step (s s' : Plain) (op : POp) : PReach s → s.can op = true → (∀ t, op = .add t → t ∉ s.tr) → s.step op = some s' → PReach s'

/-! ## The events about a task -/

/-- Additions and removals of `t` in a queue -/
def rel (t : Nat) (q : List EQ.Event) : List EQ.Event :=
  q.filter fun e => decide (e.emitter = .task t) && (decide (e.type = .taskAddition) || decide (e.type = .taskRemoval))

/-- The possible additions and removals of a task in the queue. `k`: the data of the scheme has the task. `p`: the problem has it. -/
def W (t : Nat) (k p : Prop) (l : List EQ.Event) : Prop :=
  (l = [] ∧ (p → k)) ∨ (l = [⟨.taskAddition, .task t⟩] ∧ p) ∨ (l = [⟨.taskRemoval, .task t⟩] ∧ k ∧ ¬ p) ∨
    (l = [⟨.taskRemoval, .task t⟩, ⟨.taskAddition, .task t⟩] ∧ k ∧ p)

structure Q (K P : Nat → Prop) (q : List EQ.Event) : Prop where
  w : ∀ t, W t (K t) (P t) (rel t q)
  weight : ∀ e ∈ q, e.isWeight = true → ∀ t, e.emitter = .task t → P t
  typed : ∀ e ∈ q, EQ.Typed e

structure Inv (s : PB.State) : Prop where
  nodup : s.pb.tr.Nodup
  toks : ∀ t ∈ s.pb.toks, t ∈ s.pb.tr
  cons : ∀ t ∈ s.pb.tr, t ∈ keysOf s.pb.cons
  queue : ∀ m, s.mem = some m → Q (· ∈ keysOf m.map) (· ∈ s.pb.tr) m.queue

theorem rel_append (t : Nat) (q r : List EQ.Event) : rel t (q ++ r) = rel t q ++ rel t r := List.filter_append ..

theorem rel_other (t : Nat) (e : EQ.Event) (h : e.emitter ≠ .task t) : rel t [e] = [] := by simp [rel, h]

theorem rel_cons (t : Nat) (e : EQ.Event) (q : List EQ.Event) : rel t (e :: q) = rel t [e] ++ rel t q := rel_append t [e] q

theorem weight_type {e : EQ.Event} (h : e.isWeight = true) : e.type ≠ .taskAddition ∧ e.type ≠ .taskRemoval := EQ.weight_facts h

/-- An event that is neither an addition nor a removal is added. -/
theorem Q.push {K P : Nat → Prop} {q : List EQ.Event} (h : Q K P q) (e : EQ.Event) (ha : e.type ≠ .taskAddition)
    (hr : e.type ≠ .taskRemoval) (ht : EQ.Typed e) (hp : e.isWeight = true → ∀ t, e.emitter = .task t → P t) : Q K P (q ++ [e]) := by
  refine ⟨fun t => ?_, fun x hx => ?_, fun x hx => ?_⟩
  · have : rel t [e] = [] := by simp [rel, ha, hr]
    rw [rel_append, this, List.append_nil]; exact h.w t
  · rcases List.mem_append.1 hx with hx | hx
    · exact h.weight x hx
    · simp only [List.mem_singleton] at hx; subst hx; exact hp
  · rcases List.mem_append.1 hx with hx | hx
    · exact h.typed x hx
    · simp only [List.mem_singleton] at hx; subst hx; exact ht

theorem Q.add {K P : Nat → Prop} {q : List EQ.Event} (h : Q K P q) (t : Nat) (hp : ¬ P t) (P' : Nat → Prop)
    (hP : ∀ u, P' u ↔ P u ∨ u = t) : Q K P' (q ++ [⟨.taskAddition, .task t⟩]) := by
  refine ⟨fun u => ?_, fun x hx hw u hu => ?_, fun x hx => ?_⟩
  · rw [rel_append]
    by_cases hut : u = t
    · subst hut
      have e1 : rel u [⟨.taskAddition, .task u⟩] = [⟨.taskAddition, .task u⟩] := by simp [rel]
      rw [e1]
      have hp' : P' u := (hP u).2 (Or.inr rfl)
      rcases h.w u with ⟨e, i⟩ | ⟨e, i⟩ | ⟨e, i, j⟩ | ⟨e, i, j⟩
      · rw [e]; exact Or.inr (Or.inl ⟨rfl, hp'⟩)
      · exact absurd i hp
      · rw [e]; exact Or.inr (Or.inr (Or.inr ⟨rfl, i, hp'⟩))
      · exact absurd j hp
    · have e1 : rel u [⟨.taskAddition, .task t⟩] = [] := rel_other _ _ (by simp; exact fun h => hut h.symm)
      have e2 : P' u ↔ P u := by rw [hP]; simp [hut]
      rw [e1, List.append_nil, W, e2]; exact h.w u
  · rcases List.mem_append.1 hx with hx | hx
    · exact (hP u).2 (Or.inl (h.weight x hx hw u hu))
    · simp only [List.mem_singleton] at hx; subst hx; simp [EQ.Event.isWeight] at hw
  · rcases List.mem_append.1 hx with hx | hx
    · exact h.typed x hx
    · simp only [List.mem_singleton] at hx; subst hx; simp [EQ.Typed]

/-- The events kept by the loop of `addEvent` -/
def kept (t : Nat) (q : List EQ.Event) : List EQ.Event :=
  q.filter fun e => !decide (e.emitter = .task t ∧ e.type ≠ .taskRemoval)

theorem rel_kept_self (t : Nat) (q : List EQ.Event) : rel t (kept t q) = (rel t q).filter fun e => decide (e.type = .taskRemoval) := by
  simp only [rel, kept, List.filter_filter]
  apply List.filter_congr
  intro e _
  by_cases h1 : e.emitter = .task t <;> by_cases h2 : e.type = .taskRemoval <;> simp [h1, h2]

theorem rel_kept_other (t u : Nat) (h : u ≠ t) (q : List EQ.Event) : rel u (kept t q) = rel u q := by
  simp only [rel, kept, List.filter_filter]
  apply List.filter_congr
  intro e _
  by_cases h1 : e.emitter = .task u
  · have : ¬ (EQ.Emitter.task u = EQ.Emitter.task t) := fun he => h (by injection he)
    simp [h1, this]
  · simp [h1]

theorem adds_rel (t : Nat) (q : List EQ.Event) :
    q.filter (fun e => decide (e.emitter = .task t ∧ e.type = .taskAddition)) = (rel t q).filter fun e => decide (e.type = .taskAddition) := by
  simp only [rel, List.filter_filter]
  apply List.filter_congr
  intro e _
  by_cases h1 : e.emitter = .task t <;> by_cases h2 : e.type = .taskAddition <;> simp [h1, h2]

theorem Q.kept {K P : Nat → Prop} {q : List EQ.Event} (h : Q K P q) (t : Nat) (P' : Nat → Prop) (hP : ∀ u, P' u ↔ P u ∧ u ≠ t) :
    (∀ e ∈ C117.kept t q, e.isWeight = true → ∀ u, e.emitter = .task u → P' u) ∧ (∀ e ∈ C117.kept t q, EQ.Typed e) ∧
      ∀ u, u ≠ t → W u (K u) (P' u) (rel u (C117.kept t q)) := by
  refine ⟨fun e he hw u hu => ?_, fun e he => h.typed e (List.mem_filter.1 he).1, fun u hut => ?_⟩
  · obtain ⟨h1, h2⟩ := List.mem_filter.1 he
    refine (hP u).2 ⟨h.weight e h1 hw u hu, fun hut => ?_⟩
    subst hut
    simp [hu, (weight_type hw).2] at h2
  · have e2 : P' u ↔ P u := by rw [hP]; simp [hut]
    rw [rel_kept_other t u hut, W, e2]; exact h.w u

/-- `addEvent` for the removal of a task of the problem -/
theorem Q.remove {K P : Nat → Prop} {q : List EQ.Event} (h : Q K P q) (t : Nat) (hp : P t) (P' : Nat → Prop)
    (hP : ∀ u, P' u ↔ P u ∧ u ≠ t) (q' : List EQ.Event) (hq : EQ.addEvent q ⟨.taskRemoval, .task t⟩ = some q') : Q K P' q' := by
  obtain ⟨s1, s2, s3⟩ := EQ.scan_spec (.task t) q true
  rw [adds_rel] at s2 s3
  obtain ⟨k1, k2, k3⟩ := h.kept t P' hP
  have hp' : ¬ P' t := by rw [hP]; simp
  have hkept : (EQ.scan (.task t) q true).1 = C117.kept t q := s1
  simp only [EQ.addEvent, if_true] at hq
  rcases h.w t with ⟨e, i⟩ | ⟨e, i⟩ | ⟨e, i, j⟩ | ⟨e, i, j⟩
  · have h2 := s2 (by rw [e]; rfl)
    rw [h2] at hq
    simp only [if_true, Option.some.injEq] at hq
    rw [hkept] at hq
    subst hq
    refine ⟨fun u => ?_, fun x hx hw u hu => ?_, fun x hx => ?_⟩
    · rw [rel_append]
      by_cases hut : u = t
      · subst hut
        rw [rel_kept_self, e]
        exact Or.inr (Or.inr (Or.inl ⟨by simp [rel], i hp, hp'⟩))
      · have e1 : rel u [⟨.taskRemoval, .task t⟩] = [] := rel_other _ _ (by simp; exact fun h => hut h.symm)
        rw [e1, List.append_nil]; exact k3 u hut
    · rcases List.mem_append.1 hx with hx | hx
      · exact k1 x hx hw u hu
      · simp only [List.mem_singleton] at hx; subst hx; simp [EQ.Event.isWeight] at hw
    · rcases List.mem_append.1 hx with hx | hx
      · exact k2 x hx
      · simp only [List.mem_singleton] at hx; subst hx; simp [EQ.Typed]
  · have h2 := s3 (by rw [e]; rfl)
    rw [h2] at hq
    simp only [if_true, Bool.false_eq_true, if_false, Option.some.injEq] at hq
    rw [hkept] at hq
    subst hq
    refine ⟨fun u => ?_, k1, k2⟩
    by_cases hut : u = t
    · subst hut
      rw [rel_kept_self, e]
      exact Or.inl ⟨by simp, fun hu => absurd hu hp'⟩
    · exact k3 u hut
  · exact absurd hp j
  · have h2 := s3 (by rw [e]; rfl)
    rw [h2] at hq
    simp only [if_true, Bool.false_eq_true, if_false, Option.some.injEq] at hq
    rw [hkept] at hq
    subst hq
    refine ⟨fun u => ?_, k1, k2⟩
    by_cases hut : u = t
    · subst hut
      rw [rel_kept_self, e]
      exact Or.inr (Or.inr (Or.inl ⟨by simp, i, hp'⟩))
    · exact k3 u hut

theorem Q.nil {K P : Nat → Prop} (h : ∀ t, P t → K t) : Q K P [] :=
  ⟨fun t => Or.inl ⟨rfl, h t⟩, by simp, by simp⟩

/-- The first event is popped; it was about `t` if it is an addition or a removal, and the data changes for `t` only. -/
theorem Q.pop {K K' P : Nat → Prop} {e : EQ.Event} {q : List EQ.Event} (h : Q K P (e :: q)) (hK : ∀ u, rel u [e] = [] → (K' u ↔ K u))
    (hA : ∀ t, e = ⟨.taskAddition, .task t⟩ → K' t) : Q K' P q := by
  refine ⟨fun u => ?_, fun x hx => h.weight x (List.mem_cons_of_mem _ hx), fun x hx => h.typed x (List.mem_cons_of_mem _ hx)⟩
  have hw := h.w u
  rw [rel_cons] at hw
  by_cases he : rel u [e] = []
  · rw [he, List.nil_append] at hw
    rw [W, hK u he]; exact hw
  · have h1 : rel u [e] = [e] := by
      simp only [rel, List.filter_cons, List.filter_nil] at he ⊢
      split at he
      · rename_i hh; rw [if_pos hh]
      · exact absurd rfl he
    rw [h1] at hw
    simp only [List.singleton_append] at hw
    rcases hw with ⟨e1, i⟩ | ⟨e1, i⟩ | ⟨e1, i, j⟩ | ⟨e1, i, j⟩
    · cases e1
    · injection e1 with e1 e2
      rw [e2]; exact Or.inl ⟨rfl, fun _ => hA u e1⟩
    · injection e1 with e1 e2
      rw [e2]; exact Or.inl ⟨rfl, fun hp => absurd hp j⟩
    · injection e1 with e1 e2
      rw [e2]; exact Or.inr (Or.inl ⟨rfl, j⟩)

/-! ## The treatment of the events -/

/-- What is needed of the data left by the treatment of an event, exceptions included -/
def Post (P : Nat → Prop) (q : List EQ.Event) : Outcome Mem (List SE.Op) → Prop
  | .ok m _ => m.queue = q ∧ Q (· ∈ keysOf m.map) P q
  | .throw m => m.queue = q ∧ Q (· ∈ keysOf m.map) P q
  | .ub => True

theorem onWeight_post (E : Env) (p : Problem) (m : Mem) (t : Nat) (b : Bool) {P : Nat → Prop} {q : List EQ.Event} (hq : m.queue = q)
    (h : Q (· ∈ keysOf m.map) P q) : Post P q (onWeight E p m t b) := by
  unfold onWeight
  split
  · exact ⟨hq, h⟩
  · split
    · exact ⟨hq, h⟩
    · exact ⟨hq, h⟩

theorem mem_keys_put (l : List (Nat × SE.Cstr)) (t u : Nat) (c : SE.Cstr) : u ∈ keysOf (put l t c) ↔ u = t ∨ u ∈ keysOf l := by
  rw [← get_isSome, ← get_isSome, get_put]
  by_cases h : u = t <;> simp [h]

theorem mem_keys_del (l : List (Nat × SE.Cstr)) (t u : Nat) : u ∈ keysOf (del l t) ↔ u ≠ t ∧ u ∈ keysOf l := by
  rw [← get_isSome, ← get_isSome, get_del]
  by_cases h : u = t <;> simp [h]

theorem onEvent_post (E : Env) (p : Problem) (m : Mem) (e : EQ.Event) (q : List EQ.Event) (hc : ∀ t ∈ p.tr, t ∈ keysOf p.cons)
    (h : Q (· ∈ keysOf m.map) (· ∈ p.tr) (e :: q)) : Post (· ∈ p.tr) q (onEvent E p { m with queue := q } e) := by
  obtain ⟨ty, em⟩ := e
  have same : (∀ t, (⟨ty, em⟩ : EQ.Event) ≠ ⟨.taskAddition, .task t⟩) → Q (· ∈ keysOf m.map) (· ∈ p.tr) q :=
    fun hn => h.pop (fun _ _ => Iff.rfl) (fun t ht => absurd ht (hn t))
  cases em with
  | subs i =>
    have := same (by simp)
    cases ty <;> exact ⟨rfl, this⟩
  | task t =>
    cases ty with
    | weightChange => exact onWeight_post E p _ t true rfl (same (by simp))
    | anisotropicWeightChange => exact onWeight_post E p _ t false rfl (same (by simp))
    | substitutionAddition => exact ⟨rfl, same (by simp)⟩
    | substitutionRemoval => exact ⟨rfl, same (by simp)⟩
    | taskAddition =>
      have hp : t ∈ p.tr := by
        have hw := h.w t
        rw [rel_cons] at hw
        have : rel t [⟨.taskAddition, .task t⟩] = [⟨.taskAddition, .task t⟩] := by simp [rel]
        rw [this] at hw
        rcases hw with ⟨e1, i⟩ | ⟨e1, i⟩ | ⟨e1, i, j⟩ | ⟨e1, i, j⟩
        · cases e1
        · exact i
        · simp at e1
        · exact j
      have hin := hc t hp
      simp only [onEvent, onAddTask]
      cases hg : get p.cons t with
      | none => exact absurd hin ((get_none _ _).1 hg)
      | some c =>
        simp only
        split
        · trivial
        · have hQ : Q (· ∈ keysOf (put m.map t c)) (· ∈ p.tr) q := by
            refine h.pop (fun u hu => ?_) (fun u hu => ?_)
            · rw [mem_keys_put]
              have : u ≠ t := by rintro rfl; simp [rel] at hu
              simp [this]
            · injection hu with _ hu
              injection hu with hu
              rw [mem_keys_put]; exact Or.inl hu.symm
          split
          · exact ⟨rfl, hQ⟩
          · exact ⟨rfl, hQ⟩
    | taskRemoval =>
      have hs := same (by simp)
      simp only [onEvent, onRemoveTask]
      cases hg : get m.map t with
      | none => exact ⟨rfl, hs⟩
      | some c =>
        simp only
        split
        · exact ⟨rfl, hs⟩
        · split
          · refine ⟨rfl, h.pop (fun u hu => ?_) (fun u hu => by cases hu)⟩
            rw [mem_keys_del]
            have : u ≠ t := by rintro rfl; simp [rel] at hu
            simp [this]
          · exact ⟨rfl, hs⟩

theorem handle_post (E : Env) (p : Problem) (hc : ∀ t ∈ p.tr, t ∈ keysOf p.cons) : ∀ (q : List EQ.Event) (m : Mem), m.queue = q →
    Q (· ∈ keysOf m.map) (· ∈ p.tr) q → (match handle E p q m with
      | .ok m _ => m.queue = [] ∧ Q (· ∈ keysOf m.map) (· ∈ p.tr) m.queue
      | .throw m => Q (· ∈ keysOf m.map) (· ∈ p.tr) m.queue
      | .ub => True) := by
  intro q
  induction q with
  | nil => intro m hm h; rw [← hm] at h; exact ⟨hm, h⟩
  | cons e q ih =>
    intro m hm h
    have hp := onEvent_post E p m e q hc h
    simp only [handle]
    cases ho : onEvent E p { m with queue := q } e with
    | ub => trivial
    | throw m' => rw [ho] at hp; obtain ⟨h1, h2⟩ := hp; rw [← h1] at h2; exact h2
    | ok m' ops =>
      rw [ho] at hp
      obtain ⟨h1, h2⟩ := hp
      have := ih m' h1 h2
      simp only
      cases hh : handle E p q m' with
      | ub => trivial
      | throw m'' => rw [hh] at this; exact this
      | ok m'' ops' => rw [hh] at this; exact this

theorem exist_tr {prog : List Nat} {s : PB.State} {t : Nat} (h : t ∈ s.pb.tr) : exist prog s t = true := by simp [exist, h]

theorem exist_cons {prog : List Nat} {s : PB.State} {t : Nat} (h : t ∈ keysOf s.pb.cons) : exist prog s t = true := by
  have : (s.pb.cons.map (·.1)).contains t = true := List.contains_iff_mem.2 h
  simp only [exist, this]; simp

theorem exist_map {prog : List Nat} {p : Problem} {m : Mem} {t : Nat} (h : t ∈ keysOf m.map) : exist prog ⟨p, some m⟩ t = true := by
  have : (m.map.map (·.1)).contains t = true := List.contains_iff_mem.2 h
  simp only [exist, this]; simp

theorem search_ok {keys : List Nat} {t : Nat} {ex : Nat → Bool} (ht : ex t = true) (hk : ∀ k ∈ keys, ex k = true) :
    search keys t ex = true := by
  simp only [search, Bool.or_eq_true, List.all_eq_true]
  exact Or.inr fun k hk' => (List.mem_cons.1 hk').elim (fun h => h ▸ ht) (hk k)

/-- The emitters of the events that are tasks exist. -/
theorem Q.exist {p : Problem} {m : Mem} {q : List EQ.Event} (h : Q (· ∈ keysOf m.map) (· ∈ p.tr) q) (prog : List Nat) (e : EQ.Event)
    (he : e ∈ q) (t : Nat) (ht : e.emitter = .task t) : exist prog ⟨p, some m⟩ t = true := by
  have hty := h.typed e he
  obtain ⟨ty, em⟩ := e
  simp only at ht
  subst ht
  simp only [EQ.Typed] at hty
  have key : ty = .taskAddition ∨ ty = .taskRemoval → t ∈ p.tr ∨ t ∈ keysOf m.map := by
    intro hx
    have hin : (⟨ty, .task t⟩ : EQ.Event) ∈ rel t q := by
      refine List.mem_filter.2 ⟨he, ?_⟩
      rcases hx with rfl | rfl <;> simp
    rcases h.w t with ⟨e1, i⟩ | ⟨e1, i⟩ | ⟨e1, i, j⟩ | ⟨e1, i, j⟩
    · rw [e1] at hin; simp at hin
    · exact Or.inl i
    · exact Or.inr i
    · exact Or.inl j
  have done : t ∈ p.tr ∨ t ∈ keysOf m.map → TL.exist prog ⟨p, some m⟩ t = true := fun hx =>
    hx.elim (fun h => exist_tr h) (fun h => exist_map h)
  cases ty with
  | weightChange => exact done (Or.inl (h.weight _ he rfl t rfl))
  | anisotropicWeightChange => exact done (Or.inl (h.weight _ he rfl t rfl))
  | taskAddition => exact done (key (Or.inl rfl))
  | taskRemoval => exact done (key (Or.inr rfl))
  | substitutionAddition => exact absurd rfl hty.1
  | substitutionRemoval => exact absurd rfl hty.2

theorem eventReads_ok (prog : List Nat) (p : Problem) (m : Mem) (e : EQ.Event) (q : List EQ.Event)
    (h : Q (· ∈ keysOf m.map) (· ∈ p.tr) (e :: q)) : eventReads prog p { m with queue := q } e = true := by
  have hex := fun t ht => Q.exist (m := { m with queue := q }) h prog e (by simp) t ht
  have hc : ∀ k ∈ p.cons.map (·.1), TL.exist prog ⟨p, some { m with queue := q }⟩ k = true := fun k hk => exist_cons hk
  have hm : ∀ k ∈ m.map.map (·.1), TL.exist prog ⟨p, some { m with queue := q }⟩ k = true := fun k hk => exist_map hk
  obtain ⟨ty, em⟩ := e
  cases em with
  | subs i => cases ty <;> rfl
  | task t =>
    have ht := hex t rfl
    cases ty with
    | weightChange => exact search_ok ht hc
    | anisotropicWeightChange => exact search_ok ht hc
    | taskAddition =>
      simp only [eventReads, search_ok ht hc, search_ok ht hm]; simp
    | taskRemoval => exact search_ok ht hm
    | substitutionAddition => rfl
    | substitutionRemoval => rfl

theorem handleReads_ok (prog : List Nat) (E : Env) (p : Problem) (hc : ∀ t ∈ p.tr, t ∈ keysOf p.cons) : ∀ (q : List EQ.Event) (m : Mem),
    Q (· ∈ keysOf m.map) (· ∈ p.tr) q → handleReads prog E p q m = true := by
  intro q
  induction q with
  | nil => intro m _; rfl
  | cons e q ih =>
    intro m h
    have hp := onEvent_post E p m e q hc h
    simp only [handleReads, eventReads_ok prog p m e q h, Bool.true_and]
    cases ho : onEvent E p { m with queue := q } e with
    | ub => rfl
    | throw m' => rfl
    | ok m' ops =>
      rw [ho] at hp
      exact ih m' hp.2

/-! ## The calls -/

theorem finalize_same (E : Env) (p : Problem) : (p.finalize E).tr = p.tr ∧ (p.finalize E).toks = p.toks ∧ (p.finalize E).cons = p.cons := by
  unfold Problem.finalize
  split <;> simp

/-- The data left by `processProblem` -/
theorem processProblem_post (E : Env) (p : Problem) (m : Mem) (hm : m.queue = []) (hc : ∀ t ∈ p.tr, t ∈ keysOf p.cons) :
    (match processProblem E p m with
      | .ok m _ => Q (· ∈ keysOf m.map) (· ∈ p.tr) m.queue
      | .throw m => Q (· ∈ keysOf m.map) (· ∈ p.tr) m.queue
      | .ub => True) := by
  unfold processProblem
  simp only
  cases scanAll E p p.cons {} with
  | error a => simp only [hm]; exact Q.nil hc
  | ok a =>
    simp only
    split
    · rename_i h; split at h
      · injection h with h; subst h; simp only [hm]; exact Q.nil hc
      · cases h
    · rename_i h; split at h <;> cases h
    · trivial

theorem updateData_post (E : Env) (p : Problem) (m : Mem) (hc : ∀ t ∈ p.tr, t ∈ keysOf p.cons)
    (h : Q (· ∈ keysOf m.map) (· ∈ p.tr) m.queue) :
    (match updateData E p m with
      | .ok m _ => Q (· ∈ keysOf m.map) (· ∈ p.tr) m.queue
      | .throw m => Q (· ∈ keysOf m.map) (· ∈ p.tr) m.queue
      | .ub => True) := by
  unfold updateData
  by_cases h1 : m.queue.isEmpty = true
  · rw [if_pos h1]; exact h
  · rw [if_neg h1]
    by_cases h2 : m.queue.any isSubEvent = true
    · rw [if_pos h2]; exact processProblem_post E p _ rfl hc
    · rw [if_neg h2]
      have hh := handle_post E p hc m.queue m rfl h
      cases ho : handle E p m.queue m with
      | ub => trivial
      | throw m' => rw [ho] at hh; exact hh
      | ok m' ops =>
        rw [ho] at hh
        simp only [Mem.applyBatch]
        split
        · rename_i h; split at h
          · injection h with h; subst h; exact hh.2
          · cases h
        · rename_i h; split at h <;> cases h
        · trivial

theorem inv_finalize {E : Env} {s : PB.State} (h : Inv s) : Inv ⟨s.pb.finalize E, s.mem⟩ := by
  obtain ⟨e1, e2, e3⟩ := finalize_same E s.pb
  exact ⟨by rw [e1]; exact h.nodup, by simp only [e1, e2]; exact h.toks, by simp only [e1, e3]; exact h.cons,
    by simp only [e1]; exact h.queue⟩

theorem notify_queue {s : PB.State} {e : EQ.Event} {mem : Option Mem} (hn : notify s.mem e = some mem) (m' : Mem) (hm : mem = some m') :
    ∃ m q, s.mem = some m ∧ EQ.addEvent m.queue e = some q ∧ m' = { m with queue := q } := by
  subst hm
  cases hs : s.mem with
  | none => rw [hs] at hn; simp [notify] at hn
  | some m =>
    rw [hs] at hn
    simp only [notify] at hn
    cases hq : EQ.addEvent m.queue e with
    | none => rw [hq] at hn; simp at hn
    | some q =>
      rw [hq] at hn; simp only [Option.some.injEq] at hn
      exact ⟨m, q, rfl, hq, hn.symm⟩

/-- The queue after an event that is neither an addition nor a removal of a task -/
theorem notify_other {s : PB.State} (h : Inv s) {e : EQ.Event} {mem : Option Mem} (ha : e.type ≠ .taskAddition)
    (hr : e.type ≠ .taskRemoval) (ht : EQ.Typed e) (hp : e.isWeight = true → ∀ t, e.emitter = .task t → t ∈ s.pb.tr)
    (hn : notify s.mem e = some mem) : ∀ m, mem = some m → Q (· ∈ keysOf m.map) (· ∈ s.pb.tr) m.queue := by
  intro m' hm'
  obtain ⟨m, q, h1, h2, rfl⟩ := notify_queue hn m' hm'
  simp only [EQ.addEvent, hr, if_false, Option.some.injEq] at h2
  subst h2
  exact (h.queue m h1).push e ha hr ht hp

theorem addTask_inv {E : Env} {s s' : PB.State} (h : Inv s) (t : Nat) (ht : t ∉ s.pb.tr) (hs : left (s.addTask E t) = some s') : Inv s' := by
  unfold State.addTask at hs
  cases hn : notify s.mem ⟨.taskAddition, .task t⟩ with
  | none => rw [hn] at hs; simp [left] at hs
  | some mem =>
    rw [hn] at hs
    simp only [left, Option.some.injEq] at hs
    subst hs
    refine ⟨?_, ?_, ?_, ?_⟩
    · simp only [List.nodup_append]
      exact ⟨h.nodup, by simp, fun a ha b hb hab => ht (by simp at hb; rw [← hb, ← hab]; exact ha)⟩
    · intro u hu
      simp only [List.mem_cons, List.mem_filter] at hu
      rcases hu with rfl | ⟨hu, _⟩
      · simp
      · simp [h.toks u hu]
    · intro u hu
      simp only [List.mem_append, List.mem_singleton] at hu
      rw [mem_keys_put]
      exact hu.elim (fun hu => Or.inr (h.cons u hu)) Or.inl
    · intro m' hm'
      obtain ⟨m, q, h1, h2, rfl⟩ := notify_queue hn m' hm'
      simp only [EQ.addEvent, reduceCtorEq, if_false, Option.some.injEq] at h2
      subst h2
      exact (h.queue m h1).add t ht _ (by simp)

theorem removeBase_inv {s s' : PB.State} {t : Nat} (h : Inv s) (hs : s.removeBase t = .ok s' ()) : Inv s' ∧ t ∉ s'.pb.tr ∧
    s'.pb.cons = s.pb.cons ∧ s'.pb.subs = s.pb.subs := by
  unfold State.removeBase at hs
  by_cases ht : t ∈ s.pb.tr
  · rw [if_pos ht] at hs
    cases hn : notify s.mem ⟨.taskRemoval, .task t⟩ with
    | none => rw [hn] at hs; cases hs
    | some mem =>
      rw [hn] at hs
      simp only [Outcome.ok.injEq, and_true] at hs
      subst hs
      have hm : ∀ u, u ∈ s.pb.tr.erase t ↔ u ∈ s.pb.tr ∧ u ≠ t := fun u => by rw [h.nodup.mem_erase_iff]; exact And.comm
      refine ⟨⟨h.nodup.erase _, ?_, ?_, ?_⟩, ?_, rfl, rfl⟩
      · intro u hu
        simp only [List.mem_filter, decide_eq_true_eq] at hu
        exact (hm u).2 ⟨h.toks u hu.1, hu.2⟩
      · intro u hu
        exact h.cons u ((hm u).1 hu).1
      · intro m' hm'
        obtain ⟨m, q, h1, h2, rfl⟩ := notify_queue hn m' hm'
        exact (h.queue m h1).remove t ht _ hm q h2
      · exact fun hx => ((hm t).1 hx).2 rfl
  · rw [if_neg ht] at hs
    simp only [Outcome.ok.injEq, and_true] at hs
    subst hs
    exact ⟨h, ht, rfl, rfl⟩

theorem removeStored_inv {s s' : PB.State} {i : Nat} (h : Inv s) (hs : left (s.removeStored i) = some s') :
    Inv s' ∧ s'.pb.tr = s.pb.tr ∧ s'.pb.cons = s.pb.cons := by
  unfold State.removeStored at hs
  cases hn : notify s.mem ⟨.substitutionRemoval, .subs i⟩ with
  | none => rw [hn] at hs; simp [left] at hs
  | some mem =>
    rw [hn] at hs
    simp only [left, Option.some.injEq] at hs
    subst hs
    exact ⟨⟨h.nodup, h.toks, h.cons, notify_other h (by simp) (by simp) (by simp [EQ.Typed]) (by simp [EQ.Event.isWeight]) hn⟩, rfl, rfl⟩

theorem inv_del {s : PB.State} {t : Nat} (h : Inv s) (ht : t ∉ s.pb.tr) : Inv ⟨{ s.pb with cons := del s.pb.cons t }, s.mem⟩ :=
  ⟨h.nodup, h.toks, fun u hu => by rw [mem_keys_del]; exact ⟨fun e => ht (e ▸ hu), h.cons u hu⟩, h.queue⟩

theorem removeTask_inv {s s' : PB.State} {t : Nat} (h : Inv s) (hs : left (s.removeTask t) = some s') : Inv s' := by
  unfold State.removeTask at hs
  cases hb : s.removeBase t with
  | ub => rw [hb] at hs; simp [left] at hs
  | throw s1 =>
    unfold State.removeBase at hb
    split at hb
    · split at hb <;> cases hb
    · cases hb
  | ok s1 u =>
    obtain ⟨i1, n1, _, _⟩ := removeBase_inv h hb
    rw [hb] at hs
    simp only at hs
    cases hg : get s1.pb.cons t with
    | none => rw [hg] at hs; simp only [left, Option.some.injEq] at hs; exact hs ▸ i1
    | some c =>
      rw [hg] at hs
      simp only at hs
      cases hf : findSub s1.pb.subs c with
      | none => rw [hf] at hs; simp only [left, Option.some.injEq] at hs; exact hs ▸ inv_del i1 n1
      | some i =>
        rw [hf] at hs
        simp only at hs
        split at hs
        · cases hr : s1.removeStored i with
          | ub => rw [hr] at hs; simp [left] at hs
          | throw s2 =>
            rw [hr] at hs; simp only [left, Option.some.injEq] at hs
            exact hs ▸ (removeStored_inv i1 (by rw [hr]; rfl)).1
          | ok s2 u2 =>
            obtain ⟨i2, t2, _⟩ := removeStored_inv i1 (s' := s2) (by rw [hr]; rfl)
            rw [hr] at hs; simp only [left, Option.some.injEq] at hs
            exact hs ▸ inv_del i2 (by rw [t2]; exact n1)
        · simp only [left, Option.some.injEq] at hs; exact hs ▸ i1

theorem addSub_inv {s s' : PB.State} {x : Sub} (h : Inv s) (hs : left (s.addSub x) = some s') : Inv s' := by
  unfold State.addSub at hs
  cases hn : notify s.mem ⟨.substitutionAddition, .subs s.pb.subs.length⟩ with
  | none => rw [hn] at hs; simp [left] at hs
  | some mem =>
    rw [hn] at hs
    simp only [left, Option.some.injEq] at hs
    subst hs
    exact ⟨h.nodup, h.toks, h.cons, notify_other h (by simp) (by simp) (by simp [EQ.Typed]) (by simp [EQ.Event.isWeight]) hn⟩

theorem removeForeign_inv {s s' : PB.State} (h : Inv s) (hs : left s.removeForeign = some s') : Inv s' := by
  unfold State.removeForeign at hs
  cases hn : notify s.mem ⟨.substitutionRemoval, .subs 0⟩ with
  | none => rw [hn] at hs; simp [left] at hs
  | some mem =>
    rw [hn] at hs
    simp only [left, Option.some.injEq] at hs
    subst hs
    exact ⟨h.nodup, h.toks, h.cons, notify_other h (by simp) (by simp) (by simp [EQ.Typed]) (by simp [EQ.Event.isWeight]) hn⟩

theorem changeWeight_inv {s s' : PB.State} {t : Nat} {b : Bool} (h : Inv s) (hs : left (s.changeWeight t b) = some s') : Inv s' := by
  unfold State.changeWeight at hs
  by_cases ht : t ∈ s.pb.toks
  · rw [if_pos ht] at hs
    cases hn : notify s.mem ⟨if b then .weightChange else .anisotropicWeightChange, .task t⟩ with
    | none => rw [hn] at hs; simp [left] at hs
    | some mem =>
      rw [hn] at hs
      simp only [left, Option.some.injEq] at hs
      subst hs
      refine ⟨h.nodup, h.toks, h.cons, notify_other h ?_ ?_ ?_ ?_ hn⟩
      · cases b <;> simp
      · cases b <;> simp
      · cases b <;> simp [EQ.Typed]
      · intro _ u hu; simp only [EQ.Emitter.task.injEq] at hu; exact hu ▸ h.toks t ht
  · rw [if_neg ht] at hs
    simp only [left, Option.some.injEq] at hs
    exact hs ▸ h

theorem solve_inv {E : Env} {s s' : PB.State} (h : Inv s) (hs : left (drop (s.solve E)) = some s') : Inv s' := by
  have key : ∀ (p : Problem) (m : Mem), Inv ⟨p, some m⟩ → left (drop (match updateData E (p.finalize E) m with
      | .ub => (Outcome.ub : Outcome PB.State Bool)
      | .throw m => .throw ⟨p.finalize E, some m⟩
      | .ok m _ => .ok ⟨p.finalize E, some m⟩ (decide ((p.finalize E).tr.length > (p.finalize E).subs.length)))) = some s' → Inv s' := by
    intro p m hi hs
    have hf : Inv ⟨p.finalize E, some m⟩ := inv_finalize (E := E) hi
    have hu := updateData_post E (p.finalize E) m hf.cons (hf.queue m rfl)
    cases ho : updateData E (p.finalize E) m with
    | ub => rw [ho] at hs; simp [left, drop] at hs
    | throw m' =>
      rw [ho] at hs hu
      simp only [left, drop, Option.some.injEq] at hs
      subst hs
      exact ⟨hf.nodup, hf.toks, hf.cons, fun m2 h2 => by injection h2 with h2; subst h2; exact hu⟩
    | ok m' u =>
      rw [ho] at hs hu
      simp only [left, drop, Option.some.injEq] at hs
      subst hs
      exact ⟨hf.nodup, hf.toks, hf.cons, fun m2 h2 => by injection h2 with h2; subst h2; exact hu⟩
  unfold State.solve State.getData at hs
  cases hm : s.mem with
  | some m =>
    rw [hm] at hs
    simp only at hs
    refine key s.pb m ?_ hs
    rw [← hm]; exact h
  | none =>
    rw [hm] at hs
    simp only at hs
    have hf : Inv ⟨s.pb.finalize E, s.mem⟩ := inv_finalize (E := E) h
    have hp := processProblem_post E (s.pb.finalize E) (Mem.new E) rfl hf.cons
    cases ho : processProblem E (s.pb.finalize E) (Mem.new E) with
    | ub => rw [ho] at hs; simp [left, drop] at hs
    | throw m' =>
      rw [ho] at hs
      simp only [left, drop, Option.some.injEq] at hs
      subst hs
      exact ⟨hf.nodup, hf.toks, hf.cons, by simp⟩
    | ok m' u =>
      rw [ho] at hs hp
      refine key (s.pb.finalize E) m' ?_ hs
      exact ⟨hf.nodup, hf.toks, hf.cons, fun m2 h2 => by injection h2 with h2; subst h2; exact hp⟩

theorem step_inv {s s' : TL.State} {op : TL.Op} (h : Inv s.s) (hg : Good s op) (hs : s.step op = some s') : Inv s'.s := by
  unfold TL.State.step at hs
  split at hs
  · cases op with
    | make t => simp only [Option.some.injEq] at hs; exact hs ▸ h
    | copy t => simp only [Option.some.injEq] at hs; exact hs ▸ h
    | release t => simp only [Option.some.injEq] at hs; exact hs ▸ h
    | addThrows t => exact absurd hg (by simp [Good])
    | call E c =>
      simp only [Option.map_eq_some_iff] at hs
      obtain ⟨p, hp, rfl⟩ := hs
      simp only
      cases c with
      | addTask t => exact addTask_inv h t hg hp
      | removeTask t => exact removeTask_inv h hp
      | addSub x => exact addSub_inv h hp
      | removeSub i =>
        simp only [State.call] at hp
        split at hp
        · exact (removeStored_inv h hp).1
        · simp [left] at hp
      | removeForeignSub => exact removeForeign_inv h hp
      | changeWeight t b => exact changeWeight_inv h hp
      | update => simp only [State.call, State.update, left, Option.some.injEq] at hp; exact hp ▸ inv_finalize h
      | solve => exact solve_inv h hp
  · cases hs

theorem reach_inv {s : TL.State} (h : Reach Good s) : Inv s.s := by
  induction h with
  | init => exact ⟨by simp, by simp, by simp, by simp⟩
  | step s s' op _ _ hg hs ih => exact step_inv ih hg hs

/-! ## Theorems -/

/-- The problem and the data of the scheme only have addresses of tasks that exist, whatever the program does with its own pointers, if
it does not add a task that the problem has already and if no addition of a task throws. -/
theorem C117_recorded_partial {s : TL.State} (h : Reach Good s) (t : Nat) (ht : Recorded s t) : exist s.prog s.s t = true := by
  have hi := reach_inv h
  rcases ht with ht | ht | ht | ⟨m, hm, ht⟩
  · exact exist_tr ht
  · exact exist_tr (hi.toks t ht)
  · exact exist_cons ht
  · have e : s.s = ⟨s.s.pb, some m⟩ := by rw [← hm]
    rw [e]
    rcases ht with ht | ⟨ev, he, ht⟩
    · exact exist_map ht
    · exact (hi.queue m hm).exist s.prog ev he t ht

/-- Under the same conditions, a task that the program creates is unknown to the problem: it can not be confused with a task that was at
the same address before. -/
theorem C117_fresh_partial {s : TL.State} (h : Reach Good s) (t : Nat) (ht : s.can (.make t) = true) : ¬ Recorded s t := by
  intro hr
  have := C117_recorded_partial h t hr
  simp [TL.State.can, this] at ht

/-- Under the same conditions, no call reads a destroyed task. -/
theorem C117_reads_partial {s : TL.State} (h : Reach Good s) (op : TL.Op) (hc : s.can op = true) (hg : Good s op) : s.reads op = true := by
  have hi := reach_inv h
  cases op with
  | make t => rfl
  | copy t => rfl
  | release t => rfl
  | addThrows t => exact absurd hg (by simp [Good])
  | call E c =>
    cases c with
    | addTask t =>
      have ht : exist s.prog ⟨{ s.s.pb with tr := s.s.pb.tr ++ [t] }, s.s.mem⟩ t = true := exist_tr (by simp)
      simp only [TL.State.reads, Bool.and_eq_true]
      exact ⟨search_ok ht fun k hk => exist_tr (by simp [hi.toks k hk]), search_ok ht fun k hk => exist_cons hk⟩
    | removeTask t =>
      simp only [TL.State.reads, Bool.and_eq_true, Bool.or_eq_true, Bool.not_eq_true']
      have hk : ∀ k ∈ s.s.pb.cons.map (·.1), exist s.prog ⟨{ s.s.pb with tr := s.s.pb.tr.erase t }, s.s.mem⟩ k = true :=
        fun k hk => exist_cons hk
      have ht : exist s.prog ⟨{ s.s.pb with tr := s.s.pb.tr.erase t }, s.s.mem⟩ t = true := by
        by_cases hin : t ∈ s.s.pb.tr
        · exact exist_cons (hi.cons t hin)
        · rw [List.erase_of_not_mem hin]; exact hc
      refine ⟨Or.inr (search_ok ht fun k hk' => ?_), search_ok ht hk⟩
      exact exist_cons (hi.cons k (hi.toks k hk'))
    | addSub x => rfl
    | removeSub i => rfl
    | removeForeignSub => rfl
    | changeWeight t b => rfl
    | update => rfl
    | solve =>
      simp only [TL.State.reads]
      cases hm : s.s.mem with
      | none => rfl
      | some m =>
        have hf : Inv ⟨s.s.pb.finalize E, s.s.mem⟩ := inv_finalize (E := E) hi
        simp only [handleReads_ok s.prog E _ hf.cons m.queue m (hf.queue m hm), Bool.or_true]

/-! ## Programs that keep their pointers -/

/-- The program adds only tasks it has a pointer to, and keeps a pointer to each task as long as the problem or the data of the scheme
has its address. -/
def Keeps (s : TL.State) : TL.Op → Prop
  | .release t => Recorded s t → 1 < s.prog.count t
  | .addThrows t => t ∈ s.prog
  | .call _ (.addTask t) => t ∈ s.prog
  | _ => True

/-- All the addresses in the problem and in the data of the scheme satisfy `R`. -/
structure All (R : Nat → Prop) (s : PB.State) : Prop where
  tr : ∀ t ∈ s.pb.tr, R t
  toks : ∀ t ∈ s.pb.toks, R t
  cons : ∀ t ∈ keysOf s.pb.cons, R t
  map : ∀ m, s.mem = some m → ∀ t ∈ keysOf m.map, R t
  queue : ∀ m, s.mem = some m → ∀ e ∈ m.queue, ∀ t, e.emitter = .task t → R t

theorem all_iff {R : Nat → Prop} {s : TL.State} : All R s.s ↔ ∀ t, Recorded s t → R t := by
  constructor
  · rintro h t (ht | ht | ht | ⟨m, hm, ht | ⟨e, he, ht⟩⟩)
    · exact h.tr t ht
    · exact h.toks t ht
    · exact h.cons t ht
    · exact h.map m hm t ht
    · exact h.queue m hm e he t ht
  · intro h
    exact ⟨fun t ht => h t (Or.inl ht), fun t ht => h t (Or.inr (Or.inl ht)), fun t ht => h t (Or.inr (Or.inr (Or.inl ht))),
      fun m hm t ht => h t (Or.inr (Or.inr (Or.inr ⟨m, hm, Or.inl ht⟩))),
      fun m hm e he t ht => h t (Or.inr (Or.inr (Or.inr ⟨m, hm, Or.inr ⟨e, he, ht⟩⟩)))⟩

/-- The same for the data of the scheme -/
def AllM (R : Nat → Prop) (m : Mem) : Prop := (∀ t ∈ keysOf m.map, R t) ∧ ∀ e ∈ m.queue, ∀ t, e.emitter = .task t → R t

theorem scan_sub (em : EQ.Emitter) (q : List EQ.Event) (b : Bool) : ∀ e ∈ (EQ.scan em q b).1, e ∈ q := by
  intro e he
  rw [(EQ.scan_spec em q b).1] at he
  exact (List.mem_filter.1 he).1

theorem addEvent_sub {q q' : List EQ.Event} {e : EQ.Event} (h : EQ.addEvent q e = some q') : ∀ x ∈ q', x ∈ q ∨ x = e := by
  intro x hx
  unfold EQ.addEvent at h
  split at h
  · simp only at h
    split at h
    · simp only [Option.some.injEq] at h
      subst h
      split at hx
      · rcases List.mem_append.1 hx with hx | hx
        · exact Or.inl (scan_sub _ _ _ x hx)
        · exact Or.inr (List.mem_singleton.1 hx)
      · exact Or.inl (scan_sub _ _ _ x hx)
    · cases h
  · simp only [Option.some.injEq] at h
    subst h
    exact (List.mem_append.1 hx).imp id List.mem_singleton.1

theorem notify_all {R : Nat → Prop} {s : PB.State} (h : All R s) {e : EQ.Event} {mem : Option Mem} (he : ∀ t, e.emitter = .task t → R t)
    (hn : notify s.mem e = some mem) : ∀ m, mem = some m → AllM R m := by
  intro m' hm'
  obtain ⟨m, q, h1, h2, rfl⟩ := notify_queue hn m' hm'
  refine ⟨h.map m h1, fun x hx t ht => ?_⟩
  rcases addEvent_sub h2 x hx with hx | hx
  · exact h.queue m h1 x hx t ht
  · exact he t (hx ▸ ht)

/-- What is needed of the data left by the treatment of an event -/
def PostR (R : Nat → Prop) (q : List EQ.Event) : Outcome Mem (List SE.Op) → Prop
  | .ok m _ => m.queue = q ∧ ∀ t ∈ keysOf m.map, R t
  | .throw m => m.queue = q ∧ ∀ t ∈ keysOf m.map, R t
  | .ub => True

theorem onEvent_all {R : Nat → Prop} (E : Env) (p : Problem) (m : Mem) (e : EQ.Event) (q : List EQ.Event)
    (hc : ∀ t ∈ keysOf p.cons, R t) (hm : ∀ t ∈ keysOf m.map, R t) : PostR R q (onEvent E p { m with queue := q } e) := by
  have weight : ∀ t b, PostR R q (onWeight E p { m with queue := q } t b) := by
    intro t b
    unfold onWeight
    split
    · exact ⟨rfl, hm⟩
    · split
      · exact ⟨rfl, hm⟩
      · exact ⟨rfl, hm⟩
  obtain ⟨ty, em⟩ := e
  cases em with
  | subs i => cases ty <;> exact ⟨rfl, hm⟩
  | task t =>
    cases ty with
    | weightChange => exact weight t true
    | anisotropicWeightChange => exact weight t false
    | substitutionAddition => exact ⟨rfl, hm⟩
    | substitutionRemoval => exact ⟨rfl, hm⟩
    | taskAddition =>
      simp only [onEvent, onAddTask]
      cases hg : get p.cons t with
      | none => exact ⟨rfl, hm⟩
      | some c =>
        simp only
        split
        · trivial
        · have hput : ∀ u ∈ keysOf (put m.map t c), R u := by
            intro u hu
            rw [mem_keys_put] at hu
            rcases hu with rfl | hu
            · exact hc u ((get_isSome _ _).1 (by rw [hg]; rfl))
            · exact hm u hu
          split
          · exact ⟨rfl, hput⟩
          · exact ⟨rfl, hput⟩
    | taskRemoval =>
      simp only [onEvent, onRemoveTask]
      cases hg : get m.map t with
      | none => exact ⟨rfl, hm⟩
      | some c =>
        simp only
        split
        · exact ⟨rfl, hm⟩
        · split
          · exact ⟨rfl, fun u hu => hm u ((mem_keys_del _ _ _).1 hu).2⟩
          · exact ⟨rfl, hm⟩

theorem handle_all {R : Nat → Prop} (E : Env) (p : Problem) (hc : ∀ t ∈ keysOf p.cons, R t) : ∀ (q : List EQ.Event) (m : Mem),
    m.queue = q → AllM R m → (match handle E p q m with
      | .ok m _ => AllM R m
      | .throw m => AllM R m
      | .ub => True) := by
  intro q
  induction q with
  | nil => intro m _ h; exact h
  | cons e q ih =>
    intro m hm h
    have hp := onEvent_all E p m e q hc h.1
    have hq : ∀ x ∈ q, ∀ t, x.emitter = .task t → R t := fun x hx => h.2 x (by rw [hm]; exact List.mem_cons_of_mem _ hx)
    simp only [handle]
    cases ho : onEvent E p { m with queue := q } e with
    | ub => trivial
    | throw m' =>
      rw [ho] at hp
      exact ⟨hp.2, by rw [hp.1]; exact hq⟩
    | ok m' ops =>
      rw [ho] at hp
      have := ih m' hp.1 ⟨hp.2, by rw [hp.1]; exact hq⟩
      simp only
      cases hh : handle E p q m' with
      | ub => trivial
      | throw m'' => rw [hh] at this; exact this
      | ok m'' ops' => rw [hh] at this; exact this

theorem processProblem_all {R : Nat → Prop} (E : Env) (p : Problem) (m : Mem) (hm : m.queue = []) (hc : ∀ t ∈ keysOf p.cons, R t) :
    (match processProblem E p m with
      | .ok m _ => AllM R m
      | .throw m => AllM R m
      | .ub => True) := by
  unfold processProblem
  simp only
  cases scanAll E p p.cons {} with
  | error a => exact ⟨hc, by simp [hm]⟩
  | ok a =>
    simp only
    split
    · rename_i h; split at h
      · injection h with h; subst h; exact ⟨hc, by simp [hm]⟩
      · cases h
    · rename_i h; split at h <;> cases h
    · trivial

theorem updateData_all {R : Nat → Prop} (E : Env) (p : Problem) (m : Mem) (hc : ∀ t ∈ keysOf p.cons, R t) (h : AllM R m) :
    (match updateData E p m with
      | .ok m _ => AllM R m
      | .throw m => AllM R m
      | .ub => True) := by
  unfold updateData
  by_cases h1 : m.queue.isEmpty = true
  · rw [if_pos h1]; exact h
  · rw [if_neg h1]
    by_cases h2 : m.queue.any isSubEvent = true
    · rw [if_pos h2]; exact processProblem_all E p _ rfl hc
    · rw [if_neg h2]
      have hh := handle_all E p hc m.queue m rfl h
      cases ho : handle E p m.queue m with
      | ub => trivial
      | throw m' => rw [ho] at hh; exact hh
      | ok m' ops =>
        rw [ho] at hh
        simp only [Mem.applyBatch]
        split
        · rename_i h; split at h
          · injection h with h; subst h; exact hh
          · cases h
        · rename_i h; split at h <;> cases h
        · trivial

theorem all_of {R : Nat → Prop} {p : Problem} {mem : Option Mem} (h1 : ∀ t ∈ p.tr, R t) (h2 : ∀ t ∈ p.toks, R t)
    (h3 : ∀ t ∈ keysOf p.cons, R t) (h4 : ∀ m, mem = some m → AllM R m) : All R ⟨p, mem⟩ :=
  ⟨h1, h2, h3, fun m hm => (h4 m hm).1, fun m hm => (h4 m hm).2⟩

theorem All.mem {R : Nat → Prop} {s : PB.State} (h : All R s) (m : Mem) (hm : s.mem = some m) : AllM R m := ⟨h.map m hm, h.queue m hm⟩

theorem all_finalize {R : Nat → Prop} {E : Env} {s : PB.State} (h : All R s) : All R ⟨s.pb.finalize E, s.mem⟩ := by
  obtain ⟨e1, e2, e3⟩ := finalize_same E s.pb
  exact all_of (by rw [e1]; exact h.tr) (by rw [e2]; exact h.toks) (by rw [e3]; exact h.cons) h.mem

theorem removeStored_all {R : Nat → Prop} {s s' : PB.State} {i : Nat} (h : All R s) (hs : left (s.removeStored i) = some s') :
    All R s' := by
  unfold State.removeStored at hs
  cases hn : notify s.mem ⟨.substitutionRemoval, .subs i⟩ with
  | none => rw [hn] at hs; simp [left] at hs
  | some mem =>
    rw [hn] at hs
    simp only [left, Option.some.injEq] at hs
    exact hs ▸ all_of h.tr h.toks h.cons (notify_all h (by simp) hn)

theorem all_del {R : Nat → Prop} {s : PB.State} {t : Nat} (h : All R s) : All R ⟨{ s.pb with cons := del s.pb.cons t }, s.mem⟩ :=
  all_of h.tr h.toks (fun u hu => h.cons u ((mem_keys_del _ _ _).1 hu).2) h.mem

theorem removeTask_all {R : Nat → Prop} {s s' : PB.State} {t : Nat} (h : All R s) (hs : left (s.removeTask t) = some s') : All R s' := by
  unfold State.removeTask at hs
  cases hb : s.removeBase t with
  | ub => rw [hb] at hs; simp [left] at hs
  | throw s1 =>
    unfold State.removeBase at hb
    split at hb
    · split at hb <;> cases hb
    · cases hb
  | ok s1 u =>
    have i1 : All R s1 := by
      unfold State.removeBase at hb
      split at hb
      · rename_i ht
        cases hn : notify s.mem ⟨.taskRemoval, .task t⟩ with
        | none => rw [hn] at hb; cases hb
        | some mem =>
          rw [hn] at hb
          simp only [Outcome.ok.injEq, and_true] at hb
          refine hb ▸ all_of (fun u hu => h.tr u (List.mem_of_mem_erase hu)) (fun u hu => h.toks u (List.mem_filter.1 hu).1) h.cons
            (notify_all h (fun u hu => ?_) hn)
          simp only [EQ.Emitter.task.injEq] at hu
          exact hu ▸ h.tr t ht
      · simp only [Outcome.ok.injEq, and_true] at hb; exact hb ▸ h
    rw [hb] at hs
    simp only at hs
    cases hg : get s1.pb.cons t with
    | none => rw [hg] at hs; simp only [left, Option.some.injEq] at hs; exact hs ▸ i1
    | some c =>
      rw [hg] at hs
      simp only at hs
      cases hf : findSub s1.pb.subs c with
      | none => rw [hf] at hs; simp only [left, Option.some.injEq] at hs; exact hs ▸ all_del i1
      | some i =>
        rw [hf] at hs
        simp only at hs
        split at hs
        · cases hr : s1.removeStored i with
          | ub => rw [hr] at hs; simp [left] at hs
          | throw s2 =>
            rw [hr] at hs; simp only [left, Option.some.injEq] at hs
            exact hs ▸ removeStored_all i1 (by rw [hr]; rfl)
          | ok s2 u2 =>
            have i2 := removeStored_all i1 (s' := s2) (by rw [hr]; rfl)
            rw [hr] at hs; simp only [left, Option.some.injEq] at hs
            exact hs ▸ all_del i2
        · simp only [left, Option.some.injEq] at hs; exact hs ▸ i1

theorem solve_all {R : Nat → Prop} {E : Env} {s s' : PB.State} (h : All R s) (hs : left (drop (s.solve E)) = some s') : All R s' := by
  have key : ∀ (p : Problem) (m : Mem), All R ⟨p, some m⟩ → left (drop (match updateData E (p.finalize E) m with
      | .ub => (Outcome.ub : Outcome PB.State Bool)
      | .throw m => .throw ⟨p.finalize E, some m⟩
      | .ok m _ => .ok ⟨p.finalize E, some m⟩ (decide ((p.finalize E).tr.length > (p.finalize E).subs.length)))) = some s' → All R s' := by
    intro p m hi hs
    have hf : All R ⟨p.finalize E, some m⟩ := all_finalize (E := E) hi
    have hu := updateData_all E (p.finalize E) m hf.cons (hf.mem m rfl)
    cases ho : updateData E (p.finalize E) m with
    | ub => rw [ho] at hs; simp [left, drop] at hs
    | throw m' =>
      rw [ho] at hs hu
      simp only [left, drop, Option.some.injEq] at hs
      exact hs ▸ all_of hf.tr hf.toks hf.cons fun m2 h2 => by injection h2 with h2; subst h2; exact hu
    | ok m' u =>
      rw [ho] at hs hu
      simp only [left, drop, Option.some.injEq] at hs
      exact hs ▸ all_of hf.tr hf.toks hf.cons fun m2 h2 => by injection h2 with h2; subst h2; exact hu
  unfold State.solve State.getData at hs
  cases hm : s.mem with
  | some m =>
    rw [hm] at hs
    simp only at hs
    refine key s.pb m ?_ hs
    rw [← hm]; exact h
  | none =>
    rw [hm] at hs
    simp only at hs
    have hf : All R ⟨s.pb.finalize E, s.mem⟩ := all_finalize (E := E) h
    have hp := processProblem_all E (s.pb.finalize E) (Mem.new E) rfl hf.cons
    cases ho : processProblem E (s.pb.finalize E) (Mem.new E) with
    | ub => rw [ho] at hs; simp [left, drop] at hs
    | throw m' =>
      rw [ho] at hs
      simp only [left, drop, Option.some.injEq] at hs
      exact hs ▸ all_of hf.tr hf.toks hf.cons (by simp)
    | ok m' u =>
      rw [ho] at hs hp
      refine key (s.pb.finalize E) m' ?_ hs
      exact all_of hf.tr hf.toks hf.cons fun m2 h2 => by injection h2 with h2; subst h2; exact hp

theorem toks_all {R : Nat → Prop} {s : PB.State} {t : Nat} (h : All R s) (ht : R t) : ∀ u ∈ t :: s.pb.toks.filter (· ≠ t), R u := by
  intro u hu
  rcases List.mem_cons.1 hu with rfl | hu
  · exact ht
  · exact h.toks u (List.mem_filter.1 hu).1

theorem tr_all {R : Nat → Prop} {s : PB.State} {t : Nat} (h : All R s) (ht : R t) : ∀ u ∈ s.pb.tr ++ [t], R u := by
  intro u hu
  rcases List.mem_append.1 hu with hu | hu
  · exact h.tr u hu
  · exact List.mem_singleton.1 hu ▸ ht

theorem call_all {R : Nat → Prop} {E : Env} {s s' : PB.State} {c : Call} (h : All R s) (hc : ∀ t, c = .addTask t → R t)
    (hs : left (s.call E c) = some s') : All R s' := by
  cases c with
  | addTask t =>
    have ht := hc t rfl
    simp only [State.call, State.addTask] at hs
    cases hn : notify s.mem ⟨.taskAddition, .task t⟩ with
    | none => rw [hn] at hs; simp [left] at hs
    | some mem =>
      rw [hn] at hs
      simp only [left, Option.some.injEq] at hs
      refine hs ▸ all_of (tr_all h ht) (toks_all h ht) (fun u hu => ?_) (notify_all h (fun u hu => ?_) hn)
      · rcases (mem_keys_put _ _ _ _).1 hu with rfl | hu
        · exact ht
        · exact h.cons u hu
      · simp only [EQ.Emitter.task.injEq] at hu
        exact hu ▸ ht
  | removeTask t => exact removeTask_all h hs
  | addSub x =>
    simp only [State.call, State.addSub] at hs
    cases hn : notify s.mem ⟨.substitutionAddition, .subs s.pb.subs.length⟩ with
    | none => rw [hn] at hs; simp [left] at hs
    | some mem =>
      rw [hn] at hs
      simp only [left, Option.some.injEq] at hs
      exact hs ▸ all_of h.tr h.toks h.cons (notify_all h (by simp) hn)
  | removeSub i =>
    simp only [State.call] at hs
    split at hs
    · exact removeStored_all h hs
    · simp [left] at hs
  | removeForeignSub =>
    simp only [State.call, State.removeForeign] at hs
    cases hn : notify s.mem ⟨.substitutionRemoval, .subs 0⟩ with
    | none => rw [hn] at hs; simp [left] at hs
    | some mem =>
      rw [hn] at hs
      simp only [left, Option.some.injEq] at hs
      exact hs ▸ all_of h.tr h.toks h.cons (notify_all h (by simp) hn)
  | changeWeight t b =>
    simp only [State.call, State.changeWeight] at hs
    split at hs
    · rename_i ht
      cases hn : notify s.mem ⟨if b then .weightChange else .anisotropicWeightChange, .task t⟩ with
      | none => rw [hn] at hs; simp [left] at hs
      | some mem =>
        rw [hn] at hs
        simp only [left, Option.some.injEq] at hs
        refine hs ▸ all_of h.tr h.toks h.cons (notify_all h (fun u hu => ?_) hn)
        simp only [EQ.Emitter.task.injEq] at hu
        exact hu ▸ h.toks t ht
    · simp only [left, Option.some.injEq] at hs; exact hs ▸ h
  | update => simp only [State.call, State.update, left, Option.some.injEq] at hs; exact hs ▸ all_finalize h
  | solve => exact solve_all h hs

theorem All.mono {R R' : Nat → Prop} {s : PB.State} (h : All R s) (hR : ∀ t, R t → R' t) : All R' s :=
  ⟨fun t ht => hR t (h.tr t ht), fun t ht => hR t (h.toks t ht), fun t ht => hR t (h.cons t ht), fun m hm t ht => hR t (h.map m hm t ht),
    fun m hm e he t ht => hR t (h.queue m hm e he t ht)⟩

theorem keeps_inv {s : TL.State} (h : Reach Keeps s) : All (· ∈ s.prog) s.s := by
  induction h with
  | init => exact ⟨by simp, by simp, by simp [keysOf], by simp, by simp⟩
  | step s s' op _ _ hg hs ih =>
    unfold TL.State.step at hs
    split at hs
    · cases op with
      | make t => simp only [Option.some.injEq] at hs; exact hs ▸ ih.mono fun u hu => List.mem_cons_of_mem _ hu
      | copy t => simp only [Option.some.injEq] at hs; exact hs ▸ ih.mono fun u hu => List.mem_cons_of_mem _ hu
      | release t =>
        simp only [Option.some.injEq] at hs
        subst hs
        refine (all_iff (s := { s with prog := s.prog.erase t })).2 fun u hu => ?_
        have hin : u ∈ s.prog := all_iff.1 ih u hu
        by_cases hut : u = t
        · subst hut
          have := hg hu
          exact List.count_pos_iff.1 (by rw [List.count_erase_self]; omega)
        · exact (List.mem_erase_of_ne hut).2 hin
      | addThrows t =>
        simp only [Option.map_eq_some_iff] at hs
        obtain ⟨mem, hn, rfl⟩ := hs
        refine all_of (tr_all ih hg) (toks_all ih hg) ih.cons (notify_all ih (fun u hu => ?_) hn)
        simp only [EQ.Emitter.task.injEq] at hu
        exact hu ▸ hg
      | call E c =>
        simp only [Option.map_eq_some_iff] at hs
        obtain ⟨p, hp, rfl⟩ := hs
        exact call_all ih (fun t ht => by subst ht; exact hg) hp
    · cases hs

theorem exist_prog {prog : List Nat} {s : PB.State} {t : Nat} (h : t ∈ prog) : exist prog s t = true := by simp [exist, h]

theorem handleReads_keeps (prog : List Nat) (E : Env) (p : Problem) (hc : ∀ t ∈ keysOf p.cons, t ∈ prog) : ∀ (q : List EQ.Event) (m : Mem),
    (∀ e ∈ q, ∀ t, e.emitter = .task t → t ∈ prog) → (∀ t ∈ keysOf m.map, t ∈ prog) → handleReads prog E p q m = true := by
  intro q
  induction q with
  | nil => intro m _ _; rfl
  | cons e q ih =>
    intro m hq hm
    have h1 : eventReads prog p { m with queue := q } e = true := by
      have hex := hq e (by simp)
      have hc' : ∀ k ∈ p.cons.map (·.1), TL.exist prog ⟨p, some { m with queue := q }⟩ k = true := fun k hk => exist_cons hk
      have hm' : ∀ k ∈ m.map.map (·.1), TL.exist prog ⟨p, some { m with queue := q }⟩ k = true := fun k hk => exist_map hk
      obtain ⟨ty, em⟩ := e
      cases em with
      | subs i => cases ty <;> rfl
      | task t =>
        have ht : TL.exist prog ⟨p, some { m with queue := q }⟩ t = true := exist_prog (hex t rfl)
        cases ty with
        | weightChange => exact search_ok ht hc'
        | anisotropicWeightChange => exact search_ok ht hc'
        | taskAddition => simp only [eventReads, search_ok ht hc', search_ok ht hm']; simp
        | taskRemoval => exact search_ok ht hm'
        | substitutionAddition => rfl
        | substitutionRemoval => rfl
    have hp := onEvent_all (R := (· ∈ prog)) E p m e q hc hm
    simp only [handleReads, h1, Bool.true_and]
    cases ho : onEvent E p { m with queue := q } e with
    | ub => rfl
    | throw m' => rfl
    | ok m' ops =>
      rw [ho] at hp
      exact ih m' (fun x hx => hq x (List.mem_cons_of_mem _ hx)) hp.2

/-- If the program keeps a pointer to each task that the problem or the data of the scheme has the address of, no call reads a destroyed
task, even if tasks are added several times or an addition throws. -/
theorem C117_keeps {s : TL.State} (h : Reach Keeps s) (op : TL.Op) (hk : Keeps s op) (hc : s.can op = true) : s.reads op = true := by
  have hi := keeps_inv h
  cases op with
  | make t => rfl
  | copy t => rfl
  | release t => rfl
  | addThrows t => exact search_ok (exist_prog hk) fun k hk' => exist_prog (hi.toks k hk')
  | call E c =>
    cases c with
    | addTask t =>
      simp only [TL.State.reads, Bool.and_eq_true]
      exact ⟨search_ok (exist_prog hk) fun k hk' => exist_prog (hi.toks k hk'), search_ok (exist_prog hk) fun k hk' => exist_prog (hi.cons k hk')⟩
    | removeTask t =>
      have ht : t ∈ s.s.pb.tr ∨ exist s.prog ⟨{ s.s.pb with tr := s.s.pb.tr.erase t }, s.s.mem⟩ t = true := by
        by_cases hin : t ∈ s.s.pb.tr
        · exact Or.inl hin
        · rw [List.erase_of_not_mem hin]; exact Or.inr hc
      have ht' : exist s.prog ⟨{ s.s.pb with tr := s.s.pb.tr.erase t }, s.s.mem⟩ t = true :=
        ht.elim (fun h => exist_prog (hi.tr t h)) id
      simp only [TL.State.reads, Bool.and_eq_true, Bool.or_eq_true, Bool.not_eq_true']
      exact ⟨Or.inr (search_ok ht' fun k hk' => exist_prog (hi.toks k hk')), search_ok ht' fun k hk' => exist_prog (hi.cons k hk')⟩
    | addSub x => rfl
    | removeSub i => rfl
    | removeForeignSub => rfl
    | changeWeight t b => rfl
    | update => rfl
    | solve =>
      simp only [TL.State.reads]
      cases hm : s.s.mem with
      | none => rfl
      | some m =>
        have hf : All (· ∈ s.prog) ⟨s.s.pb.finalize E, s.s.mem⟩ := all_finalize (E := E) hi
        simp only [handleReads_keeps s.prog E _ hf.cons m.queue m (hf.queue m hm) (hf.map m hm), Bool.or_true]

/-! ## A problem that is not linearized -/

theorem plain_inv {s : Plain} (h : PReach s) : s.tr.Nodup ∧ ∀ t, t ∈ s.toks ↔ t ∈ s.tr := by
  induction h with
  | init => exact ⟨by simp, by simp⟩
  | step s s' op _ _ hg hs ih =>
    obtain ⟨hn, ht⟩ := ih
    cases op with
    | make t => simp only [Plain.step, Option.some.injEq] at hs; exact hs ▸ ⟨hn, ht⟩
    | copy t => simp only [Plain.step, Option.some.injEq] at hs; exact hs ▸ ⟨hn, ht⟩
    | release t => simp only [Plain.step, Option.some.injEq] at hs; exact hs ▸ ⟨hn, ht⟩
    | add t =>
      simp only [Plain.step] at hs
      split at hs
      · simp only [Option.some.injEq] at hs
        subst hs
        refine ⟨?_, fun u => ?_⟩
        · simp only [List.nodup_append]
          exact ⟨hn, by simp, fun a ha b hb hab => hg t rfl (by simp at hb; rw [← hb, ← hab]; exact ha)⟩
        · simp only [List.mem_cons, List.mem_filter, decide_eq_true_eq, List.mem_append, ht]
          by_cases hu : u = t <;> simp [hu]
      · cases hs
    | remove t =>
      simp only [Plain.step] at hs
      split at hs
      · split at hs
        · simp only [Option.some.injEq] at hs
          subst hs
          refine ⟨hn.erase _, fun u => ?_⟩
          simp only [List.mem_filter, decide_eq_true_eq, ht, hn.mem_erase_iff]
          exact And.comm
        · cases hs
      · simp only [Option.some.injEq] at hs; exact hs ▸ ⟨hn, ht⟩

/-- The removal of a task from a problem that is not linearized is defined exactly when the program has a pointer to the task. -/
theorem C117_plain {s : Plain} (h : PReach s) (t : Nat) (ht : t ∈ s.tr) : (s.step (.remove t)).isSome = true ↔ t ∈ s.prog := by
  obtain ⟨hn, hk⟩ := plain_inv h
  simp only [Plain.step, if_pos ht]
  constructor
  · intro h1
    split at h1
    · rename_i hs
      simp only [search, Bool.or_eq_true, List.all_eq_true] at hs
      rcases hs with hs | hs
      · have := (hk t).2 ht
        rw [List.isEmpty_iff.1 hs] at this
        simp at this
      · have h2 := hs t (by simp)
        simp only [Plain.exist, Bool.or_eq_true, List.contains_iff_mem] at h2
        rcases h2 with h2 | h2
        · exact h2
        · exact absurd rfl (hn.mem_erase_iff.1 h2).1
    · simp at h1
  · intro h1
    have hall : ∀ k ∈ s.toks, Plain.exist { s with tr := s.tr.erase t } k = true := by
      intro k hk'
      simp only [Plain.exist, Bool.or_eq_true, List.contains_iff_mem]
      by_cases hkt : k = t
      · exact Or.inl (hkt ▸ h1)
      · exact Or.inr (hn.mem_erase_iff.2 ⟨hkt, (hk k).1 hk'⟩)
    have ht' : Plain.exist { s with tr := s.tr.erase t } t = true := by simp [Plain.exist, h1]
    rw [if_pos (search_ok ht' hall)]
    rfl

/-! ## Destroyed tasks that are read -/

/-- A program for the examples: equality tasks of size 1 and priority 0, on the variables 0 and `t` -/
def demo : Env where
  task := fun _ => ⟨1, .equal, 0, .l2⟩
  asBound := fun _ _ => false
  ys := fun _ t => [0, t]
  zs := fun _ _ => []
  extraSizes := fun _ => []
  total := fun S => ([0, 1, 2, 3].filter (fun i => S ⟨0, i⟩)).length
  start := fun _ _ => 0
  kind := .qld
  cholesky := false
  autoDamping := false
  scalarizationWeight := 1000

/-- No addition of a task throws. -/
def NoThrow (_ : TL.State) (op : TL.Op) : Prop := ∀ t, op ≠ .addThrows t

/-- The program does not add a task that the problem has. -/
def NoDouble (s : TL.State) : TL.Op → Prop
  | .addThrows t => t ∉ s.s.pb.tr
  | .call _ (.addTask t) => t ∉ s.s.pb.tr
  | _ => True

theorem absent {l : List Nat} {t : Nat} (h : l.contains t = false) : t ∉ l := by simpa using h

/-- The removal of a task from a problem that is not linearized reads the task after it was destroyed, if the problem had the only
pointer to it. -/
theorem C117_plain_false : ∃ s t, PReach s ∧ s.can (.remove t) = true ∧ s.step (.remove t) = none := by
  refine ⟨{ prog := [], tr := [0], toks := [0] }, 0, ?_, by decide, by decide⟩
  have h1 : PReach { prog := [0] } := .step _ _ (.make 0) .init (by decide) (by simp) rfl
  have h2 : PReach { prog := [0], tr := [0], toks := [0] } := .step _ _ (.add 0) h1 (by decide) (by simp) (by decide)
  exact .step _ _ (.release 0) h2 (by decide) (by simp) (by decide)

/-- With a linearized problem: a task is added twice and the program drops its pointer. The second removal reads the destroyed task. -/
theorem C117_twice_false : ∃ s op, Reach NoThrow s ∧ s.can op = true ∧ NoThrow s op ∧ s.reads op = false := by
  have h1 : Reach NoThrow _ := .step _ _ (.make 1) .init (by decide) (by simp [NoThrow]) rfl
  have h2 : Reach NoThrow _ := .step _ _ (.call demo (.addTask 1)) h1 (by decide) (by simp [NoThrow]) rfl
  have h3 : Reach NoThrow _ := .step _ _ (.make 0) h2 (by decide) (by simp [NoThrow]) rfl
  have h4 : Reach NoThrow _ := .step _ _ (.call demo (.addTask 0)) h3 (by decide) (by simp [NoThrow]) rfl
  have h5 : Reach NoThrow _ := .step _ _ (.call demo (.addTask 0)) h4 (by decide) (by simp [NoThrow]) rfl
  have h6 : Reach NoThrow _ := .step _ _ (.release 0) h5 (by decide) (by simp [NoThrow]) rfl
  have h7 : Reach NoThrow _ := .step _ _ (.call demo (.removeTask 0)) h6 (by decide) (by simp [NoThrow]) rfl
  exact ⟨_, .call demo (.removeTask 0), h7, by decide, by simp [NoThrow], by decide⟩

/-- An addition that throws leaves the task in the list of tasks of the problem, without a constraint. If the program has no pointer to
it, the removal reads the destroyed task. -/
theorem C117_throw_false : ∃ s op, Reach NoDouble s ∧ s.can op = true ∧ NoDouble s op ∧ s.reads op = false := by
  have h1 : Reach NoDouble _ := .step _ _ (.make 0) .init (by decide) trivial rfl
  have h2 : Reach NoDouble _ := .step _ _ (.addThrows 0) h1 (by decide) (by simp [NoDouble]) rfl
  have h3 : Reach NoDouble _ := .step _ _ (.release 0) h2 (by decide) trivial rfl
  exact ⟨_, .call demo (.removeTask 0), h3, by decide, trivial, by decide⟩

/-- The same, when the program drops its pointer after the removal: the resolution that follows reads the destroyed task, because the
event of the removal has its address. -/
theorem C117_event_false : ∃ s E, Reach NoDouble s ∧ s.reads (.call E .solve) = false := by
  have h1 : Reach NoDouble _ := .step _ _ (.make 1) .init (by decide) trivial rfl
  have h2 : Reach NoDouble _ := .step _ _ (.call demo (.addTask 1)) h1 (by decide) (by simp [NoDouble]) rfl
  have h3 : Reach NoDouble _ := .step _ _ (.call demo .solve) h2 (by decide) trivial rfl
  have h4 : Reach NoDouble _ := .step _ _ (.make 0) h3 (by decide) trivial rfl
  have h5 : Reach NoDouble _ := .step _ _ (.addThrows 0) h4 (by decide) (absent rfl) rfl
  have h6 : Reach NoDouble _ := .step _ _ (.call demo .solve) h5 (by decide) trivial rfl
  have h7 : Reach NoDouble _ := .step _ _ (.call demo (.removeTask 0)) h6 (by decide) trivial rfl
  have h8 : Reach NoDouble _ := .step _ _ (.release 0) h7 (by decide) trivial rfl
  exact ⟨_, demo, h8, by decide⟩

/-! ## Cases that meet the hypotheses -/

/-- The data of the scheme keeps a task that the program and the problem dropped, until the resolution that follows its removal. -/
theorem example_kept : ∃ s, Reach Good s ∧ 0 ∉ s.prog ∧ 0 ∉ s.s.pb.tr ∧ 0 ∉ s.s.pb.cons.map (·.1) ∧ exist s.prog s.s 0 = true ∧
    (∃ m, s.s.mem = some m ∧ m.queue = [⟨.taskRemoval, .task 0⟩]) ∧
    ∃ s', s.step (.call demo .solve) = some s' ∧ s'.can (.make 0) = true := by
  have h1 : Reach Good _ := .step _ _ (.make 0) .init (by decide) trivial rfl
  have h2 : Reach Good _ := .step _ _ (.make 1) h1 (by decide) trivial rfl
  have h3 : Reach Good _ := .step _ _ (.call demo (.addTask 0)) h2 (by decide) (by simp [Good]) rfl
  have h4 : Reach Good _ := .step _ _ (.call demo (.addTask 1)) h3 (by decide) (absent rfl) rfl
  have h5 : Reach Good _ := .step _ _ (.call demo .solve) h4 (by decide) trivial rfl
  have h6 : Reach Good _ := .step _ _ (.release 0) h5 (by decide) trivial rfl
  have h7 : Reach Good _ := .step _ _ (.call demo (.removeTask 0)) h6 (by decide) trivial rfl
  exact ⟨_, h7, by decide, by decide, by decide, by decide, ⟨_, rfl, rfl⟩, _, rfl, by decide⟩

/-- A program that keeps its pointer to a task added twice -/
example : ∃ s, Reach Keeps s ∧ s.s.pb.tr = [0, 0] ∧ s.reads (.call demo (.removeTask 0)) = true := by
  have h1 : Reach Keeps _ := .step _ _ (.make 0) .init (by decide) trivial rfl
  have h2 : Reach Keeps _ := .step _ _ (.call demo (.addTask 0)) h1 (by decide) (List.mem_singleton.2 rfl) rfl
  have h3 : Reach Keeps _ := .step _ _ (.call demo (.addTask 0)) h2 (by decide) (List.mem_singleton.2 rfl) rfl
  exact ⟨_, h3, rfl, C117_keeps h3 _ trivial (by decide)⟩

example : PReach { prog := [0], tr := [0], toks := [0] } :=
  .step _ _ (.add 0) (.step _ _ (.make 0) .init (by decide) (by simp) rfl) (by decide) (by simp) (by decide)

end Verif.C117
