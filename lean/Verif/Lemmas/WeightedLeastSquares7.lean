import Verif.Lemmas.WeightedLeastSquares6
/-!
# Effect of the calls on the queue of events, conditions for `solve` to return
-/
set_option autoImplicit false
set_option linter.unusedSimpArgs false

namespace Verif.PB
open Verif.SE Verif.LS

/-- Only the queue changes: the new events satisfy `W`; an event about a substitution stays, and there is one if `sub`. -/
def QStep (W : EQ.Event → Prop) (sub : Prop) (a b : Option Mem) : Prop :=
  (a = none → b = none) ∧ ∀ m', b = some m' → ∃ m q, a = some m ∧ m' = { m with queue := q } ∧
    (∀ x ∈ q, x ∈ m.queue ∨ W x) ∧ (m.queue.any isSubEvent = true ∨ sub → q.any isSubEvent = true)

theorem QStep.refl (W : EQ.Event → Prop) (a : Option Mem) : QStep W False a a :=
  ⟨id, fun m' h => ⟨m', m'.queue, h, rfl, fun x hx => Or.inl hx, by simp⟩⟩

theorem QStep.mono {W W' : EQ.Event → Prop} {sub sub' : Prop} {a b : Option Mem} (h : QStep W sub a b) (hW : ∀ x, W x → W' x)
    (hs : sub' → sub) : QStep W' sub' a b := by
  refine ⟨h.1, fun m' hm' => ?_⟩
  obtain ⟨m, q, h1, h2, h3, h4⟩ := h.2 m' hm'
  exact ⟨m, q, h1, h2, fun x hx => (h3 x hx).imp id (hW x), fun hh => h4 (hh.imp id hs)⟩

theorem QStep.trans {W W' : EQ.Event → Prop} {sub sub' : Prop} {a b c : Option Mem} (h : QStep W sub a b)
    (h' : QStep W' sub' b c) : QStep (fun x => W x ∨ W' x) (sub ∨ sub') a c := by
  refine ⟨fun hh => h'.1 (h.1 hh), fun m' hm' => ?_⟩
  obtain ⟨m1, q1, g1, g2, g3, g4⟩ := h'.2 m' hm'
  obtain ⟨m, q, h1, h2, h3, h4⟩ := h.2 m1 g1
  subst h2 g2
  refine ⟨m, q1, h1, rfl, fun x hx => ?_, fun hh => ?_⟩
  · rcases g3 x hx with h | h
    · exact (h3 x h).imp id Or.inl
    · exact Or.inr (Or.inr h)
  · rcases hh with hh | hh | hh
    · exact g4 (Or.inl (h4 (Or.inl hh)))
    · exact g4 (Or.inl (h4 (Or.inr hh)))
    · exact g4 (Or.inr hh)

theorem notify_qstep {a b : Option Mem} {P : Nat → Prop} {e : EQ.Event}
    (h : ∀ m, a = some m → EQ.Inv (· ∈ keysOf m.map) P m.queue) (he : EQ.LegalEvent P e) (hn : notify a e = some b) :
    QStep (· = e) (isSubEvent e = true) a b ∧ ∀ m, b = some m → EQ.Inv (· ∈ keysOf m.map) (EQ.stepSet P e) m.queue := by
  cases a with
  | none =>
    simp only [notify, Option.some.injEq] at hn
    subst hn
    exact ⟨⟨fun _ => rfl, by simp⟩, by simp⟩
  | some m =>
    obtain ⟨q, h1, h2, h3, _, h5⟩ := EQ.addEvent_step (h m rfl) e he
    simp only [notify, h1, Option.some.injEq] at hn
    subst hn
    refine ⟨⟨by simp, fun m' hm' => ?_⟩, fun m' hm' => ?_⟩
    · injection hm' with hm'
      refine ⟨m, q, rfl, hm'.symm, fun x hx => ?_, fun hh => ?_⟩
      · have := h3.subset hx
        simpa using this
      · cases hs : q.any isSubEvent with
        | true => rfl
        | false =>
          exfalso
          have h6 := h5 (fun e => match e.emitter with | .subs _ => true | .task _ => false) (fun _ _ => rfl)
          have h7 := (inv_typed_sub h2).1 hs
          have h6' := h6.symm.trans h7
          rw [List.filter_append] at h6'
          obtain ⟨h8, h9⟩ := List.append_eq_nil_iff.1 h6'
          rcases hh with hh | hh
          · rw [(inv_typed_sub (h m rfl)).2 h8] at hh; simp at hh
          · have ht := he.typed
            obtain ⟨ty, em⟩ := e
            cases em with
            | task t => simp only [EQ.Typed] at ht; simp [isSubEvent, ht] at hh
            | subs i => simp at h9
    · injection hm' with hm'
      subst hm'
      exact h2

/-- Calls that notify a change of the substitutions. -/
def isSubCall : Call → Bool
  | .addSub _ => true
  | .removeSub _ => true
  | .removeForeignSub => true
  | _ => false

/-- Calls that change the tasks. -/
def isTaskCall : Call → Bool
  | .addTask _ => true
  | .removeTask _ => true
  | _ => false

/-- Events caused by a call. -/
def Caused (c : Call) (x : EQ.Event) : Prop :=
  x.isWeight = true → ∃ t b, c = .changeWeight t b ∧ x.emitter = .task t

theorem call_qstep {E : Env} {s s' : State} (h : SInv E s) (c : Call) (hl : LegalCall s c) (hc : s.call E c = .ok s' ())
    (hns : c ≠ .solve) : QStep (Caused c) (isSubCall c = true) s.mem s'.mem := by
  cases c with
  | solve => exact absurd rfl hns
  | addTask t =>
    simp only [State.call, State.addTask] at hc
    cases hn : notify s.mem ⟨.taskAddition, .task t⟩ with
    | none => simp only [hn] at hc; simp at hc
    | some mem =>
      simp only [hn] at hc; injection hc with hc; subst hc
      refine (notify_qstep h.queue (e := ⟨.taskAddition, .task t⟩) (Or.inl ⟨rfl, hl⟩) hn).1.mono ?_ (by simp [isSubCall])
      rintro x rfl hw; simp [EQ.Event.isWeight] at hw
  | removeTask t =>
    simp only [State.call] at hc
    by_cases ht : t ∈ s.pb.tr
    · obtain ⟨c, hcc⟩ := Option.isSome_iff_exists.1 ((get_isSome _ _).2 ((h.pb.keys t).2 ht))
      simp only [State.removeTask, State.removeBase, if_pos ht] at hc
      cases hn : notify s.mem ⟨.taskRemoval, .task t⟩ with
      | none => simp only [hn] at hc; simp at hc
      | some mem =>
        simp only [hn, hcc] at hc
        obtain ⟨q1, q2⟩ := notify_qstep h.queue (e := ⟨.taskRemoval, .task t⟩) (Or.inr (Or.inl ⟨rfl, ht⟩)) hn
        have q1' : QStep (Caused (.removeTask t)) False s.mem mem := by
          refine q1.mono ?_ (by simp)
          rintro x rfl hw; simp [EQ.Event.isWeight] at hw
        cases hf : findSub s.pb.subs c with
        | none =>
          simp only [hf] at hc; injection hc with hc; subst hc
          exact q1'.mono (fun _ => id) (by simp [isSubCall])
        | some i =>
          simp only [hf] at hc
          split at hc
          · simp only [State.removeStored] at hc
            cases hn2 : notify mem ⟨.substitutionRemoval, .subs i⟩ with
            | none => simp only [hn2] at hc; simp at hc
            | some mem2 =>
              simp only [hn2] at hc; injection hc with hc; subst hc
              have r1 := (notify_qstep q2 (e := ⟨.substitutionRemoval, .subs i⟩) (Or.inr rfl) hn2).1
              refine (q1'.trans r1).mono ?_ (by simp [isSubCall])
              rintro x (hx | rfl)
              · exact hx
              · intro hw; simp [EQ.Event.isWeight] at hw
          · simp at hc
    · rw [removeTask_absent h.pb t ht] at hc
      injection hc with hc; subst hc
      exact (QStep.refl _ _).mono (fun _ => id) (by simp [isSubCall])
  | addSub x =>
    simp only [State.call, State.addSub] at hc
    cases hn : notify s.mem ⟨.substitutionAddition, .subs s.pb.subs.length⟩ with
    | none => simp only [hn] at hc; simp at hc
    | some mem =>
      simp only [hn] at hc; injection hc with hc; subst hc
      refine (notify_qstep h.queue (e := ⟨.substitutionAddition, .subs s.pb.subs.length⟩) (Or.inl rfl) hn).1.mono ?_ (fun _ => rfl)
      rintro x rfl hw; simp [EQ.Event.isWeight] at hw
  | removeSub i =>
    have hi : i < s.pb.subs.length := hl
    simp only [State.call, if_pos hi, State.removeStored] at hc
    cases hn : notify s.mem ⟨.substitutionRemoval, .subs i⟩ with
    | none => simp only [hn] at hc; simp at hc
    | some mem =>
      simp only [hn] at hc; injection hc with hc; subst hc
      refine (notify_qstep h.queue (e := ⟨.substitutionRemoval, .subs i⟩) (Or.inr rfl) hn).1.mono ?_ (fun _ => rfl)
      rintro x rfl hw; simp [EQ.Event.isWeight] at hw
  | removeForeignSub =>
    simp only [State.call, State.removeForeign] at hc
    cases hn : notify s.mem ⟨.substitutionRemoval, .subs 0⟩ with
    | none => simp only [hn] at hc; simp at hc
    | some mem =>
      simp only [hn] at hc; injection hc with hc; subst hc
      refine (notify_qstep h.queue (e := ⟨.substitutionRemoval, .subs 0⟩) (Or.inr rfl) hn).1.mono ?_ (fun _ => rfl)
      rintro x rfl hw; simp [EQ.Event.isWeight] at hw
  | update =>
    simp only [State.call, State.update] at hc
    injection hc with hc; subst hc
    exact (QStep.refl _ _).mono (fun _ => id) (by simp [isSubCall])
  | changeWeight t b =>
    simp only [State.call, State.changeWeight] at hc
    by_cases ht : t ∈ s.pb.toks
    · rw [if_pos ht] at hc
      cases hn : notify s.mem ⟨if b = true then .weightChange else .anisotropicWeightChange, .task t⟩ with
      | none => simp only [hn] at hc; simp at hc
      | some mem =>
        simp only [hn] at hc; injection hc with hc; subst hc
        have htr := (h.pb.toks t).1 ht
        have hle : EQ.LegalEvent (· ∈ s.pb.tr) ⟨if b = true then .weightChange else .anisotropicWeightChange, .task t⟩ := by
          cases b <;> exact Or.inr (Or.inr ⟨rfl, htr⟩)
        refine (notify_qstep h.queue hle hn).1.mono ?_ (by simp [isSubCall])
        rintro x rfl _
        exact ⟨t, b, rfl, rfl⟩
    · rw [if_neg ht] at hc
      injection hc with hc; subst hc
      exact (QStep.refl _ _).mono (fun _ => id) (by simp [isSubCall])

/-- A weight event is about a task of the problem. -/
theorem weight_present {K P : Nat → Prop} {q : List EQ.Event} (h : EQ.Inv K P q) (e : EQ.Event) (he : e ∈ q)
    (hw : e.isWeight = true) (t : Nat) (ht : e.emitter = .task t) : P t := by
  have hm : e ∈ EQ.about t q := by simp [EQ.about, he, ht]
  obtain ⟨n1, n2⟩ := EQ.weight_facts hw
  have hs := h.shape t
  generalize EQ.about t q = l at hs hm
  cases hs with
  | kept _ hk hp hww => exact hp
  | replaced ws hk hp hww => exact hp
  | removed hk hp => simp only [List.mem_singleton] at hm; rw [hm] at n2; simp at n2
  | added ws hk hp hww => exact hp
  | absent hk hp => simp at hm

theorem processProblem_returns {E : Env} {p : Problem} (hp : PInv E p) (ha : E.autoDamping = false)
    (hacc : ∀ t ∈ p.tr, accepted E t = true) : ∃ m, processProblem E p (Mem.new E) = .ok m () := by
  have hn := processProblem_not_ub hp (Or.inl ha)
  cases hr : processProblem E p (Mem.new E) with
  | ub => exact absurd hr hn
  | ok m u => exact ⟨m, rfl⟩
  | throw m =>
    exfalso
    have hsc : Scannable E p p.cons := by
      intro e he
      have he' : (e.1, e.2) ∈ p.cons := (List.mem_filter.1 he).1
      have hg := (mem_get hp.keysNodup _ _).1 he'
      have ht : e.1 ∈ p.tr := (hp.keys e.1).1 (by rw [← get_isSome, hg]; rfl)
      have := hacc e.1 ht
      refine ⟨this, fun ho => ?_⟩
      rw [(hp.info _ _ hg).2]
      rcases ((accepted_iff E e.1).1 this).1 with h0 | h1
      · exact absurd ho (catOf_zero.1 h0)
      · exact h1.2
    have hs := (scanAll_spec E p p.cons {} _).2 ⟨hsc, rfl⟩
    simp only [processProblem, hs] at hr
    split at hr <;> simp at hr

/-- `solve` returns when no additional variable is used, the tasks of the problem are accepted and the events about weights
concern objectives. -/
theorem solve_returns {E : Env} {s : State} (h : SInv E s) (ha : E.autoDamping = false) (hz : ∀ S t, E.zs S t = [])
    (hacc : ∀ t ∈ s.pb.tr, accepted E t = true)
    (hw : ∀ m, s.mem = some m → ∀ e ∈ m.queue, e.isWeight = true → ∀ t, e.emitter = .task t → (E.task t).prio ≠ 0) :
    ∃ s' b, s.solve E = .ok s' b := by
  obtain ⟨f1, f2, f3, f4, _⟩ := h.pb.finalize
  have hacc' : ∀ t ∈ (s.pb.finalize E).tr, accepted E t = true := by rw [f3]; exact hacc
  obtain ⟨m1, hm1⟩ := processProblem_returns f1 ha hacc'
  simp only [State.solve, State.getData]
  cases hm : s.mem with
  | none =>
    have hup := build_upToDate f1 f2 hm1
    simp only [hm1, finalize_idem f2, updateData, hup.queue, List.isEmpty_nil, if_true]
    exact ⟨_, _, rfl⟩
  | some m0 =>
    have hi : SInv E ⟨s.pb.finalize E, some m0⟩ := by rw [← hm]; exact h.finalize
    simp only
    have key : ∃ m', updateData E (s.pb.finalize E) m0 = .ok m' () := by
      simp only [updateData]
      by_cases he : m0.queue.isEmpty = true
      · rw [if_pos he]; exact ⟨_, rfl⟩
      · rw [if_neg he]
        by_cases hs : m0.queue.any isSubEvent = true
        · rw [if_pos hs]; exact ⟨m1, hm1⟩
        · rw [if_neg hs]
          simp only [Bool.not_eq_true] at hs
          obtain ⟨X, hX⟩ := hi.sync m0 rfl hs
          have hq := hi.queue m0 rfl
          have hr := hX.ready hq hi.pb.keys hs
          have hsm : Smooth E (s.pb.finalize E) m0.queue := by
            refine ⟨hz, fun t ht => hacc' t ((shape_facts hq t).1 ht), fun e he hew t het => ⟨?_, hw m0 hm e he hew t het⟩⟩
            exact (hi.pb.keys t).2 (weight_present hq e he hew t het)
          obtain ⟨m2, ops, h2⟩ := handle_ok hi.pb.inj hX.xCons m0.queue m0 hr hsm (hX.count hz)
          simp only [h2]
          obtain ⟨g1, _, _⟩ := handle_spec hi.pb.inj hX.xCons m0.queue m0 m2 ops hr h2
            (Or.inl (by rintro hh; rw [hh] at he; simp at he))
          have hnu := batch_not_ub hX g1
          cases hb : m2.applyBatch E (s.pb.finalize E) (run {} ops) with
          | ub => exact absurd hb hnu
          | ok m3 u => exact ⟨m3, rfl⟩
          | throw m3 =>
            exfalso
            simp only [Mem.applyBatch] at hb
            split at hb <;> simp at hb
    obtain ⟨m', hm'⟩ := key
    simp only [hm']
    exact ⟨_, _, rfl⟩

end Verif.PB
