import Verif.Model.EventSource
/-!
# C107: what the listeners of a source receive
-/
set_option autoImplicit false

namespace Verif.C107
open Verif Verif.Ev

/-! ## Specification -/

/-- What is done with a source -/
inductive Op where
  | act (a : Act)
  | notify (evt : Nat)

def apply (react : Nat → Nat → List Act) : Op → St → Outcome St Unit
  | .act (.regist u e), s => .ok (s.regist u e) ()
  | .act (.expire u), s => .ok (s.expire u) ()
  | .notify e, s => s.notify react e

def run (react : Nat → Nat → List Act) : List Op → St → Outcome St Unit
  | [], s => .ok s ()
  | o :: l, s => match apply react o s with
    | .ok s () => run react l s
    | .throw s => .throw s
    | .ub => .ub

/-- The listener of an action, when it is a registration for the event -/
def registers (evt : Nat) : Act → Option Nat
  | .regist u e => if e = evt then some u else none
  | .expire _ => none

/-- The listeners registered for an event by a program, in order -/
def registered (evt : Nat) (l : List Op) : List Nat := l.filterMap fun | .act a => registers evt a | .notify _ => none

/-! ## Proofs -/

theorem during_spec (evt : Nat) (l : List Act) (s : St) :
    (during evt l s ≠ .ub ↔ ∀ w, .regist w evt ∉ l) ∧ (∀ s', during evt l s ≠ .throw s') ∧
    ∀ s', during evt l s = .ok s' () → s'.log = s.log ∧ (∀ e, s'.reg e = s.reg e ++ l.filterMap (registers e)) ∧
      ∀ u, s'.alive u = true ↔ s.alive u = true ∧ .expire u ∉ l := by
  induction l generalizing s with
  | nil => simp [during]
  | cons a l ih =>
    cases a with
    | expire v =>
      obtain ⟨h1, h2, h3⟩ := ih (s.expire v)
      refine ⟨by simpa [during] using h1, h2, fun s' e => ?_⟩
      obtain ⟨k1, k2, k3⟩ := h3 s' e
      refine ⟨k1, fun e => by rw [k2]; simp [St.expire, registers, List.filterMap_cons], fun u => ?_⟩
      rw [k3]
      simp only [St.expire, List.mem_cons, Act.expire.injEq]
      split <;> simp_all
    | regist v e =>
      by_cases he : e = evt
      · subst he
        simp only [during, if_true]
        refine ⟨⟨fun h => absurd rfl h, fun h => absurd (List.mem_cons_self) (h v)⟩, fun s' h => (by cases h), fun s' h => (by cases h)⟩
      · obtain ⟨h1, h2, h3⟩ := ih (s.regist v e)
        simp only [during, if_neg he]
        refine ⟨?_, h2, fun s' e' => ?_⟩
        · rw [h1]
          simp only [List.mem_cons, Act.regist.injEq]
          grind
        · obtain ⟨k1, k2, k3⟩ := h3 s' e'
          refine ⟨k1, fun e' => ?_, fun u => by rw [k3]; simp [St.regist]⟩
          rw [k2]
          simp only [St.regist, List.filterMap_cons, registers]
          by_cases h : e' = e
          · subst h; simp
          · rw [if_neg h, if_neg (fun x => h x.symm)]

theorem loop_spec (react : Nat → Nat → List Act) (evt : Nat) (l : List Nat) (s : St) :
    (loop react evt l s ≠ .ub ↔ (∀ u ∈ l, ∀ w, .regist w evt ∉ react u evt) ∧
      ∀ pre u post, l = pre ++ u :: post → s.alive u = true ∧ ∀ v ∈ pre, .expire u ∉ react v evt) ∧
    (∀ s', loop react evt l s ≠ .throw s') ∧
    ∀ s', loop react evt l s = .ok s' () → s'.log = s.log ++ l.map (fun u => (u, evt)) ∧
      (∀ e, s'.reg e = s.reg e ++ l.flatMap fun u => (react u evt).filterMap (registers e)) ∧
      ∀ u, s'.alive u = true ↔ s.alive u = true ∧ ∀ v ∈ l, .expire u ∉ react v evt := by
  induction l generalizing s with
  | nil => simp [loop]
  | cons a l ih =>
    by_cases ha : s.alive a = true
    · obtain ⟨d1, d2, d3⟩ := during_spec evt (react a evt) { s with log := s.log ++ [(a, evt)] }
      simp only [loop, if_pos ha]
      cases hd : during evt (react a evt) { s with log := s.log ++ [(a, evt)] } with
      | throw s1 => exact absurd hd (d2 s1)
      | ub =>
        refine ⟨⟨fun h => absurd rfl h, fun h => ?_⟩, fun s' h => (by cases h), fun s' h => (by cases h)⟩
        exact absurd hd (d1.2 (h.1 a (by simp)))
      | ok s1 u =>
        obtain ⟨k1, k2, k3⟩ := d3 s1 hd
        have hreg : ∀ w, .regist w evt ∉ react a evt := d1.1 (by rw [hd]; intro h; cases h)
        obtain ⟨h1, h2, h3⟩ := ih s1
        simp only
        refine ⟨?_, h2, fun s' e => ?_⟩
        · rw [h1]
          constructor
          · rintro ⟨p, q⟩
            refine ⟨fun u hu => ?_, fun pre u post e => ?_⟩
            · rcases List.mem_cons.1 hu with rfl | hu
              · exact hreg
              · exact p u hu
            · cases pre with
              | nil => simp at e; exact ⟨e.1 ▸ ha, by simp⟩
              | cons x pre =>
                simp only [List.cons_append, List.cons.injEq] at e
                obtain ⟨rfl, e⟩ := e
                obtain ⟨q1, q2⟩ := q pre u post e
                obtain ⟨q3, q4⟩ := (k3 u).1 q1
                refine ⟨q3, fun v hv => ?_⟩
                rcases List.mem_cons.1 hv with rfl | hv
                · exact q4
                · exact q2 v hv
          · rintro ⟨p, q⟩
            refine ⟨fun u hu => p u (by simp [hu]), fun pre u post e => ?_⟩
            obtain ⟨q1, q2⟩ := q (a :: pre) u post (by rw [e]; rfl)
            exact ⟨(k3 u).2 ⟨q1, q2 a (by simp)⟩, fun v hv => q2 v (by simp [hv])⟩
        · obtain ⟨m1, m2, m3⟩ := h3 s' e
          refine ⟨by rw [m1, k1]; simp, fun e => by rw [m2, k2]; simp, fun u => ?_⟩
          rw [m3, k3]
          simp only [List.mem_cons, forall_eq_or_imp]
          exact and_assoc
    · simp only [loop, if_neg ha]
      refine ⟨⟨fun h => absurd rfl h, fun h => absurd (h.2 [] a l rfl).1 ha⟩, fun s' h => (by cases h), fun s' h => (by cases h)⟩

theorem run_append (react : Nat → Nat → List Act) (a b : List Op) (s : St) :
    run react (a ++ b) s = match run react a s with | .ok s () => run react b s | .throw s => .throw s | .ub => .ub := by
  induction a generalizing s with
  | nil => rfl
  | cons o a ih =>
    simp only [List.cons_append, run]
    cases apply react o s with
    | ok s' u => exact ih s'
    | throw s' => rfl
    | ub => rfl

theorem run_mono (react : Nat → Nat → List Act) (l : List Op) (s s' : St) (h : run react l s = .ok s' ()) :
    (∀ e u, u ∈ s.reg e → u ∈ s'.reg e) ∧ ∀ u, s.alive u = false → s'.alive u = false := by
  induction l generalizing s with
  | nil => cases h; exact ⟨fun _ _ h => h, fun _ h => h⟩
  | cons o l ih =>
    simp only [run] at h
    cases ho : apply react o s with
    | throw s1 => rw [ho] at h; cases h
    | ub => rw [ho] at h; cases h
    | ok s1 u =>
      rw [ho] at h
      obtain ⟨i1, i2⟩ := ih s1 h
      have key : (∀ e u, u ∈ s.reg e → u ∈ s1.reg e) ∧ ∀ u, s.alive u = false → s1.alive u = false := by
        cases o with
        | act a =>
          cases a with
          | regist v e =>
            cases ho
            refine ⟨fun e' u hu => ?_, fun u h => h⟩
            simp only [St.regist]
            split
            · next h => subst h; simp [hu]
            · exact hu
          | expire v =>
            cases ho
            refine ⟨fun e' u hu => hu, fun u h => ?_⟩
            simp only [St.expire]
            split
            · rfl
            · exact h
        | notify e =>
          obtain ⟨-, -, k⟩ := loop_spec react e (s.reg e) s
          obtain ⟨-, k2, k3⟩ := k s1 ho
          refine ⟨fun e' u hu => by rw [k2]; simp [hu], fun u h => ?_⟩
          have := mt (k3 u).1 (fun x => by rw [h] at x; cases x.1)
          simpa using this
      exact ⟨fun e u h => i1 e u (key.1 e u h), fun u h => i2 u (key.2 u h)⟩

/-! ## Theorems -/

/-- A notification is defined iff no listener registers for the same event in answer to it and each listener still exists when its turn comes; then each receives the event
once per registration, in the order of registration, and the registrations for the event are the same after. -/
theorem C107_notify (react : Nat → Nat → List Act) (s : St) (evt : Nat) :
    (s.notify react evt ≠ .ub ↔ (∀ u ∈ s.reg evt, ∀ w, .regist w evt ∉ react u evt) ∧
      ∀ pre u post, s.reg evt = pre ++ u :: post → s.alive u = true ∧ ∀ v ∈ pre, .expire u ∉ react v evt) ∧
    (∀ s', s.notify react evt ≠ .throw s') ∧
    ∀ s', s.notify react evt = .ok s' () → s'.log = s.log ++ (s.reg evt).map (fun u => (u, evt)) ∧ s'.reg evt = s.reg evt ∧
      ∀ e, s'.reg e = s.reg e ++ (s.reg evt).flatMap fun u => (react u evt).filterMap (registers e) := by
  obtain ⟨h1, h2, h3⟩ := loop_spec react evt (s.reg evt) s
  refine ⟨h1, h2, fun s' e => ?_⟩
  obtain ⟨k1, k2, -⟩ := h3 s' e
  refine ⟨k1, ?_, k2⟩
  rw [k2]
  have hd : loop react evt (s.reg evt) s ≠ .ub := by
    intro h
    have e' : loop react evt (s.reg evt) s = .ok s' () := e
    rw [h] at e'; cases e'
  have : ((s.reg evt).flatMap fun u => (react u evt).filterMap (registers evt)) = [] := by
    rw [List.flatMap_eq_nil_iff]
    intro u hu
    rw [List.filterMap_eq_nil_iff]
    intro a ha
    cases a with
    | expire v => rfl
    | regist w e =>
      by_cases he : e = evt
      · subst he; exact absurd ha ((h1.1 hd).1 u hu w)
      · simp [registers, he]
  rw [this, List.append_nil]

/-- With listeners that do nothing to the source in answer, the registrations after a program are those the program made, in order, and a notification is received by these. -/
theorem C107_history (l : List Op) (s s' : St) (h : run (fun _ _ => []) l s = .ok s' ()) (evt : Nat) :
    s'.reg evt = s.reg evt ++ registered evt l ∧
    ∀ s'', run (fun _ _ => []) [.notify evt] s' = .ok s'' () → s''.log = s'.log ++ (s.reg evt ++ registered evt l).map fun u => (u, evt) := by
  have key : s'.reg evt = s.reg evt ++ registered evt l := by
    induction l generalizing s with
    | nil => cases h; simp [registered]
    | cons o l ih =>
      simp only [run] at h
      cases ho : apply (fun _ _ => []) o s with
      | throw s1 => rw [ho] at h; cases h
      | ub => rw [ho] at h; cases h
      | ok s1 u =>
        rw [ho] at h
        rw [ih s1 h]
        cases o with
        | act a =>
          cases a with
          | regist v e =>
            cases ho
            simp only [St.regist, registered, List.filterMap_cons, registers]
            by_cases he : evt = e
            · subst he; simp
            · rw [if_neg he, if_neg (fun x => he x.symm)]
          | expire v => cases ho; simp [St.expire, registered, registers]
        | notify e =>
          obtain ⟨-, -, k⟩ := loop_spec (fun _ _ => []) e (s.reg e) s
          obtain ⟨-, k2, -⟩ := k s1 ho
          rw [k2]
          simp [registered]
  refine ⟨key, fun s'' hn => ?_⟩
  have hn' : s'.notify (fun _ _ => []) evt = .ok s'' () := by
    simp only [run, apply] at hn
    cases e : s'.notify (fun _ _ => []) evt with
    | throw s1 => rw [e] at hn; cases hn
    | ub => rw [e] at hn; cases hn
    | ok s1 u => rw [e] at hn; cases hn; rfl
  rw [((C107_notify _ s' evt).2.2 s'' hn').1, key]

/-- A listener that has been registered and does not exist any more is not skipped: whatever is done between, the next notification is undefined. -/
theorem C107_expired_false (react : Nat → Nat → List Act) (s : St) (u evt : Nat) (a b : List Op) :
    ∀ s', run react (.act (.regist u evt) :: (a ++ .act (.expire u) :: (b ++ [.notify evt]))) s ≠ .ok s' () := by
  intro s' h
  simp only [run, apply, run_append] at h
  cases ha : run react a (s.regist u evt) with
  | throw s1 => rw [ha] at h; cases h
  | ub => rw [ha] at h; cases h
  | ok s1 x =>
    simp only [ha] at h
    cases hb : run react b (s1.expire u) with
    | throw s2 => rw [hb] at h; cases h
    | ub => rw [hb] at h; cases h
    | ok s2 x =>
      simp only [hb] at h
      have m1 := (run_mono react a _ s1 ha).1 evt u (by simp [St.regist])
      have m2 := run_mono react b _ s2 hb
      have hr : u ∈ s2.reg evt := m2.1 evt u m1
      have hd : s2.alive u = false := m2.2 u (by simp [St.expire])
      have hub : s2.notify react evt = .ub := by
        obtain ⟨pre, post, e⟩ := List.append_of_mem hr
        apply Classical.byContradiction
        intro hne
        have := (((C107_notify react s2 evt).1.1 hne).2 pre u post e).1
        rw [hd] at this; cases this
      rw [hub] at h
      cases h

/-! ## The hypotheses can be met -/

/-- Two listeners, the first registered twice; the second expires after the notification. -/
example : ∃ s, run (fun _ _ => []) [.act (.regist 5 0), .act (.regist 7 0), .act (.regist 5 0), .notify 0, .act (.expire 7)] {} = .ok s () ∧
    s.log = [(5, 0), (7, 0), (5, 0)] := ⟨_, rfl, rfl⟩

/-- A listener that registers another one for the event it receives -/
example : (({} : St).regist 5 0).notify (fun _ e => [.regist 6 e]) 0 = .ub := rfl

/-- A listener that releases itself, once registered -/
example : ∃ s, (({} : St).regist 5 0).notify (fun u _ => [.expire u]) 0 = .ok s () ∧ s.log = [(5, 0)] := ⟨_, rfl, rfl⟩

end Verif.C107
