import Verif.Model.SchemesOfProblem
import Verif.Properties.C61_Pipeline
import Mathlib.Data.List.Induction
/-!
# C111: several schemes on one problem

Each scheme used with a problem works as if it were alone: its data is what it would be if the resolutions made with the other
schemes were mere updates of the problem. Hence what is proved of one scheme holds for each of them, even when resolutions made with
the other ones throw.
-/
set_option autoImplicit false
set_option linter.unusedSimpArgs false

namespace Verif.C111
open Verif Verif.PB Verif.SE Verif.LS

/-! ## Specification -/

/-- What scheme number `h` sees of a call: the resolutions made with the other schemes are updates of the problem. -/
def seen (h : Nat) : WCall → List Call
  | .addTask t => [.addTask t]
  | .removeTask t => [.removeTask t]
  | .addSub x => [.addSub x]
  | .removeSub i => [.removeSub i]
  | .removeForeignSub => [.removeForeignSub]
  | .changeWeight t b => [.changeWeight t b]
  | .update => [.update]
  | .make _ => []
  | .makeOther => []
  | .solve h' => [if h' = h then .solve else .update]

/-- What scheme number `h` sees of the calls. -/
def asSeen (h : Nat) (l : List WCall) : List Call := l.flatMap (seen h)

/-- The problem, with the data of the scheme of id `k`. -/
def view (k : Nat) (s : World) : State := ⟨s.pb, s.data.lookup k⟩

/-- Effect of a call on the set of tasks. -/
def on (c : WCall) (S : Nat → Prop) : Nat → Prop := fun t =>
  match c with
  | .addTask u => t = u ∨ S t
  | .removeTask u => t ≠ u ∧ S t
  | _ => S t

/-- The tasks that should be in the problem after the calls. -/
def Held (l : List WCall) : Nat → Prop := l.foldl (fun S c => on c S) (fun _ => False)

/-- What the user must respect: as with one scheme; the schemes used are constructed. -/
def Asked (l : List WCall) (s : World) : WCall → Prop
  | .addTask t => ¬ Held l t
  | .addSub x => ∀ c ∈ x.cstrs, c.id < s.pb.nextC
  | .removeSub i => i < s.pb.subs.length
  | .solve h => h < s.schemes.length
  | _ => True

/-- Sequences of calls. All return, except that a resolution with scheme number `h` may throw if `F h` is `true` (the user catches
the exception and goes on). -/
inductive Life (E : Env) (F : Nat → Bool) : List WCall → World → Prop
  | init : Life E F [] {}
  | call (l : List WCall) (s s' : World) (c : WCall) : Life E F l s → Asked l s c → s.call E c = .ok s' () → Life E F (l ++ [c]) s'
  | failed (l : List WCall) (s s' : World) (h : Nat) : F h = true → Life E F l s → s.call E (.solve h) = .throw s' →
      Life E F (l ++ [.solve h]) s'

/-! ## Notifications -/

theorem notifyAll_view {d d' : List (Nat × Mem)} {e : EQ.Event} (h : notifyAll d e = some d') (k : Nat) :
    notify (d.lookup k) e = some (d'.lookup k) := by
  induction d generalizing d' with
  | nil => cases h; rfl
  | cons x d ih =>
    obtain ⟨k', m⟩ := x
    simp only [notifyAll] at h
    cases ha : EQ.addEvent m.queue e with
    | none => rw [ha] at h; cases h
    | some q =>
      rw [ha] at h
      cases hn : notifyAll d e with
      | none => rw [hn] at h; cases h
      | some d1 =>
        rw [hn] at h
        cases h
        by_cases hk : k = k'
        · subst hk
          simp [List.lookup_cons, notify, ha]
        · have : (k == k') = false := by simpa using hk
          simp only [List.lookup_cons, this]
          exact ih hn

theorem notifyAll_keys {d d' : List (Nat × Mem)} {e : EQ.Event} (h : notifyAll d e = some d') : d'.map (·.1) = d.map (·.1) := by
  induction d generalizing d' with
  | nil => cases h; rfl
  | cons x d ih =>
    obtain ⟨k', m⟩ := x
    simp only [notifyAll] at h
    cases ha : EQ.addEvent m.queue e with
    | none => rw [ha] at h; cases h
    | some q =>
      rw [ha] at h
      cases hn : notifyAll d e with
      | none => rw [hn] at h; cases h
      | some d1 =>
        rw [hn] at h
        cases h
        simp [ih hn]

theorem lookup_keys {d : List (Nat × Mem)} {k : Nat} : d.lookup k = none ↔ k ∉ d.map (·.1) := by
  induction d with
  | nil => simp
  | cons x d ih =>
    by_cases hk : k = x.1
    · simp [List.lookup_cons, hk]
    · have : (k == x.1) = false := by simpa using hk
      have e : (x :: d).lookup k = d.lookup k := by rw [List.lookup_cons, this]
      rw [e, ih]
      simp [hk]

theorem notifyAll_none {d : List (Nat × Mem)} {e : EQ.Event} (hn : (d.map (·.1)).Nodup) (h : notifyAll d e = none) :
    ∃ k ∈ d.map (·.1), notify (d.lookup k) e = none := by
  induction d with
  | nil => cases h
  | cons x d ih =>
    obtain ⟨k', m⟩ := x
    simp only [notifyAll] at h
    cases ha : EQ.addEvent m.queue e with
    | none => exact ⟨k', by simp, by simp [List.lookup_cons, notify, ha]⟩
    | some q =>
      rw [ha] at h
      simp only [Option.map_eq_none_iff] at h
      simp only [List.map_cons, List.nodup_cons] at hn
      obtain ⟨k, hk, hh⟩ := ih hn.2 h
      refine ⟨k, by simp [hk], ?_⟩
      have : (k == k') = false := by
        simp only [beq_eq_false_iff_ne]
        rintro rfl
        exact hn.1 hk
      simpa only [List.lookup_cons, this] using hh

/-! ## Calls -/

/-- What does not depend on the schemes in a call. -/
structure Kept (s s' : World) : Prop where
  keys : s'.data.map (·.1) = s.data.map (·.1)
  schemes : s'.schemes = s.schemes
  next : s'.next = s.next

/-- The calls that are the same with one scheme. -/
def plain : WCall → Option Call
  | .addTask t => some (.addTask t)
  | .removeTask t => some (.removeTask t)
  | .addSub x => some (.addSub x)
  | .removeSub i => some (.removeSub i)
  | .removeForeignSub => some .removeForeignSub
  | .changeWeight t b => some (.changeWeight t b)
  | .update => some .update
  | _ => none

theorem removeBase_view {s s' : World} {t : Nat} (h : s.removeBase t = .ok s' ()) (k : Nat) :
    (view k s).removeBase t = .ok (view k s') () ∧ Kept s s' := by
  simp only [World.removeBase] at h
  by_cases ht : t ∈ s.pb.tr
  · rw [if_pos ht] at h
    cases hn : notifyAll s.data ⟨.taskRemoval, .task t⟩ with
    | none => rw [hn] at h; cases h
    | some d =>
      rw [hn] at h
      cases h
      refine ⟨(if_pos ht).trans ?_, notifyAll_keys hn, rfl, rfl⟩
      show (match notify (s.data.lookup k) _ with | none => _ | some m => _) = _
      rw [notifyAll_view hn k]
      rfl
  · rw [if_neg ht] at h
    cases h
    exact ⟨if_neg ht, rfl, rfl, rfl⟩

theorem removeStored_view {s s' : World} {i : Nat} (h : s.removeStored i = .ok s' ()) (k : Nat) :
    (view k s).removeStored i = .ok (view k s') () ∧ Kept s s' := by
  simp only [World.removeStored] at h
  simp only [State.removeStored, view]
  cases hn : notifyAll s.data ⟨.substitutionRemoval, .subs i⟩ with
  | none => rw [hn] at h; cases h
  | some d =>
    rw [hn] at h
    cases h
    rw [notifyAll_view hn k]
    exact ⟨rfl, notifyAll_keys hn, rfl, rfl⟩

theorem removeTask_view {s s' : World} {t : Nat} (h : s.removeTask t = .ok s' ()) (k : Nat) :
    (view k s).removeTask t = .ok (view k s') () ∧ Kept s s' := by
  simp only [World.removeTask] at h
  cases hb : s.removeBase t with
  | ub => rw [hb] at h; cases h
  | throw s1 => rw [hb] at h; cases h
  | ok s1 u =>
    obtain ⟨v1, k1⟩ := removeBase_view hb k
    simp only [State.removeTask, v1]
    rw [hb] at h
    simp only at h
    show (match get s1.pb.cons t with | none => _ | some c => _) = _ ∧ _
    cases hc : get s1.pb.cons t with
    | none => rw [hc] at h; cases h; exact ⟨rfl, k1⟩
    | some c =>
      rw [hc] at h
      simp only at h
      show (match findSub s1.pb.subs c with | none => _ | some i => _) = _ ∧ _
      cases hf : findSub s1.pb.subs c with
      | none => rw [hf] at h; cases h; exact ⟨rfl, k1.keys, k1.schemes, k1.next⟩
      | some i =>
        rw [hf] at h
        simp only at h
        by_cases hS : ((s1.pb.subs[i]?).map Sub.isSimple).getD false = true
        · rw [if_pos hS] at h
          cases hst : s1.removeStored i with
          | ub => rw [hst] at h; cases h
          | throw s2 => rw [hst] at h; cases h
          | ok s2 u =>
            rw [hst] at h
            cases h
            obtain ⟨v2, k2⟩ := removeStored_view hst k
            refine ⟨?_, k2.keys.trans k1.keys, k2.schemes.trans k1.schemes, k2.next.trans k1.next⟩
            show (if ((s1.pb.subs[i]?).map Sub.isSimple).getD false = true then _ else _) = _
            rw [if_pos hS, v2]
            rfl
        · rw [if_neg hS] at h; cases h

/-- A call that is not about the schemes is, for the data of each scheme, the call with this scheme alone. -/
theorem plain_view {E : Env} (o : Opt) {s s' : World} {c : WCall} {c' : Call} (hp : plain c = some c') (h : s.call E c = .ok s' ())
    (k : Nat) : (view k s).call (E.with o) c' = .ok (view k s') () ∧ Kept s s' := by
  cases c with
  | addTask t =>
    cases hp
    simp only [World.call, World.addTask] at h
    simp only [State.call, State.addTask, view]
    cases hn : notifyAll s.data ⟨.taskAddition, .task t⟩ with
    | none => rw [hn] at h; cases h
    | some d =>
      rw [hn] at h; cases h
      rw [notifyAll_view hn k]
      exact ⟨rfl, notifyAll_keys hn, rfl, rfl⟩
  | removeTask t => cases hp; exact removeTask_view h k
  | addSub x =>
    cases hp
    simp only [World.call, World.addSub] at h
    simp only [State.call, State.addSub, view]
    cases hn : notifyAll s.data ⟨.substitutionAddition, .subs s.pb.subs.length⟩ with
    | none => rw [hn] at h; cases h
    | some d =>
      rw [hn] at h; cases h
      rw [notifyAll_view hn k]
      exact ⟨rfl, notifyAll_keys hn, rfl, rfl⟩
  | removeSub i =>
    cases hp
    simp only [World.call] at h
    by_cases hi : i < s.pb.subs.length
    · rw [if_pos hi] at h
      obtain ⟨v, hk⟩ := removeStored_view h k
      exact ⟨(if_pos hi).trans v, hk⟩
    · rw [if_neg hi] at h; cases h
  | removeForeignSub =>
    cases hp
    simp only [World.call, World.removeForeign] at h
    simp only [State.call, State.removeForeign, view]
    cases hn : notifyAll s.data ⟨.substitutionRemoval, .subs 0⟩ with
    | none => rw [hn] at h; cases h
    | some d =>
      rw [hn] at h; cases h
      rw [notifyAll_view hn k]
      exact ⟨rfl, notifyAll_keys hn, rfl, rfl⟩
  | changeWeight t b =>
    cases hp
    simp only [World.call, World.changeWeight] at h
    by_cases ht : t ∈ s.pb.toks
    · rw [if_pos ht] at h
      cases hn : notifyAll s.data ⟨if b then .weightChange else .anisotropicWeightChange, .task t⟩ with
      | none => rw [hn] at h; cases h
      | some d =>
        rw [hn] at h; cases h
        refine ⟨(if_pos ht).trans ?_, notifyAll_keys hn, rfl, rfl⟩
        show (match notify (s.data.lookup k) _ with | none => _ | some m => _) = _
        rw [notifyAll_view hn k]
        rfl
    · rw [if_neg ht] at h
      cases h
      exact ⟨if_neg ht, rfl, rfl, rfl⟩
  | update =>
    cases hp
    simp only [World.call, World.update] at h
    cases h
    exact ⟨rfl, rfl, rfl, rfl⟩
  | make o => cases hp
  | makeOther => cases hp
  | solve h => cases hp

/-- If an assertion fails in such a call, it fails with one of the schemes alone. -/
theorem plain_ub {E : Env} {s : World} (hn : (s.data.map (·.1)).Nodup) (o : Opt) {c : WCall} {c' : Call} (hp : plain c = some c')
    (hi : ∀ i, c = .removeSub i → i < s.pb.subs.length) (hu : s.call E c = .ub) :
    ∃ k ∈ s.data.map (·.1), (view k s).call (E.with o) c' = .ub := by
  -- one notification
  have one : ∀ (s : World) (e : EQ.Event) (f : List (Nat × Mem) → World) (g : Option Mem → State), (s.data.map (·.1)).Nodup →
      (match notifyAll s.data e with | none => Outcome.ub | some d => .ok (f d) ()) = .ub →
      ∃ k ∈ s.data.map (·.1), (match notify (s.data.lookup k) e with | none => Outcome.ub | some m => .ok (g m) ()) = .ub := by
    intro s e f g hn hu
    cases hN : notifyAll s.data e with
    | some d => rw [hN] at hu; cases hu
    | none =>
      obtain ⟨k, hk, hv⟩ := notifyAll_none hn hN
      exact ⟨k, hk, by rw [hv]⟩
  cases c with
  | addTask t =>
    cases hp
    exact one s _ _ (fun m => ⟨{ s.pb with tr := s.pb.tr ++ [t], toks := t :: s.pb.toks.filter (· ≠ t), finalized := false, cons := put s.pb.cons t ⟨s.pb.nextC, (E.task t).size, (E.task t).type⟩, nextC := s.pb.nextC + 1 }, m⟩) hn hu
  | addSub x => cases hp; exact one s _ _ (fun m => ⟨{ s.pb with subs := s.pb.subs ++ [x], finalized := false }, m⟩) hn hu
  | removeForeignSub => cases hp; exact one s _ _ (fun m => ⟨{ s.pb with finalized := false }, m⟩) hn hu
  | removeSub i =>
    cases hp
    have hi := hi i rfl
    obtain ⟨k, hk, hv⟩ := one s _ _ (fun m => ⟨{ s.pb with subs := s.pb.subs.eraseIdx i, finalized := false }, m⟩) hn ((if_pos hi).symm.trans hu)
    exact ⟨k, hk, (if_pos hi).trans hv⟩
  | changeWeight t b =>
    cases hp
    by_cases ht : t ∈ s.pb.toks
    · obtain ⟨k, hk, hv⟩ := one s _ _ (fun m => ⟨s.pb, m⟩) hn ((if_pos ht).symm.trans hu)
      exact ⟨k, hk, (if_pos ht).trans hv⟩
    · have := (if_neg ht).symm.trans hu
      cases this
  | update => cases hu
  | removeTask t =>
    cases hp
    have hu : s.removeTask t = .ub := hu
    simp only [World.removeTask] at hu
    cases hb : s.removeBase t with
    | throw s1 => rw [hb] at hu; cases hu
    | ub =>
      simp only [World.removeBase] at hb
      by_cases ht : t ∈ s.pb.tr
      · obtain ⟨k, hk, hv⟩ := one s _ _
          (fun m => ⟨{ s.pb with tr := s.pb.tr.erase t, toks := s.pb.toks.filter (· ≠ t), finalized := false }, m⟩) hn ((if_pos ht).symm.trans hb)
        refine ⟨k, hk, ?_⟩
        have : (view k s).removeBase t = .ub := (if_pos ht).trans hv
        show (view k s).removeTask t = .ub
        simp only [State.removeTask, this]
      · have := (if_neg ht).symm.trans hb
        cases this
    | ok s1 u =>
      rw [hb] at hu
      simp only at hu
      cases hc : get s1.pb.cons t with
      | none => rw [hc] at hu; cases hu
      | some c =>
        rw [hc] at hu
        simp only at hu
        cases hf : findSub s1.pb.subs c with
        | none => rw [hf] at hu; cases hu
        | some i =>
          rw [hf] at hu
          simp only at hu
          by_cases hS : ((s1.pb.subs[i]?).map Sub.isSimple).getD false = true
          · rw [if_pos hS] at hu
            have hst : s1.removeStored i = .ub := by
              cases hst : s1.removeStored i with
              | ub => rfl
              | throw s2 => rw [hst] at hu; cases hu
              | ok s2 u => rw [hst] at hu; cases hu
            have hk1 := (removeBase_view hb 0).2.keys
            obtain ⟨k, hk, hv⟩ := one s1 _ _ (fun m => ⟨{ s1.pb with subs := s1.pb.subs.eraseIdx i, finalized := false }, m⟩) (by rw [hk1]; exact hn) hst
            refine ⟨k, by rw [← hk1]; exact hk, ?_⟩
            have hv : (view k s1).removeStored i = .ub := hv
            show (view k s).removeTask t = .ub
            simp only [State.removeTask, (removeBase_view hb k).1]
            show (match get s1.pb.cons t with | none => _ | some c => _) = _
            rw [hc]
            show (match findSub s1.pb.subs c with | none => _ | some i => _) = _
            rw [hf]
            show (if ((s1.pb.subs[i]?).map Sub.isSimple).getD false = true then _ else _) = _
            rw [if_pos hS, hv]
          · rw [if_neg hS] at hu; cases hu
  | make o => cases hp
  | makeOther => cases hp
  | solve h => cases hp

/-! ## Resolutions -/

theorem lookup_snoc (d : List (Nat × Mem)) (k : Nat) (m : Mem) (j : Nat) (hk : d.lookup k = none) :
    (d ++ [(k, m)]).lookup j = if j = k then some m else d.lookup j := by
  induction d with
  | nil =>
    by_cases h : j = k
    · simp [List.lookup_cons, h]
    · have : (j == k) = false := by simpa using h
      simp [List.lookup_cons, this, h]
  | cons x d ih =>
    have hx : k ≠ x.1 ∧ d.lookup k = none := by
      rw [lookup_keys] at hk ⊢
      simpa using hk
    rw [List.cons_append, List.lookup_cons, List.lookup_cons, ih hx.2]
    by_cases hj : j = x.1
    · have : ¬ j = k := fun h => hx.1 (by rw [← h, hj])
      rw [hj] at this
      simp [hj, this]
    · have : (j == x.1) = false := by simpa using hj
      simp only [this]

theorem lookup_write (d : List (Nat × Mem)) (k : Nat) (m : Mem) (j : Nat) (hk : d.lookup k ≠ none) :
    (write d k m).lookup j = if j = k then some m else d.lookup j := by
  induction d with
  | nil => exact absurd rfl hk
  | cons x d ih =>
    have e : write (x :: d) k m = (if x.1 = k then (k, m) else x) :: write d k m := rfl
    rw [e]
    by_cases hx : x.1 = k
    · rw [if_pos hx, List.lookup_cons, List.lookup_cons]
      by_cases hj : j = k
      · simp [hj]
      · have h1 : (j == k) = false := by simpa using hj
        have h2 : (j == x.1) = false := by rw [hx]; exact h1
        simp only [h1, h2, if_neg hj]
        by_cases hd : d.lookup k = none
        · have : write d k m = d := by
            rw [lookup_keys] at hd
            have : ∀ y ∈ d, (if y.1 = k then (k, m) else y) = y := by
              intro y hy
              rw [if_neg]
              rintro rfl
              exact hd (List.mem_map_of_mem hy)
            unfold write
            rw [List.map_congr_left this, List.map_id']
          rw [this]
        · rw [ih hd, if_neg hj]
    · rw [if_neg hx, List.lookup_cons, List.lookup_cons]
      have h1 : (k == x.1) = false := by simpa using fun h => hx h.symm
      have hd : d.lookup k ≠ none := by
        rw [List.lookup_cons, h1] at hk
        exact hk
      by_cases hj : j = x.1
      · have : ¬ x.1 = k := hx
        simp [hj, this]
      · have : (j == x.1) = false := by simpa using hj
        simp only [this, ih hd]

theorem write_keys (d : List (Nat × Mem)) (k : Nat) (m : Mem) : (write d k m).map (·.1) = d.map (·.1) := by
  simp only [write, List.map_map]
  apply List.map_congr_left
  intro x _
  by_cases h : x.1 = k <;> simp [h]

/-- What a resolution leaves: the data of the other schemes is not changed. -/
structure Left (E : Env) (k : Nat) (s s' : World) : Prop where
  pb : s'.pb = s.pb.finalize E
  other : ∀ j, j ≠ k → s'.data.lookup j = s.data.lookup j
  schemes : s'.schemes = s.schemes
  next : s'.next = s.next
  keys : s'.data.map (·.1) = s.data.map (·.1) ∨ k ∉ s.data.map (·.1) ∧ s'.data.map (·.1) = s.data.map (·.1) ++ [k]

theorem finalize_twice (E : Env) (p : Problem) : (p.finalize E).finalize E = p.finalize E := by
  apply finalize_idem
  simp only [Problem.finalize]
  split
  · assumption
  · rfl

theorem solve_view {E : Env} {s : World} {h k : Nat} {o : Opt} (hs : s.schemes[h]? = some (k, o)) :
    (∀ s' b, s.solve E h = .ok s' b → (view k s).solve (E.with o) = .ok (view k s') b ∧ Left E k s s') ∧
    (∀ s', s.solve E h = .throw s' → (view k s).solve (E.with o) = .throw (view k s') ∧ Left E k s s') ∧
    (s.solve E h = .ub → (view k s).solve (E.with o) = .ub) := by
  have ef : ∀ p : Problem, p.finalize (E.with o) = p.finalize E := fun _ => rfl
  unfold World.solve
  rw [hs]
  simp only
  unfold World.getData State.solve State.getData
  have ev : (view k s).mem = s.data.lookup k := rfl
  have ep : (view k s).pb = s.pb := rfl
  rw [ev, ep]
  cases hd : s.data.lookup k with
  | some m0 =>
    have hk : s.data.lookup k ≠ none := by rw [hd]; simp
    simp only [ef, ep]
    cases hu : updateData (E.with o) (s.pb.finalize E) m0 with
    | ub => simp
    | throw m =>
      refine ⟨fun _ _ h => (by cases h), fun s' h => ?_, fun h => (by cases h)⟩
      cases h
      refine ⟨by simp [view, lookup_write _ _ _ _ hk], rfl, fun j hj => ?_, rfl, rfl, Or.inl (write_keys _ _ _)⟩
      simp [lookup_write _ _ _ _ hk, hj]
    | ok m u =>
      refine ⟨fun s' b h => ?_, fun _ h => (by cases h), fun h => (by cases h)⟩
      cases h
      refine ⟨by simp [view, lookup_write _ _ _ _ hk], rfl, fun j hj => ?_, rfl, rfl, Or.inl (write_keys _ _ _)⟩
      simp [lookup_write _ _ _ _ hk, hj]
  | none =>
    simp only [ef]
    cases hp : processProblem (E.with o) (s.pb.finalize E) (Mem.new (E.with o)) with
    | ub => simp
    | throw m =>
      refine ⟨fun _ _ h => (by cases h), fun s' h => ?_, fun h => (by cases h)⟩
      cases h
      exact ⟨by simp [view, hd], rfl, fun j hj => rfl, rfl, rfl, Or.inl rfl⟩
    | ok m0 u0 =>
      simp only [finalize_twice]
      have hk : (s.data ++ [(k, m0)]).lookup k ≠ none := by rw [lookup_snoc _ _ _ _ hd]; simp
      have ho : ∀ m j, (write (s.data ++ [(k, m0)]) k m).lookup j = if j = k then some m else s.data.lookup j := by
        intro m j
        rw [lookup_write _ _ _ _ hk, lookup_snoc _ _ _ _ hd]
        split <;> rfl
      have hkeys : ∀ m, (write (s.data ++ [(k, m0)]) k m).map (·.1) = s.data.map (·.1) ++ [k] := by
        intro m
        rw [write_keys]; simp
      cases hu : updateData (E.with o) (s.pb.finalize E) m0 with
      | ub => simp
      | throw m =>
        refine ⟨fun _ _ h => (by cases h), fun s' h => ?_, fun h => (by cases h)⟩
        cases h
        exact ⟨by simp [view, ho], rfl, fun j hj => (by simp [ho, hj]), rfl, rfl, Or.inr ⟨lookup_keys.1 hd, hkeys m⟩⟩
      | ok m u =>
        refine ⟨fun s' b h => ?_, fun _ h => (by cases h), fun h => (by cases h)⟩
        cases h
        exact ⟨by simp [view, ho], rfl, fun j hj => (by simp [ho, hj]), rfl, rfl, Or.inr ⟨lookup_keys.1 hd, hkeys m⟩⟩

/-! ## Histories -/

theorem held_snoc (l : List WCall) (c : WCall) : Held (l ++ [c]) = on c (Held l) := by simp [Held]

theorem asSeen_snoc (h : Nat) (l : List WCall) (c : WCall) : asSeen h (l ++ [c]) = asSeen h l ++ seen h c := by simp [asSeen]

theorem seen_plain {c : WCall} {c' : Call} (hp : plain c = some c') (h : Nat) : seen h c = [c'] := by
  cases c <;> cases hp <;> rfl

theorem present_seen (h : Nat) (l : List WCall) : Present (asSeen h l) = Held l := by
  induction l using List.reverseRecOn with
  | nil => rfl
  | append_singleton l c ih =>
    rw [asSeen_snoc, held_snoc, ← ih]
    cases c with
    | make o => rw [show seen h (.make o) = [] from rfl, List.append_nil]; rfl
    | makeOther => rw [show seen h .makeOther = [] from rfl, List.append_nil]; rfl
    | solve h' =>
      by_cases hh : h' = h
      · simp only [seen, if_pos hh, Present_snoc]; rfl
      · simp only [seen, if_neg hh, Present_snoc]; rfl
    | _ => simp only [seen, Present_snoc]; rfl

theorem allowed_plain {l : List WCall} {s : World} {c : WCall} {c' : Call} (hp : plain c = some c') (ha : Asked l s c) (h k : Nat) :
    Allowed (asSeen h l) (view k s) c' := by
  cases c <;> cases hp
  case addTask t => show ¬ Present (asSeen h l) t; rw [present_seen]; exact ha
  all_goals exact ha

theorem dropW_ok {α : Type} {o : Outcome World α} {s : World} : dropW o = .ok s () ↔ ∃ a, o = .ok s a := by
  cases o <;> simp [dropW]

theorem dropW_throw {α : Type} {o : Outcome World α} {s : World} : dropW o = .throw s ↔ o = .throw s := by
  cases o <;> simp [dropW]

/-- Ids are given once; the data is that of schemes that exist; each scheme is as if it were alone, those to come included. -/
structure Inv (E : Env) (F : Nat → Bool) (l : List WCall) (s : World) : Prop where
  ids : (s.schemes.map (·.1)).Nodup
  idsOld : ∀ k ∈ s.schemes.map (·.1), k < s.next
  keys : (s.data.map (·.1)).Nodup
  keysOf : ∀ k ∈ s.data.map (·.1), k ∈ s.schemes.map (·.1)
  alone : ∀ h k o, s.schemes[h]? = some (k, o) → PB.Run (E.with o) (F h) (asSeen h l) (view k s)
  toCome : ∀ h o f, s.schemes.length ≤ h → PB.Run (E.with o) f (asSeen h l) ⟨s.pb, none⟩

theorem inv_plain {E : Env} {F : Nat → Bool} {l : List WCall} {s s' : World} {c : WCall} {c' : Call} (hp : plain c = some c')
    (hi : Inv E F l s) (ha : Asked l s c) (hc : s.call E c = .ok s' ()) : Inv E F (l ++ [c]) s' := by
  have hK := fun o k => plain_view (E := E) o hp hc k
  obtain ⟨k1, k2, k3⟩ := (hK ⟨.lssol, false, false, 0⟩ 0).2
  refine ⟨by rw [k2]; exact hi.ids, by rw [k2, k3]; exact hi.idsOld, by rw [k1]; exact hi.keys, by rw [k1, k2]; exact hi.keysOf, ?_, ?_⟩
  · intro h k o hs
    rw [k2] at hs
    rw [asSeen_snoc, seen_plain hp]
    exact .call _ _ _ _ (hi.alone h k o hs) (allowed_plain hp ha h k) (hK o k).1
  · intro h o f hl
    rw [k2] at hl
    rw [asSeen_snoc, seen_plain hp]
    -- an id that is not used
    have hn : s.data.lookup s.next = none := lookup_keys.2 fun hh => Nat.lt_irrefl _ (hi.idsOld _ (hi.keysOf _ hh))
    have hn' : s'.data.lookup s.next = none := by rw [lookup_keys, k1, ← lookup_keys]; exact hn
    have hv := (hK o s.next).1
    have e1 : view s.next s = ⟨s.pb, none⟩ := by simp [view, hn]
    have e2 : view s.next s' = ⟨s'.pb, none⟩ := by simp [view, hn']
    rw [e1, e2] at hv
    refine .call _ _ _ _ (hi.toCome h o f hl) ?_ hv
    rw [← e1]
    exact allowed_plain hp ha h s.next

theorem inv_solve {E : Env} {F : Nat → Bool} {l : List WCall} {s s' : World} {h k : Nat} {o : Opt} (hi : Inv E F l s)
    (hs : s.schemes[h]? = some (k, o)) (hl : Left E k s s')
    (hr : PB.Run (E.with o) (F h) (asSeen h l ++ [.solve]) (view k s')) : Inv E F (l ++ [.solve h]) s' := by
  have hlt : h < s.schemes.length := (List.getElem?_eq_some_iff.1 hs).1
  have hkm : k ∈ s.schemes.map (·.1) := List.mem_map_of_mem (List.mem_of_getElem? hs)
  refine ⟨by rw [hl.schemes]; exact hi.ids, by rw [hl.schemes, hl.next]; exact hi.idsOld, ?_, ?_, ?_, ?_⟩
  · rcases hl.keys with e | ⟨hk, e⟩
    · rw [e]; exact hi.keys
    · rw [e, List.nodup_append]
      refine ⟨hi.keys, by simp, ?_⟩
      intro a ha b hb
      rw [List.mem_singleton] at hb
      rintro rfl
      exact hk (hb ▸ ha)
  · rw [hl.schemes]
    rcases hl.keys with e | ⟨hk, e⟩
    · rw [e]; exact hi.keysOf
    · rw [e]
      intro j hj
      rcases List.mem_append.1 hj with hj | hj
      · exact hi.keysOf j hj
      · rw [List.mem_singleton] at hj; rw [hj]; exact hkm
  · intro h' k' o' hs'
    rw [hl.schemes] at hs'
    rw [asSeen_snoc]
    by_cases hh : h = h'
    · subst hh
      rw [hs] at hs'
      cases hs'
      simp only [seen, if_true]
      exact hr
    · have hk : k' ≠ k := by
        rintro rfl
        have h1 : (s.schemes.map (·.1))[h]? = some k' := by simp [hs]
        have h2 : (s.schemes.map (·.1))[h']? = some k' := by simp [hs']
        exact hh ((List.getElem?_inj (by simpa using hlt) hi.ids).1 (h1.trans h2.symm))
      simp only [seen, if_neg hh]
      refine .call _ _ _ _ (hi.alone h' k' o' hs') trivial ?_
      show Outcome.ok (⟨s.pb.finalize E, s.data.lookup k'⟩ : State) () = .ok ⟨s'.pb, s'.data.lookup k'⟩ ()
      rw [hl.pb, hl.other k' hk]
  · intro h' o' f hl'
    rw [hl.schemes] at hl'
    rw [asSeen_snoc]
    have hh : ¬ h = h' := by omega
    simp only [seen, if_neg hh]
    refine .call _ _ _ _ (hi.toCome h' o' f hl') trivial ?_
    show Outcome.ok (⟨s.pb.finalize E, none⟩ : State) () = .ok ⟨s'.pb, none⟩ ()
    rw [hl.pb]

theorem life_inv {E : Env} {F : Nat → Bool} {l : List WCall} {s : World} (hL : Life E F l s) : Inv E F l s := by
  induction hL with
  | init =>
    exact ⟨by simp, by simp, by simp, by simp, fun h k o hs => (by simp at hs), fun _ _ _ _ => .init⟩
  | failed l s s' h hF hL hc ih =>
    rw [World.call, dropW_throw] at hc
    cases hs : s.schemes[h]? with
    | none => simp [World.solve, hs] at hc
    | some e =>
      obtain ⟨k, o⟩ := e
      obtain ⟨h1, h2⟩ := (solve_view (E := E) hs).2.1 s' hc
      refine inv_solve ih hs h2 (.failed _ _ _ hF (ih.alone h k o hs) ?_)
      show drop _ = _
      rw [h1]; rfl
  | call l s s' c hL ha hc ih =>
    cases hp : plain c with
    | some c' => exact inv_plain hp ih ha hc
    | none =>
      cases c with
      | make o =>
        cases hc
        refine ⟨?_, ?_, ih.keys, ?_, ?_, ?_⟩
        · show ((s.schemes ++ [(s.next, o)]).map (·.1)).Nodup
          rw [List.map_append, List.nodup_append]
          refine ⟨ih.ids, by simp, ?_⟩
          intro a ha b hb
          have hb : b = s.next := by simpa using hb
          have := ih.idsOld a ha
          omega
        · intro k hk
          have hk : k ∈ (s.schemes ++ [(s.next, o)]).map (·.1) := hk
          show k < s.next + 1
          rw [List.map_append, List.mem_append] at hk
          rcases hk with hk | hk
          · exact Nat.lt_succ_of_lt (ih.idsOld k hk)
          · have : k = s.next := by simpa using hk
            omega
        · intro k hk
          show k ∈ (s.schemes ++ [(s.next, o)]).map (·.1)
          rw [List.map_append, List.mem_append]
          exact Or.inl (ih.keysOf k hk)
        · intro h k o' hs
          have hs : (s.schemes ++ [(s.next, o)])[h]? = some (k, o') := hs
          rw [asSeen_snoc, show seen h (.make o) = [] from rfl, List.append_nil]
          by_cases hh : h < s.schemes.length
          · rw [List.getElem?_append_left hh] at hs
            exact ih.alone h k o' hs
          · have hge : s.schemes.length ≤ h := by omega
            rw [List.getElem?_append_right hge] at hs
            have hz : h - s.schemes.length = 0 := by
              have := (List.getElem?_eq_some_iff.1 hs).1
              simp at this
              omega
            rw [hz] at hs
            simp only [List.getElem?_cons_zero, Option.some.injEq, Prod.mk.injEq] at hs
            obtain ⟨rfl, rfl⟩ := hs
            have hn : s.data.lookup s.next = none := lookup_keys.2 fun hh => Nat.lt_irrefl _ (ih.idsOld _ (ih.keysOf _ hh))
            have := ih.toCome h o (F h) hge
            have e : view s.next (s.make o) = ⟨s.pb, none⟩ := by simp [view, World.make, hn]
            rw [e]
            exact this
        · intro h o' f hl
          have hl : (s.schemes ++ [(s.next, o)]).length ≤ h := hl
          rw [List.length_append] at hl
          rw [asSeen_snoc, show seen h (.make o) = [] from rfl, List.append_nil]
          exact ih.toCome h o' f (by omega)
      | makeOther =>
        cases hc
        refine ⟨ih.ids, fun k hk => Nat.lt_succ_of_lt (ih.idsOld k hk), ih.keys, ih.keysOf, ?_, ?_⟩
        · intro h k o hs
          rw [asSeen_snoc, show seen h .makeOther = [] from rfl, List.append_nil]
          exact ih.alone h k o hs
        · intro h o f hl
          rw [asSeen_snoc, show seen h .makeOther = [] from rfl, List.append_nil]
          exact ih.toCome h o f hl
      | solve h =>
        rw [World.call, dropW_ok] at hc
        obtain ⟨b, hc⟩ := hc
        cases hs : s.schemes[h]? with
        | none => simp [World.solve, hs] at hc
        | some e =>
          obtain ⟨k, o⟩ := e
          obtain ⟨h1, h2⟩ := (solve_view (E := E) hs).1 s' b hc
          refine inv_solve ih hs h2 (.call _ _ _ _ (ih.alone h k o hs) trivial ?_)
          show drop _ = _
          rw [h1]; rfl
      | _ => cases hp

/-! ## Properties -/

/-- **C111.** After any calls, resolutions with several schemes included, the problem and the data of a scheme are what they would be
if this scheme were alone and the resolutions made with the others were updates of the problem. Resolutions with the other schemes may
throw: for a scheme whose own resolutions all return, this is a history without exceptions. -/
theorem C111_alone {E : Env} {F : Nat → Bool} {l : List WCall} {s : World} (hL : Life E F l s) {h k : Nat} {o : Opt}
    (hs : s.schemes[h]? = some (k, o)) : PB.Run (E.with o) (F h) (asSeen h l) (view k s) := (life_inv hL).alone h k o hs

/-- A resolution with a scheme does what it does with this scheme alone, and changes nothing in the data of the others. -/
theorem C111_solve {E : Env} {F : Nat → Bool} {l : List WCall} {s s' : World} {b : Bool} (hL : Life E F l s) {h k : Nat} {o : Opt}
    (hs : s.schemes[h]? = some (k, o)) (hr : s.solve E h = .ok s' b ∨ s.solve E h = .throw s') :
    ((s.solve E h = .ok s' b → (view k s).solve (E.with o) = .ok (view k s') b) ∧
      (s.solve E h = .throw s' → (view k s).solve (E.with o) = .throw (view k s'))) ∧
    ∀ h' k' o', h' ≠ h → s.schemes[h']? = some (k', o') → (view k' s').mem = (view k' s).mem := by
  obtain ⟨v1, v2, -⟩ := solve_view (E := E) hs
  refine ⟨⟨fun e => (v1 s' b e).1, fun e => (v2 s' e).1⟩, fun h' k' o' hh hs' => ?_⟩
  have hl : Left E k s s' := by
    rcases hr with hr | hr
    · exact (v1 s' b hr).2
    · exact (v2 s' hr).2
  apply hl.other
  rintro rfl
  have hlt : h < s.schemes.length := (List.getElem?_eq_some_iff.1 hs).1
  have h1 : (s.schemes.map (·.1))[h]? = some k' := by simp [hs]
  have h2 : (s.schemes.map (·.1))[h']? = some k' := by simp [hs']
  exact hh ((List.getElem?_inj (by simpa using hlt) (life_inv hL).ids).1 (h1.trans h2.symm)).symm

/-- When a resolution with a scheme returns, its solver is laid out for exactly the constraints of the tasks present that no
substitution uses, each in its role, with the additional constraints of the substitutions, whatever was done with the other schemes:
`C61_solver_layout` for each scheme. -/
theorem C111_layout {E : Env} {F : Nat → Bool} {l : List WCall} {s s' : World} {b : Bool} (hL : Life E F l s) {h k : Nat} {o : Opt}
    (hs : s.schemes[h]? = some (k, o)) (hF : F h = false) (hr : s.solve E h = .ok s' b) :
    ∃ (m : Mem) (X : List Cstr), s'.data.lookup k = some m ∧ m.queue = [] ∧ X.map (·.size) = E.extraSizes s'.pb.subs ∧
      (∀ c ∈ X, c.type = .equal) ∧
      Layout m.solver (fun c => Live (view k s') (ToConstraint E (view k s')) c ∨ c ∈ X) (Live (view k s') (ToBound E (view k s')))
        (Live (view k s') (ToObjective E)) (E.start (setOf m.vars)) ∧
      (∀ t, t ∈ s'.pb.tr ↔ Held l t) := by
  have hR := C111_alone hL hs
  rw [hF] at hR
  obtain ⟨m, X, h1, h2, h3, h4, h5, -, h7⟩ := C61_solver_layout hR ((solve_view (E := E) hs).1 s' b hr).1
  refine ⟨m, X, h1, h2, h3, h4, h5, fun t => ?_⟩
  have := h7 t
  rw [present_seen] at this
  exact this

/-- No assertion fails when the resolutions all return and the schemes have no automatic damping. -/
theorem C111_no_assertion {E : Env} {l : List WCall} {s : World} (hL : Life E (fun _ => false) l s)
    (ho : ∀ (h k : Nat) (o : Opt), s.schemes[h]? = some (k, o) → o.autoDamping = false) (c : WCall) (ha : Asked l s c) : s.call E c ≠ .ub := by
  have hi := life_inv hL
  cases hp : plain c with
  | some c' =>
    intro hu
    obtain ⟨k, hk, hv⟩ := plain_ub hi.keys ⟨.lssol, false, false, 0⟩ hp (by rintro i rfl; exact ha) hu
    obtain ⟨e, he, rfl⟩ := List.mem_map.1 (hi.keysOf k hk)
    obtain ⟨h, hh⟩ := List.mem_iff_getElem?.1 he
    refine C63_no_assertion (E := E.with e.2) (ho h e.1 e.2 hh) (hi.alone h e.1 e.2 hh) c' (allowed_plain hp ha h e.1) ?_
    cases c <;> cases hp <;> exact hv
  | none =>
    cases c with
    | make o => intro hu; cases hu
    | makeOther => intro hu; cases hu
    | solve h =>
      intro hu
      have hh : h < s.schemes.length := ha
      obtain ⟨⟨k, o⟩, he⟩ : ∃ x, s.schemes[h] = x := ⟨_, rfl⟩
      have hs : s.schemes[h]? = some (k, o) := by rw [List.getElem?_eq_getElem hh, he]
      have hv : s.solve E h = .ub := by
        have hu : dropW (s.solve E h) = .ub := hu
        cases hx : s.solve E h <;> rw [hx] at hu <;> first | rfl | cases hu
      have := (solve_view (E := E) hs).2.2 hv
      refine C63_no_assertion (E := E.with o) (ho h k o hs) (hi.alone h k o hs) .solve trivial ?_
      show drop _ = _
      rw [this]; rfl
    | _ => cases hp

/-! ## Concrete cases -/

def lss : Opt := ⟨.lssol, false, false, 1000⟩
def qld : Opt := ⟨.qld, true, false, 1000⟩

/-- Two schemes: the first one misses nothing of what happens before and after the construction of the other; a resolution with the
second one throws, because of a task of priority 2. -/
def exCalls : List WCall :=
  [.make lss, .makeOther, .addTask 0, .addTask 2, .solve 0, .make qld, .addTask 3, .solve 1, .addTask 9, .solve 1, .removeTask 9,
   .changeWeight 2 true]

theorem ex_life : ∃ s s' b, Life demo (fun h => h == 1) exCalls s ∧ s.schemes[0]? = some (0, lss) ∧ s.schemes[1]? = some (2, qld) ∧
    s.solve demo 0 = .ok s' b ∧ (∃ m, s'.data.lookup 0 = some m ∧ m.held.map (·.c.id) = [0, 1, 2]) ∧
    (∃ m, s'.data.lookup 2 = some m ∧ m.queue ≠ []) := by
  refine ⟨_, _, _, .call _ _ _ _ (.call _ _ _ _ (.failed _ _ _ 1 rfl (.call _ _ _ _ (.call _ _ _ _ (.call _ _ _ _ (.call _ _ _ _ (.call _ _ _ _
    (.call _ _ _ _ (.call _ _ _ _ (.call _ _ _ _ (.call [] _ _ _ .init ?_ rfl) ?_ rfl) ?_ rfl) ?_ rfl) ?_ rfl) ?_ rfl) ?_ rfl) ?_ rfl) ?_ rfl)
    rfl) ?_ rfl) ?_ rfl, rfl, rfl, rfl, ?_, ?_⟩
  · trivial
  · trivial
  · simp [Asked, Held, on]
  · simp [Asked, Held, on]
  · show (0 : Nat) < 1; decide
  · trivial
  · simp [Asked, Held, on]
  · show (1 : Nat) < 2; decide
  · simp [Asked, Held, on]
  · trivial
  · trivial
  · exact ⟨_, rfl, rfl⟩
  · exact ⟨_, rfl, by decide⟩

/-- The theorems for this history -/
example : ∃ s s' b, Life demo (fun h => h == 1) exCalls s ∧ s.solve demo 0 = .ok s' b ∧
    PB.Run (demo.with lss) false
      [.addTask 0, .addTask 2, .solve, .addTask 3, .update, .addTask 9, .update, .removeTask 9, .changeWeight 2 true] (view 0 s) ∧
    (view 0 s).solve (demo.with lss) = .ok (view 0 s') b ∧ (view 2 s').mem = (view 2 s).mem ∧ (∀ t, t ∈ s'.pb.tr ↔ Held exCalls t) := by
  obtain ⟨s, s', b, hL, h0, h1, hr, -, -⟩ := ex_life
  obtain ⟨-, -, -, -, -, -, -, h7⟩ := C111_layout hL h0 rfl hr
  obtain ⟨⟨h2, -⟩, h3⟩ := C111_solve hL h0 (Or.inl hr)
  exact ⟨s, s', b, hL, hr, C111_alone hL h0, h2 hr, h3 1 2 qld (by decide) h1, h7⟩

example : ∃ s, Life demo (fun _ => false) [.make lss, .addTask 0, .solve 0] s ∧ s.call demo (.solve 0) ≠ .ub := by
  have h : ∃ s, Life demo (fun _ => false) [.make lss, .addTask 0, .solve 0] s ∧ s.schemes = [(0, lss)] := by
    refine ⟨_, .call _ _ _ _ (.call _ _ _ _ (.call [] _ _ _ .init ?_ rfl) ?_ rfl) ?_ rfl, rfl⟩
    · trivial
    · simp [Asked, Held, on]
    · show (0 : Nat) < 1; decide
  obtain ⟨s, hL, e⟩ := h
  refine ⟨s, hL, C111_no_assertion hL ?_ _ (by show 0 < s.schemes.length; rw [e]; decide)⟩
  intro h k o hs
  rw [e] at hs
  have : h = 0 := by
    have := (List.getElem?_eq_some_iff.1 hs).1
    simp at this; exact this
  subst this
  simp only [List.getElem?_cons_zero, Option.some.injEq, Prod.mk.injEq] at hs
  rw [← hs.2]; rfl

end Verif.C111
