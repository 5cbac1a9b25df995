import Verif.Lemmas.WeightedLeastSquares5
/-!
# `solve` and sequences of calls
-/
set_option autoImplicit false
set_option linter.unusedSimpArgs false

namespace Verif.PB
open Verif.SE Verif.LS

theorem inv_nil {K P : Nat → Prop} (h : ∀ t, K t ↔ P t) : EQ.Inv K P [] := by
  refine ⟨fun t => ?_, by simp⟩
  by_cases hk : K t
  · exact .kept _ _ _ hk ((h t).1 hk) (by simp [EQ.about])
  · exact .absent _ _ hk (fun hp => hk ((h t).2 hp))

theorem Sync.finalize {E : Env} {p : Problem} {m : Mem} {X : List Cstr} (h : Sync E p m X) (hp : PInv E p) :
    Sync E (p.finalize E) m X := by
  obtain ⟨_, _, h3, h4, h5, h6, _⟩ := hp.finalize
  have := h.change (p' := p.finalize E) m.queue h5 h6 (by rw [h4]; exact h.xCons) (by rw [h4]; exact h.cross)
    (by rw [h4]; exact h.same) (by rw [h4]; exact h.fresh) h.gone
  exact this

theorem SInv.finalize {E : Env} {s : State} (h : SInv E s) : SInv E ⟨s.pb.finalize E, s.mem⟩ := by
  obtain ⟨h1, _, h3, h4, h5, h6, _⟩ := h.pb.finalize
  refine ⟨h1, fun m hm => ?_, fun m hm hs => ?_⟩
  · simp only [h3]; exact h.queue m hm
  · obtain ⟨X, hX⟩ := h.sync m hm hs
    exact ⟨X, hX.finalize h.pb⟩

/-- The data of the scheme are up to date. -/
structure UpToDate (E : Env) (p : Problem) (m : Mem) (X : List Cstr) : Prop where
  sync : Sync E p m X
  queue : m.queue = []
  map : ∀ t, get m.map t = get p.cons t

theorem UpToDate.inv {E : Env} {p : Problem} {m : Mem} {X : List Cstr} (h : UpToDate E p m X) (hp : PInv E p) :
    SInv E ⟨p, some m⟩ := by
  refine ⟨hp, fun m' hm' => ?_, fun m' hm' _ => ?_⟩
  · injection hm' with hm'
    subst hm'
    rw [h.queue]
    exact inv_nil fun t => by rw [← hp.keys, ← get_isSome, ← get_isSome, h.map]
  · injection hm' with hm'
    subst hm'
    exact ⟨X, h.sync⟩

theorem build_upToDate {E : Env} {p : Problem} (hp : PInv E p) (hf : p.finalized = true) {m : Mem}
    (h : processProblem E p (Mem.new E) = .ok m ()) : UpToDate E p m p.extra := by
  have h1 := processProblem_sync hp hf h
  obtain ⟨_, _, h2⟩ := processProblem_ok hp h
  exact ⟨h1, by rw [h2], by rw [h2]; exact fun _ => rfl⟩

/-- The three ways `updateComputationData_` goes. -/
theorem update_ok {E : Env} {p : Problem} {m m' : Mem} (h : SInv E ⟨p, some m⟩) (hf : p.finalized = true)
    (hu : updateData E p m = .ok m' ()) :
    (m.queue.any isSubEvent = true ∧ processProblem E p (Mem.new E) = .ok m' () ∧ UpToDate E p m' p.extra) ∨
    (m.queue.any isSubEvent = false ∧ m.queue = [] ∧ m' = m ∧ ∃ X, Sync E p m X ∧ UpToDate E p m' X) ∨
    (m.queue.any isSubEvent = false ∧ m.queue ≠ [] ∧ ∃ X ops m1, Sync E p m X ∧ handle E p m.queue m = .ok m1 ops ∧
      Handled E p X m m1 ops ∧ m1.applyBatch E p (run {} ops) = .ok m' () ∧ UpToDate E p m' X ∧ m'.maxp = m.maxp ∧
      (∀ x ∈ m'.held, x ∈ m.held ∨ x.gen = p.gen)) := by
  simp only [updateData] at hu
  have hq := h.queue m rfl
  by_cases he : m.queue = []
  · have hs : m.queue.any isSubEvent = false := by rw [he]; rfl
    simp only [he, List.isEmpty_nil, if_true] at hu
    injection hu with hu
    subst hu
    obtain ⟨X, hX⟩ := h.sync m rfl hs
    refine Or.inr (Or.inl ⟨hs, he, rfl, X, hX, hX, he, fun t => ?_⟩)
    by_cases ht : t ∈ keysOf p.cons
    · exact hX.same t ht (by simp [he])
    · have h1 : t ∉ keysOf m.map := by
        rw [he] at hq
        intro hk
        have := (hq.legal.2 t).1 hk
        exact ht ((h.pb.keys t).2 this)
      rw [(get_none _ _).2 ht, (get_none _ _).2 h1]
  · have he' : m.queue.isEmpty = false := by cases hh : m.queue <;> simp_all
    simp only [he', Bool.false_eq_true, if_false] at hu
    cases hs : m.queue.any isSubEvent with
    | true =>
      simp only [hs, if_true] at hu
      exact Or.inl ⟨rfl, hu, build_upToDate h.pb hf hu⟩
    | false =>
      simp only [hs, Bool.false_eq_true, if_false] at hu
      obtain ⟨X, hX⟩ := h.sync m rfl hs
      have hr := hX.ready hq h.pb.keys hs
      cases hh : handle E p m.queue m with
      | ub => simp only [hh] at hu; simp at hu
      | throw m1 => simp only [hh] at hu; simp at hu
      | ok m1 ops =>
        simp only [hh] at hu
        obtain ⟨g1, g2, g3⟩ := handle_spec h.pb.inj hX.xCons m.queue m m1 ops hr hh (Or.inl he)
        obtain ⟨b1, b2, b3, b4, b5, b6⟩ := batch_sync h.pb hX g1 g2 g3 hu
        refine Or.inr (Or.inr ⟨rfl, he, X, ops, m1, hX, rfl, g1, hu, ⟨b1, b2, fun t => ?_⟩, b4, b6⟩)
        rw [b3]
        by_cases ht : t ∈ keysOf m1.map
        · exact g2.same t ht (by simp)
        · have h1 : t ∉ keysOf p.cons := fun hh => ht ((g2.final t).2 hh)
          rw [(get_none _ _).2 ht, (get_none _ _).2 h1]

theorem update_upToDate {E : Env} {p : Problem} {m m' : Mem} (h : SInv E ⟨p, some m⟩) (hf : p.finalized = true)
    (hu : updateData E p m = .ok m' ()) : ∃ X, UpToDate E p m' X := by
  rcases update_ok h hf hu with ⟨_, _, h⟩ | ⟨_, _, _, X, _, h⟩ | ⟨_, _, X, _, _, _, _, _, _, h, _⟩
  · exact ⟨_, h⟩
  · exact ⟨_, h⟩
  · exact ⟨_, h⟩

theorem finalize_idem {E : Env} {p : Problem} (h : p.finalized = true) : p.finalize E = p := by
  simp [Problem.finalize, h]

/-- `solve`, when it returns. -/
theorem solve_ok {E : Env} {s s' : State} {b : Bool} (h : SInv E s) (hs : s.solve E = .ok s' b) :
    s'.pb = s.pb.finalize E ∧ ∃ m X, s'.mem = some m ∧ UpToDate E s'.pb m X ∧
    ((s.mem = none ∧ processProblem E s'.pb (Mem.new E) = .ok m ()) ∨
      ∃ m0, s.mem = some m0 ∧ updateData E s'.pb m0 = .ok m ()) := by
  obtain ⟨f1, f2, _⟩ := h.pb.finalize
  simp only [State.solve, State.getData] at hs
  cases hm : s.mem with
  | none =>
    simp only [hm] at hs
    cases hp : processProblem E (s.pb.finalize E) (Mem.new E) with
    | ub => simp only [hp] at hs; simp at hs
    | throw m1 => simp only [hp] at hs; simp at hs
    | ok m u =>
      have hup := build_upToDate f1 f2 hp
      simp only [hp, finalize_idem f2] at hs
      have : updateData E (s.pb.finalize E) m = .ok m () := by simp [updateData, hup.queue]
      simp only [this] at hs
      injection hs with hs _
      subst hs
      exact ⟨rfl, m, _, rfl, hup, Or.inl ⟨rfl, hp⟩⟩
  | some m0 =>
    simp only [hm] at hs
    have hi : SInv E ⟨s.pb.finalize E, some m0⟩ := by rw [← hm]; exact h.finalize
    cases hu : updateData E (s.pb.finalize E) m0 with
    | ub => simp only [hu] at hs; simp at hs
    | throw m1 => simp only [hu] at hs; simp at hs
    | ok m u =>
      simp only [hu] at hs
      injection hs with hs _
      subst hs
      obtain ⟨X, hX⟩ := update_upToDate hi f2 hu
      exact ⟨rfl, m, X, rfl, hX, Or.inr ⟨m0, rfl, hu⟩⟩

theorem solve_inv {E : Env} {s s' : State} {b : Bool} (h : SInv E s) (hs : s.solve E = .ok s' b) : SInv E s' := by
  obtain ⟨h1, m, X, h2, h3, _⟩ := solve_ok h hs
  have hp : PInv E s'.pb := by rw [h1]; exact h.pb.finalize.1
  have := h3.inv hp
  rw [← h2] at this
  exact this

theorem drop_ok {α : Type} {o : Outcome State α} {s : State} : drop o = .ok s () ↔ ∃ a, o = .ok s a := by
  cases o <;> simp [drop]

theorem call_inv {E : Env} {s s' : State} (h : SInv E s) (c : Call) (hl : LegalCall s c) (hc : s.call E c = .ok s' ()) :
    SInv E s' := by
  cases c with
  | addTask t =>
    obtain ⟨s1, h1, h2⟩ := addTask_inv h t hl
    simp only [State.call, h1] at hc; injection hc with hc; rw [← hc]; exact h2
  | removeTask t => exact removeTask_inv h t hc
  | addSub x =>
    obtain ⟨s1, h1, h2⟩ := addSub_inv h x hl
    simp only [State.call, h1] at hc; injection hc with hc; rw [← hc]; exact h2
  | removeSub i =>
    obtain ⟨s1, h1, h2, _⟩ := removeStored_inv h i
    have hl : i < s.pb.subs.length := hl
    simp only [State.call, h1, if_pos hl] at hc; injection hc with hc; rw [← hc]; exact h2
  | removeForeignSub =>
    obtain ⟨s1, h1, h2⟩ := removeForeign_inv h
    simp only [State.call, h1] at hc; injection hc with hc; rw [← hc]; exact h2
  | changeWeight t b =>
    obtain ⟨s1, h1, h2⟩ := changeWeight_inv h t b
    simp only [State.call, h1] at hc; injection hc with hc; rw [← hc]; exact h2
  | update =>
    simp only [State.call, State.update] at hc; injection hc with hc; rw [← hc]; exact h.finalize
  | solve =>
    simp only [State.call] at hc
    obtain ⟨b, hb⟩ := drop_ok.1 hc
    exact solve_inv h hb

theorem solve_not_ub {E : Env} {s : State} (h : SInv E s) (ha : E.autoDamping = false) : s.solve E ≠ .ub := by
  obtain ⟨f1, f2, _⟩ := h.pb.finalize
  simp only [State.solve, State.getData]
  cases hm : s.mem with
  | none =>
    have hn := processProblem_not_ub f1 (Or.inl ha)
    cases hp : processProblem E (s.pb.finalize E) (Mem.new E) with
    | ub => exact absurd hp hn
    | throw m1 => simp
    | ok m u =>
      have hup := build_upToDate f1 f2 hp
      simp [finalize_idem f2, updateData, hup.queue]
  | some m0 =>
    have hi : SInv E ⟨s.pb.finalize E, some m0⟩ := by rw [← hm]; exact h.finalize
    have key : updateData E (s.pb.finalize E) m0 ≠ .ub := by
      simp only [updateData]
      split
      · simp
      · split
        · exact processProblem_not_ub f1 (Or.inl ha)
        · next h1 h2 =>
          simp only [Bool.not_eq_true] at h2
          obtain ⟨X, hX⟩ := hi.sync m0 rfl h2
          have hr := hX.ready (hi.queue m0 rfl) hi.pb.keys h2
          have hn := handle_not_ub hi.pb.inj hX.xCons m0.queue m0 hr
          cases hh : handle E (s.pb.finalize E) m0.queue m0 with
          | ub => exact absurd hh hn
          | throw m1 => simp
          | ok m1 ops =>
            simp only
            obtain ⟨g1, _, _⟩ := handle_spec hi.pb.inj hX.xCons m0.queue m0 m1 ops hr hh
              (Or.inl (by rintro hh; rw [hh] at h1; simp at h1))
            exact batch_not_ub hX g1
    simp only
    cases hu : updateData E (s.pb.finalize E) m0 with
    | ub => exact absurd hu key
    | throw m1 => simp
    | ok m u => simp

theorem call_not_ub {E : Env} {s : State} (h : SInv E s) (ha : E.autoDamping = false) (c : Call) (hl : LegalCall s c) :
    s.call E c ≠ .ub := by
  cases c with
  | addTask t =>
    obtain ⟨s1, h1, h2⟩ := addTask_inv h t hl
    simp [State.call, h1]
  | removeTask t => exact removeTask_not_ub h t
  | addSub x =>
    obtain ⟨s1, h1, h2⟩ := addSub_inv h x hl
    simp [State.call, h1]
  | removeSub i =>
    obtain ⟨s1, h1, h2, _⟩ := removeStored_inv h i
    have hl : i < s.pb.subs.length := hl
    simp [State.call, h1, hl]
  | removeForeignSub =>
    obtain ⟨s1, h1, h2⟩ := removeForeign_inv h
    simp [State.call, h1]
  | changeWeight t b =>
    obtain ⟨s1, h1, h2⟩ := changeWeight_inv h t b
    simp [State.call, h1]
  | update => simp [State.call, State.update]
  | solve =>
    intro hc
    have := solve_not_ub h ha
    simp only [State.call] at hc
    cases hh : s.solve E <;> simp_all [drop]

end Verif.PB
