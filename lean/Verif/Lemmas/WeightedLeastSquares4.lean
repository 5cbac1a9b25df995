import Verif.Lemmas.WeightedLeastSquares3
/-!
# Invariant of a problem together with the data of the scheme
-/
set_option autoImplicit false
set_option linter.unusedSimpArgs false

namespace Verif.PB
open Verif.SE Verif.LS

/-- The data of the scheme agree with the problem, up to the events in the queue. `X` are the additional constraints at the
last build. -/
structure Sync (E : Env) (p : Problem) (m : Mem) (X : List Cstr) : Prop where
  keysNodup : (keysOf m.map).Nodup
  inj : ∀ t u c, get m.map t = some c → get m.map u = some c → t = u
  old : ∀ t c, get m.map t = some c → c.id < p.nextC
  xOld : ∀ c ∈ X, c.id < p.nextC ∧ c.type = .equal
  xMap : ∀ c ∈ X, ∀ t, get m.map t ≠ some c
  xCons : ∀ c ∈ X, ∀ t, get p.cons t ≠ some c
  cross : ∀ t u c, get m.map t = some c → get p.cons u = some c → t = u
  xSizes : X.map (·.size) = E.extraSizes p.subs
  same : ∀ t, t ∈ keysOf p.cons → (⟨.taskAddition, .task t⟩ : EQ.Event) ∉ m.queue → get m.map t = get p.cons t
  fresh : ∀ t c, (⟨.taskAddition, .task t⟩ : EQ.Event) ∈ m.queue → get p.cons t = some c →
    (∀ u, get m.map u ≠ some c) ∧ uses p.subs c = false
  gone : ∀ t c, (⟨.taskRemoval, .task t⟩ : EQ.Event) ∈ m.queue → get m.map t = some c → uses p.subs c = false
  reach : Reach E.kind E.cholesky (fun _ _ _ _ _ => True) m.solver (CSet E p X .cstr m.map) (CSet E p X .bnd m.map)
    (CSet E p X .obj m.map) (E.total (setOf m.vars)) (E.start (setOf m.vars))
  held : ∀ c, (∃ h ∈ m.held, h.c = c) ↔ ∃ k, CSet E p X k m.map c
  weight : ∀ h ∈ m.held, CSet E p X .obj m.map h.c → h.weight = E.scalarizationWeight ^ ((m.maxp : Int) - 1)
  count : (∀ S t, E.zs S t = []) → ∀ v, m.vars.count v = occ E p m.map v
  acc : ∀ t c, get m.map t = some c → uses p.subs c = false → accepted E t = true
  maxp : m.maxp ≤ 1

/-- Invariant of the state. -/
structure SInv (E : Env) (s : State) : Prop where
  pb : PInv E s.pb
  queue : ∀ m, s.mem = some m → EQ.Inv (· ∈ keysOf m.map) (· ∈ s.pb.tr) m.queue
  sync : ∀ m, s.mem = some m → m.queue.any isSubEvent = false → ∃ X, Sync E s.pb m X

/-! ## The queue -/

theorem inv_typed_sub {K P : Nat → Prop} {q : List EQ.Event} (h : EQ.Inv K P q) :
    q.any isSubEvent = false ↔ q.filter (fun e => match e.emitter with | .subs _ => true | .task _ => false) = [] := by
  rw [List.filter_eq_nil_iff, List.any_eq_false]
  constructor
  · intro hh e he
    have h1 := h.typed e he
    have h2 := hh e he
    obtain ⟨ty, em⟩ := e
    cases em with
    | task t => simp
    | subs s =>
      simp only [EQ.Typed] at h1
      rcases h1 with rfl | rfl <;> simp [isSubEvent] at h2
  · intro hh e he
    have h1 := h.typed e he
    have h2 := hh e he
    obtain ⟨ty, em⟩ := e
    cases em with
    | task t =>
      simp only [EQ.Typed] at h1
      simp [isSubEvent, h1]
    | subs s => simp at h2

theorem mem_about {q : List EQ.Event} {t : Nat} {ty : EQ.EvType} :
    (⟨ty, .task t⟩ : EQ.Event) ∈ q ↔ (⟨ty, .task t⟩ : EQ.Event) ∈ EQ.about t q := by
  simp [EQ.about, List.mem_filter]

/-- Consequences of the shape of the queue. -/
theorem shape_facts {K P : Nat → Prop} {q : List EQ.Event} (h : EQ.Inv K P q) (t : Nat) :
    ((⟨.taskAddition, .task t⟩ : EQ.Event) ∈ q → P t) ∧
    (K t → (⟨.taskRemoval, .task t⟩ : EQ.Event) ∉ q → P t ∧ (⟨.taskAddition, .task t⟩ : EQ.Event) ∉ q) ∧
    (K t → (⟨.taskAddition, .task t⟩ : EQ.Event) ∉ q → (⟨.taskRemoval, .task t⟩ : EQ.Event) ∉ q → P t) ∧
    (K t → (⟨.taskAddition, .task t⟩ : EQ.Event) ∈ q → (⟨.taskRemoval, .task t⟩ : EQ.Event) ∈ q) ∧
    (¬ P t → (⟨.taskAddition, .task t⟩ : EQ.Event) ∉ q) ∧
    (P t → (⟨.taskAddition, .task t⟩ : EQ.Event) ∉ q → K t) := by
  have hs := h.shape t
  simp only [mem_about (q := q)]
  have hw : ∀ ws : List EQ.Event, (∀ e ∈ ws, e.isWeight = true) → (⟨.taskAddition, .task t⟩ : EQ.Event) ∉ ws ∧
      (⟨.taskRemoval, .task t⟩ : EQ.Event) ∉ ws := by
    intro ws hw
    exact ⟨fun hh => by have := hw _ hh; simp [EQ.Event.isWeight] at this, fun hh => by have := hw _ hh; simp [EQ.Event.isWeight] at this⟩
  generalize EQ.about t q = l at hs
  cases hs with
  | kept _ hk hp hww => obtain ⟨a, b⟩ := hw l hww; simp [hk, hp, a, b]
  | replaced ws hk hp hww => simp [hk, hp]
  | removed hk hp => simp [hk, hp]
  | added ws hk hp hww => simp [hk, hp]
  | absent hk hp => simp [hk, hp]

theorem addLast_of_about : ∀ (q : List EQ.Event), (∀ t, AddLast (EQ.about t q)) → AddLast q := by
  intro q
  induction q with
  | nil => intro _; trivial
  | cons e q ih =>
    intro h
    refine ⟨fun t ht => ?_, ih fun t => ?_⟩
    · subst ht
      have := h t
      rw [EQ.about, List.filter_cons, if_pos (by simp)] at this
      have := this.1 t rfl
      exact ⟨fun hh => this.1 (mem_about.1 hh), fun hh => this.2 (mem_about.1 hh)⟩
    · have := h t
      rw [EQ.about, List.filter_cons] at this
      split at this
      · exact this.2
      · exact this

theorem addLast_of_inv {K P : Nat → Prop} {q : List EQ.Event} (h : EQ.Inv K P q) : AddLast q := by
  apply addLast_of_about
  intro t
  have hs := h.shape t
  have hw : ∀ ws : List EQ.Event, (∀ e ∈ ws, e.isWeight = true) → AddLast ws ∧ (⟨.taskAddition, .task t⟩ : EQ.Event) ∉ ws ∧
      (⟨.taskRemoval, .task t⟩ : EQ.Event) ∉ ws := by
    intro ws hw
    refine ⟨?_, fun hh => by have := hw _ hh; simp [EQ.Event.isWeight] at this,
      fun hh => by have := hw _ hh; simp [EQ.Event.isWeight] at this⟩
    clear hs
    induction ws with
    | nil => trivial
    | cons e ws ih =>
      refine ⟨fun u hu => ?_, ih fun e he => hw e (List.mem_cons_of_mem _ he)⟩
      subst hu
      have := hw _ (List.mem_cons_self ..)
      simp [EQ.Event.isWeight] at this
  generalize EQ.about t q = l at hs
  cases hs with
  | kept _ hk hp hww => exact (hw l hww).1
  | replaced ws hk hp hww =>
    obtain ⟨a, b, c⟩ := hw ws hww
    refine ⟨fun u hu => by simp at hu, fun u hu => ?_, a⟩
    injection hu with _ hu
    injection hu with hu
    subst hu
    exact ⟨b, c⟩
  | removed hk hp => exact ⟨fun u hu => by simp at hu, trivial⟩
  | added ws hk hp hww =>
    obtain ⟨a, b, c⟩ := hw ws hww
    refine ⟨fun u hu => ?_, a⟩
    injection hu with _ hu
    injection hu with hu
    subst hu
    exact ⟨b, c⟩
  | absent hk hp => trivial

/-- The events can be handled. -/
theorem Sync.ready {E : Env} {p : Problem} {m : Mem} {X : List Cstr} (h : Sync E p m X)
    (hq : EQ.Inv (· ∈ keysOf m.map) (· ∈ p.tr) m.queue) (hk : ∀ t, t ∈ keysOf p.cons ↔ t ∈ p.tr)
    (hn : m.queue.any isSubEvent = false) : Ready E p X m m.queue := by
  refine ⟨h.keysNodup, h.inj, h.xMap, hq.legal.1, fun t => ?_, addLast_of_inv hq, fun t ht hr => ?_, h.fresh, h.gone, ?_⟩
  · rw [hq.legal.2 t, hk]
  · obtain ⟨_, h2, _⟩ := shape_facts hq t
    obtain ⟨g1, g2⟩ := h2 ht hr
    exact h.same t ((hk t).2 g1) g2
  · intro e he
    simpa using List.any_eq_false.1 hn e he

/-! ## The calls other than `solve` -/

/-- A change of the problem that keeps the substitutions, with a new queue. -/
theorem Sync.change {E : Env} {p p' : Problem} {m : Mem} {X : List Cstr} (h : Sync E p m X) (q' : List EQ.Event)
    (hs : p'.subs = p.subs) (hc : p.nextC ≤ p'.nextC) (hx : ∀ c ∈ X, ∀ t, get p'.cons t ≠ some c)
    (hcross : ∀ t u c, get m.map t = some c → get p'.cons u = some c → t = u)
    (hsame : ∀ t, t ∈ keysOf p'.cons → (⟨.taskAddition, .task t⟩ : EQ.Event) ∉ q' → get m.map t = get p'.cons t)
    (hfresh : ∀ t c, (⟨.taskAddition, .task t⟩ : EQ.Event) ∈ q' → get p'.cons t = some c →
      (∀ u, get m.map u ≠ some c) ∧ uses p.subs c = false)
    (hgone : ∀ t c, (⟨.taskRemoval, .task t⟩ : EQ.Event) ∈ q' → get m.map t = some c → uses p.subs c = false) :
    Sync E p' { m with queue := q' } X := by
  have hcat : ∀ t, catOf E p' t = catOf E p t := fun t => by simp only [catOf, hs]
  have hset : ∀ k, CSet E p' X k m.map = CSet E p X k m.map := fun k => by
    funext c
    simp only [CSet, CatSet, hs, hcat]
  have hocc : ∀ v, occ E p' m.map v = occ E p m.map v := fun v => by simp only [occ, hs]
  refine ⟨h.keysNodup, h.inj, fun t c ht => Nat.lt_of_lt_of_le (h.old t c ht) hc,
    fun c hx => ⟨Nat.lt_of_lt_of_le (h.xOld c hx).1 hc, (h.xOld c hx).2⟩, h.xMap, hx, hcross, by rw [hs]; exact h.xSizes, hsame,
    fun t c => by rw [hs]; exact hfresh t c, fun t c => by rw [hs]; exact hgone t c, ?_, ?_, ?_, ?_,
    fun t c => by rw [hs]; exact h.acc t c, h.maxp⟩
  · simp only [hset]; exact h.reach
  · simp only [hset]; exact h.held
  · simp only [hset]; exact h.weight
  · intro hz v; rw [hocc]; exact h.count hz v

theorem stepSet_other_eq (S : Nat → Prop) (e : EQ.Event) (h1 : ∀ t, e ≠ ⟨.taskAddition, .task t⟩)
    (h2 : ∀ t, e ≠ ⟨.taskRemoval, .task t⟩) : EQ.stepSet S e = S := by
  funext t
  simp [EQ.stepSet, h1, h2]

theorem SInv.init (E : Env) : SInv E {} := ⟨PInv.empty E, by simp, by simp⟩

theorem notify_some {m : Mem} {e : EQ.Event} {mem : Option Mem} (h : notify (some m) e = some mem) :
    ∃ q, EQ.addEvent m.queue e = some q ∧ mem = some { m with queue := q } := by
  simp only [notify] at h
  cases hq : EQ.addEvent m.queue e with
  | none => rw [hq] at h; simp at h
  | some q => rw [hq] at h; simp only at h; injection h with h; exact ⟨q, rfl, h.symm⟩

/-- `notify` does not fail on legal events, and keeps the shape of the queue. -/
theorem notify_legal {E : Env} {s : State} (h : SInv E s) (e : EQ.Event) (he : EQ.LegalEvent (· ∈ s.pb.tr) e) :
    ∃ mem, notify s.mem e = some mem ∧ ∀ m', mem = some m' → ∃ m q, s.mem = some m ∧ EQ.addEvent m.queue e = some q ∧
      m' = { m with queue := q } ∧ EQ.Inv (· ∈ keysOf m.map) (EQ.stepSet (· ∈ s.pb.tr) e) q ∧
      (q.any isSubEvent = false → m.queue.any isSubEvent = false ∧ isSubEvent e = false) := by
  cases hm : s.mem with
  | none => exact ⟨none, rfl, by simp⟩
  | some m =>
    obtain ⟨q, h1, h2, h3, _, h5⟩ := EQ.addEvent_step (h.queue m hm) e he
    refine ⟨some { m with queue := q }, by simp only [notify, h1], ?_⟩
    rintro m' rfl'
    injection rfl' with e'
    refine ⟨m, q, rfl, h1, e'.symm, h2, fun hs => ?_⟩
    have h6 := h5 (fun e => match e.emitter with | .subs _ => true | .task _ => false) (fun _ _ => rfl)
    have h7 := (inv_typed_sub h2).1 hs
    rw [h7, List.filter_append] at h6
    obtain ⟨h8, h9⟩ := List.append_eq_nil_iff.1 h6.symm
    refine ⟨(inv_typed_sub (h.queue m hm)).2 h8, ?_⟩
    have ht := he.typed
    obtain ⟨ty, em⟩ := e
    cases em with
    | task t => simp only [EQ.Typed] at ht; simp [isSubEvent, ht]
    | subs i => simp at h9

theorem addTask_inv {E : Env} {s : State} (h : SInv E s) (t : Nat) (ht : t ∉ s.pb.tr) :
    ∃ s', s.addTask E t = .ok s' () ∧ SInv E s' := by
  obtain ⟨mem, h1, h2⟩ := notify_legal h ⟨.taskAddition, .task t⟩ (Or.inl ⟨rfl, ht⟩)
  simp only [State.addTask, h1]
  refine ⟨_, rfl, h.pb.add t ht, fun m' hm' => ?_, fun m' hm' hs => ?_⟩
  · obtain ⟨m, q, hm, hq, rfl, hi, _⟩ := h2 m' hm'
    have : (fun u => u ∈ s.pb.tr ++ [t]) = EQ.stepSet (· ∈ s.pb.tr) ⟨.taskAddition, .task t⟩ := by
      funext u
      apply propext
      by_cases hu : u = t
      · simp [EQ.stepSet, hu]
      · have : t ≠ u := fun h => hu h.symm
        simp [EQ.stepSet, hu, this]
    simp only [this]
    exact hi
  · obtain ⟨m, q, hm, hq, rfl, hi, hsub⟩ := h2 m' hm'
    obtain ⟨X, hX⟩ := h.sync m hm (hsub hs).1
    have hq' : q = m.queue ++ [⟨.taskAddition, .task t⟩] := by simp [EQ.addEvent] at hq; exact hq.symm
    have hnew : ∀ c : Cstr, c.id < s.pb.nextC → c ≠ ⟨s.pb.nextC, (E.task t).size, (E.task t).type⟩ := by
      rintro c hc rfl; simp at hc
    refine ⟨X, hX.change q rfl (Nat.le_succ _) ?_ ?_ ?_ ?_ ?_⟩
    · intro c hc u hu
      simp only [get_put] at hu
      split at hu
      · injection hu with hu; exact hnew c (hX.xOld c hc).1 hu.symm
      · exact hX.xCons c hc u hu
    · intro u w c hu hw
      simp only [get_put] at hw
      split at hw
      · injection hw with hw; exact absurd hw.symm (hnew c (hX.old u c hu))
      · exact hX.cross u w c hu hw
    · intro u hu ha
      rw [hq'] at ha
      simp only [List.mem_append, List.mem_singleton, not_or] at ha
      have hut : u ≠ t := fun hh => ha.2 (by rw [hh])
      simp only [get_put, if_neg hut]
      refine hX.same u ?_ ha.1
      have := hu
      simp only [← get_isSome, get_put, if_neg hut] at this ⊢
      exact this
    · intro u c ha hu
      rw [hq'] at ha
      simp only [get_put] at hu
      split at hu
      · injection hu with hu
        refine ⟨fun w hw => hnew c (hX.old w c hw) hu.symm, ?_⟩
        cases hh : uses s.pb.subs c with
        | false => rfl
        | true =>
          obtain ⟨x, hx, hc⟩ := (uses_iff _ _).1 hh
          exact absurd hu.symm (hnew c (h.pb.subsOld x hx c hc))
      · next hut =>
        refine hX.fresh u c ?_ hu
        simpa [hut] using ha
    · intro u c hr hu
      rw [hq'] at hr
      refine hX.gone u c ?_ hu
      simpa using hr

/-- Events about substitutions. -/
theorem subEvent_inv {E : Env} {s : State} (h : SInv E s) (ty : EQ.EvType) (i : Nat)
    (hty : ty = .substitutionAddition ∨ ty = .substitutionRemoval) (p' : Problem) (hp : PInv E p') (htr : p'.tr = s.pb.tr) :
    ∃ mem, notify s.mem ⟨ty, .subs i⟩ = some mem ∧ SInv E ⟨p', mem⟩ := by
  obtain ⟨mem, h1, h2⟩ := notify_legal h ⟨ty, .subs i⟩ hty
  have hst : EQ.stepSet (· ∈ s.pb.tr) ⟨ty, .subs i⟩ = (· ∈ s.pb.tr) :=
    stepSet_other_eq _ _ (fun t hh => by simp at hh) (fun t hh => by simp at hh)
  refine ⟨mem, h1, hp, fun m' hm' => ?_, fun m' hm' hs => ?_⟩
  · obtain ⟨m, q, hm, hq, rfl, hi, _⟩ := h2 m' hm'
    rw [hst] at hi
    simp only [htr]; exact hi
  · obtain ⟨m, q, hm, hq, rfl, hi, hsub⟩ := h2 m' hm'
    have := (hsub hs).2
    rcases hty with rfl | rfl <;> simp [isSubEvent] at this

theorem removeStored_inv {E : Env} {s : State} (h : SInv E s) (i : Nat) :
    ∃ s', s.removeStored i = .ok s' () ∧ SInv E s' ∧ s'.pb.cons = s.pb.cons ∧ s'.pb.tr = s.pb.tr := by
  obtain ⟨mem, h1, h2⟩ := subEvent_inv h .substitutionRemoval i (Or.inr rfl)
    { s.pb with subs := s.pb.subs.eraseIdx i, finalized := false }
    (h.pb.subs _ fun x hx => h.pb.subsOld x (List.mem_of_mem_eraseIdx hx)) rfl
  exact ⟨_, by simp only [State.removeStored, h1], h2, rfl, rfl⟩

theorem addSub_inv {E : Env} {s : State} (h : SInv E s) (x : Sub) (hx : ∀ c ∈ x.cstrs, c.id < s.pb.nextC) :
    ∃ s', s.addSub x = .ok s' () ∧ SInv E s' := by
  obtain ⟨mem, h1, h2⟩ := subEvent_inv h .substitutionAddition s.pb.subs.length (Or.inl rfl)
    { s.pb with subs := s.pb.subs ++ [x], finalized := false }
    (h.pb.subs _ fun y hy => by
      rcases List.mem_append.1 hy with hy | hy
      · exact h.pb.subsOld y hy
      · simp only [List.mem_singleton] at hy; rw [hy]; exact hx) rfl
  exact ⟨_, by simp only [State.addSub, h1], h2⟩

theorem removeForeign_inv {E : Env} {s : State} (h : SInv E s) : ∃ s', s.removeForeign = .ok s' () ∧ SInv E s' := by
  obtain ⟨mem, h1, h2⟩ := subEvent_inv h .substitutionRemoval 0 (Or.inr rfl)
    { s.pb with finalized := false } (h.pb.subs s.pb.subs h.pb.subsOld) rfl
  exact ⟨_, by simp only [State.removeForeign, h1], h2⟩

theorem changeWeight_inv {E : Env} {s : State} (h : SInv E s) (t : Nat) (b : Bool) :
    ∃ s', s.changeWeight t b = .ok s' () ∧ SInv E s' := by
  simp only [State.changeWeight]
  by_cases ht : t ∈ s.pb.toks
  · rw [if_pos ht]
    have htr := (h.pb.toks t).1 ht
    generalize hty : (if b = true then EQ.EvType.weightChange else EQ.EvType.anisotropicWeightChange) = ty
    have hw : (⟨ty, .task t⟩ : EQ.Event).isWeight = true := by cases b <;> simp at hty <;> subst hty <;> rfl
    obtain ⟨n1, n2⟩ := EQ.weight_facts hw
    have ha : ∀ u, (⟨ty, .task t⟩ : EQ.Event) ≠ ⟨.taskAddition, .task u⟩ := fun u hh => n1 (by rw [hh])
    have hr : ∀ u, (⟨ty, .task t⟩ : EQ.Event) ≠ ⟨.taskRemoval, .task u⟩ := fun u hh => n2 (by rw [hh])
    obtain ⟨mem, h1, h2⟩ := notify_legal h ⟨ty, .task t⟩ (Or.inr (Or.inr ⟨hw, htr⟩))
    simp only [h1]
    refine ⟨_, rfl, h.pb, fun m' hm' => ?_, fun m' hm' hs => ?_⟩
    · obtain ⟨m, q, hm, hq, rfl, hi, _⟩ := h2 m' hm'
      rw [stepSet_other_eq _ _ ha hr] at hi
      exact hi
    · obtain ⟨m, q, hm, hq, rfl, hi, hsub⟩ := h2 m' hm'
      obtain ⟨X, hX⟩ := h.sync m hm (hsub hs).1
      have hq' : q = m.queue ++ [⟨ty, .task t⟩] := by
        simp only [EQ.addEvent, if_neg n2] at hq; injection hq with hq; exact hq.symm
      have e1 : ∀ u, (⟨.taskAddition, .task u⟩ : EQ.Event) ∈ q ↔ (⟨.taskAddition, .task u⟩ : EQ.Event) ∈ m.queue := by
        intro u; rw [hq']; simp [(ha u).symm]
      have e2 : ∀ u, (⟨.taskRemoval, .task u⟩ : EQ.Event) ∈ q ↔ (⟨.taskRemoval, .task u⟩ : EQ.Event) ∈ m.queue := by
        intro u; rw [hq']; simp [(hr u).symm]
      exact ⟨X, hX.change q rfl (Nat.le_refl _) hX.xCons hX.cross (fun u hu hn => hX.same u hu (fun hh => hn ((e1 u).2 hh)))
        (fun u c hu => hX.fresh u c ((e1 u).1 hu)) (fun u c hu => hX.gone u c ((e2 u).1 hu))⟩
  · rw [if_neg ht]; exact ⟨s, rfl, h⟩

end Verif.PB
