import Verif.Lemmas.WeightedLeastSquares4
import Verif.Properties.C58_SchemeAbilities
/-!
# Removal of tasks, builds and batches of events
-/
set_option autoImplicit false
set_option linter.unusedSimpArgs false

namespace Verif.PB
open Verif.SE Verif.LS

theorem removeTask_absent {E : Env} {s : State} (h : PInv E s.pb) (t : Nat) (ht : t ∉ s.pb.tr) : s.removeTask t = .ok s () := by
  have hk : get s.pb.cons t = none := by
    have : t ∉ keysOf s.pb.cons := fun hh => ht ((h.keys t).1 hh)
    exact (get_none _ _).2 this
  simp only [State.removeTask, State.removeBase, if_neg ht, hk]

/-- The task is in the problem and its constraint is not used by a substitution. -/
theorem removeTask_unused {E : Env} {s : State} (h : SInv E s) (t : Nat) (ht : t ∈ s.pb.tr) {c : Cstr}
    (hc : get s.pb.cons t = some c) (hus : uses s.pb.subs c = false) :
    ∃ s', s.removeTask t = .ok s' () ∧ SInv E s' := by
  have hf : findSub s.pb.subs c = none := (findSub_none _ _).2 hus
  obtain ⟨mem, h1, h2⟩ := notify_legal h ⟨.taskRemoval, .task t⟩ (Or.inr (Or.inl ⟨rfl, ht⟩))
  simp only [State.removeTask, State.removeBase, if_pos ht, h1, hc, hf]
  refine ⟨_, rfl, h.pb.remove t, fun m' hm' => ?_, fun m' hm' hs => ?_⟩
  · obtain ⟨m, q, hm, hq, rfl, hi, _⟩ := h2 m' hm'
    have : (fun u => u ∈ s.pb.tr.erase t) = EQ.stepSet (· ∈ s.pb.tr) ⟨.taskRemoval, .task t⟩ := by
      funext u
      apply propext
      rw [h.pb.trNodup.mem_erase_iff]
      by_cases hu : u = t
      · simp [EQ.stepSet, hu]
      · have : t ≠ u := fun h => hu h.symm
        simp [EQ.stepSet, hu, this]
    simp only [this]
    exact hi
  · obtain ⟨m, q, hm, hq, rfl, hi, hsub⟩ := h2 m' hm'
    obtain ⟨X, hX⟩ := h.sync m hm (hsub hs).1
    obtain ⟨q', g1, g2, g3, g4, _, _⟩ := EQ.addEvent_removal (h.queue m hm) t ht
    rw [hq] at g1
    injection g1 with g1
    subst g1
    have hne : (⟨.taskAddition, .task t⟩ : EQ.Event) ∉ q := by
      rw [mem_about]
      by_cases hk : t ∈ keysOf m.map
      · rw [g3 hk]; simp
      · rw [g4 hk]; simp
    have hother : ∀ u ty, u ≠ t → ((⟨ty, .task u⟩ : EQ.Event) ∈ q ↔ (⟨ty, .task u⟩ : EQ.Event) ∈ m.queue) := by
      intro u ty hu
      rw [mem_about, g2 u hu, ← mem_about]
    have hget : ∀ u d, get (del s.pb.cons t) u = some d → u ≠ t ∧ get s.pb.cons u = some d := by
      intro u d hd
      rw [get_del] at hd
      split at hd
      · simp at hd
      · next hh => exact ⟨hh, hd⟩
    refine ⟨X, hX.change q rfl (Nat.le_refl _) ?_ ?_ ?_ ?_ ?_⟩
    · intro d hd u hu
      exact hX.xCons d hd u (hget u d hu).2
    · intro u w d hu hw
      exact hX.cross u w d hu (hget w d hw).2
    · intro u hu ha
      have hut : u ≠ t := by
        rintro rfl
        have := (get_isSome _ _).2 hu
        simp [get_del] at this
      simp only [get_del, if_neg hut]
      refine hX.same u ?_ (fun hh => ha ((hother u _ hut).2 hh))
      have := hu
      simp only [← get_isSome, get_del, if_neg hut] at this ⊢
      exact this
    · intro u d ha hu
      obtain ⟨hut, hd⟩ := hget u d hu
      exact hX.fresh u d ((hother u _ hut).1 ha) hd
    · intro u d hr hu
      by_cases hut : u = t
      · subst hut
        have hk : u ∈ keysOf m.map := by rw [← get_isSome, hu]; rfl
        by_cases hr' : (⟨.taskRemoval, .task u⟩ : EQ.Event) ∈ m.queue
        · exact hX.gone u d hr' hu
        · obtain ⟨_, s2, _⟩ := shape_facts (h.queue m hm) u
          have := hX.same u ((h.pb.keys u).2 ht) (s2 hk hr').2
          rw [hu, hc] at this
          injection this with this
          rw [this]; exact hus
      · exact hX.gone u d ((hother u _ hut).1 hr) hu

/-- The task is in the problem and its constraint is used by a simple substitution. -/
theorem removeTask_simple {E : Env} {s : State} (h : SInv E s) (t : Nat) (ht : t ∈ s.pb.tr) {c : Cstr}
    (hc : get s.pb.cons t = some c) {i : Nat} {x : Sub} (hf : findSub s.pb.subs c = some i) (hx : s.pb.subs[i]? = some x)
    (hs : x.isSimple = true) :
    ∃ s', s.removeTask t = .ok s' () ∧ SInv E s' := by
  obtain ⟨mem, h1, h2⟩ := notify_legal h ⟨.taskRemoval, .task t⟩ (Or.inr (Or.inl ⟨rfl, ht⟩))
  have key : ∃ mem', notify mem ⟨.substitutionRemoval, .subs i⟩ = some mem' ∧ ∀ m'', mem' = some m'' →
      ∃ m, s.mem = some m ∧ EQ.Inv (· ∈ keysOf m.map) (EQ.stepSet (· ∈ s.pb.tr) ⟨.taskRemoval, .task t⟩) m''.queue ∧
        m''.map = m.map ∧ m''.queue.any isSubEvent = true := by
    cases hm : mem with
    | none => exact ⟨none, rfl, by simp⟩
    | some m' =>
      obtain ⟨m, q, hm1, hq, rfl, hi, _⟩ := h2 m' hm
      obtain ⟨q2, k1, k2, _, _, k5⟩ := EQ.addEvent_step hi ⟨.substitutionRemoval, .subs i⟩ (Or.inr rfl)
      rw [stepSet_other_eq _ _ (fun t hh => by simp at hh) (fun t hh => by simp at hh)] at k2
      refine ⟨some ⟨q2, m.map, m.vars, m.maxp, m.solver, m.held⟩, by simp only [notify, k1], ?_⟩
      intro m'' hm''
      injection hm'' with hm''
      subst hm''
      refine ⟨m, hm1, k2, rfl, ?_⟩
      have : q2 = q ++ [⟨.substitutionRemoval, .subs i⟩] := by simp [EQ.addEvent] at k1; exact k1.symm
      simp [this, isSubEvent]
  obtain ⟨mem', n1, n2⟩ := key
  have e1 : s.removeTask t = .ok ⟨{ s.pb with tr := s.pb.tr.erase t, toks := s.pb.toks.filter (· ≠ t), finalized := false, subs := s.pb.subs.eraseIdx i, cons := del s.pb.cons t }, mem'⟩ () := by
    simp only [State.removeTask, State.removeBase, if_pos ht, h1, hc, hf, hx, Option.map_some, Option.getD_some, hs, if_true,
      State.removeStored, n1]
  refine ⟨_, e1, ?_, fun m'' hm'' => ?_, fun m'' hm'' hh => ?_⟩
  · have := (h.pb.remove t).subs (s.pb.subs.eraseIdx i) (fun x hx => h.pb.subsOld x (List.mem_of_mem_eraseIdx hx))
    exact this
  · obtain ⟨m, hm, k1, k2, _⟩ := n2 m'' hm''
    rw [k2]
    have : (fun u => u ∈ s.pb.tr.erase t) = EQ.stepSet (· ∈ s.pb.tr) ⟨.taskRemoval, .task t⟩ := by
      funext u
      apply propext
      rw [h.pb.trNodup.mem_erase_iff]
      by_cases hu : u = t
      · simp [EQ.stepSet, hu]
      · have : t ≠ u := fun h => hu h.symm
        simp [EQ.stepSet, hu, this]
    simp only [this]
    exact k1
  · obtain ⟨m, hm, _, _, k3⟩ := n2 m'' hm''
    rw [k3] at hh; simp at hh

/-- The task is in the problem and its constraint is used by a substitution that is not simple. -/
theorem removeTask_fails {E : Env} {s : State} (h : SInv E s) (t : Nat) (ht : t ∈ s.pb.tr) {c : Cstr}
    (hc : get s.pb.cons t = some c) {i : Nat} {x : Sub} (hf : findSub s.pb.subs c = some i) (hx : s.pb.subs[i]? = some x)
    (hs : x.isSimple = false) :
    ∃ mem, s.removeTask t = .throw ⟨{ s.pb with tr := s.pb.tr.erase t, toks := s.pb.toks.filter (· ≠ t), finalized := false }, mem⟩ := by
  obtain ⟨mem, h1, h2⟩ := notify_legal h ⟨.taskRemoval, .task t⟩ (Or.inr (Or.inl ⟨rfl, ht⟩))
  refine ⟨mem, ?_⟩
  simp only [State.removeTask, State.removeBase, if_pos ht, h1, hc, hf, hx, Option.map_some, Option.getD_some, hs,
    Bool.false_eq_true, if_false]

theorem removeTask_inv {E : Env} {s s' : State} (h : SInv E s) (t : Nat) (ho : s.removeTask t = .ok s' ()) : SInv E s' := by
  by_cases ht : t ∈ s.pb.tr
  · obtain ⟨c, hc⟩ := Option.isSome_iff_exists.1 ((get_isSome _ _).2 ((h.pb.keys t).2 ht))
    cases hf : findSub s.pb.subs c with
    | none =>
      obtain ⟨s1, h1, h2⟩ := removeTask_unused h t ht hc ((findSub_none _ _).1 hf)
      rw [h1] at ho; injection ho with ho; rw [← ho]; exact h2
    | some i =>
      obtain ⟨x, hx, hcx⟩ := findSub_some hf
      cases hs : x.isSimple with
      | true =>
        obtain ⟨s1, h1, h2⟩ := removeTask_simple h t ht hc hf hx hs
        rw [h1] at ho; injection ho with ho; rw [← ho]; exact h2
      | false =>
        obtain ⟨mem, h1⟩ := removeTask_fails h t ht hc hf hx hs
        rw [h1] at ho; simp at ho
  · rw [removeTask_absent h.pb t ht] at ho
    injection ho with ho; rw [← ho]; exact h

theorem removeTask_not_ub {E : Env} {s : State} (h : SInv E s) (t : Nat) : s.removeTask t ≠ .ub := by
  by_cases ht : t ∈ s.pb.tr
  · obtain ⟨c, hc⟩ := Option.isSome_iff_exists.1 ((get_isSome _ _).2 ((h.pb.keys t).2 ht))
    cases hf : findSub s.pb.subs c with
    | none =>
      obtain ⟨s1, h1, h2⟩ := removeTask_unused h t ht hc ((findSub_none _ _).1 hf)
      rw [h1]; simp
    | some i =>
      obtain ⟨x, hx, hcx⟩ := findSub_some hf
      cases hs : x.isSimple with
      | true =>
        obtain ⟨s1, h1, h2⟩ := removeTask_simple h t ht hc hf hx hs
        rw [h1]; simp
      | false =>
        obtain ⟨mem, h1⟩ := removeTask_fails h t ht hc hf hx hs
        rw [h1]; simp
  · rw [removeTask_absent h.pb t ht]; simp

/-! ## Builds -/

theorem accepted_iff (E : Env) (t : Nat) : accepted E t = true ↔
    (((E.task t).prio = 0 ∨ ((E.task t).prio = 1 ∧ (E.task t).type = .equal)) ∧ (E.task t).vet = .l2) := by
  simp only [accepted]
  generalize (E.task t).prio = n
  generalize (E.task t).vet = v
  match n with
  | 0 => cases (E.task t).type <;> cases v <;> decide
  | 1 => cases (E.task t).type <;> cases v <;> decide
  | n + 2 =>
    have h1 : (((n : Int) + 2) == (0 : Int)) = false := by simp; omega
    have h2 : (((n : Int) + 2) == (1 : Int)) = false := by simp; omega
    simp [SA.SchemeAbilities.check, SA.wls, SA.SchemeAbilities.find, List.lookup, h1, h2, SA.generalLevel]

theorem obj_prio {E : Env} {p : Problem} {t : Nat} (h : accepted E t = true) (hc : catOf E p t = .obj) : (E.task t).prio = 1 := by
  have h0 : (E.task t).prio ≠ 0 := fun h => (catOf_zero (p := p)).1 h hc
  rcases ((accepted_iff E t).1 h).1 with h1 | h1
  · exact absurd h1 h0
  · exact h1.1

theorem CSet_excl {E : Env} {p : Problem} {X : List Cstr} {m : List (Nat × Cstr)}
    (hi : ∀ t u c, get m t = some c → get m u = some c → t = u) (hx : ∀ c ∈ X, ∀ t, get m t ≠ some c) {j k : Cat} {c : Cstr}
    (h1 : CSet E p X j m c) (h2 : CSet E p X k m c) : j = k := by
  rcases h1 with ⟨t, a1, a2, a3⟩ | ⟨rfl, hX⟩ <;> rcases h2 with ⟨u, b1, b2, b3⟩ | ⟨rfl, hX'⟩
  · rw [← a3, ← b3, hi t u c a1 b1]
  · exact absurd a1 (hx c hX' t)
  · exact absurd b1 (hx c hX u)
  · rfl

theorem held_adds (l : List Add) (g : Nat) (c : Cstr) :
    (∃ h ∈ l.map (heldOf g), h.c = c) ↔ (c ∈ cstrsOf l ∨ c ∈ bndsOf l ∨ c ∈ (objectivesOf l).map (·.c)) := by
  simp only [cstrsOf, bndsOf, objectivesOf, List.mem_filterMap, List.mem_map]
  constructor
  · rintro ⟨h, ⟨a, ha, rfl⟩, hc⟩
    cases a with
    | cstr d => exact Or.inl ⟨_, ha, by simp only [heldOf] at hc; rw [← hc]⟩
    | bnd d => exact Or.inr (Or.inl ⟨_, ha, by simp only [heldOf] at hc; rw [← hc]⟩)
    | obj o => exact Or.inr (Or.inr ⟨o, ⟨_, ha, rfl⟩, hc⟩)
  · rintro (⟨a, ha, h⟩ | ⟨a, ha, h⟩ | ⟨o, ⟨a, ha, h⟩, hc⟩)
    · cases a with
      | cstr d => simp only [Option.some.injEq] at h; exact ⟨_, ⟨_, ha, rfl⟩, h⟩
      | bnd d => simp at h
      | obj o => simp at h
    · cases a with
      | bnd d => simp only [Option.some.injEq] at h; exact ⟨_, ⟨_, ha, rfl⟩, h⟩
      | cstr d => simp at h
      | obj o => simp at h
    · cases a with
      | obj o' => simp only [Option.some.injEq] at h; exact ⟨_, ⟨_, ha, rfl⟩, by rw [← hc, ← h]; rfl⟩
      | cstr d => simp at h
      | bnd o => simp at h

/-- The sizes of a build. -/
theorem build_sizes (s : Solver) (n nObj nEq nIneq : Nat) (ub : Bool) (l : List Add) (vs : Cstr → Int)
    (h1 : (cstrsOf l).Nodup) (h2 : (bndsOf l).Nodup) (h3 : ((objectivesOf l).map (·.c)).Nodup) :
    (s.build n nObj nEq nIneq ub l vs).nObj = nObj ∧ (s.build n nObj nEq nIneq ub l vs).objSize = rowsObj (objectivesOf l) := by
  obtain ⟨_, g2, _, _, g5⟩ := foldAdd vs l _ _ _ _ (startBuild_lay s n nObj nEq nIneq ub vs) h1 h2 h3
    (by simp) (by simp) (by simp)
  refine ⟨g2.nObj.trans rfl, g5.trans ?_⟩
  simp [Solver.startBuild]

/-- The number of occurrences in the scanned variables. -/
theorem scanned_count {E : Env} {p : Problem} (hz : ∀ S t, E.zs S t = []) (m : List (Nat × Cstr)) (v : V) :
    (scanned E p m {}).vars.count v = occ E p m v := by
  simp only [scanned, List.nil_append, occ]
  induction m with
  | nil => rfl
  | cons e m ih =>
    simp only [live, List.filter_cons, List.map_cons, List.sum_cons] at ih ⊢
    by_cases hu : uses p.subs e.2 = true
    · simp only [hu, Bool.not_true, Bool.false_eq_true, if_false, if_true, Nat.zero_add]; exact ih
    · simp only [hu, Bool.not_false, if_true, Bool.false_eq_true, if_false, List.flatMap_cons, List.count_append, ih]
      rw [varsOf_noz hz]

theorem processProblem_ok {E : Env} {p : Problem} (hp : PInv E p) {m : Mem} (h : processProblem E p (Mem.new E) = .ok m ()) :
    Scannable E p p.cons ∧ nObjOf E (scanned E p p.cons {}) = (scanned E p p.cons {}).nObj ∧
    m = { queue := [], map := p.cons, vars := (scanned E p p.cons {}).vars, maxp := (scanned E p p.cons {}).maxp, solver := (Solver.new E.kind E.cholesky).build (E.total (setOf (scanned E p p.cons {}).vars)) (scanned E p p.cons {}).nObj ((scanned E p p.cons {}).nEq + (p.extra.map (·.size)).sum) (scanned E p p.cons {}).nIneq (!(scanned E p p.cons {}).bounds.isEmpty) (addsOf E p (scanned E p p.cons {})) (E.start (setOf (scanned E p p.cons {}).vars)), held := (addsOf E p (scanned E p p.cons {})).map (heldOf p.gen) } := by
  simp only [processProblem] at h
  cases hs : scanAll E p p.cons {} with
  | error a => simp only [hs] at h; simp at h
  | ok a =>
    simp only [hs] at h
    obtain ⟨h1, h2⟩ := (scanAll_spec E p p.cons {} a).1 hs
    subst h2
    have hg := scanned_good hp _ rfl
    generalize scanned E p p.cons {} = a at *
    split at h
    · next hh =>
      obtain ⟨b1, b2⟩ := build_sizes (Solver.new E.kind E.cholesky) (E.total (setOf a.vars)) (nObjOf E a)
        (a.nEq + (p.extra.map (·.size)).sum) a.nIneq (!a.bounds.isEmpty) (addsOf E p a) (E.start (setOf a.vars))
        hg.nodupC hg.nodupB hg.nodupO
      have e1 : nObjOf E a = a.nObj := by
        have := hh.1
        simp only [Mem.new] at this
        rw [b1, b2] at this
        rw [hg.obj]; simp only [rowsObj] at this; omega
      refine ⟨h1, e1, ?_⟩
      injection h with h
      rw [← h, e1]
      rfl
    · simp at h

theorem processProblem_not_ub {E : Env} {p : Problem} (hp : PInv E p)
    (ha : E.autoDamping = false ∨ (scanned E p p.cons {}).nObj ≠ 0) :
    processProblem E p (Mem.new E) ≠ .ub := by
  intro h
  simp only [processProblem] at h
  cases hs : scanAll E p p.cons {} with
  | error a => simp only [hs] at h; simp at h
  | ok a =>
    simp only [hs] at h
    obtain ⟨h1, h2⟩ := (scanAll_spec E p p.cons {} a).1 hs
    subst h2
    have hg := scanned_good hp _ rfl
    generalize scanned E p p.cons {} = a at *
    have e1 : nObjOf E a = a.nObj := by
      simp only [nObjOf]
      rcases ha with ha | ha <;> simp [ha]
    rw [e1] at h
    obtain ⟨_, c2, _⟩ := build_lay (Solver.new E.kind E.cholesky) (E.total (setOf a.vars)) a.nObj
        (a.nEq + (p.extra.map (·.size)).sum) a.nIneq (!a.bounds.isEmpty) (addsOf E p a) (E.start (setOf a.vars)) hg
    split at h
    · simp at h
    · next hh => exact hh c2

theorem scanned_maxp {E : Env} {p : Problem} {m : List (Nat × Cstr)} (h : Scannable E p m) : (scanned E p m {}).maxp ≤ 1 := by
  have key : ∀ (l : List (Nat × Cstr)) (n : Nat), (∀ e ∈ l, (E.task e.1).prio = 1) → n ≤ 1 →
      l.foldl (fun m e => max m (E.task e.1).prio) n ≤ 1 := by
    intro l
    induction l with
    | nil => intro n _ hn; exact hn
    | cons e l ih =>
      intro n hl hn
      have := hl e (by simp)
      exact ih _ (fun e he => hl e (List.mem_cons_of_mem _ he)) (show max n (E.task e.1).prio ≤ 1 by omega)
  refine key _ 0 (fun e he => ?_) (by omega)
  obtain ⟨h1, h2⟩ := List.mem_filter.1 he
  exact obj_prio (p := p) (h e h1).1 (by simpa using h2)

theorem processProblem_sync {E : Env} {p : Problem} (hp : PInv E p) (hf : p.finalized = true) {m : Mem}
    (h : processProblem E p (Mem.new E) = .ok m ()) : Sync E p m p.extra := by
  obtain ⟨h1, h2, rfl⟩ := processProblem_ok hp h
  have hg := scanned_good hp _ rfl
  obtain ⟨k1, k2, k3⟩ := adds_categories E p p.cons _ rfl
  have s1 : (fun c => c ∈ cstrsOf (addsOf E p (scanned E p p.cons {}))) = CSet E p p.extra .cstr p.cons := by
    funext c
    apply propext
    rw [k1, List.mem_append, mem_role_map hp.keysNodup]
    simp [CSet]
  have s2 : (fun c => c ∈ bndsOf (addsOf E p (scanned E p p.cons {}))) = CSet E p p.extra .bnd p.cons := by
    funext c
    apply propext
    rw [k2, mem_role_map hp.keysNodup]
    simp [CSet]
  have s3 : (fun c => c ∈ (objectivesOf (addsOf E p (scanned E p p.cons {}))).map (·.c)) = CSet E p p.extra .obj p.cons := by
    funext c
    apply propext
    rw [k3, List.map_map]
    have := mem_role_map (E := E) (p := p) hp.keysNodup .obj c
    simp only [CSet, reduceCtorEq, false_and, or_false]
    exact this
  refine ⟨hp.keysNodup, hp.inj, hp.old, hp.extraOld, hp.extraOther, hp.extraOther, hp.inj, hp.current hf, fun t _ _ => rfl,
    fun t c ht => by simp at ht, fun t c ht => by simp at ht, ?_, fun c => ?_, fun x hx hc => ?_,
    fun hz v => scanned_count hz _ v, fun t c ht hu => ?_, scanned_maxp h1⟩
  · have := Reach.first (k := E.kind) (ch := E.cholesky) (Q := fun _ _ _ _ _ => True)
      (E.total (setOf (scanned E p p.cons {}).vars)) _ _ _ _ _ (E.start (setOf (scanned E p p.cons {}).vars)) hg
    rw [s1, s2, s3] at this
    exact this
  · rw [held_adds]
    have t1 := congrFun s1 c
    have t2 := congrFun s2 c
    have t3 := congrFun s3 c
    rw [t1, t2, t3]
    constructor
    · rintro (h | h | h)
      · exact ⟨_, h⟩
      · exact ⟨_, h⟩
      · exact ⟨_, h⟩
    · rintro ⟨k, h⟩
      cases k
      · exact Or.inr (Or.inl h)
      · exact Or.inl h
      · exact Or.inr (Or.inr h)
  · obtain ⟨a, ha, rfl⟩ := List.mem_map.1 hx
    cases a with
    | cstr d =>
      exfalso
      have : d ∈ cstrsOf (addsOf E p (scanned E p p.cons {})) := List.mem_filterMap.2 ⟨_, ha, rfl⟩
      have t1 := congrFun s1 d
      rw [t1] at this
      have := CSet_excl hp.inj hp.extraOther this hc
      simp at this
    | bnd d =>
      exfalso
      have : d ∈ bndsOf (addsOf E p (scanned E p p.cons {})) := List.mem_filterMap.2 ⟨_, ha, rfl⟩
      have t1 := congrFun s2 d
      rw [t1] at this
      have := CSet_excl hp.inj hp.extraOther this hc
      simp at this
    | obj o =>
      have : o ∈ objectivesOf (addsOf E p (scanned E p p.cons {})) := List.mem_filterMap.2 ⟨_, ha, rfl⟩
      rw [k3] at this
      obtain ⟨⟨t, d⟩, h4, rfl⟩ := List.mem_map.1 this
      have h5 := (mem_role hp.keysNodup .obj t d).1 h4
      have h6 : (t, d) ∈ live p p.cons := (List.mem_filter.1 h4).1
      have h7 := obj_prio (h1 _ h6).1 h5.2.2
      simp only [heldOf, weightOf, h7]
      rfl
  · refine (h1 (t, c) ?_).1
    simp only [live, List.mem_filter]
    exact ⟨(mem_get hp.keysNodup t c).2 ht, by rw [hu]; rfl⟩

/-! ## Batches -/

theorem net_of_handled {E : Env} {p : Problem} {X : List Cstr} {m m' : Mem} {ops : List Op} (h : Handled E p X m m' ops) :
    Net (CSet E p X .cstr m.map) (CSet E p X .cstr m'.map) (run {} ops).addedConstraints (run {} ops).removedConstraints ∧
    Net (CSet E p X .bnd m.map) (CSet E p X .bnd m'.map) (run {} ops).addedBounds (run {} ops).removedBounds ∧
    Net (CSet E p X .obj m.map) (CSet E p X .obj m'.map) ((run {} ops).addedObjectives.map (·.c)) (run {} ops).removedObjectives := by
  refine ⟨?_, ?_, ?_⟩
  · have := net_cons ops (CSet E p X .cstr m.map) _ {} (Net.refl _) (h.legal .cstr)
    have e := h.after .cstr
    simp only [chOf] at e
    rw [e] at this; exact this
  · have := net_bounds ops (CSet E p X .bnd m.map) _ {} (Net.refl _) (h.legal .bnd)
    have e := h.after .bnd
    simp only [chOf] at e
    rw [e] at this; exact this
  · have := net_objs ops (CSet E p X .obj m.map) _ {} (Net.refl _) (h.legal .obj)
    have e := h.after .obj
    simp only [chOf] at e
    rw [e] at this; exact this

theorem noMapping {E : Env} {p : Problem} {X : List Cstr} {m m' : Mem} {ops : List Op} (h : Handled E p X m m' ops)
    (hn : needMappingUpdate (run {} ops) = false) : setOf m'.vars = setOf m.vars := by
  apply h.vars
  intro i
  have this : ¬ ∃ v, Op.addVariable v ∈ ops ∨ Op.removeVariable v ∈ ops := fun hh => by
    have := (C32_need_mapping ops).2 hh
    rw [hn] at this; simp at this
  exact ⟨fun hh => this ⟨i, Or.inl hh⟩, fun hh => this ⟨i, Or.inr hh⟩⟩

theorem batch_reach {E : Env} {p : Problem} {X : List Cstr} {m m' : Mem} {ops : List Op} (hs : Sync E p m X)
    (h : Handled E p X m m' ops) :
    Reach E.kind E.cholesky (fun _ _ _ _ _ => True)
      (m'.solver.process (run {} ops) (E.total (setOf m'.vars)) (E.start (setOf m'.vars))) (CSet E p X .cstr m'.map)
      (CSet E p X .bnd m'.map) (CSet E p X .obj m'.map) (E.total (setOf m'.vars)) (E.start (setOf m'.vars)) := by
  obtain ⟨n1, n2, n3⟩ := net_of_handled h
  rw [h.solver]
  exact Reach.process _ _ _ _ _ _ _ _ _ _ _ _ hs.reach n1 n2 n3
    (fun hn => by rw [noMapping h hn]; exact ⟨rfl, fun _ _ => rfl⟩) trivial

theorem batch_not_ub {E : Env} {p : Problem} {X : List Cstr} {m m' : Mem} {ops : List Op} (hs : Sync E p m X)
    (h : Handled E p X m m' ops) : m'.applyBatch E p (run {} ops) ≠ .ub := by
  obtain ⟨_, ha, _⟩ := reach_lay (batch_reach hs h)
  simp only [Mem.applyBatch]
  have ha' := ha
  simp only [Solver.assertSizes] at ha'
  rw [if_pos ha']
  simp

/-- Constraints recorded as added and removed, by category. -/
def addedL (se : SolverEvents) : Cat → List Cstr
  | .cstr => se.addedConstraints
  | .bnd => se.addedBounds
  | .obj => se.addedObjectives.map (·.c)

def removedL (se : SolverEvents) : Cat → List Cstr
  | .cstr => se.removedConstraints
  | .bnd => se.removedBounds
  | .obj => se.removedObjectives

theorem held_added (se : SolverEvents) (g : Nat) (c : Cstr) :
    (∃ h ∈ (addedOf se).map (heldOf g), h.c = c) ↔ ∃ k, c ∈ addedL se k := by
  simp only [addedOf, List.map_append, List.map_map, List.mem_append, List.mem_map, Function.comp]
  constructor
  · rintro ⟨h, ((⟨d, hd, rfl⟩ | ⟨d, hd, rfl⟩) | ⟨d, hd, rfl⟩), hc⟩
    · exact ⟨.cstr, by simp only [heldOf] at hc; rw [← hc]; exact hd⟩
    · exact ⟨.bnd, by simp only [heldOf] at hc; rw [← hc]; exact hd⟩
    · exact ⟨.obj, by simp only [heldOf] at hc; rw [← hc]; exact List.mem_map_of_mem hd⟩
  · rintro ⟨k, hk⟩
    cases k with
    | cstr => exact ⟨_, Or.inl (Or.inl ⟨c, hk, rfl⟩), rfl⟩
    | bnd => exact ⟨_, Or.inl (Or.inr ⟨c, hk, rfl⟩), rfl⟩
    | obj =>
      obtain ⟨o, ho, hc⟩ := List.mem_map.1 hk
      exact ⟨_, Or.inr ⟨o, ho, rfl⟩, hc⟩

theorem held_gone (se : SolverEvents) (c : Cstr) :
    (se.removedConstraints ++ se.removedBounds ++ se.removedObjectives).contains c = true ↔ ∃ k, c ∈ removedL se k := by
  simp only [List.contains_iff_mem, List.mem_append]
  constructor
  · rintro ((h | h) | h)
    · exact ⟨.cstr, h⟩
    · exact ⟨.bnd, h⟩
    · exact ⟨.obj, h⟩
  · rintro ⟨k, h⟩
    cases k
    · exact Or.inl (Or.inr h)
    · exact Or.inl (Or.inl h)
    · exact Or.inr h

/-- The memory after a batch. -/
theorem batch_sync {E : Env} {p : Problem} {X : List Cstr} {m m' m'' : Mem} {ops : List Op} (hp : PInv E p) (hs : Sync E p m X)
    (h : Handled E p X m m' ops) (hr : Ready E p X m' []) (hq : m'.queue = [])
    (hb : m'.applyBatch E p (run {} ops) = .ok m'' ()) : Sync E p m'' X ∧ m''.queue = [] ∧ m''.map = m'.map ∧
      m''.maxp = m.maxp ∧ m''.vars = m'.vars ∧ (∀ x ∈ m''.held, x ∈ m.held ∨ x.gen = p.gen) := by
  obtain ⟨n1, n2, n3⟩ := net_of_handled h
  have net : ∀ k, Net (CSet E p X k m.map) (CSet E p X k m'.map) (addedL (run {} ops) k) (removedL (run {} ops) k) := by
    intro k; cases k
    · exact n2
    · exact n1
    · exact n3
  have hreach := batch_reach hs h
  obtain ⟨_, ha, _⟩ := reach_lay hreach
  simp only [Mem.applyBatch] at hb
  simp only [Solver.assertSizes] at ha
  rw [if_pos ha] at hb
  injection hb with hb
  have hmap : ∀ t, get m'.map t = get p.cons t := by
    intro t
    by_cases ht : t ∈ keysOf m'.map
    · exact hr.same t ht (by simp)
    · have h1 : t ∉ keysOf p.cons := fun hh => ht ((hr.final t).2 hh)
      rw [(get_none _ _).2 ht, (get_none _ _).2 h1]
  /- a constraint before and after has the same category -/
  have hsame : ∀ j k c, CSet E p X j m.map c → CSet E p X k m'.map c → j = k := by
    intro j k c h1 h2
    rcases h1 with ⟨t, a1, a2, a3⟩ | ⟨rfl, hX⟩ <;> rcases h2 with ⟨u, b1, b2, b3⟩ | ⟨rfl, hX'⟩
    · rw [hmap] at b1
      rw [← a3, ← b3, hs.cross t u c a1 b1]
    · exact absurd a1 (hs.xMap c hX' t)
    · rw [hmap] at b1
      exact absurd b1 (hs.xCons c hX u)
    · rfl
  have hexcl : ∀ j k c, CSet E p X j m.map c → CSet E p X k m.map c → j = k := fun j k c => CSet_excl hs.inj hs.xMap
  have hnew : ∀ x ∈ (addedOf (run {} ops)).map (heldOf p.gen), x.gen = p.gen := by
    intro x hx
    obtain ⟨a, _, rfl⟩ := List.mem_map.1 hx
    cases a <;> rfl
  subst hb
  refine ⟨⟨hr.keysNodup, hr.inj, fun t c ht => ?_, hs.xOld, hr.other, hs.xCons, fun t u c h1 h2 => ?_, hs.xSizes,
    fun t _ _ => hmap t, fun t c ht => ?_, fun t c ht => ?_, hreach, fun c => ?_, fun x hx hc => ?_,
    fun hz => h.count hz (hs.count hz), fun t c ht hu => (h.acc t c ht).elim (fun hh => hs.acc t c hh hu) id,
    by rw [h.maxp]; exact hs.maxp⟩, hq, rfl, h.maxp, rfl, fun x hx => ?_⟩
  · simp only [hmap] at ht
    exact hp.old t c ht
  · simp only [hmap] at h1
    exact hp.inj t u c h1 h2
  · simp [hq] at ht
  · simp [hq] at ht
  · simp only [List.mem_append, or_and_right, exists_or, held_added, List.mem_filter, h.held]
    constructor
    · rintro (⟨x, ⟨hx, hg⟩, hc⟩ | ⟨k, hk⟩)
      · obtain ⟨k, hk⟩ := (hs.held c).1 ⟨x, hx, hc⟩
        refine ⟨k, Classical.byContradiction fun hn => ?_⟩
        have h2 := ((net k).memR c).2 ⟨hk, hn⟩
        have h3 := (held_gone (run {} ops) c).2 ⟨k, h2⟩
        rw [hc, h3] at hg
        simp at hg
      · exact ⟨k, (((net k).memA c).1 hk).1⟩
    · rintro ⟨k, hk⟩
      by_cases hS : CSet E p X k m.map c
      · obtain ⟨x, hx, hc⟩ := (hs.held c).2 ⟨k, hS⟩
        refine Or.inl ⟨x, ⟨hx, ?_⟩, hc⟩
        rw [hc]
        cases hg : (((run {} ops).removedConstraints ++ (run {} ops).removedBounds ++ (run {} ops).removedObjectives).contains c) with
        | false => rfl
        | true =>
          obtain ⟨j, hj⟩ := (held_gone _ _).1 hg
          obtain ⟨g1, g2⟩ := ((net j).memR c).1 hj
          rw [hexcl j k c g1 hS] at g2
          exact absurd hk g2
      · exact Or.inr ⟨k, ((net k).memA c).2 ⟨hk, hS⟩⟩
  · simp only at hc hx ⊢
    rw [h.maxp]
    rcases List.mem_append.1 hx with hx | hx
    · rw [h.held] at hx
      obtain ⟨hx, _⟩ := List.mem_filter.1 hx
      obtain ⟨j, hj⟩ := (hs.held x.c).1 ⟨x, hx, rfl⟩
      have := hsame j .obj x.c hj hc
      subst this
      exact hs.weight x hx hj
    · obtain ⟨a, ha', rfl⟩ := List.mem_map.1 hx
      simp only [addedOf, List.mem_append, List.mem_map] at ha'
      rcases ha' with (⟨d, hd, rfl⟩ | ⟨d, hd, rfl⟩) | ⟨o, ho, rfl⟩
      · exfalso
        have g := ((net .cstr).memA d).1 hd
        have := CSet_excl hr.inj hr.other g.1 hc
        simp at this
      · exfalso
        have g := ((net .bnd).memA d).1 hd
        have := CSet_excl hr.inj hr.other g.1 hc
        simp at this
      · obtain ⟨l1, l2, he, _⟩ := C32_objective_data ops _ (h.legal .obj) o ho
        obtain ⟨t, w1, w2, w3, w4⟩ := h.weight o (by rw [he]; simp)
        simp only [heldOf]
        rw [w4, weightOf, obj_prio w3 w2]
        rfl
  · rcases List.mem_append.1 hx with hx | hx
    · rw [h.held] at hx
      exact Or.inl (List.mem_filter.1 hx).1
    · exact Or.inr (hnew x hx)

end Verif.PB
