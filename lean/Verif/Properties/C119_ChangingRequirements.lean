import Verif.Properties.C61_Pipeline
/-!
# C119: requirements that change between resolutions

C49 to C63 are about calls made with given priority levels. Here they change from one call to the next: a task may be given
another priority level at any time (`SolvingRequirements` is a public member of `TaskWithRequirements`), and nobody is told
(ControlProblem.cpp, 73-86, registers callbacks for the weights only). `WeightedLeastSquares::removeTask` (268-314) reads the
priority level, the properties of the constraint and the variables *at the removal* and not those with which the task was added.

Specification. `Handed l t`: from the calls only, task `t` was given to the solver at the last resolution, and its data are
still in use. `Change E E' K`: from `E` to `E'`, the priority levels and the ways violations are evaluated change, for
the tasks that are not in `K` only; so do the variables of the constraints and whether they can be used as bounds.
`Changing E l s`: the calls `l` lead from an empty problem to `s`, the requirements changing in between and being finally those
of `E`.
-/
set_option autoImplicit false
set_option linter.unusedSimpArgs false

namespace Verif.PB
open Verif.SE Verif.LS

/-! ## Specification -/

/-- `t` was present at the last resolution, and the substitutions did not change since. -/
def Handed (l : List Call) (t : Nat) : Prop :=
  ∃ l1 l2, l = l1 ++ .solve :: l2 ∧ (∀ c ∈ l2, c ≠ .solve ∧ isSubCall c = false) ∧ Present l1 t

/-- From `E` to `E'`, what is known of the tasks of `K` is the same. -/
structure Change (E E' : Env) (K : Nat → Prop) : Prop where
  task : ∀ t, (E'.task t).size = (E.task t).size ∧ (E'.task t).type = (E.task t).type
  known : ∀ t, K t → E'.task t = E.task t ∧ ∀ S, E'.asBound S t = E.asBound S t ∧ E'.ys S t = E.ys S t
  zs : E'.zs = E.zs
  extraSizes : E'.extraSizes = E.extraSizes
  total : E'.total = E.total
  start : E'.start = E.start
  kind : E'.kind = E.kind
  cholesky : E'.cholesky = E.cholesky
  autoDamping : E'.autoDamping = E.autoDamping
  scalarizationWeight : E'.scalarizationWeight = E.scalarizationWeight

/-- Calls, and changes that do not concern the tasks that the solver has (`K := Handed l`). -/
inductive Changing : Env → List Call → State → Prop
  | init (E : Env) : Changing E [] {}
  | call (E : Env) (l : List Call) (s s' : State) (c : Call) : Changing E l s → Allowed l s c → s.call E c = .ok s' () →
      Changing E (l ++ [c]) s'
  | change (E E' : Env) (l : List Call) (s : State) : Changing E l s → Change E E' (Handed l) → Changing E' l s

/-- The same, any change being possible. -/
inductive Free : Env → List Call → State → Prop
  | init (E : Env) : Free E [] {}
  | call (E : Env) (l : List Call) (s s' : State) (c : Call) : Free E l s → Allowed l s c → s.call E c = .ok s' () →
      Free E (l ++ [c]) s'
  | change (E E' : Env) (l : List Call) (s : State) : Free E l s → Change E E' (fun _ => False) → Free E' l s

/-! ## Proof -/

theorem Handed_snoc {l : List Call} {c : Call} {t : Nat} (h : Handed l t) (h1 : c ≠ .solve) (h2 : isSubCall c = false) :
    Handed (l ++ [c]) t := by
  obtain ⟨l1, l2, rfl, hl, hp⟩ := h
  refine ⟨l1, l2 ++ [c], by simp, fun d hd => ?_, hp⟩
  rcases List.mem_append.1 hd with hd | hd
  · exact hl d hd
  · simp only [List.mem_singleton] at hd; subst hd; exact ⟨h1, h2⟩

/-- `Handed` from the last call. -/
theorem Handed_last (l : List Call) (c : Call) (t : Nat) :
    Handed (l ++ [c]) t ↔ if c = .solve then Present l t else isSubCall c = false ∧ Handed l t := by
  constructor
  · rintro ⟨l1, l2, h1, h2, h3⟩
    rcases List.eq_nil_or_concat l2 with rfl | ⟨l3, d, rfl⟩
    · obtain ⟨rfl, h⟩ := List.append_inj' h1 rfl
      injection h with h
      rw [if_pos h]; exact h3
    · rw [List.concat_eq_append, ← List.cons_append, ← List.append_assoc] at h1
      obtain ⟨rfl, h⟩ := List.append_inj' h1 rfl
      injection h with h
      subst h
      have := h2 c (by simp)
      rw [if_neg this.1]
      exact ⟨this.2, l1, l3, rfl, fun d hd => h2 d (by simp [hd]), h3⟩
  · intro h
    split at h
    · rename_i hc; subst hc; exact ⟨l, [], rfl, by simp, h⟩
    · rename_i hc; exact Handed_snoc h.2 hc h.1

/-- Effect of a call on the list of tasks. -/
theorem call_tr {E : Env} {s s' : State} (h : PInv E s.pb) (c : Call) (hc : s.call E c = .ok s' ()) (t : Nat) :
    t ∈ s'.pb.tr ↔ c.on (· ∈ s.pb.tr) t := by
  cases c with
  | addTask u =>
    simp only [State.call, State.addTask] at hc
    split at hc
    · simp at hc
    · injection hc with hc
      rw [← hc]
      simp only [List.mem_append, List.mem_singleton, Call.on]
      exact or_comm
  | removeTask u => rw [(removeTask_pinv h hc).2]; rfl
  | addSub x =>
    simp only [State.call, State.addSub] at hc
    split at hc
    · simp at hc
    · injection hc with hc
      rw [← hc]; rfl
  | removeSub i =>
    simp only [State.call] at hc
    split at hc
    · rw [removeStored_ok hc]; rfl
    · simp at hc
  | removeForeignSub =>
    simp only [State.call, State.removeForeign] at hc
    split at hc
    · simp at hc
    · injection hc with hc
      rw [← hc]; rfl
  | changeWeight u b =>
    simp only [State.call, State.changeWeight] at hc
    split at hc
    · split at hc
      · simp at hc
      · injection hc with hc; rw [← hc]; rfl
    · injection hc with hc; rw [← hc]; rfl
  | update =>
    simp only [State.call, State.update] at hc
    injection hc with hc
    obtain ⟨_, _, f3, _⟩ := h.finalize
    rw [← hc]
    simp only [f3]; rfl
  | solve =>
    obtain ⟨b, hb⟩ := drop_ok.1 hc
    have := solve_pb (E := E) (s := s) (Or.inl ⟨b, hb⟩)
    obtain ⟨_, _, f3, _⟩ := h.finalize
    rw [this, f3]; rfl

theorem Change.pinv {E E' : Env} {K : Nat → Prop} (h : Change E E' K) {p : Problem} (hp : PInv E p) : PInv E' p :=
  { hp with
    info := fun t c hc => by rw [(h.task t).1, (h.task t).2]; exact hp.info t c hc
    current := fun hf => by rw [h.extraSizes]; exact hp.current hf }

theorem Change.catSet {E E' : Env} {K : Nat → Prop} (h : Change E E' K) {p : Problem} {m : List (Nat × Cstr)}
    (hk : ∀ t ∈ keysOf m, K t) (k : Cat) : CatSet E' p m k = CatSet E p m k := by
  funext c; apply propext
  simp only [CatSet]
  have key : ∀ t, get m t = some c → catOf E' p t = catOf E p t := by
    intro t ht
    obtain ⟨h1, h2⟩ := h.known t (hk t ((get_isSome _ _).1 (by rw [ht]; rfl)))
    simp only [catOf, h1, (h2 p.subs).1]
  constructor
  · rintro ⟨t, h1, h2, h3⟩; exact ⟨t, h1, h2, by rw [← key t h1]; exact h3⟩
  · rintro ⟨t, h1, h2, h3⟩; exact ⟨t, h1, h2, by rw [key t h1]; exact h3⟩

theorem Change.occ {E E' : Env} {K : Nat → Prop} (h : Change E E' K) {p : Problem} {m : List (Nat × Cstr)}
    (hk : ∀ t ∈ keysOf m, K t) (v : V) : occ E' p m v = occ E p m v := by
  simp only [PB.occ]
  congr 1
  apply List.map_congr_left
  intro e he
  rw [((h.known e.1 (hk e.1 (List.mem_map.2 ⟨e, he, rfl⟩))).2 p.subs).2]

/-- The invariant does not depend on what is not known of the scheme. -/
theorem Change.sinv {E E' : Env} {K : Nat → Prop} (h : Change E E' K) {s : State} (hs : SInv E s)
    (hk : ∀ m, s.mem = some m → m.queue.any isSubEvent = false → ∀ t ∈ keysOf m.map, K t) : SInv E' s := by
  refine ⟨h.pinv hs.pb, hs.queue, fun m hm hq => ?_⟩
  obtain ⟨X, hX⟩ := hs.sync m hm hq
  have hk := hk m hm hq
  have hc : ∀ k, CSet E' s.pb X k m.map = CSet E s.pb X k m.map := by
    intro k; funext c; simp only [CSet, h.catSet hk]
  refine ⟨X, { hX with xSizes := ?_, reach := ?_, held := ?_, weight := ?_, count := ?_, acc := ?_ }⟩
  · rw [h.extraSizes]; exact hX.xSizes
  · rw [hc, hc, hc, h.kind, h.cholesky, h.total, h.start]; exact hX.reach
  · intro c; simp only [hc]; exact hX.held c
  · intro a ha hh; rw [hc] at hh; rw [h.scalarizationWeight]; exact hX.weight a ha hh
  · intro hz v; rw [h.occ hk]; exact hX.count (by rw [← h.zs]; exact hz) v
  · intro t c ht hu
    have := hX.acc t c ht hu
    simp only [accepted, (h.known t (hk t ((get_isSome _ _).1 (by rw [ht]; rfl)))).1] at this ⊢
    exact this

/-- What holds after the calls. -/
structure CInv (E : Env) (l : List Call) (s : State) : Prop where
  inv : SInv E s
  tr : ∀ t, t ∈ s.pb.tr ↔ Present l t
  handed : ∀ m, s.mem = some m → m.queue.any isSubEvent = false → ∀ t ∈ keysOf m.map, Handed l t
  weights : ∀ m, s.mem = some m → ∀ e ∈ m.queue, e.isWeight = true → ∃ t b, .changeWeight t b ∈ l ∧ e.emitter = .task t

theorem CInv.legal {E : Env} {l : List Call} {s : State} (h : CInv E l s) {c : Call} (ha : Allowed l s c) : LegalCall s c := by
  cases c with
  | addTask t => exact fun hh => ha ((h.tr t).1 hh)
  | _ => exact ha

theorem CInv.call {E : Env} {l : List Call} {s s' : State} (h : CInv E l s) {c : Call} (ha : Allowed l s c)
    (hc : s.call E c = .ok s' ()) : CInv E (l ++ [c]) s' := by
  have hl := h.legal ha
  have hinv := call_inv h.inv c hl hc
  have htr : ∀ t, t ∈ s'.pb.tr ↔ Present (l ++ [c]) t := fun t => by
    rw [Present_snoc, call_tr h.inv.pb c hc t]
    have : (fun t => t ∈ s.pb.tr) = Present l := funext fun t => propext (h.tr t)
    rw [this]
  by_cases hs : c = .solve
  · subst hs
    obtain ⟨b, hb⟩ := drop_ok.1 hc
    obtain ⟨_, m', X, h2, h3, _⟩ := solve_ok h.inv hb
    refine ⟨hinv, htr, fun m hm _ t ht => ⟨l, [], rfl, by simp, ?_⟩, fun m hm e he => ?_⟩
    · rw [h2] at hm; injection hm with hm; subst hm
      rw [← get_isSome, h3.map, get_isSome, hinv.pb.keys, htr, Present_snoc] at ht
      exact ht
    · rw [h2] at hm; injection hm with hm; subst hm
      rw [h3.queue] at he; simp at he
  · obtain ⟨_, hq⟩ := call_qstep h.inv c hl hc hs
    refine ⟨hinv, htr, fun m hm hns t ht => ?_, fun m hm e he hw => ?_⟩
    · obtain ⟨m0, q, h1, h2, _, h4⟩ := hq m hm
      subst h2
      have hsub : isSubCall c = false := by
        cases hh : isSubCall c with
        | false => rfl
        | true => have := h4 (Or.inr hh); rw [hns] at this; simp at this
      have hold : m0.queue.any isSubEvent = false := by
        cases hh : m0.queue.any isSubEvent with
        | false => rfl
        | true => have := h4 (Or.inl hh); rw [hns] at this; simp at this
      exact Handed_snoc (h.handed m0 h1 hold t ht) hs hsub
    · obtain ⟨m0, q, h1, h2, h3, _⟩ := hq m hm
      subst h2
      rcases h3 e he with hh | hh
      · obtain ⟨t, b, g1, g2⟩ := h.weights m0 h1 e hh hw
        exact ⟨t, b, by simp [g1], g2⟩
      · obtain ⟨t, b, g1, g2⟩ := hh hw
        exact ⟨t, b, by simp [g1], g2⟩

theorem Changing.cinv {E : Env} {l : List Call} {s : State} (h : Changing E l s) : CInv E l s := by
  induction h with
  | init E => exact ⟨SInv.init E, by simp [Present], by simp, by simp⟩
  | call E l s s' c _ ha hc ih => exact ih.call ha hc
  | change E E' l s _ hch ih => exact ⟨hch.sinv ih.inv ih.handed, ih.tr, ih.handed, ih.weights⟩

/-! ## Properties -/

/-- **C119.** Whatever the calls and the changes of priority levels in between, as long as the priority level of a task does not
change while the solver has it: when a resolution reaches its solver, the solver has exactly the constraints of the tasks
that are present, each in the role that its priority level tells *now*; in particular nothing is left of the tasks removed. Missing:
changes of the tasks that the solver has, for which this is false (`C119_priority_false`, `C119_bound_false`,
`C119_role_false`). -/
theorem C119_layout_partial {E : Env} {l : List Call} {s s' : State} {b : Bool} (h : Changing E l s)
    (hs : s.solve E = .ok s' b) :
    ∃ (m : Mem) (X : List Cstr), s'.mem = some m ∧ m.queue = [] ∧ X.map (·.size) = E.extraSizes s'.pb.subs ∧
      Layout m.solver (fun c => Live s' (ToConstraint E s') c ∨ c ∈ X) (Live s' (ToBound E s')) (Live s' (ToObjective E))
        (E.start (setOf m.vars)) ∧
      (∀ c, (∃ a ∈ m.held, a.c = c) ↔ (Live s' (fun _ => True) c ∨ c ∈ X)) ∧
      (∀ t, t ∈ s'.pb.tr ↔ Present l t) ∧ (∀ t, t ∈ s'.pb.cons.map (·.1) ↔ Present l t) := by
  have hc := h.cinv
  obtain ⟨hpb, m, X, h1, h2, _⟩ := solve_ok hc.inv hs
  have h3 : PInv E s'.pb := by rw [hpb]; exact hc.inv.pb.finalize.1
  have e1 : CSet E s'.pb X .cstr m.map = fun c => Live s' (ToConstraint E s') c ∨ c ∈ X := by
    funext c; apply propext
    simp only [CSet, live_cat h3 .cstr _ (cat_cstr E s') h2.map, true_and]
  have e2 : CSet E s'.pb X .bnd m.map = Live s' (ToBound E s') := by
    funext c; apply propext
    simp [CSet, live_cat h3 .bnd _ (cat_bnd E s') h2.map]
  have e3 : CSet E s'.pb X .obj m.map = Live s' (ToObjective E) := by
    funext c; apply propext
    simp [CSet, live_cat h3 .obj _ (cat_obj E s') h2.map]
  have htr : ∀ t, t ∈ s'.pb.tr ↔ Present l t := by
    intro t
    rw [hpb, hc.inv.pb.finalize.2.2.1, hc.tr]
  refine ⟨m, X, h1, h2.queue, h2.sync.xSizes, ?_, fun c => ?_, htr, fun t => (h3.keys t).trans (htr t)⟩
  · have := C33_layout h2.sync.reach
    rw [e1, e2, e3] at this
    exact this
  · rw [h2.sync.held]
    constructor
    · rintro ⟨k, ⟨t, g1, g2, g3⟩ | ⟨_, hX⟩⟩
      · have : CatSet E s'.pb m.map k c := ⟨t, g1, g2, g3⟩
        obtain ⟨u, w1, w2, _⟩ := (live_cat h3 k (fun t => catOf E s'.pb t = k) (fun _ => Iff.rfl) h2.map c).1 this
        exact Or.inl ⟨u, w1, w2, trivial⟩
      · exact Or.inr hX
    · rintro (⟨t, g1, g2, _⟩ | hX)
      · refine ⟨catOf E s'.pb t, Or.inl ?_⟩
        exact (live_cat h3 _ (fun u => catOf E s'.pb u = catOf E s'.pb t) (fun _ => Iff.rfl) h2.map c).2 ⟨t, g1, g2, rfl⟩
      · exact ⟨.cstr, Or.inr ⟨rfl, hX⟩⟩

/-- **C119.** With the same restriction no assertion fails, whatever the next call. -/
theorem C119_no_assertion_partial {E : Env} {l : List Call} {s : State} (ha : E.autoDamping = false) (h : Changing E l s)
    (c : Call) (hc : Allowed l s c) : s.call E c ≠ .ub :=
  call_not_ub h.cinv.inv ha c (h.cinv.legal hc)

/-- **C119.** With the same restriction a resolution returns as soon as the tasks present are supported with the priority levels that they
have now, and the tasks whose weight was changed are not now at priority 0 (no additional variables, as in C63). -/
theorem C119_returns_partial {E : Env} {l : List Call} {s : State} (h : Changing E l s) (ha : E.autoDamping = false)
    (hz : ∀ S t, E.zs S t = []) (hsup : ∀ t, Present l t → Supported (E.task t))
    (hw : ∀ t b, Call.changeWeight t b ∈ l → (E.task t).prio ≠ 0) : ∃ s' b, s.solve E = .ok s' b := by
  refine solve_returns h.cinv.inv ha hz (fun t ht => (supported_iff E t).2 (hsup t ((h.cinv.tr t).1 ht))) ?_
  intro m hm e he hew t het
  obtain ⟨u, b, h1, h2⟩ := h.cinv.weights m hm e he hew
  rw [het] at h2
  injection h2 with h2
  subst h2
  exact hw t b h1

/-! ### Counterexamples -/

/-- `E` where task `t` has another priority level. -/
def Env.prio (E : Env) (t p : Nat) : Env := { E with task := fun u => if u = t then { E.task u with prio := p } else E.task u }

theorem prio_change (E : Env) (t p : Nat) (K : Nat → Prop) (hK : ¬ K t) : Change E (E.prio t p) K := by
  refine ⟨fun u => ?_, fun u hu => ⟨?_, fun S => ⟨rfl, rfl⟩⟩, rfl, rfl, rfl, rfl, rfl, rfl, rfl, rfl⟩
  · simp only [Env.prio]; split <;> exact ⟨rfl, rfl⟩
  · simp only [Env.prio]; rw [if_neg (fun hh : u = t => hK (hh ▸ hu))]

/-- The restriction is needed: a task at priority 0 is solved, its priority level becomes 1, it is removed. At the next resolution the
scheme removes an objective that the solver does not have, and the assertion on the number of rows fails (without assertions: its constraint
stays in the solver for ever, and the number of rows of the objectives is wrong). -/
theorem C119_priority_false : ∃ l s, Free (demo.prio 0 1) l s ∧ Allowed l s .solve ∧ s.call (demo.prio 0 1) .solve = .ub ∧
    (∀ t, Present l t → Supported ((demo.prio 0 1).task t)) := by
  refine ⟨_, _, .call _ _ _ _ (.removeTask 0) (.change demo _ _ _ (.call _ _ _ _ .solve (.call _ _ _ _ (.addTask 2) (.call _ _ _ _
    (.addTask 0) (.init _) ?_ rfl) ?_ rfl) trivial rfl) (prio_change _ _ _ _ (fun h => h))) trivial rfl, trivial, rfl, ?_⟩
  · simp [Allowed, Present]
  · simp [Allowed, Present, Call.on]
  · intro t ht
    simp [Present, Call.on] at ht
    obtain rfl : t = 2 := by omega
    exact (supported_iff (demo.prio 0 1) 2).1 rfl

/-- The same for an objective whose priority level becomes 0. -/
theorem C119_objective_false : ∃ l s, Free (demo.prio 2 0) l s ∧ Allowed l s .solve ∧ s.call (demo.prio 2 0) .solve = .ub ∧
    (∀ t, Present l t → Supported ((demo.prio 2 0).task t)) := by
  refine ⟨_, _, .call _ _ _ _ (.removeTask 2) (.change demo _ _ _ (.call _ _ _ _ .solve (.call _ _ _ _ (.addTask 2) (.call _ _ _ _
    (.addTask 0) (.init _) ?_ rfl) ?_ rfl) trivial rfl) (prio_change _ _ _ _ (fun h => h))) trivial rfl, trivial, rfl, ?_⟩
  · simp [Allowed, Present]
  · simp [Allowed, Present, Call.on]
  · intro t ht
    simp [Present, Call.on] at ht
    obtain rfl : t = 0 := by omega
    exact (supported_iff (demo.prio 2 0) 0).1 rfl

/-- A bound whose constraint can no longer be used as a bound when it is removed (the properties of its matrix changed) is
removed as a constraint, and the assertion fails. -/
theorem C119_bound_false : ∃ l s, Free { demo with asBound := fun _ _ => false } l s ∧ Allowed l s .solve ∧
    s.call { demo with asBound := fun _ _ => false } .solve = .ub := by
  refine ⟨_, _, .call _ _ _ _ (.removeTask 3) (.change demo _ _ _ (.call _ _ _ _ .solve (.call _ _ _ _ (.addTask 2) (.call _ _ _ _
    (.addTask 3) (.init _) ?_ rfl) ?_ rfl) trivial rfl) ?_) trivial rfl, trivial, rfl⟩
  · simp [Allowed, Present]
  · simp [Allowed, Present, Call.on]
  · exact ⟨fun _ => ⟨rfl, rfl⟩, fun _ h => h.elim, rfl, rfl, rfl, rfl, rfl, rfl, rfl, rfl⟩

/-- Without a removal, the change is ignored: the resolution succeeds with the task in its former role. -/
theorem C119_role_false : ∃ l s s' m b, Free (demo.prio 0 1) l s ∧ s.solve (demo.prio 0 1) = .ok s' b ∧ s'.mem = some m ∧
    (0, ⟨0, 2, .equal⟩) ∈ s'.pb.cons ∧ ToObjective (demo.prio 0 1) 0 ∧ m.solver.obj.map (·.1.id) = [1] ∧
    m.solver.eq.map (·.1.id) = [0] := by
  refine ⟨_, _, _, _, _, .change demo _ _ _ (.call _ _ _ _ .solve (.call _ _ _ _ (.addTask 2) (.call _ _ _ _
    (.addTask 0) (.init _) ?_ rfl) ?_ rfl) trivial rfl) (prio_change _ _ _ _ (fun h => h)), rfl, rfl, ?_, ?_, rfl, rfl⟩
  · simp [Allowed, Present]
  · simp [Allowed, Present, Call.on]
  · decide
  · simp [ToObjective, Env.prio]

/-! ### A case that meets the hypotheses -/

/-- Task 0 is solved at priority 0, removed, given priority 1 once a resolution was made without it, and added again; task 2, added
in the meantime, is given priority 0 before the resolution. -/
theorem changing_demo : ∃ l s s' b, Changing ((demo.prio 0 1).prio 2 0) l s ∧ s.solve ((demo.prio 0 1).prio 2 0) = .ok s' b ∧
    (∃ m, s'.mem = some m ∧ m.solver.obj.map (·.1.id) = [2] ∧ m.solver.eq.map (·.1.id) = [3]) ∧
    Present l 0 ∧ ToObjective ((demo.prio 0 1).prio 2 0) 0 ∧ Present l 2 := by
  refine ⟨_, _, _, _, .change (demo.prio 0 1) _ _ _ (.call _ _ _ _ (.addTask 2) (.call _ _ _ _ (.addTask 0) (.change demo _ _ _
    (.call _ _ _ _ .solve (.call _ _ _ _ (.removeTask 0) (.call _ _ _ _ .solve (.call _ _ _ _ (.addTask 1) (.call _ _ _ _
    (.addTask 0) (.init _) ?_ rfl) ?_ rfl) trivial rfl) trivial rfl) trivial rfl) (prio_change _ _ _ _ ?_)) ?_ rfl) ?_ rfl)
    (prio_change _ _ _ _ ?_), rfl, ⟨_, rfl, rfl, rfl⟩, ?_, ?_, ?_⟩
  · simp [Allowed, Present]
  · simp [Allowed, Present, Call.on]
  · rw [Handed_last]; simp [Present, Call.on]
  · simp [Allowed, Present, Call.on]
  · simp [Allowed, Present, Call.on]
  · rw [Handed_last, Handed_last, Handed_last]; simp [Present, Call.on]
  · simp [Present, Call.on]
  · simp [ToObjective, Env.prio]
  · simp [Present, Call.on]

end Verif.PB
