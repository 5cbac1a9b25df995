import Verif.Properties.C49_Problem
import Verif.Properties.C60_SolverViews
import Verif.Lemmas.WeightedLeastSquares7
/-!
# C51, C52, C59, C61, C62, C63: what the weighted least-squares scheme hands to its solver

Specification. `Run` (see C49) is any sequence of calls on a problem. `Live s P c`: in the problem, `c` is the constraint of a
task satisfying `P` and no substitution uses it. `Roles` groups the three roles.
-/
set_option autoImplicit false
set_option linter.unusedSimpArgs false

namespace Verif.PB
open Verif.SE Verif.LS

/-! ## Specification -/

/-- `c` is the constraint of a task of the problem satisfying `P` and is not used by a substitution. -/
def Live (s : State) (P : Nat → Prop) (c : Cstr) : Prop :=
  ∃ t, (t, c) ∈ s.pb.cons ∧ (∀ x ∈ s.pb.subs, c ∉ x.cstrs) ∧ P t

/-- Tasks handled as bounds. -/
def ToBound (E : Env) (s : State) (t : Nat) : Prop := (E.task t).prio = 0 ∧ E.asBound s.pb.subs t = true

/-- Tasks handled as constraints. -/
def ToConstraint (E : Env) (s : State) (t : Nat) : Prop := (E.task t).prio = 0 ∧ ¬ E.asBound s.pb.subs t = true

/-- Tasks handled as objectives. -/
def ToObjective (E : Env) (t : Nat) : Prop := (E.task t).prio ≠ 0

/-- The tasks that the scheme supports: least squares at level 1 (equalities only), no violation at level 0. -/
def Supported (i : TaskInfo) : Prop := i.vet = .l2 ∧ (i.prio = 0 ∨ i.prio = 1 ∧ i.type = .equal)

/-! ## Proof -/

theorem live_cat {E : Env} {s : State} (hp : PInv E s.pb) (k : Cat) (P : Nat → Prop) (hk : ∀ t, catOf E s.pb t = k ↔ P t)
    {m : Mem} (hm : ∀ t, get m.map t = get s.pb.cons t) (c : Cstr) : CatSet E s.pb m.map k c ↔ Live s P c := by
  simp only [CatSet, Live, hm, mem_get hp.keysNodup, hk, uses_iff]
  constructor
  · rintro ⟨t, h1, h2, h3⟩
    refine ⟨t, h1, fun x hx hc => ?_, h3⟩
    have : uses s.pb.subs c = true := (uses_iff _ _).2 ⟨x, hx, hc⟩
    rw [this] at h2; simp at h2
  · rintro ⟨t, h1, h2, h3⟩
    refine ⟨t, h1, ?_, h3⟩
    cases hh : uses s.pb.subs c with
    | false => rfl
    | true => obtain ⟨x, hx, hc⟩ := (uses_iff _ _).1 hh; exact absurd hc (h2 x hx)

theorem cat_bnd (E : Env) (s : State) (t : Nat) : catOf E s.pb t = .bnd ↔ ToBound E s t := by
  simp only [catOf, ToBound]; split <;> (try split) <;> simp_all

theorem cat_cstr (E : Env) (s : State) (t : Nat) : catOf E s.pb t = .cstr ↔ ToConstraint E s t := by
  simp only [catOf, ToConstraint]; split <;> (try split) <;> simp_all

theorem cat_obj (E : Env) (s : State) (t : Nat) : catOf E s.pb t = .obj ↔ ToObjective E t := by
  simp only [catOf, ToObjective]; split <;> (try split) <;> simp_all

theorem supported_iff (E : Env) (t : Nat) : accepted E t = true ↔ Supported (E.task t) := by
  rw [accepted_iff, Supported]; exact and_comm

/-- What is known after a successful resolution. -/
theorem run_solve {E : Env} {l : List Call} {s s' : State} {b : Bool} (h : Run E false l s) (hs : s.solve E = .ok s' b) :
    ∃ m X, s'.mem = some m ∧ UpToDate E s'.pb m X ∧ PInv E s'.pb := by
  obtain ⟨h1, m, X, h2, h3, _⟩ := solve_ok (run_inv h) hs
  exact ⟨m, X, h2, h3, by rw [h1]; exact (run_inv h).pb.finalize.1⟩

/-! ## Properties -/

/-- **C61.** Whatever the additions and removals of tasks and substitutions, the changes of weights and the resolutions made
before, when a resolution reaches its solver, the events have all been handled, and the rows of the solver are laid out for
exactly the constraints of the tasks present that no substitution uses, each in its role, with the additional constraints of
the substitutions. -/
theorem C61_solver_layout {E : Env} {l : List Call} {s s' : State} {b : Bool} (h : Run E false l s)
    (hs : s.solve E = .ok s' b) :
    ∃ (m : Mem) (X : List Cstr), s'.mem = some m ∧ m.queue = [] ∧ X.map (·.size) = E.extraSizes s'.pb.subs ∧ (∀ c ∈ X, c.type = .equal) ∧
      Layout m.solver (fun c => Live s' (ToConstraint E s') c ∨ c ∈ X) (Live s' (ToBound E s')) (Live s' (ToObjective E))
        (E.start (setOf m.vars)) ∧
      (∀ c, (∃ a ∈ m.held, a.c = c) ↔ (Live s' (fun _ => True) c ∨ c ∈ X)) ∧
      (∀ t, t ∈ s'.pb.tr ↔ Present l t) := by
  obtain ⟨m, X, h1, h2, h3⟩ := run_solve h hs
  have e1 : CSet E s'.pb X .cstr m.map = fun c => Live s' (ToConstraint E s') c ∨ c ∈ X := by
    funext c; apply propext
    simp only [CSet, live_cat h3 .cstr _ (cat_cstr E s') h2.map, true_and]
  have e2 : CSet E s'.pb X .bnd m.map = Live s' (ToBound E s') := by
    funext c; apply propext
    simp [CSet, live_cat h3 .bnd _ (cat_bnd E s') h2.map]
  have e3 : CSet E s'.pb X .obj m.map = Live s' (ToObjective E) := by
    funext c; apply propext
    simp [CSet, live_cat h3 .obj _ (cat_obj E s') h2.map]
  refine ⟨m, X, h1, h2.queue, h2.sync.xSizes, fun c hc => (h2.sync.xOld c hc).2, ?_, fun c => ?_, ?_⟩
  · have := C33_layout h2.sync.reach
    rw [e1, e2, e3] at this
    exact this
  · rw [h2.sync.held]
    constructor
    · rintro ⟨k, ⟨t, g1, g2, g3⟩ | ⟨_, hX⟩⟩
      · have : CatSet E s'.pb m.map k c := ⟨t, g1, g2, g3⟩
        obtain ⟨u, w1, w2, _⟩ := (live_cat h3 k (fun t => catOf E s'.pb t = k) (fun _ => Iff.rfl) h2.map c).1 this
        exact Or.inl ⟨u, w1, w2, trivial⟩
      · exact Or.inr hX
    · rintro (⟨t, g1, g2, _⟩ | hX)
      · refine ⟨catOf E s'.pb t, Or.inl ?_⟩
        exact (live_cat h3 _ (fun u => catOf E s'.pb u = catOf E s'.pb t) (fun _ => Iff.rfl) h2.map c).2 ⟨t, g1, g2, rfl⟩
      · exact ⟨.cstr, Or.inr ⟨rfl, hX⟩⟩
  · intro t
    have := (run_pinv h).2 t
    rw [(solve_ok (run_inv h) hs).1, (run_inv h).pb.finalize.2.2.1, this]

/-- The tasks given to the solver are all supported by the scheme. -/
theorem C61_supported {E : Env} {l : List Call} {s s' : State} {b : Bool} (h : Run E false l s) (hs : s.solve E = .ok s' b)
    (t : Nat) (c : Cstr) (hc : (t, c) ∈ s'.pb.cons) (hu : ∀ x ∈ s'.pb.subs, c ∉ x.cstrs) : Supported (E.task t) := by
  obtain ⟨m, X, h1, h2, h3⟩ := run_solve h hs
  refine (supported_iff E t).1 (h2.sync.acc t c (by rw [h2.map]; exact (mem_get h3.keysNodup _ _).1 hc) ?_)
  cases hh : uses s'.pb.subs c with
  | false => rfl
  | true => obtain ⟨x, hx, hc⟩ := (uses_iff _ _).1 hh; exact absurd hc (hu x hx)

theorem occ_pos {E : Env} {p : Problem} {m : List (Nat × Cstr)} (v : V) : 0 < occ E p m v ↔
    ∃ e ∈ m, uses p.subs e.2 = false ∧ v.gen = 0 ∧ v.idx ∈ E.ys p.subs e.1 := by
  induction m with
  | nil => simp [occ]
  | cons e m ih =>
    have : occ E p (e :: m) v = (if uses p.subs e.2 then 0 else ((E.ys p.subs e.1).map (fun i => (⟨0, i⟩ : V))).count v) +
      occ E p m v := by simp [occ]
    rw [this]
    have hc : 0 < ((E.ys p.subs e.1).map (fun i => (⟨0, i⟩ : V))).count v ↔ v.gen = 0 ∧ v.idx ∈ E.ys p.subs e.1 := by
      rw [List.count_pos_iff, List.mem_map]
      obtain ⟨g, i⟩ := v
      constructor
      · rintro ⟨j, hj, hh⟩; injection hh with h1 h2; subst h1 h2; exact ⟨rfl, hj⟩
      · rintro ⟨h1, h2⟩; simp only at h1 h2; subst h1; exact ⟨i, h2, rfl⟩
    simp only [List.mem_cons, exists_eq_or_imp]
    rw [← ih, ← hc]
    cases uses p.subs e.2
    · rw [if_neg (by simp)]
      simp only [true_and]
      omega
    · rw [if_pos rfl]
      simp

/-- The variables of the solver are those of the constraints it has. Missing: substitutions with additional variables
(`E.zs`), for which the variables counted by the scheme become out of date (C59). -/
theorem C61_variables_partial {E : Env} {l : List Call} {s s' : State} {b : Bool} (h : Run E false l s)
    (hs : s.solve E = .ok s' b) (hz : ∀ S t, E.zs S t = []) :
    ∃ m, s'.mem = some m ∧ ∀ v, v ∈ m.vars ↔
      (v.gen = 0 ∧ ∃ t c, (t, c) ∈ s'.pb.cons ∧ (∀ x ∈ s'.pb.subs, c ∉ x.cstrs) ∧ v.idx ∈ E.ys s'.pb.subs t) := by
  obtain ⟨m, X, h1, h2, h3⟩ := run_solve h hs
  refine ⟨m, h1, fun v => ?_⟩
  rw [← List.count_pos_iff, h2.sync.count hz, occ_pos]
  have hu : ∀ c, uses s'.pb.subs c = false ↔ ∀ x ∈ s'.pb.subs, c ∉ x.cstrs := by
    intro c
    constructor
    · intro hh x hx hc
      have := (uses_iff _ _).2 ⟨x, hx, hc⟩
      rw [this] at hh; simp at hh
    · intro hh
      cases hc : uses s'.pb.subs c with
      | false => rfl
      | true => obtain ⟨x, hx, hc⟩ := (uses_iff _ _).1 hc; exact absurd hc (hh x hx)
  constructor
  · rintro ⟨⟨t, c⟩, g1, g2, g3, g4⟩
    have := (mem_get h2.sync.keysNodup _ _).1 g1
    rw [h2.map] at this
    exact ⟨g3, t, c, (mem_get h3.keysNodup _ _).2 this, (hu c).1 g2, g4⟩
  · rintro ⟨g3, t, c, g1, g2, g4⟩
    have := (mem_get h3.keysNodup _ _).1 g1
    rw [← h2.map] at this
    exact ⟨(t, c), (mem_get h2.sync.keysNodup _ _).2 this, (hu c).2 g2, g3, g4⟩

/-- With LSSOL and LexLS, every assignment writes in the present matrices of the solver. -/
theorem C61_current {E : Env} {l : List Call} {s s' : State} {b : Bool} (h : Run E false l s) (hs : s.solve E = .ok s' b)
    (hk : E.kind = .lssol ∨ E.kind = .lexls) : ∃ m, s'.mem = some m ∧ Current m.solver := by
  obtain ⟨m, X, h1, h2, h3⟩ := run_solve h hs
  exact ⟨m, h1, C60_current_joint hk h2.sync.reach⟩

/-! ### C63: no assertion fails, and resolutions return -/

/-- No assertion of the problem, the queue, the scheme or the solver fails, whatever the calls. (`autoDamping` must not be
set: see `C52_auto_damping_false`.) -/
theorem C63_no_assertion {E : Env} {l : List Call} {s : State} (ha : E.autoDamping = false) (h : Run E false l s) (c : Call)
    (hc : Allowed l s c) : s.call E c ≠ .ub := by
  refine call_not_ub (run_inv h) ha c ?_
  cases c with
  | addTask t => exact fun hh => hc (((run_pinv h).2 t).1 hh)
  | _ => exact hc

theorem run_weights {E : Env} {l : List Call} {s : State} (h : Run E false l s)
    (hw : ∀ t b, Call.changeWeight t b ∈ l → (E.task t).prio ≠ 0) :
    ∀ m, s.mem = some m → ∀ e ∈ m.queue, e.isWeight = true → ∀ t, e.emitter = .task t → (E.task t).prio ≠ 0 := by
  induction h with
  | init => intro m hm; simp at hm
  | failed l s s' hf => simp at hf
  | call l s s' c hr ha hs ih =>
    have ih := ih fun t b hh => hw t b (by simp [hh])
    intro m hm e he hew t het
    by_cases hc : c = .solve
    · subst hc
      obtain ⟨b, hb⟩ := drop_ok.1 hs
      obtain ⟨_, m', X, h2, h3, _⟩ := solve_ok (run_inv hr) hb
      rw [h2] at hm
      injection hm with hm
      subst hm
      rw [h3.queue] at he; simp at he
    · have hl : LegalCall s c := by
        cases c with
        | addTask t => exact fun hh => ha (((run_pinv hr).2 t).1 hh)
        | _ => exact ha
      obtain ⟨m0, q, h1, h2, h3, _⟩ := (call_qstep (run_inv hr) c hl hs hc).2 m hm
      subst h2
      rcases h3 e he with hh | hh
      · exact ih m0 h1 e hh hew t het
      · obtain ⟨t', b, hc', ht'⟩ := hh hew
        rw [het] at ht'
        injection ht' with ht'
        subst ht'
        exact hw t b (by simp [hc'])

/-- **C63.** A resolution returns (no exception, no failing assertion) as soon as the tasks present are supported and no
weight of a task at priority 0 was changed. Missing: substitutions with additional variables, with which a resolution may
throw (`C59_removal_false`), and `autoDamping` (`C52_auto_damping_false`). -/
theorem C63_solve_returns_partial {E : Env} {l : List Call} {s : State} (h : Run E false l s) (ha : E.autoDamping = false)
    (hz : ∀ S t, E.zs S t = []) (hsup : ∀ t, Present l t → Supported (E.task t))
    (hw : ∀ t b, Call.changeWeight t b ∈ l → (E.task t).prio ≠ 0) : ∃ s' b, s.solve E = .ok s' b :=
  solve_returns (run_inv h) ha hz (fun t ht => (supported_iff E t).2 (hsup t (((run_pinv h).2 t).1 ht))) (run_weights h hw)

/-! ### C51: weights -/

theorem pow_lt {S : Rat} (hS : 1 < S) : ∀ n : Nat, S ^ n < S ^ (n + 1) ∧ 1 ≤ S ^ n := by
  intro n
  induction n with
  | zero => constructor
            · simpa [Rat.pow_succ] using hS
            · simp
  | succ n ih =>
    have h0 : (0 : Rat) < S := by grind
    have h1 : (1 : Rat) ≤ S ^ (n + 1) := by grind
    refine ⟨?_, h1⟩
    rw [Rat.pow_succ S (n + 1)]
    have : 0 < S ^ (n + 1) * (S - 1) := Rat.mul_pos (by grind) (by grind)
    grind

theorem pow_lt_pow {S : Rat} (hS : 1 < S) {a b : Nat} (h : a < b) : S ^ a < S ^ b := by
  induction b with
  | zero => omega
  | succ b ih =>
    have := (pow_lt hS b).1
    by_cases hab : a = b
    · subst hab; exact this
    · have := ih (by omega); grind

/-- **C51**, the formula: with a factor greater than 1 the weight strictly decreases with the priority, it is 1 for the
lowest priority present at the build and at least 1 for the others. (The scheme only accepts priority 1: see C58.) -/
theorem C51_decreasing (E : Env) (hS : 1 < E.scalarizationWeight) (maxp t u : Nat) (htu : (E.task t).prio < (E.task u).prio)
    (hu : (E.task u).prio ≤ maxp) : weightOf E maxp u < weightOf E maxp t ∧ 1 ≤ weightOf E maxp u ∧
    ((E.task u).prio = maxp → weightOf E maxp u = 1) := by
  have key : ∀ v, (E.task v).prio ≤ maxp → weightOf E maxp v = E.scalarizationWeight ^ (maxp - (E.task v).prio) := by
    intro v hv
    simp only [weightOf]
    rw [show ((maxp : Int) - ((E.task v).prio : Int)) = ((maxp - (E.task v).prio : Nat) : Int) by omega, Rat.zpow_natCast]
  rw [key u hu, key t (by omega)]
  refine ⟨pow_lt_pow hS (by omega), (pow_lt hS _).2, fun h => ?_⟩
  rw [h]; simp

/-! ### C59 and C51: which assignments are up to date -/

/-- From the calls only: does the next resolution rebuild the data of the scheme (first component), and were all the
assignments made with the substitutions as last finalized (second)? -/
def flagsStep : Bool × Bool → Call → Bool × Bool
  | (r, c), .solve => (false, r || c)
  | (r, _), .addTask _ => (r, false)
  | (r, _), .removeTask _ => (r, false)
  | (_, _), .addSub _ => (true, false)
  | (_, _), .removeSub _ => (true, false)
  | (_, _), .removeForeignSub => (true, false)
  | x, .changeWeight _ _ => x
  | x, .update => x

/-- The flags after a sequence of calls. -/
def flags (l : List Call) : Bool × Bool := l.foldl flagsStep (true, false)

theorem flags_snoc (l : List Call) (c : Call) : flags (l ++ [c]) = flagsStep (flags l) c := by simp [flags]

/-- All the assignments refer to the substitutions last finalized. -/
structure Fresh (s : State) (m : Mem) : Prop where
  fin : s.pb.finalized = true
  gen : ∀ a ∈ m.held, a.gen = s.pb.gen
  extra : ∀ c ∈ s.pb.extra, ∃ a ∈ m.held, a.c = c
  map : ∀ t, get m.map t = get s.pb.cons t

theorem legal_of_allowed {E : Env} {l : List Call} {s : State} (h : Run E false l s) {c : Call} (ha : Allowed l s c) :
    LegalCall s c := by
  cases c with
  | addTask t => exact fun hh => ha (((run_pinv h).2 t).1 hh)
  | _ => exact ha

theorem build_fresh {E : Env} {s' : State} {m : Mem} (hp : PInv E s'.pb) (hf : s'.pb.finalized = true)
    (hb : processProblem E s'.pb (Mem.new E) = .ok m ()) : Fresh s' m := by
  have hu := build_upToDate hp hf hb
  obtain ⟨_, _, h3⟩ := processProblem_ok hp hb
  refine ⟨hf, fun a ha => ?_, fun c hc => ?_, hu.map⟩
  · rw [h3] at ha
    obtain ⟨x, _, rfl⟩ := List.mem_map.1 ha
    cases x <;> rfl
  · exact (hu.sync.held c).2 ⟨.cstr, Or.inr ⟨rfl, hc⟩⟩

/-- The memory after a resolution: built anew, or updated. -/
theorem solve_flags {E : Env} {l : List Call} {s s' : State} {b : Bool} (h : Run E false l s)
    (ih1 : (flags l).1 = true → ∀ m, s.mem = some m → m.queue.any isSubEvent = true)
    (hs : s.solve E = .ok s' b) (hr : (flags l).1 = true) :
    ∃ m, s'.mem = some m ∧ processProblem E s'.pb (Mem.new E) = .ok m () := by
  obtain ⟨h1, m, X, h2, h3, h4⟩ := solve_ok (run_inv h) hs
  refine ⟨m, h2, ?_⟩
  rcases h4 with ⟨_, h4⟩ | ⟨m0, h4, h5⟩
  · exact h4
  · have hq := ih1 hr m0 h4
    have hi : SInv E ⟨s'.pb, some m0⟩ := by rw [h1, ← h4]; exact (run_inv h).finalize
    have hf : s'.pb.finalized = true := by rw [h1]; exact (run_inv h).pb.finalize.2.1
    rcases update_ok hi hf h5 with ⟨_, h, _⟩ | ⟨h, _⟩ | ⟨h, _⟩
    · exact h
    · rw [h] at hq; simp at hq
    · rw [h] at hq; simp at hq

theorem run_flags {E : Env} {l : List Call} {s : State} (h : Run E false l s) :
    ((flags l).1 = true → ∀ m, s.mem = some m → m.queue.any isSubEvent = true) ∧
    ((flags l).2 = true → ∃ m, s.mem = some m ∧ Fresh s m) := by
  generalize hff : false = f at h
  induction h with
  | init => simp [flags]
  | failed l s s' hf => subst hff; simp at hf
  | call l s s' c hr ha hs ih =>
    subst hff
    obtain ⟨ih1, ih2⟩ := ih
    rw [flags_snoc]
    have hi := run_inv hr
    have hl := legal_of_allowed hr ha
    by_cases hc : c = .solve
    · subst hc
      obtain ⟨b, hb⟩ := drop_ok.1 hs
      refine ⟨by simp [flagsStep], fun hfl => ?_⟩
      have hfl' : (flags l).1 = true ∨ (flags l).2 = true := by
        have : ((flags l).1 || (flags l).2) = true := hfl
        simpa using this
      obtain ⟨h1, m, X, h2, h3, h4⟩ := solve_ok hi hb
      have hf : s'.pb.finalized = true := by rw [h1]; exact hi.pb.finalize.2.1
      have hp : PInv E s'.pb := by rw [h1]; exact hi.pb.finalize.1
      have rebuilt : processProblem E s'.pb (Mem.new E) = .ok m () → ∃ m, s'.mem = some m ∧ Fresh s' m :=
        fun hb => ⟨m, h2, build_fresh hp hf hb⟩
      rcases hfl' with hfl | hfl
      · obtain ⟨m', g1, g2⟩ := solve_flags hr ih1 hb hfl
        exact ⟨m', g1, build_fresh hp hf g2⟩
      · obtain ⟨m0, g1, g2⟩ := ih2 hfl
        rcases h4 with ⟨h4, _⟩ | ⟨m0', h4, h5⟩
        · rw [g1] at h4; simp at h4
        · rw [g1] at h4
          injection h4 with h4
          subst h4
          have hpe : s'.pb = s.pb := by rw [h1, finalize_idem g2.fin]
          have hi' : SInv E ⟨s'.pb, some m0⟩ := by rw [hpe, ← g1]; exact hi
          have keep : ∀ Y, Sync E s'.pb m0 Y → UpToDate E s'.pb m Y → (∀ x ∈ m.held, x ∈ m0.held ∨ x.gen = s'.pb.gen) →
              Fresh s' m := by
            intro Y hY1 hY2 hg
            refine ⟨hf, fun a ha => ?_, fun c hc => ?_, hY2.map⟩
            · rcases hg a ha with hg | hg
              · rw [g2.gen a hg, hpe]
              · exact hg
            · obtain ⟨k, hk | ⟨_, hk⟩⟩ := (hY1.held c).1 (g2.extra c (by rw [← hpe]; exact hc))
              · obtain ⟨t, ht, _⟩ := hk
                rw [g2.map, ← hpe] at ht
                exact absurd ht (hp.extraOther c hc t)
              · exact (hY2.sync.held c).2 ⟨.cstr, Or.inr ⟨rfl, hk⟩⟩
          rcases update_ok hi' hf h5 with ⟨_, h, _⟩ | ⟨_, _, h, Y, hY1, hY2⟩ | ⟨_, _, Y, _, _, hY1, _, _, _, hY2, _, hg⟩
          · exact rebuilt h
          · exact ⟨m, h2, keep Y hY1 hY2 (by rw [h]; exact fun x hx => Or.inl hx)⟩
          · exact ⟨m, h2, keep Y hY1 hY2 hg⟩
    · have hq := call_qstep hi c hl hs hc
      constructor
      · intro hfl m hm
        obtain ⟨m0, q, q1, q2, _, q4⟩ := hq.2 m hm
        subst q2
        apply q4
        cases c with
        | solve => exact absurd rfl hc
        | addTask t => exact Or.inl (ih1 hfl m0 q1)
        | removeTask t => exact Or.inl (ih1 hfl m0 q1)
        | changeWeight t b => exact Or.inl (ih1 hfl m0 q1)
        | update => exact Or.inl (ih1 hfl m0 q1)
        | addSub x => exact Or.inr rfl
        | removeSub x => exact Or.inr rfl
        | removeForeignSub => exact Or.inr rfl
      · intro hfl
        cases c with
        | changeWeight t b =>
          obtain ⟨m0, g1, g2⟩ := ih2 hfl
          obtain ⟨s1, w1, _⟩ := changeWeight_inv hi t b
          have hpb : s'.pb = s.pb ∧ s'.mem ≠ none := by
            simp only [State.call, State.changeWeight] at hs
            split at hs
            · split at hs
              · simp at hs
              · next mem hn =>
                injection hs with hs
                rw [← hs]
                refine ⟨rfl, ?_⟩
                simp only [g1, notify] at hn
                split at hn
                · simp at hn
                · injection hn with hn; rw [← hn]; simp
            · injection hs with hs; rw [← hs]; exact ⟨rfl, by rw [g1]; simp⟩
          cases hm : s'.mem with
          | none => exact absurd hm hpb.2
          | some m =>
            obtain ⟨m1, q, q1, q2, _, _⟩ := hq.2 m hm
            rw [g1] at q1
            injection q1 with q1
            subst q1 q2
            exact ⟨_, rfl, by rw [hpb.1]; exact g2.fin, by rw [hpb.1]; exact g2.gen, by rw [hpb.1]; exact g2.extra,
              by rw [hpb.1]; exact g2.map⟩
        | update =>
          obtain ⟨m0, g1, g2⟩ := ih2 hfl
          simp only [State.call, State.update] at hs
          injection hs with hs
          rw [finalize_idem g2.fin] at hs
          rw [← hs]
          exact ⟨m0, g1, g2⟩
        | solve => exact absurd rfl hc
        | _ => simp [flagsStep] at hfl

/-- **C59**, when it holds: if since the last change of tasks or substitutions a resolution rebuilt the data of the scheme
(first resolution, or substitutions added or removed since the previous one), then the assignments of the solver were all
made with the substitutions that the problem updates, and the additional constraints of the problem are in the solver.
Missing: changes of tasks only, after a first resolution, for which it is false (`C59_stale_false`,
`C59_removal_false`). -/
theorem C59_current_partial {E : Env} {l : List Call} {s s' : State} {b : Bool} (h : Run E false l s)
    (hs : s.solve E = .ok s' b) (hf : (flags l).1 = true ∨ (flags l).2 = true) :
    ∃ m, s'.mem = some m ∧ (∀ a ∈ m.held, a.gen = s'.pb.gen) ∧ (∀ c ∈ s'.pb.extra, ∃ a ∈ m.held, a.c = c) ∧
      s'.pb.finalized = true := by
  have h' : Run E false (l ++ [.solve]) s' := .call _ _ _ _ h trivial (drop_ok.2 ⟨b, hs⟩)
  obtain ⟨m, h1, h2⟩ := (run_flags h').2 (by
    rw [flags_snoc]
    show ((flags l).1 || (flags l).2) = true
    simpa using hf)
  exact ⟨m, h1, h2.gen, h2.extra, h2.fin⟩

theorem build_maxp {E : Env} {p : Problem} (hp : PInv E p) {m : Mem} (hb : processProblem E p (Mem.new E) = .ok m ())
    {t : Nat} {c : Cstr} (hc : (t, c) ∈ p.cons) (hu : uses p.subs c = false) (ho : catOf E p t = .obj) : m.maxp = 1 := by
  obtain ⟨h1, _, h3⟩ := processProblem_ok hp hb
  have hle := scanned_maxp h1
  have key : ∀ (l : List (Nat × Cstr)) (n : Nat), (∀ e ∈ l, n ≤ l.foldl (fun m e => max m (E.task e.1).prio) n) ∧
      ∀ e ∈ l, (E.task e.1).prio ≤ l.foldl (fun m e => max m (E.task e.1).prio) n := by
    intro l
    have ge : ∀ (l : List (Nat × Cstr)) (n : Nat), n ≤ l.foldl (fun m e => max m (E.task e.1).prio) n := by
      intro l
      induction l with
      | nil => intro n; exact Nat.le_refl _
      | cons e l ih => intro n; exact Nat.le_trans (Nat.le_max_left _ _) (ih _)
    intro n
    refine ⟨fun _ _ => ge l n, ?_⟩
    induction l generalizing n with
    | nil => simp
    | cons e l ih =>
      intro x hx
      rcases List.mem_cons.1 hx with rfl | hx
      · exact Nat.le_trans (Nat.le_max_right _ _) (ge l _)
      · exact ih _ x hx
  have hmem : (t, c) ∈ role E p .obj p.cons := by
    simp [role, live, hc, hu, ho]
  have h2 := (key (role E p .obj p.cons) 0).2 (t, c) hmem
  have hne : (E.task t).prio ≠ 0 := fun hh => catOf_zero.1 hh ho
  have h4 : m.maxp = (role E p .obj p.cons).foldl (fun m e => max m (E.task e.1).prio) 0 := by rw [h3]; rfl
  have h5 : m.maxp = (scanned E p p.cons {}).maxp := by rw [h3]
  simp only at h2
  omega

/-- **C51** for the weights in the solver: they are the same for all the objectives; they are 1 when the resolution builds
the data of the scheme (first resolution, or substitutions changed since the previous one); after any sequence of calls they
are 1 or the inverse of the factor. -/
theorem C51_uniform {E : Env} {l : List Call} {s s' : State} {b : Bool} (h : Run E false l s) (hs : s.solve E = .ok s' b) :
    ∃ m w, s'.mem = some m ∧ (∀ a ∈ m.held, Live s' (ToObjective E) a.c → a.weight = w) ∧
      (w = 1 ∨ w = E.scalarizationWeight⁻¹) ∧ ((flags l).1 = true → (∃ c, Live s' (ToObjective E) c) → w = 1) := by
  obtain ⟨m, X, h1, h2, h3⟩ := run_solve h hs
  refine ⟨m, E.scalarizationWeight ^ ((m.maxp : Int) - 1), h1, fun a ha hl => ?_, ?_⟩
  · exact h2.sync.weight a ha (Or.inl ((live_cat h3 .obj _ (cat_obj E s') h2.map a.c).2 hl))
  · refine ⟨?w, fun hf ⟨c, t, g1, g2, g3⟩ => ?_⟩
    case w =>
      have := h2.sync.maxp
      rcases (show m.maxp = 0 ∨ m.maxp = 1 by omega) with hh | hh
      · right
        rw [hh]
        show E.scalarizationWeight ^ (-1 : Int) = _
        rw [show (-1 : Int) = -((1 : Nat) : Int) by rfl, Rat.zpow_neg, Rat.zpow_natCast]; simp
      · left
        rw [hh]
        show E.scalarizationWeight ^ (0 : Int) = _
        simp
    · obtain ⟨m', g4, g5⟩ := solve_flags h (run_flags h).1 hs hf
      rw [h1] at g4
      injection g4 with g4
      subst g4
      have hu : uses s'.pb.subs c = false := by
        cases hc : uses s'.pb.subs c with
        | false => rfl
        | true => obtain ⟨x, hx, hc⟩ := (uses_iff _ _).1 hc; exact absurd hc (g2 x hx)
      rw [build_maxp h3 g5 g1 hu ((cat_obj E s' t).2 g3)]
      show E.scalarizationWeight ^ (0 : Int) = _
      simp

/-! ### C52: announced sizes -/

/-- **C52.** When the scheme builds its data for the problem reached by any sequence of calls, the numbers of rows of
equality constraints and inequality constraints announced to the solver, and the sum of the sizes of the objectives, are
those of the constraints, additional constraints and objectives it then adds, none of them being added twice; bounds are
announced if and only if some are added. -/
theorem C52_announced {E : Env} {f : Bool} {l : List Call} {s : State} (h : Run E f l s) (a : Scan)
    (hs : scanAll E (s.pb.finalize E) s.pb.cons {} = .ok a) :
    GoodBuild E.kind a.nObj (a.nEq + ((s.pb.finalize E).extra.map (·.size)).sum) a.nIneq (!a.bounds.isEmpty)
      (addsOf E (s.pb.finalize E) a) ∧ (E.autoDamping = false ∨ a.nObj ≠ 0 → nObjOf E a = a.nObj) := by
  obtain ⟨f1, _, _, f4, _⟩ := (run_pinv h).1.finalize
  rw [← f4] at hs
  obtain ⟨_, h2⟩ := (scanAll_spec E _ _ _ a).1 hs
  refine ⟨scanned_good f1 a h2, fun hh => ?_⟩
  simp only [nObjOf]
  rcases hh with hh | hh <;> simp [hh]

/-- When no objective is present and `autoDamping` is set, rows are announced for a damping that is never added: the
assertion of `finalizeBuild` fails, for the first resolution of a problem with one constraint. -/
theorem C52_auto_damping_false :
    ∃ s, Run { demo with autoDamping := true } false [.addTask 0] s ∧
      s.call { demo with autoDamping := true } .solve = .ub := by
  refine ⟨_, .call [] _ _ _ .init ?_ rfl, rfl⟩
  simp [Allowed, Present]

/-! ### C62: after an exception -/

/-- An exception at the first resolution leaves no data in the scheme: the invariants hold, and any of the theorems above
applies to what follows. -/
theorem C62_first_partial {E : Env} {s s' : State} (h : SInv E s) (hm : s.mem = none) (hs : s.solve E = .throw s') :
    SInv E s' ∧ s'.mem = none := by
  have hpb := solve_pb (E := E) (s := s) (Or.inr hs)
  have hmem : s'.mem = none := by
    simp only [State.solve, State.getData, hm] at hs
    obtain ⟨f1, f2, _⟩ := h.pb.finalize
    cases hp : processProblem E (s.pb.finalize E) (Mem.new E) with
    | ub => simp only [hp] at hs; simp at hs
    | throw m1 => simp only [hp] at hs; injection hs with hs; rw [← hs]
    | ok m1 u =>
      have hup := build_upToDate f1 f2 hp
      simp only [hp, finalize_idem f2, updateData, hup.queue, List.isEmpty_nil, if_true] at hs
      simp at hs
  refine ⟨⟨by rw [hpb]; exact h.pb.finalize.1, ?_, ?_⟩, hmem⟩
  · intro m hm'; rw [hmem] at hm'; simp at hm'
  · intro m hm'; rw [hmem] at hm'; simp at hm'

/-- **C62** is false: after an exception the events handled in the same resolution are lost. Here bound 3 is added and the
weight of a task at priority 0 is changed: the resolution throws; the next one returns, and its solver ignores bound 3. -/
theorem C62_lost_events_false :
    ∃ s s' s'' m, ({} : State).calls demo [.addTask 0, .addTask 2, .solve, .addTask 3, .changeWeight 0 true] = .ok s () ∧
      s.solve demo = .throw s' ∧ s'.solve demo = .ok s'' true ∧ s''.pb.tr = [0, 2, 3] ∧ s''.mem = some m ∧
      m.map.map (·.1) = [0, 2, 3] ∧ m.held.map (·.c.id) = [0, 1] ∧ m.solver.bnd = [] := by
  refine ⟨_, _, _, _, rfl, rfl, rfl, rfl, rfl, rfl, rfl, rfl⟩

/-- After an exception while the data are rebuilt, the solver is empty: the next resolution uses it as it is, without any
of the constraints. -/
theorem C62_unbuilt_false :
    ∃ s s' s'' m, ({} : State).calls demo [.addTask 0, .addTask 2, .solve, .addTask 9, .removeForeignSub] = .ok s () ∧
      s.solve demo = .throw s' ∧ s'.solve demo = .ok s'' true ∧ s''.pb.tr = [0, 2, 9] ∧ s''.mem = some m ∧
      m.held = [] ∧ m.solver = Solver.new .qld false := by
  refine ⟨_, _, _, _, rfl, rfl, rfl, rfl, rfl, rfl, rfl⟩

/-- Removing the task that caused the exception does not repair: the removal throws again, having released variables that
the other task still uses. -/
theorem C62_not_repaired_false :
    ∃ s s' s'' s3 s4 m, ({} : State).calls demo [.addTask 2, .solve, .addTask 9] = .ok s () ∧
      s.solve demo = .throw s' ∧ s'.call demo (.removeTask 9) = .ok s'' () ∧ s''.solve demo = .throw s3 ∧
      s3.solve demo = .ok s4 true ∧ s4.pb.tr = [2] ∧ s4.mem = some m ∧ demo.ys [] 2 = [0, 2] ∧ m.vars = [⟨0, 2⟩] := by
  refine ⟨_, _, _, _, _, _, rfl, rfl, rfl, rfl, rfl, rfl, rfl, rfl, rfl⟩

/-! ### C59: counterexamples -/

/-- As `demo`, with an additional variable for task 2 and an additional constraint when there is a substitution. -/
def demoZ : Env := { demo with zs := fun S t => if S.length > 0 ∧ t = 2 then [0] else [], extraSizes := fun S => if S.length > 0 then [1] else [] }

/-- **C59** is false: after a first resolution with a substitution (of task 0), task 1 is added. The problem creates new
substitution data (generation 2), but the assignment of task 2 still refers to the former ones, as does the additional
constraint: the one in the solver (2) is not the one of the problem (4). -/
theorem C59_stale_false :
    ∃ s m, Run demoZ false [.addTask 0, .addTask 2, .addSub ⟨[⟨0, 2, .equal⟩], 1⟩, .solve, .addTask 1, .solve] s ∧
      s.mem = some m ∧ s.pb.gen = 2 ∧ s.pb.extra = [⟨4, 1, .equal⟩] ∧
      m.held.map (fun a => (a.c.id, a.gen)) = [(1, 1), (2, 1), (3, 2)] ∧ m.queue = [] := by
  refine ⟨_, _, .call _ _ _ _ (.call _ _ _ _ (.call _ _ _ _ (.call _ _ _ _ (.call _ _ _ _ (.call [] _ _ _ .init ?_ rfl) ?_ rfl)
    ?_ rfl) ?_ rfl) ?_ rfl) ?_ rfl, rfl, rfl, rfl, rfl, rfl⟩
  · simp [Allowed, Present]
  · simp [Allowed, Present, Call.on]
  · show ∀ c ∈ [(⟨0, 2, .equal⟩ : Cstr)], _
    decide
  · trivial
  · simp [Allowed, Present, Call.on]
  · trivial

/-- Removing a task whose constraint uses an additional variable throws: the variable that the scheme wants to release is
a new one. -/
theorem C59_removal_false :
    ∃ s s', Run demoZ false [.addTask 0, .addTask 2, .addSub ⟨[⟨0, 2, .equal⟩], 1⟩, .solve, .removeTask 2] s ∧
      s.solve demoZ = .throw s' := by
  refine ⟨_, _, .call _ _ _ _ (.call _ _ _ _ (.call _ _ _ _ (.call _ _ _ _ (.call [] _ _ _ .init ?_ rfl) ?_ rfl)
    ?_ rfl) ?_ rfl) ?_ rfl, rfl⟩
  · simp [Allowed, Present]
  · simp [Allowed, Present, Call.on]
  · show ∀ c ∈ [(⟨0, 2, .equal⟩ : Cstr)], _
    decide
  · trivial
  · trivial

/-- An objective added when there was none at the first resolution has the inverse of the factor as weight. -/
theorem C51_late_objective :
    ∃ s m, Run demo false [.addTask 0, .solve, .addTask 2, .solve] s ∧ s.mem = some m ∧
      m.held.map (fun a => (a.c.id, a.weight)) = [(0, 1), (1, 1 / 1000)] := by
  refine ⟨_, _, .call _ _ _ _ (.call _ _ _ _ (.call _ _ _ _ (.call [] _ _ _ .init ?_ rfl) ?_ rfl)
    ?_ rfl) ?_ rfl, rfl, ?_⟩
  · simp [Allowed, Present]
  · trivial
  · simp [Allowed, Present, Call.on]
  · trivial
  · decide +kernel

/-! ## Non-vacuity -/

/-- A sequence of calls with all kinds of tasks, a substitution, a removal and a change of weight: the conditions of C61,
C63 and C59 are met. -/
def demoCalls : List Call :=
  [.addTask 0, .addTask 1, .addTask 2, .solve, .addTask 3, .removeTask 1, .changeWeight 2 true, .solve, .addTask 1,
   .addSub ⟨[⟨0, 2, .equal⟩], 1⟩]

theorem demo_run : ∃ s s' b, Run demo false demoCalls s ∧ s.solve demo = .ok s' b ∧ demo.autoDamping = false ∧
    (∀ S t, demo.zs S t = []) ∧ (∀ t, Present demoCalls t → Supported (demo.task t)) ∧
    (∀ t b, Call.changeWeight t b ∈ demoCalls → (demo.task t).prio ≠ 0) ∧ (flags demoCalls).1 = true ∧
    (∃ m, s'.mem = some m ∧ m.held.map (·.c.id) = [2, 4, 3]) ∧ (∃ c, Live s' (ToObjective demo) c) := by
  refine ⟨_, _, _, .call _ _ _ _ (.call _ _ _ _ (.call _ _ _ _ (.call _ _ _ _ (.call _ _ _ _ (.call _ _ _ _ (.call _ _ _ _
    (.call _ _ _ _ (.call _ _ _ _ (.call [] _ _ _ .init ?_ rfl) ?_ rfl) ?_ rfl) ?_ rfl) ?_ rfl) ?_ rfl) ?_ rfl) ?_ rfl) ?_ rfl)
    ?_ rfl, rfl, rfl, fun _ _ => rfl, ?_, ?_, rfl, ⟨_, rfl, rfl⟩, ?_⟩
  · simp [Allowed, Present]
  · simp [Allowed, Present, Call.on]
  · simp [Allowed, Present, Call.on]
  · trivial
  · simp [Allowed, Present, Call.on]
  · trivial
  · trivial
  · trivial
  · simp [Allowed, Present, Call.on]
  · show ∀ c ∈ [(⟨0, 2, .equal⟩ : Cstr)], _
    decide
  · intro t ht
    simp [Present, demoCalls, Call.on] at ht
    have : t = 0 ∨ t = 1 ∨ t = 2 ∨ t = 3 := by omega
    rcases this with rfl | rfl | rfl | rfl <;> simp [Supported, demo]
  · intro t b hb
    simp [demoCalls] at hb
    rw [hb.1]; simp [demo]
  · exact ⟨⟨2, 3, .equal⟩, 2, by decide, by decide, by simp [ToObjective, demo]⟩

/-- `C51_decreasing`: priorities 1 and 2. -/
example : weightOf demo 2 9 < weightOf demo 2 2 ∧ 1 ≤ weightOf demo 2 9 ∧ ((demo.task 9).prio = 2 → weightOf demo 2 9 = 1) :=
  C51_decreasing demo (by decide +kernel) 2 2 9 (by decide) (by decide)

/-- The theorems, for this sequence of calls -/
example : ∃ s' : State, (∀ t, t ∈ s'.pb.tr ↔ Present demoCalls t) ∧ (∃ m w, s'.mem = some m ∧ ∀ a ∈ m.held, Live s' (ToObjective demo) a.c → a.weight = w) ∧
    (∃ m, s'.mem = some m ∧ ∀ v, v ∈ m.vars ↔
      (v.gen = 0 ∧ ∃ t c, (t, c) ∈ s'.pb.cons ∧ (∀ x ∈ s'.pb.subs, c ∉ x.cstrs) ∧ v.idx ∈ demo.ys s'.pb.subs t)) ∧
    (∃ m, s'.mem = some m ∧ (∀ a ∈ m.held, a.gen = s'.pb.gen)) := by
  obtain ⟨s, s', b, h, hs, -, hz, -, -, hf, -, -⟩ := demo_run
  obtain ⟨-, -, -, -, -, -, -, -, h8⟩ := C61_solver_layout h hs
  obtain ⟨m, w, hm, hw, -⟩ := C51_uniform h hs
  obtain ⟨m', hm', hg, -⟩ := C59_current_partial h hs (Or.inl hf)
  exact ⟨s', h8, ⟨m, w, hm, hw⟩, C61_variables_partial h hs hz, m', hm', hg⟩

/-- Solving is defined after this sequence of calls, and no call allowed there fails an assertion. -/
example : ∃ (s s' : State) (b : Bool), s.solve demo = .ok s' b ∧ s.call demo .solve ≠ .ub := by
  obtain ⟨s, -, -, h, -, ha, hz, hsup, hw, -⟩ := demo_run
  obtain ⟨s', b, h'⟩ := C63_solve_returns_partial h ha hz hsup hw
  exact ⟨s, s', b, h', C63_no_assertion ha h .solve trivial⟩

end Verif.PB
