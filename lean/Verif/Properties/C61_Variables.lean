import Verif.Properties.C61_Pipeline
/-!
# C61: the variables of the solver when substitutions introduce additional variables

If the data of the scheme was rebuilt since the last change of tasks or substitutions (`flags`), the variables of the solver are those of
its constraints, the additional variables of the current substitutions included. Otherwise it is false (`C59_removal_false`).
-/
set_option autoImplicit false
set_option linter.unusedSimpArgs false

namespace Verif.PB
open Verif.SE Verif.LS

/-- Changes of weights leave the variables. -/
theorem handle_weights {E : Env} {p : Problem} (q : List EQ.Event) (hq : ∀ e ∈ q, e.isWeight = true) (m m' : Mem) (ops : List Op)
    (h : handle E p q m = .ok m' ops) : m'.vars = m.vars := by
  induction q generalizing m m' ops with
  | nil => simp only [handle] at h; injection h with h; rw [← h]
  | cons e q ih =>
    have he := hq e (List.mem_cons_self ..)
    simp only [handle] at h
    cases hh : onEvent E p { m with queue := q } e with
    | ub => rw [hh] at h; cases h
    | throw m1 => rw [hh] at h; cases h
    | ok m1 o1 =>
      have h1 : m1.vars = m.vars := by
        have weight : ∀ t b, onWeight E p { m with queue := q } t b = .ok m1 o1 → m1.vars = m.vars := by
          intro t b hw
          simp only [onWeight] at hw
          split at hw
          · cases hw
          · split at hw
            · cases hw
            · injection hw with hw; rw [← hw]
        obtain ⟨ty, em⟩ := e
        simp only [onEvent] at hh
        cases em with
        | subs i => cases ty <;> cases hh
        | task t =>
          cases ty
          all_goals first
            | exact weight _ _ hh
            | (simp [EQ.Event.isWeight] at he; done)
            | cases hh
      rw [hh] at h
      simp only at h
      cases h2 : handle E p q m1 with
      | ub => rw [h2] at h; cases h
      | throw m2 => rw [h2] at h; cases h
      | ok m2 o2 =>
        rw [h2] at h
        injection h with h
        rw [← h, ih (fun e he => hq e (List.mem_cons_of_mem _ he)) m1 m2 o2 h2, h1]

/-- The variables are those of the constraints that no substitution uses. -/
def Exact (E : Env) (p : Problem) (m : Mem) : Prop := ∀ v, v ∈ m.vars ↔ v ∈ (live p p.cons).flatMap (fun e => varsOf E p e.1)

theorem run_vars {E : Env} {l : List Call} {s : State} (h : Run E false l s) (hf : (flags l).2 = true) :
    ∃ m, s.mem = some m ∧ s.pb.finalized = true ∧ (∀ e ∈ m.queue, e.isWeight = true) ∧ Exact E s.pb m := by
  generalize hff : false = f at h
  induction h with
  | init => simp [flags] at hf
  | failed l s s' hf' => subst hff; simp at hf'
  | call l s s' c hr ha hs ih =>
    subst hff
    rw [flags_snoc] at hf
    have hi := run_inv hr
    cases c with
    | solve =>
      obtain ⟨b, hb⟩ := drop_ok.1 hs
      obtain ⟨h1, m, X, h2, h3, h4⟩ := solve_ok hi hb
      have hfin : s'.pb.finalized = true := by rw [h1]; exact hi.pb.finalize.2.1
      have hp : PInv E s'.pb := by rw [h1]; exact hi.pb.finalize.1
      have rebuilt : ∀ m, s'.mem = some m → processProblem E s'.pb (Mem.new E) = .ok m () →
          ∃ m, s'.mem = some m ∧ s'.pb.finalized = true ∧ (∀ e ∈ m.queue, e.isWeight = true) ∧ Exact E s'.pb m := by
        intro m g1 g2
        obtain ⟨_, _, g3⟩ := processProblem_ok hp g2
        refine ⟨m, g1, hfin, by rw [g3]; simp, fun v => ?_⟩
        rw [g3]
        simp [scanned]
      have hfl : (flags l).1 = true ∨ (flags l).2 = true := by
        have : ((flags l).1 || (flags l).2) = true := hf
        simpa using this
      rcases hfl with hfl | hfl
      · obtain ⟨m', g1, g2⟩ := solve_flags hr (run_flags hr).1 hb hfl
        exact rebuilt m' g1 g2
      · obtain ⟨m0, g1, g2, g3, g4⟩ := ih hfl
        rcases h4 with ⟨h4, _⟩ | ⟨m0', h4, h5⟩
        · rw [g1] at h4; cases h4
        · rw [g1] at h4
          injection h4 with h4
          subst h4
          have hpe : s'.pb = s.pb := by rw [h1, finalize_idem g2]
          have hi' : SInv E ⟨s'.pb, some m0⟩ := by rw [hpe, ← g1]; exact hi
          have done : m.vars = m0.vars → ∃ m, s'.mem = some m ∧ s'.pb.finalized = true ∧ (∀ e ∈ m.queue, e.isWeight = true) ∧ Exact E s'.pb m := by
            intro hv
            refine ⟨m, h2, hfin, by rw [h3.queue]; simp, fun v => ?_⟩
            rw [hv, hpe]
            exact g4 v
          rcases update_ok hi' hfin h5 with ⟨_, h, _⟩ | ⟨_, _, h, _⟩ | ⟨_, _, Y, ops, m1, _, hh, _, hb', _⟩
          · exact rebuilt m h2 h
          · exact done (by rw [h])
          · have hv1 := handle_weights _ g3 _ _ _ hh
            refine done ?_
            simp only [Mem.applyBatch] at hb'
            split at hb'
            · injection hb' with hb'; rw [← hb']; exact hv1
            · cases hb'
    | update =>
      obtain ⟨m0, g1, g2, g3, g4⟩ := ih hf
      simp only [State.call, State.update] at hs
      injection hs with hs
      rw [finalize_idem g2] at hs
      rw [← hs]
      exact ⟨m0, g1, g2, g3, g4⟩
    | changeWeight t b =>
      obtain ⟨m0, g1, g2, g3, g4⟩ := ih hf
      simp only [State.call, State.changeWeight] at hs
      by_cases ht : t ∈ s.pb.toks
      · rw [if_pos ht] at hs
        cases hn : notify s.mem ⟨if b = true then .weightChange else .anisotropicWeightChange, .task t⟩ with
        | none => rw [hn] at hs; cases hs
        | some mem =>
          rw [hn] at hs
          injection hs with hs
          have htr := (hi.pb.toks t).1 ht
          have hle : EQ.LegalEvent (· ∈ s.pb.tr) ⟨if b = true then .weightChange else .anisotropicWeightChange, .task t⟩ := by
            cases b <;> exact Or.inr (Or.inr ⟨rfl, htr⟩)
          have hq := (notify_qstep hi.queue hle hn).1
          rw [← hs]
          cases hm : mem with
          | none =>
            rw [g1, hm] at hn
            simp only [notify] at hn
            split at hn
            · cases hn
            · injection hn with hn; cases hn
          | some m' =>
            obtain ⟨m1, q, q1, q2, q3, _⟩ := hq.2 m' hm
            rw [g1] at q1
            injection q1 with q1
            subst q1 q2
            refine ⟨_, rfl, g2, fun e he => ?_, g4⟩
            rcases q3 e he with h | h
            · exact g3 e h
            · rw [h]; cases b <;> rfl
      · rw [if_neg ht] at hs
        injection hs with hs
        rw [← hs]
        exact ⟨m0, g1, g2, g3, g4⟩
    | _ => simp [flagsStep] at hf

/-- If the data of the scheme was rebuilt since the last change of tasks or substitutions, or is rebuilt by this resolution, the variables
of the solver are those of the constraints that no substitution uses, after substitution: variables of the problem and additional
variables of the current substitutions. -/
theorem C61_variables_rebuilt {E : Env} {l : List Call} {s s' : State} {b : Bool} (h : Run E false l s) (hs : s.solve E = .ok s' b)
    (hf : (flags l).1 = true ∨ (flags l).2 = true) :
    ∃ m, s'.mem = some m ∧ ∀ v, v ∈ m.vars ↔ ∃ t c, (t, c) ∈ s'.pb.cons ∧ (∀ x ∈ s'.pb.subs, c ∉ x.cstrs) ∧
      ((v.gen = 0 ∧ v.idx ∈ E.ys s'.pb.subs t) ∨ (v.gen = s'.pb.gen ∧ v.idx ∈ E.zs s'.pb.subs t)) := by
  have h' : Run E false (l ++ [.solve]) s' := .call _ _ _ _ h trivial (drop_ok.2 ⟨b, hs⟩)
  obtain ⟨m, h1, _, _, h2⟩ := run_vars h' (by
    rw [flags_snoc]
    show ((flags l).1 || (flags l).2) = true
    simpa using hf)
  refine ⟨m, h1, fun v => ?_⟩
  have hu : ∀ c, uses s'.pb.subs c = false ↔ ∀ x ∈ s'.pb.subs, c ∉ x.cstrs := by
    intro c
    constructor
    · intro hh x hx hc
      have := (uses_iff _ _).2 ⟨x, hx, hc⟩
      rw [this] at hh; simp at hh
    · intro hh
      cases hc : uses s'.pb.subs c with
      | false => rfl
      | true => obtain ⟨x, hx, hc⟩ := (uses_iff _ _).1 hc; exact absurd hc (hh x hx)
  have hv : ∀ t, v ∈ varsOf E s'.pb t ↔ ((v.gen = 0 ∧ v.idx ∈ E.ys s'.pb.subs t) ∨ (v.gen = s'.pb.gen ∧ v.idx ∈ E.zs s'.pb.subs t)) := by
    intro t
    obtain ⟨g, i⟩ := v
    simp only [varsOf, List.mem_append, List.mem_map, V.mk.injEq]
    constructor
    · rintro (⟨j, hj, rfl, rfl⟩ | ⟨j, hj, rfl, rfl⟩)
      · exact Or.inl ⟨rfl, hj⟩
      · exact Or.inr ⟨rfl, hj⟩
    · rintro (⟨rfl, hj⟩ | ⟨rfl, hj⟩)
      · exact Or.inl ⟨i, hj, rfl, rfl⟩
      · exact Or.inr ⟨i, hj, rfl, rfl⟩
  rw [h2 v, List.mem_flatMap]
  constructor
  · rintro ⟨⟨t, c⟩, he, hm⟩
    have he : (t, c) ∈ s'.pb.cons ∧ uses s'.pb.subs c = false := by simpa [live] using he
    exact ⟨t, c, he.1, (hu c).1 he.2, (hv t).1 hm⟩
  · rintro ⟨t, c, g1, g2, g3⟩
    exact ⟨(t, c), by simpa [live] using ⟨g1, (hu c).2 g2⟩, (hv t).2 g3⟩

/-! ## A concrete case -/

/-- A substitution with an additional variable -/
def zdemo : Env := { demo with zs := fun S t => if S = [] then [] else [t], extraSizes := fun S => S.map fun _ => 1 }

example : ∃ (s s' : State) (b : Bool) (m : Mem), Run zdemo false [.addTask 0, .addTask 2, .solve, .addSub ⟨[⟨0, 2, .equal⟩], 1⟩, .update] s ∧ s.solve zdemo = .ok s' b ∧
    s'.mem = some m ∧ m.vars = [⟨0, 0⟩, ⟨0, 2⟩, ⟨2, 2⟩] ∧
    ∀ v, v ∈ m.vars ↔ ∃ t c, (t, c) ∈ s'.pb.cons ∧ (∀ x ∈ s'.pb.subs, c ∉ x.cstrs) ∧
      ((v.gen = 0 ∧ v.idx ∈ zdemo.ys s'.pb.subs t) ∨ (v.gen = s'.pb.gen ∧ v.idx ∈ zdemo.zs s'.pb.subs t)) := by
  have h : ∃ (s s' : State) (b : Bool) (m : Mem), Run zdemo false [.addTask 0, .addTask 2, .solve, .addSub ⟨[⟨0, 2, .equal⟩], 1⟩, .update] s ∧ s.solve zdemo = .ok s' b ∧
      s'.mem = some m ∧ m.vars = [⟨0, 0⟩, ⟨0, 2⟩, ⟨2, 2⟩] := by
    refine ⟨_, _, _, _, .call _ _ _ _ (.call _ _ _ _ (.call _ _ _ _ (.call _ _ _ _ (.call [] _ _ _ .init ?_ rfl) ?_ rfl) ?_ rfl) ?_ rfl) ?_ rfl, rfl, rfl, rfl⟩
    · simp [Allowed, Present]
    · simp [Allowed, Present, Call.on]
    · trivial
    · show ∀ c ∈ [(⟨0, 2, .equal⟩ : Cstr)], _
      decide
    · trivial
  obtain ⟨s, s', b, m, h1, h2, h3, h4⟩ := h
  obtain ⟨m', h5, h6⟩ := C61_variables_rebuilt h1 h2 (Or.inl rfl)
  rw [h3] at h5
  cases h5
  exact ⟨s, s', b, m, h1, h2, h3, h4, h6⟩

end Verif.PB
