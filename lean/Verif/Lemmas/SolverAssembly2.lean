import Verif.Lemmas.SolverAssembly
import Verif.Properties.C60_SolverViews
import Mathlib.Data.List.Perm.Basic
/-!
# Lemmas on the runs of the assignments of a solver: the ranges of the targets tile the rows
-/
set_option autoImplicit false
set_option linter.unusedSectionVars false

namespace Verif.ASM
open Verif Verif.AS

/-- Each row below `b` is in the range of exactly one assignment, and no other row is. -/
structure TiledJobs (js : List Job) (b : Nat) : Prop where
  cover : ∀ r < b, rowOf js r = true
  inside : ∀ j ∈ js, ∀ r, Target.has j.T r = true → r < b
  disj : Disj js

theorem Disj.perm {js js' : List Job} (h : Disj js) (hp : js.Perm js') : Disj js' := by
  refine (List.Perm.pairwise_iff ?_ hp).mp h
  intro j k hjk r hk
  by_contra hc
  have := hjk r (by simpa using hc)
  rw [hk] at this
  exact absurd this (by simp)

theorem TiledJobs.perm {js js' : List Job} {b : Nat} (h : TiledJobs js b) (hp : js.Perm js') : TiledJobs js' b :=
  ⟨fun r hr => by rw [← rowOf_perm hp]; exact h.cover r hr, fun j hj => h.inside j (hp.mem_iff.mpr hj), h.disj.perm hp⟩

theorem TiledJobs.out {js : List Job} {b : Nat} (h : TiledJobs js b) {r : Nat} (hr : ¬ r < b) : rowOf js r = false := by
  by_contra hc
  have hc : rowOf js r = true := by simpa using hc
  obtain ⟨j, hj, h1⟩ := List.any_eq_true.mp hc
  exact hr (h.inside j hj r h1)

theorem patOf_row {V : Vars} {js : List Job} {r c : Nat} (h : rowOf js r = false) : patOf V js r c = false := by
  by_contra hc
  have hc : patOf V js r c = true := by simpa using hc
  obtain ⟨j, hj, h1⟩ := List.any_eq_true.mp hc
  simp only [Job.pat, Bool.and_eq_true] at h1
  have : rowOf js r = true := List.any_eq_true.mpr ⟨j, hj, h1.1⟩
  rw [h] at this
  exact absurd this (by simp)

theorem TiledJobs.forall {js : List Job} {b : Nat} (h : TiledJobs js b) (P : Nat → Prop) : (∀ r < b, P r) ↔ ∀ j ∈ js, ∀ r, Target.has j.T r = true → P r := by
  constructor
  · intro hp j hj r hr; exact hp r (h.inside j hj r hr)
  · intro hp r hr
    obtain ⟨j, hj, h1⟩ := List.any_eq_true.mp (h.cover r hr)
    exact hp j hj r h1

theorem sum_one {K : Type} [Field K] (js : List Job) (hd : Disj js) (r : Nat) (v : K) :
    (js.map fun j => if Target.has j.T r = true then v else 0).sum = if rowOf js r = true then v else 0 := by
  induction js with
  | nil => simp [rowOf]
  | cons j js ih =>
    have hd' := List.pairwise_cons.mp hd
    simp only [List.map_cons, List.sum_cons]
    rw [ih hd'.2]
    have e : rowOf (j :: js) r = (Target.has j.T r || rowOf js r) := rfl
    rw [e]
    by_cases hj : Target.has j.T r = true
    · have : rowOf js r = false := by
        by_contra hc
        have hc : rowOf js r = true := by simpa using hc
        obtain ⟨k, hk, h1⟩ := List.any_eq_true.mp hc
        rw [hd'.1 k hk r hj] at h1
        exact absurd h1 (by simp)
      simp [hj, this]
    · simp [hj]

theorem TiledJobs.sum {K : Type} [Field K] {js : List Job} {b : Nat} (h : TiledJobs js b) (f : Nat → K) :
    ∑ r ∈ Finset.range b, f r = (js.map fun j => ∑ i ∈ Finset.range j.T.size, f (j.T.start + i)).sum := by
  have e1 : ∑ r ∈ Finset.range b, f r = ∑ r ∈ Finset.range b, (js.map fun j => if Target.has j.T r = true then f r else 0).sum := by
    apply Finset.sum_congr rfl
    intro r hr
    rw [sum_one js h.disj, if_pos (h.cover r (Finset.mem_range.mp hr))]
  rw [e1]
  have key : ∀ l : List Job, (∀ j ∈ l, ∀ r, Target.has j.T r = true → r < b) →
      ∑ r ∈ Finset.range b, (l.map fun j => if Target.has j.T r = true then f r else 0).sum = (l.map fun j => ∑ i ∈ Finset.range j.T.size, f (j.T.start + i)).sum := by
    intro l
    induction l with
    | nil => intro _; simp
    | cons j l ih =>
      intro hin
      simp only [List.map_cons, List.sum_cons]
      rw [Finset.sum_add_distrib, ih (fun k hk => hin k (List.mem_cons_of_mem _ hk))]
      congr 1
      simp only [has_iff]
      by_cases h0 : j.T.size = 0
      · rw [h0]
        simp only [Nat.add_zero, Finset.range_zero, Finset.sum_empty]
        apply Finset.sum_eq_zero
        intro r _
        rw [if_neg (by omega)]
      · have hb : j.T.start + j.T.size ≤ b := by
          have := hin j List.mem_cons_self (j.T.start + j.T.size - 1) ((has_iff _ _).mpr (by omega))
          omega
        exact sum_window b j.T.start j.T.size hb fun _ r => f r
  exact key js h.inside

/-! ## From the layout -/

theorem mem_jobsOf {v : LS.View} {m : LS.AMap} {env : Env} {conv : AS.CType × AS.Rhs} {size : SE.Cstr → Nat} {j : Job} :
    j ∈ jobsOf v m env conv size ↔ ∃ e ∈ m, ∃ a ∈ e.2, a.view = v ∧ j = ⟨e.1, env.src e.1, ⟨conv.1, conv.2, a.start.toNat, size e.1⟩⟩ := by
  simp only [jobsOf, List.mem_flatMap, List.mem_map, List.mem_filter, decide_eq_true_eq]
  constructor
  · rintro ⟨e, he, a, ⟨ha, hv⟩, rfl⟩; exact ⟨e, he, a, ha, hv, rfl⟩
  · rintro ⟨e, he, a, ha, hv, rfl⟩; exact ⟨e, he, a, ⟨ha, hv⟩, rfl⟩

theorem mem_intervals {size : SE.Cstr → Nat} {m : LS.AMap} {i : Int × Int} :
    i ∈ LS.intervals size m ↔ ∃ e ∈ m, ∃ a ∈ e.2, i = (a.start, a.start + size e.1) := by
  simp only [LS.intervals, List.mem_flatMap, List.mem_map]
  constructor
  · rintro ⟨e, he, a, ha, rfl⟩; exact ⟨e, he, a, ha, rfl⟩
  · rintro ⟨e, he, a, ha, rfl⟩; exact ⟨e, he, a, ha, rfl⟩

theorem disj_of_count (js : List Job) (h : ∀ r, js.countP (fun j => Target.has j.T r) ≤ 1) : Disj js := by
  induction js with
  | nil => exact List.Pairwise.nil
  | cons j js ih =>
    refine List.pairwise_cons.mpr ⟨?_, ih ?_⟩
    · intro k hk r hr
      have := h r
      rw [List.countP_cons, hr] at this
      simp only [if_true] at this
      have h0 : js.countP (fun j => Target.has j.T r) = 0 := by omega
      have := List.countP_eq_zero.mp h0 k hk
      simpa using this
    · intro r
      have := h r
      rw [List.countP_cons] at this
      omega

theorem jobs_tiled {m : LS.AMap} {v : LS.View} {size : SE.Cstr → Nat} {b : Int} (env : Env) (conv : AS.CType × AS.Rhs)
    (ht : LS.Tiled (LS.intervals size m) b) (hv : ∀ e ∈ m, 0 < size e.1 → ∀ a ∈ e.2, a.view = v) : TiledJobs (jobsOf v m env conv size) b.toNat := by
  have hin : ∀ e ∈ m, ∀ a ∈ e.2, ∀ r : Int, a.start ≤ r → r < a.start + size e.1 → 0 ≤ r ∧ r < b := by
    intro e he a ha r h1 h2
    by_contra hc
    have := List.countP_eq_zero.mp ((ht r).2.mpr hc) (a.start, a.start + size e.1) (mem_intervals.mpr ⟨e, he, a, ha, rfl⟩)
    simp [h1, h2] at this
  have hpos : ∀ e ∈ m, ∀ a ∈ e.2, 0 < size e.1 → 0 ≤ a.start := fun e he a ha hs => (hin e he a ha a.start (by omega) (by omega)).1
  have hcase : ∀ e ∈ m, ∀ a ∈ e.2, ∀ r : Nat, Target.has (⟨conv.1, conv.2, a.start.toNat, size e.1⟩ : Target) r = true → a.start ≤ (r : Int) ∧ (r : Int) < a.start + size e.1 := by
    intro e he a ha r hr
    have h1 := (has_iff _ _).mp hr
    simp only at h1
    have := hpos e he a ha (by omega)
    omega
  refine ⟨?_, ?_, ?_⟩
  · intro r hr
    have h1 := (ht r).1.mpr (by omega)
    have h2 : 0 < (LS.intervals size m).countP (fun i => decide (i.1 ≤ (r : Int) ∧ (r : Int) < i.2)) := by omega
    obtain ⟨i, hi, h3⟩ := List.countP_pos_iff.mp h2
    obtain ⟨e, he, a, ha, rfl⟩ := mem_intervals.mp hi
    simp only [decide_eq_true_eq] at h3
    refine List.any_eq_true.mpr ⟨_, mem_jobsOf.mpr ⟨e, he, a, ha, hv e he (by omega) a ha, rfl⟩, (has_iff _ _).mpr ?_⟩
    simp only
    omega
  · intro j hj r hr
    obtain ⟨e, he, a, ha, _, rfl⟩ := mem_jobsOf.mp hj
    have h1 := hcase e he a ha r hr
    have := hin e he a ha r h1.1 h1.2
    omega
  · apply disj_of_count
    intro r
    have key : ∀ m' : LS.AMap, (∀ e ∈ m', e ∈ m) → (jobsOf v m' env conv size).countP (fun j => Target.has j.T r) ≤
        (LS.intervals size m').countP (fun i => decide (i.1 ≤ (r : Int) ∧ (r : Int) < i.2)) := by
      intro m'
      induction m' with
      | nil => intro _; simp [jobsOf, LS.intervals]
      | cons e m' ih =>
        intro hm
        have e1 : jobsOf v (e :: m') env conv size =
            ((e.2.filter fun a => decide (a.view = v)).map fun a => (⟨e.1, env.src e.1, ⟨conv.1, conv.2, a.start.toNat, size e.1⟩⟩ : Job)) ++ jobsOf v m' env conv size := rfl
        have e2 : LS.intervals size (e :: m') = (e.2.map fun a => ((a.start, a.start + size e.1) : Int × Int)) ++ LS.intervals size m' := rfl
        rw [e1, e2, List.countP_append, List.countP_append]
        refine Nat.add_le_add ?_ (ih fun e' he' => hm e' (List.mem_cons_of_mem _ he'))
        rw [List.countP_map, List.countP_map]
        refine le_trans (List.Sublist.countP_le (List.filter_sublist)) ?_
        refine List.countP_mono_left ?_
        intro a ha h
        simp only [Function.comp, decide_eq_true_eq] at h ⊢
        exact hcase e (hm e List.mem_cons_self) a ha r h
    refine le_trans (key m fun _ h => h) ?_
    by_cases hr : 0 ≤ (r : Int) ∧ (r : Int) < b
    · exact le_of_eq ((ht r).1.mpr hr)
    · rw [(ht r).2.mpr hr]; omega

end Verif.ASM
