import Verif.Lemmas.LeastSquareSolver
/-!
# `process` of the least-squares solvers keeps the layout
-/
set_option autoImplicit false
set_option linter.unusedSimpArgs false

namespace Verif.LS
open Verif.SE

/-! ## Folds of additions -/

theorem Lay.congr {s : Solver} {C B O C' B' O' : Cstr → Prop} {vs vs' : Cstr → Int} (h : Lay s C B O vs)
    (hC : ∀ c, C c ↔ C' c) (hB : ∀ c, B c ↔ B' c) (hO : ∀ c, O c ↔ O' c) (hv : ∀ c, B c → vs c = vs' c) :
    Lay s C' B' O' vs' := by
  obtain ⟨hm, hs, ht, ho, hb⟩ := h
  refine ⟨⟨hm.nodupE, hm.nodupI, hm.nodupB, hm.nodupO, fun c => by rw [hm.memE, hC], fun c => by rw [hm.memI, hC],
    fun c => by rw [hm.memB, hB], fun c => by rw [hm.memO, hO], hm.singleE, hm.singleI, hm.singleB, hm.singleO⟩, hs, ht,
    ho, fun e he a ha => ?_⟩
  rw [hb e he a ha, hv]
  exact (hm.memB e.1).1 (List.mem_map_of_mem he)

/-- Fields not changed by additions. -/
structure SameHead (s t : Solver) : Prop where
  kind : t.kind = s.kind
  cholesky : t.cholesky = s.cholesky
  nEq : t.nEq = s.nEq
  nIneq : t.nIneq = s.nIneq
  nObj : t.nObj = s.nObj
  bufs : t.bufs = s.bufs
  views : t.views = s.views

theorem SameHead.refl (s : Solver) : SameHead s s := ⟨rfl, rfl, rfl, rfl, rfl, rfl, rfl⟩

theorem SameHead.trans {s t u : Solver} (h : SameHead s t) (g : SameHead t u) : SameHead s u :=
  ⟨g.kind.trans h.kind, g.cholesky.trans h.cholesky, g.nEq.trans h.nEq, g.nIneq.trans h.nIneq, g.nObj.trans h.nObj,
    g.bufs.trans h.bufs, g.views.trans h.views⟩

theorem addConstraint_head (s : Solver) (c : Cstr) : SameHead s (s.addConstraint c) := by
  by_cases h : c.isEquality = true <;> simp only [Solver.addConstraint, h, if_true, if_false, Bool.false_eq_true] <;>
    exact ⟨rfl, rfl, rfl, rfl, rfl, rfl, rfl⟩

/-- Rows of the equality constraints of a list. -/
def rowsEq (k : Kind) (l : List Cstr) : Nat := (l.map (fun c => if c.isEquality = true then constraintSize k c else 0)).sum

/-- Rows of the inequality constraints of a list. -/
def rowsIneq (k : Kind) (l : List Cstr) : Nat := (l.map (fun c => if c.isEquality = true then 0 else constraintSize k c)).sum

/-- Rows of the objectives of a list. -/
def rowsObj (l : List Objective) : Nat := (l.map (fun o => o.c.size)).sum

theorem addConstraint_sizes (s : Solver) (c : Cstr) :
    (s.addConstraint c).eqSize = s.eqSize + rowsEq s.kind [c] ∧
    (s.addConstraint c).ineqSize = s.ineqSize + rowsIneq s.kind [c] ∧ (s.addConstraint c).objSize = s.objSize := by
  by_cases h : c.isEquality = true <;> simp [Solver.addConstraint, h, rowsEq, rowsIneq]

theorem foldConstraints (B O : Cstr → Prop) (vs : Cstr → Int) : ∀ (l : List Cstr) (s : Solver) (C : Cstr → Prop),
    Lay s C B O vs → l.Nodup → (∀ c ∈ l, ¬ C c) →
    Lay (l.foldl Solver.addConstraint s) (fun d => C d ∨ d ∈ l) B O vs ∧
    SameHead s (l.foldl Solver.addConstraint s) ∧
    (l.foldl Solver.addConstraint s).eqSize = s.eqSize + rowsEq s.kind l ∧
    (l.foldl Solver.addConstraint s).ineqSize = s.ineqSize + rowsIneq s.kind l ∧
    (l.foldl Solver.addConstraint s).objSize = s.objSize := by
  intro l
  induction l with
  | nil =>
    intro s C h _ _
    exact ⟨h.congr (by simp) (by simp) (by simp) (by simp), SameHead.refl s, by simp [rowsEq], by simp [rowsIneq], rfl⟩
  | cons c l ih =>
    intro s C h hn hc
    obtain ⟨h1, h2⟩ := List.nodup_cons.1 hn
    have hl := h.addConstraint c (hc c (by simp))
    obtain ⟨i1, i2, i3, i4, i5⟩ := ih (s.addConstraint c) _ hl h2 (by
      rintro d hd (h3 | rfl)
      · exact hc d (List.mem_cons_of_mem _ hd) h3
      · exact h1 hd)
    have hh := addConstraint_head s c
    obtain ⟨g1, g2, g3⟩ := addConstraint_sizes s c
    simp only [List.foldl_cons]
    refine ⟨i1.congr (fun d => ?_) (by simp) (by simp) (by simp), hh.trans i2, ?_, ?_, ?_⟩
    · simp only [List.mem_cons, or_assoc]
    · rw [i3, g1, hh.kind]; simp [rowsEq]; omega
    · rw [i4, g2, hh.kind]; simp [rowsIneq]; omega
    · rw [i5, g3]

theorem foldBounds (C O : Cstr → Prop) (vs : Cstr → Int) : ∀ (l : List Cstr) (s : Solver) (B : Cstr → Prop),
    Lay s C B O vs → l.Nodup → (∀ c ∈ l, ¬ B c) →
    Lay (l.foldl (fun s c => s.addBound vs c) s) C (fun d => B d ∨ d ∈ l) O vs ∧
    SameHead s (l.foldl (fun s c => s.addBound vs c) s) ∧
    (l.foldl (fun s c => s.addBound vs c) s).eqSize = s.eqSize ∧
    (l.foldl (fun s c => s.addBound vs c) s).ineqSize = s.ineqSize ∧
    (l.foldl (fun s c => s.addBound vs c) s).objSize = s.objSize := by
  intro l
  induction l with
  | nil =>
    intro s B h _ _
    exact ⟨h.congr (by simp) (by simp) (by simp) (by simp), SameHead.refl s, rfl, rfl, rfl⟩
  | cons c l ih =>
    intro s B h hn hc
    obtain ⟨h1, h2⟩ := List.nodup_cons.1 hn
    have hl := h.addBound c (hc c (by simp))
    obtain ⟨i1, i2, i3, i4, i5⟩ := ih (s.addBound vs c) _ hl h2 (by
      rintro d hd (h3 | rfl)
      · exact hc d (List.mem_cons_of_mem _ hd) h3
      · exact h1 hd)
    simp only [List.foldl_cons]
    refine ⟨i1.congr (by simp) (fun d => ?_) (by simp) (by simp), ⟨i2.kind, i2.cholesky, i2.nEq, i2.nIneq, i2.nObj, i2.bufs, i2.views⟩,
      i3, i4, i5⟩
    simp only [List.mem_cons, or_assoc]

theorem foldObjectives (C B : Cstr → Prop) (vs : Cstr → Int) : ∀ (l : List Objective) (s : Solver) (O : Cstr → Prop),
    Lay s C B O vs → (l.map (·.c)).Nodup → (∀ o ∈ l, ¬ O o.c) →
    Lay (l.foldl Solver.addObjective s) C B (fun d => O d ∨ d ∈ l.map (·.c)) vs ∧
    SameHead s (l.foldl Solver.addObjective s) ∧
    (l.foldl Solver.addObjective s).eqSize = s.eqSize ∧
    (l.foldl Solver.addObjective s).ineqSize = s.ineqSize ∧
    (l.foldl Solver.addObjective s).objSize = s.objSize + rowsObj l := by
  intro l
  induction l with
  | nil =>
    intro s O h _ _
    exact ⟨h.congr (by simp) (by simp) (by simp) (by simp), SameHead.refl s, rfl, rfl, by simp [rowsObj]⟩
  | cons o l ih =>
    intro s O h hn hc
    rw [List.map_cons] at hn
    obtain ⟨h1, h2⟩ := List.nodup_cons.1 hn
    have hl := h.addObjective o (hc o (by simp))
    obtain ⟨i1, i2, i3, i4, i5⟩ := ih (s.addObjective o) _ hl h2 (by
      rintro d hd (h3 | h3)
      · exact hc d (List.mem_cons_of_mem _ hd) h3
      · exact h1 (h3 ▸ List.mem_map_of_mem hd))
    simp only [List.foldl_cons]
    refine ⟨i1.congr (by simp) (by simp) (fun d => ?_) (by simp), ⟨i2.kind, i2.cholesky, i2.nEq, i2.nIneq, i2.nObj, i2.bufs, i2.views⟩,
      i3, i4, ?_⟩
    · simp only [List.map_cons, List.mem_cons, or_assoc]
    · rw [i5]; simp [rowsObj, Solver.addObjective]; omega

/-! ## Removals -/

theorem foldRemoveC (B O : Cstr → Prop) : ∀ (l : List Cstr) (s : Solver) (C : Cstr → Prop),
    Maps s C B O → Counts s → l.Nodup → (∀ c ∈ l, C c) →
    Maps (l.foldl Solver.removeConstraint s) (fun d => C d ∧ d ∉ l) B O ∧ Counts (l.foldl Solver.removeConstraint s) ∧
    (l.foldl Solver.removeConstraint s) =
      { s with eq := (l.foldl Solver.removeConstraint s).eq, ineq := (l.foldl Solver.removeConstraint s).ineq,
               nEq := (l.foldl Solver.removeConstraint s).nEq, nIneq := (l.foldl Solver.removeConstraint s).nIneq } := by
  intro l
  induction l with
  | nil =>
    intro s C hm hc _ _
    refine ⟨⟨hm.nodupE, hm.nodupI, hm.nodupB, hm.nodupO, ?_, ?_, hm.memB, hm.memO, hm.singleE, hm.singleI, hm.singleB,
      hm.singleO⟩, hc, rfl⟩
    · simpa using hm.memE
    · simpa using hm.memI
  | cons c l ih =>
    intro s C hm hc hn hl
    obtain ⟨h1, h2⟩ := List.nodup_cons.1 hn
    have hcC := hl c (by simp)
    simp only [List.foldl_cons]
    have step : Maps (s.removeConstraint c) (fun d => C d ∧ d ≠ c) B O ∧ Counts (s.removeConstraint c) ∧
        s.removeConstraint c = { s with eq := (s.removeConstraint c).eq, ineq := (s.removeConstraint c).ineq, nEq := (s.removeConstraint c).nEq, nIneq := (s.removeConstraint c).nIneq } := by
      by_cases he : c.isEquality = true
      · simp only [Solver.removeConstraint, if_pos he]
        have hk : c ∈ keys s.eq := (hm.memE c).2 ⟨hcC, he⟩
        refine ⟨⟨keys_erase_nodup _ _ hm.nodupE, hm.nodupI, hm.nodupB, hm.nodupO, fun d => ?_, fun d => ?_, hm.memB,
          hm.memO, single_erase hm.singleE c, hm.singleI, hm.singleB, hm.singleO⟩, ⟨?_, hc.ineq, hc.obj⟩, trivial⟩
        · simp only [keys_erase, hm.memE]; exact ⟨fun h => ⟨⟨h.1.1, h.2⟩, h.1.2⟩, fun h => ⟨⟨h.1.1, h.2⟩, h.1.2⟩⟩
        · simp only [hm.memI]
          refine ⟨fun h => ⟨⟨h.1, ?_⟩, h.2⟩, fun h => ⟨h.1.1, h.2⟩⟩
          rintro rfl; rw [he] at h; exact absurd h.2 (by simp)
        · simp only [hc.eq, total_erase s.eq c hm.nodupE hk]; omega
      · have he' : c.isEquality = false := by simpa using he
        simp only [Solver.removeConstraint, if_neg he]
        have hk : c ∈ keys s.ineq := (hm.memI c).2 ⟨hcC, he'⟩
        refine ⟨⟨hm.nodupE, keys_erase_nodup _ _ hm.nodupI, hm.nodupB, hm.nodupO, fun d => ?_, fun d => ?_, hm.memB,
          hm.memO, hm.singleE, single_erase hm.singleI c, hm.singleB, hm.singleO⟩, ⟨hc.eq, ?_, hc.obj⟩, trivial⟩
        · simp only [hm.memE]
          refine ⟨fun h => ⟨⟨h.1, ?_⟩, h.2⟩, fun h => ⟨h.1.1, h.2⟩⟩
          rintro rfl; exact absurd h.2 he
        · simp only [keys_erase, hm.memI]; exact ⟨fun h => ⟨⟨h.1.1, h.2⟩, h.1.2⟩, fun h => ⟨⟨h.1.1, h.2⟩, h.1.2⟩⟩
        · simp only [hc.ineq, total_erase s.ineq c hm.nodupI hk]; omega
    obtain ⟨s1, s2, s3⟩ := step
    obtain ⟨i1, i2, i3⟩ := ih _ _ s1 s2 h2 (fun d hd => ⟨hl d (List.mem_cons_of_mem _ hd), fun h => h1 (h ▸ hd)⟩)
    refine ⟨⟨i1.nodupE, i1.nodupI, i1.nodupB, i1.nodupO, fun d => ?_, fun d => ?_, i1.memB, i1.memO, i1.singleE, i1.singleI,
      i1.singleB, i1.singleO⟩, i2, ?_⟩
    · rw [i1.memE]; simp only [List.mem_cons, not_or, ne_eq, and_assoc]
    · rw [i1.memI]; simp only [List.mem_cons, not_or, ne_eq, and_assoc]
    · generalize l.foldl Solver.removeConstraint (s.removeConstraint c) = t at i3 ⊢
      rw [i3, s3]

theorem foldRemoveO (C B : Cstr → Prop) : ∀ (l : List Cstr) (s : Solver) (O : Cstr → Prop),
    Maps s C B O → Counts s → l.Nodup → (∀ c ∈ l, O c) →
    Maps (l.foldl Solver.removeObjective s) C B (fun d => O d ∧ d ∉ l) ∧ Counts (l.foldl Solver.removeObjective s) ∧
    (l.foldl Solver.removeObjective s) =
      { s with obj := (l.foldl Solver.removeObjective s).obj, nObj := (l.foldl Solver.removeObjective s).nObj } := by
  intro l
  induction l with
  | nil =>
    intro s O hm hc _ _
    refine ⟨⟨hm.nodupE, hm.nodupI, hm.nodupB, hm.nodupO, hm.memE, hm.memI, hm.memB, ?_, hm.singleE, hm.singleI, hm.singleB,
      hm.singleO⟩, hc, rfl⟩
    simpa using hm.memO
  | cons c l ih =>
    intro s O hm hc hn hl
    obtain ⟨h1, h2⟩ := List.nodup_cons.1 hn
    have hk : c ∈ keys s.obj := (hm.memO c).2 (hl c (by simp))
    simp only [List.foldl_cons]
    have step : Maps (s.removeObjective c) C B (fun d => O d ∧ d ≠ c) ∧ Counts (s.removeObjective c) ∧
        s.removeObjective c = { s with obj := (s.removeObjective c).obj, nObj := (s.removeObjective c).nObj } := by
      refine ⟨⟨hm.nodupE, hm.nodupI, hm.nodupB, keys_erase_nodup _ _ hm.nodupO, hm.memE, hm.memI, hm.memB, fun d => ?_,
        hm.singleE, hm.singleI, hm.singleB, single_erase hm.singleO c⟩, ⟨hc.eq, hc.ineq, ?_⟩, rfl⟩
      · simp only [Solver.removeObjective, keys_erase, hm.memO]
      · simp only [Solver.removeObjective, hc.obj, total_erase s.obj c hm.nodupO hk]; omega
    obtain ⟨s1, s2, s3⟩ := step
    obtain ⟨i1, i2, i3⟩ := ih _ _ s1 s2 h2 (fun d hd => ⟨hl d (List.mem_cons_of_mem _ hd), fun h => h1 (h ▸ hd)⟩)
    refine ⟨⟨i1.nodupE, i1.nodupI, i1.nodupB, i1.nodupO, i1.memE, i1.memI, i1.memB, fun d => ?_, i1.singleE, i1.singleI,
      i1.singleB, i1.singleO⟩, i2, ?_⟩
    · rw [i1.memO]; simp only [List.mem_cons, not_or, ne_eq, and_assoc]
    · generalize l.foldl Solver.removeObjective (s.removeObjective c) = t at i3 ⊢
      rw [i3, s3]

theorem foldRemoveB (C O : Cstr → Prop) : ∀ (l : List Cstr) (s : Solver) (B : Cstr → Prop),
    Maps s C B O → l.Nodup → (∀ c ∈ l, B c) →
    Maps (l.foldl Solver.removeBound s) C (fun d => B d ∧ d ∉ l) O ∧
    (l.foldl Solver.removeBound s) = { s with bnd := (l.foldl Solver.removeBound s).bnd } ∧
    (∀ e ∈ (l.foldl Solver.removeBound s).bnd, e ∈ s.bnd) := by
  intro l
  induction l with
  | nil =>
    intro s B hm _ _
    refine ⟨⟨hm.nodupE, hm.nodupI, hm.nodupB, hm.nodupO, hm.memE, hm.memI, ?_, hm.memO, hm.singleE, hm.singleI, hm.singleB,
      hm.singleO⟩, rfl, fun e he => he⟩
    simpa using hm.memB
  | cons c l ih =>
    intro s B hm hn hl
    obtain ⟨h1, h2⟩ := List.nodup_cons.1 hn
    simp only [List.foldl_cons]
    have s1 : Maps (s.removeBound c) C (fun d => B d ∧ d ≠ c) O := by
      refine ⟨hm.nodupE, hm.nodupI, keys_erase_nodup _ _ hm.nodupB, hm.nodupO, hm.memE, hm.memI, fun d => ?_, hm.memO,
        hm.singleE, hm.singleI, single_erase hm.singleB c, hm.singleO⟩
      simp only [Solver.removeBound, keys_erase, hm.memB]
    have s3 : s.removeBound c = { s with bnd := (s.removeBound c).bnd } := rfl
    obtain ⟨i1, i3, i4⟩ := ih _ _ s1 h2 (fun d hd => ⟨hl d (List.mem_cons_of_mem _ hd), fun h => h1 (h ▸ hd)⟩)
    refine ⟨⟨i1.nodupE, i1.nodupI, i1.nodupB, i1.nodupO, i1.memE, i1.memI, fun d => ?_, i1.memO, i1.singleE, i1.singleI,
      i1.singleB, i1.singleO⟩, ?_, fun e he => (List.mem_filter.1 (i4 e he)).1⟩
    · rw [i1.memB]; simp only [List.mem_cons, not_or, ne_eq, and_assoc]
    · generalize l.foldl Solver.removeBound (s.removeBound c) = t at i3 ⊢
      rw [i3, s3]

/-- What a solver is after the removals. -/
theorem processRemoved_spec {s : Solver} {C B O : Cstr → Prop} (se : SolverEvents) (hm : Maps s C B O) (hc : Counts s)
    (n1 : se.removedConstraints.Nodup) (n2 : se.removedObjectives.Nodup) (n3 : se.removedBounds.Nodup)
    (m1 : ∀ c ∈ se.removedConstraints, C c) (m2 : ∀ c ∈ se.removedObjectives, O c) (m3 : ∀ c ∈ se.removedBounds, B c) :
    Maps (s.processRemoved se) (fun d => C d ∧ d ∉ se.removedConstraints) (fun d => B d ∧ d ∉ se.removedBounds)
      (fun d => O d ∧ d ∉ se.removedObjectives) ∧
    Counts (s.processRemoved se) ∧
    ((s.processRemoved se).kind = s.kind ∧ (s.processRemoved se).cholesky = s.cholesky ∧
      (s.processRemoved se).bufs = s.bufs ∧ (s.processRemoved se).views = s.views) ∧
    (se.removedConstraints = [] → (s.processRemoved se).eq = s.eq ∧ (s.processRemoved se).ineq = s.ineq) ∧
    (se.removedObjectives = [] → (s.processRemoved se).obj = s.obj) ∧
    (∀ e ∈ (s.processRemoved se).bnd, e ∈ s.bnd) := by
  obtain ⟨a1, a2, a3⟩ := foldRemoveC B O se.removedConstraints s C hm hc n1 m1
  generalize ht : se.removedConstraints.foldl Solver.removeConstraint s = t at a1 a2 a3
  obtain ⟨b1, b2, b3⟩ := foldRemoveO _ B se.removedObjectives t O a1 a2 n2 m2
  generalize hu : se.removedObjectives.foldl Solver.removeObjective t = u at b1 b2 b3
  obtain ⟨c1, c3, c4⟩ := foldRemoveB _ _ se.removedBounds u B b1 n3 m3
  have hv : se.removedBounds.foldl Solver.removeBound u = s.processRemoved se := by
    simp only [Solver.processRemoved, ht, hu]
  rw [hv] at c1 c3 c4
  have e1 : (s.processRemoved se).kind = u.kind ∧ (s.processRemoved se).cholesky = u.cholesky ∧
      (s.processRemoved se).bufs = u.bufs ∧ (s.processRemoved se).views = u.views ∧ (s.processRemoved se).eq = u.eq ∧
      (s.processRemoved se).ineq = u.ineq ∧ (s.processRemoved se).obj = u.obj ∧ (s.processRemoved se).nEq = u.nEq ∧
      (s.processRemoved se).nIneq = u.nIneq ∧ (s.processRemoved se).nObj = u.nObj := by
    rw [c3]; exact ⟨rfl, rfl, rfl, rfl, rfl, rfl, rfl, rfl, rfl, rfl⟩
  have e2 : u.kind = t.kind ∧ u.cholesky = t.cholesky ∧ u.bufs = t.bufs ∧ u.views = t.views ∧ u.eq = t.eq ∧
      u.ineq = t.ineq ∧ u.bnd = t.bnd := by
    rw [b3]; exact ⟨rfl, rfl, rfl, rfl, rfl, rfl, rfl⟩
  have e3 : t.kind = s.kind ∧ t.cholesky = s.cholesky ∧ t.bufs = s.bufs ∧ t.views = s.views ∧ t.bnd = s.bnd ∧ t.obj = s.obj := by
    rw [a3]; exact ⟨rfl, rfl, rfl, rfl, rfl, rfl⟩
  refine ⟨c1, ⟨?_, ?_, ?_⟩, ⟨?_, ?_, ?_, ?_⟩, ?_, ?_, ?_⟩
  · rw [e1.2.2.2.2.2.2.2.1, e1.1, e1.2.2.2.2.1]; exact b2.eq
  · rw [e1.2.2.2.2.2.2.2.2.1, e1.1, e1.2.2.2.2.2.1]; exact b2.ineq
  · rw [e1.2.2.2.2.2.2.2.2.2, e1.2.2.2.2.2.2.1]; exact b2.obj
  · rw [e1.1, e2.1, e3.1]
  · rw [e1.2.1, e2.2.1, e3.2.1]
  · rw [e1.2.2.1, e2.2.2.1, e3.2.2.1]
  · rw [e1.2.2.2.1, e2.2.2.2.1, e3.2.2.2.1]
  · intro h
    rw [h] at ht
    simp only [List.foldl_nil] at ht
    exact ⟨by rw [e1.2.2.2.2.1, e2.2.2.2.2.1, ← ht], by rw [e1.2.2.2.2.2.1, e2.2.2.2.2.2.1, ← ht]⟩
  · intro h
    rw [h] at hu
    simp only [List.foldl_nil] at hu
    rw [e1.2.2.2.2.2.2.1, ← hu, e3.2.2.2.2.2]
  · intro e he
    have := c4 e he
    rw [e2.2.2.2.2.2.2, e3.2.2.2.2.1] at this
    exact this

/-! ## `previewAdded` -/

theorem preview_fold : ∀ (l : List Cstr) (s : Solver),
    l.foldl Solver.previewConstraint s = { s with nEq := s.nEq + rowsEq s.kind l, nIneq := s.nIneq + rowsIneq s.kind l } := by
  intro l
  induction l with
  | nil => intro s; simp [rowsEq, rowsIneq]
  | cons c l ih =>
    intro s
    simp only [List.foldl_cons, ih]
    by_cases h : c.isEquality = true
    · simp only [Solver.previewConstraint, h, if_true, rowsEq, rowsIneq, List.map_cons, List.sum_cons, Int.natCast_add,
        Nat.zero_add]
      congr 1; omega
    · simp only [Solver.previewConstraint, h, if_false, rowsEq, rowsIneq, List.map_cons, List.sum_cons, Int.natCast_add,
        Nat.zero_add, Bool.false_eq_true]
      congr 1; omega

theorem preview_obj_fold : ∀ (l : List Objective) (s : Solver),
    l.foldl (fun (s : Solver) (o : Objective) => { s with nObj := s.nObj + o.c.size }) s =
      { s with nObj := s.nObj + rowsObj l } := by
  intro l
  induction l with
  | nil => intro s; simp [rowsObj]
  | cons o l ih =>
    intro s
    simp only [List.foldl_cons, ih, rowsObj, List.map_cons, List.sum_cons, Int.natCast_add]
    congr 1; omega

theorem previewAdded_eq (s : Solver) (se : SolverEvents) : s.previewAdded se =
    { s with eqSize := s.nEq, ineqSize := s.nIneq, objSize := s.nObj,
             nEq := s.nEq + rowsEq s.kind se.addedConstraints, nIneq := s.nIneq + rowsIneq s.kind se.addedConstraints,
             nObj := s.nObj + rowsObj se.addedObjectives } := by
  simp only [Solver.previewAdded, preview_fold, preview_obj_fold]

/-! ## Recomputation of the rows -/

/-- The state of `process` after the update of the ranges: `s3.resetSizes i` and the four `retarget`. -/
def Solver.ranges (s : Solver) (i : Impact) (nm : Bool) (vs : Cstr → Int) : Solver :=
  ((((s.resetSizes i).retargetEq i).retargetIneq i).retargetBnd i nm vs).retargetObj i

/-- The impact of a batch, before the resizing. -/
theorem impact_logic_eq (k : Kind) (i : Impact) :
    (k.impactLogic i).equality = (i.equality || (k.joint && i.inequality)) ∧
    (k.impactLogic i).inequality = (i.inequality || i.equality) ∧ (i.bounds = true → (k.impactLogic i).bounds = true) ∧
    (k.impactLogic i).objectives = i.objectives := by
  obtain ⟨a, b, c, d⟩ := i
  cases k <;> cases a <;> cases b <;> cases c <;> cases d <;> decide

theorem retarget_tile0 (size : Cstr → Nat) (m : AMap) (h : Single m) :
    Tile (rowsOf size (retarget (fun x => x) (fun c => (size c : Int)) 0 m).2) 0 (total size m) := by
  have := retarget_tile 0 size m 0 h
  simpa using this

theorem retarget_tile_left (k : Int) (size : Cstr → Nat) (m : AMap) (h : Single m) :
    Tile (rowsOf size (retarget (fun x => k + x) (fun c => (size c : Int)) 0 m).2) k (k + total size m) := by
  have := retarget_tile k size m 0 h
  simp only [Int.zero_add] at this
  have e : (fun x : Int => k + x) = fun x => x + k := by funext x; omega
  rw [e]; exact this

theorem retargetBounds_starts (vs : Cstr → Int) (m : AMap) : ∀ e ∈ retargetBounds vs m, ∀ a ∈ e.2, a.start = vs e.1 := by
  intro e he a ha
  simp only [retargetBounds, List.mem_map] at he
  obtain ⟨e', _, rfl⟩ := he
  simp only [List.mem_map] at ha
  obtain ⟨a', _, rfl⟩ := ha
  rfl

theorem retargetBounds_single (vs : Cstr → Int) (m : AMap) (h : Single m) : Single (retargetBounds vs m) := by
  intro e he
  simp only [retargetBounds, List.mem_map] at he
  obtain ⟨e', he', rfl⟩ := he
  obtain ⟨a, ha⟩ := h e' he'
  exact ⟨_, by simp only [ha, List.map_cons, List.map_nil]; rfl⟩

theorem ranges_head (s : Solver) (i : Impact) (nm : Bool) (vs : Cstr → Int) : SameHead s (s.ranges i nm vs) := by
  have h1 : ∀ t : Solver, SameHead t (t.retargetEq i) := by
    intro t; simp only [Solver.retargetEq]; split <;> exact ⟨rfl, rfl, rfl, rfl, rfl, rfl, rfl⟩
  have h2 : ∀ t : Solver, SameHead t (t.retargetIneq i) := by
    intro t; simp only [Solver.retargetIneq]; split <;> exact ⟨rfl, rfl, rfl, rfl, rfl, rfl, rfl⟩
  have h3 : ∀ t : Solver, SameHead t (t.retargetBnd i nm vs) := by
    intro t; simp only [Solver.retargetBnd]; split <;> exact ⟨rfl, rfl, rfl, rfl, rfl, rfl, rfl⟩
  have h4 : ∀ t : Solver, SameHead t (t.retargetObj i) := by
    intro t; simp only [Solver.retargetObj]; split <;> exact ⟨rfl, rfl, rfl, rfl, rfl, rfl, rfl⟩
  have h0 : SameHead s (s.resetSizes i) := ⟨rfl, rfl, rfl, rfl, rfl, rfl, rfl⟩
  exact (((h0.trans (h1 _)).trans (h2 _)).trans (h3 _)).trans (h4 _)

theorem ranges_eq (s : Solver) (i : Impact) (nm : Bool) (vs : Cstr → Int) : (s.ranges i nm vs).eq =
    if i.equality then (retarget (fun x => if s.kind.joint then x + (if i.inequality then 0 else s.ineqSize) else x)
      (fun c => (constraintSize s.kind c : Int)) 0 s.eq).2 else s.eq := by
  obtain ⟨a, b, c, d⟩ := i
  cases a <;> cases b <;> cases c <;> cases d <;> cases nm <;> rfl

theorem ranges_eqSize (s : Solver) (i : Impact) (nm : Bool) (vs : Cstr → Int) : (s.ranges i nm vs).eqSize =
    if i.equality then (total (constraintSize s.kind) s.eq : Int) else s.eqSize := by
  have h : (s.ranges i nm vs).eqSize =
    if i.equality then (retarget (fun x => if s.kind.joint then x + (if i.inequality then 0 else s.ineqSize) else x)
      (fun c => (constraintSize s.kind c : Int)) 0 s.eq).1 else s.eqSize := by
    obtain ⟨a, b, c, d⟩ := i
    cases a <;> cases b <;> cases c <;> cases d <;> cases nm <;> rfl
  rw [h, retarget_sum]; simp

theorem ranges_ineq (s : Solver) (i : Impact) (nm : Bool) (vs : Cstr → Int) : (s.ranges i nm vs).ineq =
    if i.inequality then (retarget (fun x => if s.kind.joint then (s.ranges i nm vs).eqSize + x else x)
      (fun c => (constraintSize s.kind c : Int)) 0 s.ineq).2 else s.ineq := by
  obtain ⟨a, b, c, d⟩ := i
  cases a <;> cases b <;> cases c <;> cases d <;> cases nm <;> rfl

theorem ranges_ineqSize (s : Solver) (i : Impact) (nm : Bool) (vs : Cstr → Int) : (s.ranges i nm vs).ineqSize =
    if i.inequality then (total (constraintSize s.kind) s.ineq : Int) else s.ineqSize := by
  have h : (s.ranges i nm vs).ineqSize =
    if i.inequality then (retarget (fun x => if s.kind.joint then (s.ranges i nm vs).eqSize + x else x)
      (fun c => (constraintSize s.kind c : Int)) 0 s.ineq).1 else s.ineqSize := by
    obtain ⟨a, b, c, d⟩ := i
    cases a <;> cases b <;> cases c <;> cases d <;> cases nm <;> rfl
  rw [h, retarget_sum]; simp

theorem ranges_bnd (s : Solver) (i : Impact) (nm : Bool) (vs : Cstr → Int) : (s.ranges i nm vs).bnd =
    if i.bounds || nm then retargetBounds vs s.bnd else s.bnd := by
  obtain ⟨a, b, c, d⟩ := i
  cases a <;> cases b <;> cases c <;> cases d <;> cases nm <;> rfl

theorem ranges_obj (s : Solver) (i : Impact) (nm : Bool) (vs : Cstr → Int) : (s.ranges i nm vs).obj =
    if i.objectives then (retarget (fun x => x) (fun c => (c.size : Int)) 0 s.obj).2 else s.obj := by
  obtain ⟨a, b, c, d⟩ := i
  cases a <;> cases b <;> cases c <;> cases d <;> cases nm <;> rfl

theorem ranges_objSize (s : Solver) (i : Impact) (nm : Bool) (vs : Cstr → Int) : (s.ranges i nm vs).objSize =
    if i.objectives then (total (·.size) s.obj : Int) else s.objSize := by
  have h : (s.ranges i nm vs).objSize =
    if i.objectives then (retarget (fun x => x) (fun c => (c.size : Int)) 0 s.obj).1 else s.objSize := by
    obtain ⟨a, b, c, d⟩ := i
    cases a <;> cases b <;> cases c <;> cases d <;> cases nm <;> rfl
  rw [h, retarget_sum (fun x => x) (fun c => c.size)]; simp

/-- The ranges are right after their update, whatever they were in the categories flagged. -/
theorem ranges_lay {s : Solver} {C B O : Cstr → Prop} {vs : Cstr → Int} (i : Impact) (nm : Bool)
    (hm : Maps s C B O) (hs : Sizes s)
    (hj : s.kind.joint = true → i.equality = i.inequality)
    (hE : i.equality = false → i.inequality = false → CstrTiles s)
    (hE' : i.equality = false → s.kind.joint = false → Tile (rowsOf (constraintSize s.kind) s.eq) 0 s.eqSize)
    (hI' : i.inequality = false → s.kind.joint = false → Tile (rowsOf (constraintSize s.kind) s.ineq) 0 s.ineqSize)
    (hO : i.objectives = false → ObjTiles s)
    (hB : i.bounds = false → nm = false → BndStarts s vs) :
    Lay (s.ranges i nm vs) C B O vs := by
  have k1 : keys (s.ranges i nm vs).eq = keys s.eq := by
    rw [ranges_eq]; split
    · rw [retarget_keys]
    · rfl
  have k2 : keys (s.ranges i nm vs).ineq = keys s.ineq := by
    rw [ranges_ineq]; split
    · rw [retarget_keys]
    · rfl
  have k3 : keys (s.ranges i nm vs).bnd = keys s.bnd := by
    rw [ranges_bnd]; split
    · rw [bounds_keys]
    · rfl
  have k4 : keys (s.ranges i nm vs).obj = keys s.obj := by
    rw [ranges_obj]; split
    · rw [retarget_keys]
    · rfl
  have hk := (ranges_head s i nm vs).kind
  have z1 : (s.ranges i nm vs).eqSize = total (constraintSize s.kind) s.eq := by
    rw [ranges_eqSize]; split
    · rfl
    · exact hs.eq
  have z2 : (s.ranges i nm vs).ineqSize = total (constraintSize s.kind) s.ineq := by
    rw [ranges_ineqSize]; split
    · rfl
    · exact hs.ineq
  have z3 : (s.ranges i nm vs).objSize = total (·.size) s.obj := by
    rw [ranges_objSize]; split
    · rfl
    · exact hs.obj
  refine ⟨⟨k1 ▸ hm.nodupE, k2 ▸ hm.nodupI, k3 ▸ hm.nodupB, k4 ▸ hm.nodupO, by rw [k1]; exact hm.memE,
    by rw [k2]; exact hm.memI, by rw [k3]; exact hm.memB, by rw [k4]; exact hm.memO, ?_, ?_, ?_, ?_⟩, ⟨?_, ?_, ?_⟩,
    ⟨fun hjj => ?_, fun hjj => ⟨?_, ?_⟩⟩, ?_, ?_⟩
  · rw [ranges_eq]; split
    · exact retarget_single _ _ _ _ hm.singleE
    · exact hm.singleE
  · rw [ranges_ineq]; split
    · exact retarget_single _ _ _ _ hm.singleI
    · exact hm.singleI
  · rw [ranges_bnd]; split
    · exact retargetBounds_single _ _ hm.singleB
    · exact hm.singleB
  · rw [ranges_obj]; split
    · exact retarget_single _ _ _ _ hm.singleO
    · exact hm.singleO
  · rw [hk, z1, total_congr _ k1]
  · rw [hk, z2, total_congr _ k2]
  · rw [z3, total_congr _ k4]
  · rw [hk] at hjj
    by_cases he : i.equality = true
    · have hi : i.inequality = true := by rw [← hj hjj]; exact he
      have t1 := retarget_tile0 (constraintSize s.kind) s.eq hm.singleE
      have t2 := retarget_tile_left (total (constraintSize s.kind) s.eq) (constraintSize s.kind) s.ineq hm.singleI
      rw [hk, ranges_ineq, ranges_eq, z1, z2]
      simp only [he, hi, hjj, if_true, Int.add_zero]
      exact t1.append t2 (by omega) (by omega)
    · have he' : i.equality = false := by simpa using he
      have hi : i.inequality = false := by rw [← hj hjj]; exact he'
      have := (hE he' hi).1 hjj
      rw [hk, ranges_ineq, ranges_eq, ranges_eqSize, ranges_ineqSize]
      simp only [he', hi, Bool.false_eq_true, if_false]
      exact this
  · rw [hk] at hjj
    rw [hk, ranges_eq, z1]
    by_cases he : i.equality = true
    · simp only [he, hjj, if_true, Bool.false_eq_true, if_false]
      exact retarget_tile0 (constraintSize s.kind) s.eq hm.singleE
    · have he' : i.equality = false := by simpa using he
      simp only [he', Bool.false_eq_true, if_false]
      rw [← hs.eq]; exact hE' he' hjj
  · rw [hk] at hjj
    rw [hk, ranges_ineq, z2]
    by_cases he : i.inequality = true
    · simp only [he, hjj, if_true, Bool.false_eq_true, if_false]
      exact retarget_tile0 (constraintSize s.kind) s.ineq hm.singleI
    · have he' : i.inequality = false := by simpa using he
      simp only [he', Bool.false_eq_true, if_false]
      rw [← hs.ineq]; exact hI' he' hjj
  · simp only [ObjTiles]
    rw [ranges_obj, z3]
    by_cases he : i.objectives = true
    · simp only [he, if_true]
      exact retarget_tile0 (·.size) s.obj hm.singleO
    · have he' : i.objectives = false := by simpa using he
      simp only [he', Bool.false_eq_true, if_false]
      rw [← hs.obj]; exact hO he'
  · simp only [BndStarts]
    rw [ranges_bnd]
    by_cases he : (i.bounds || nm) = true
    · rw [if_pos he]; exact retargetBounds_starts vs s.bnd
    · rw [if_neg he]
      have : i.bounds = false ∧ nm = false := by simpa using he
      exact hB this.1 this.2

theorem redirect_starts (vs : Cstr → Int) (v : View) (m : AMap) (h : ∀ e ∈ m, ∀ a ∈ e.2, a.start = vs e.1) :
    ∀ e ∈ redirect v m, ∀ a ∈ e.2, a.start = vs e.1 := by
  intro e he a ha
  simp only [redirect, List.mem_map] at he
  obtain ⟨e', he', rfl⟩ := he
  simp only [List.mem_map] at ha
  obtain ⟨a', ha', rfl⟩ := ha
  exact h e' he' a' ha'

theorem redirectAll_head (s : Solver) (i : Impact) : SameHead s (s.redirectAll i) := ⟨rfl, rfl, rfl, rfl, rfl, rfl, rfl⟩

theorem Lay.redirectAll {s : Solver} {C B O : Cstr → Prop} {vs : Cstr → Int} (h : Lay s C B O vs) (i : Impact) :
    Lay (s.redirectAll i) C B O vs := by
  obtain ⟨hm, hs, ht, ho, hb⟩ := h
  have key : ∀ (b : Bool) (v : View) (m : AMap), keys (if b then redirect v m else m) = keys m := by
    intro b v m; cases b
    · rfl
    · exact redirect_keys v m
  have rows : ∀ (size : Cstr → Nat) (b : Bool) (v : View) (m : AMap),
      rowsOf size (if b then redirect v m else m) = rowsOf size m := by
    intro size b v m; cases b
    · rfl
    · exact redirect_rows size v m
  have sg : ∀ (b : Bool) (v : View) (m : AMap), Single m → Single (if b then redirect v m else m) := by
    intro b v m h; cases b
    · exact h
    · exact redirect_single v m h
  refine ⟨⟨?_, ?_, ?_, ?_, ?_, ?_, ?_, ?_, sg _ _ _ hm.singleE, sg _ _ _ hm.singleI, sg _ _ _ hm.singleB,
    sg _ _ _ hm.singleO⟩, ⟨?_, ?_, ?_⟩, ?_, ?_, ?_⟩
  · simp only [Solver.redirectAll, key]; exact hm.nodupE
  · simp only [Solver.redirectAll, key]; exact hm.nodupI
  · simp only [Solver.redirectAll, key]; exact hm.nodupB
  · simp only [Solver.redirectAll, key]; exact hm.nodupO
  · simp only [Solver.redirectAll, key]; exact hm.memE
  · simp only [Solver.redirectAll, key]; exact hm.memI
  · simp only [Solver.redirectAll, key]; exact hm.memB
  · simp only [Solver.redirectAll, key]; exact hm.memO
  · simp only [Solver.redirectAll, total_congr _ (key _ _ _)]; exact hs.eq
  · simp only [Solver.redirectAll, total_congr _ (key _ _ _)]; exact hs.ineq
  · simp only [Solver.redirectAll, total_congr _ (key _ _ _)]; exact hs.obj
  · simp only [CstrTiles, Solver.redirectAll, rows]; exact ht
  · simp only [ObjTiles, Solver.redirectAll, rows]; exact ho
  · simp only [BndStarts, Solver.redirectAll]
    cases i.bounds
    · exact hb
    · exact redirect_starts vs _ _ hb

end Verif.LS
