import Verif.Lemmas.LeastSquareSolver2
import Verif.Properties.C32_SolverEvents
/-!
# C33: the rows of a least-squares solver are tiled by its constraints

Specification. `Reach` describes the life of a solver: builds and batches of changes, in any order, with the only
conditions a scheme has to meet (a constraint is not added twice, the sizes announced to `startBuild` are the sums of the
sizes of the constraints added, a batch of events is the net difference between the former and the new sets of
constraints, as proved for `SolverEvents` in C32). `Layout` describes the rows expected.
-/
set_option autoImplicit false
set_option linter.unusedSimpArgs false

namespace Verif.LS
open Verif.SE

/-! ## Specification -/

/-- The constraints in a list of additions. -/
def cstrsOf (l : List Add) : List Cstr := l.filterMap (fun | .cstr c => some c | _ => none)

/-- The bounds in a list of additions. -/
def bndsOf (l : List Add) : List Cstr := l.filterMap (fun | .bnd c => some c | _ => none)

/-- The objectives in a list of additions. -/
def objectivesOf (l : List Add) : List Objective := l.filterMap (fun | .obj o => some o | _ => none)

/-- What a scheme must respect when building: no constraint twice in a category, announced sizes. -/
structure GoodBuild (k : Kind) (nObj nEq nIneq : Nat) (useBounds : Bool) (l : List Add) : Prop where
  nodupC : (cstrsOf l).Nodup
  nodupB : (bndsOf l).Nodup
  nodupO : ((objectivesOf l).map (·.c)).Nodup
  eq : nEq = ((cstrsOf l).map (fun c => if c.isEquality = true then constraintSize k c else 0)).sum
  ineq : nIneq = ((cstrsOf l).map (fun c => if c.isEquality = true then 0 else constraintSize k c)).sum
  obj : nObj = ((objectivesOf l).map (fun o => o.c.size)).sum
  bounds : useBounds = !(bndsOf l).isEmpty

/-- `Reach k ch Q s C B O n vs`: a solver of kind `k` (option `ch`) can be in state `s` when the constraints, bounds and
objectives of the problem are `C`, `B`, `O`, the total size of its variables is `n` and `vs` gives for each bound the
start of its variable. `Q` is a condition put on the batches (on the events, the former and new sizes of the variables, the
former and new bounds): `fun _ _ _ _ _ => True` for no condition. -/
inductive Reach (k : Kind) (ch : Bool) (Q : SolverEvents → Nat → Nat → (Cstr → Prop) → (Cstr → Prop) → Prop) :
     Solver → (Cstr → Prop) → (Cstr → Prop) → (Cstr → Prop) → Nat → (Cstr → Int) → Prop
  /-- First build, on a new solver. -/
  | first (n nObj nEq nIneq : Nat) (ub : Bool) (l : List Add) (vs : Cstr → Int) : GoodBuild k nObj nEq nIneq ub l →
      Reach k ch Q ((Solver.new k ch).build n nObj nEq nIneq ub l vs) (· ∈ cstrsOf l) (· ∈ bndsOf l)
        (· ∈ (objectivesOf l).map (·.c)) n vs
  /-- The solver is built again. -/
  | again (s : Solver) (C B O : Cstr → Prop) (n' : Nat) (vs' : Cstr → Int) (n nObj nEq nIneq : Nat) (ub : Bool)
      (l : List Add) (vs : Cstr → Int) : Reach k ch Q s C B O n' vs' → GoodBuild k nObj nEq nIneq ub l →
      Reach k ch Q (s.build n nObj nEq nIneq ub l vs) (· ∈ cstrsOf l) (· ∈ bndsOf l)
        (· ∈ (objectivesOf l).map (·.c)) n vs
  /-- A batch of changes. If no change of variables is recorded, the mapping of the variables is the same. -/
  | process (s : Solver) (C B O : Cstr → Prop) (n : Nat) (vs : Cstr → Int) (se : SolverEvents)
      (C' B' O' : Cstr → Prop) (n' : Nat) (vs' : Cstr → Int) : Reach k ch Q s C B O n vs →
      Net C C' se.addedConstraints se.removedConstraints → Net B B' se.addedBounds se.removedBounds →
      Net O O' (se.addedObjectives.map (·.c)) se.removedObjectives →
      (needMappingUpdate se = false → n' = n ∧ ∀ c, B c → vs' c = vs c) → Q se n n' B B' →
      Reach k ch Q (s.process se n' vs') C' B' O' n' vs'

/-- The rows `[start, start + size)` of the assignments of some constraints. -/
def intervals (size : Cstr → Nat) (m : AMap) : List (Int × Int) :=
  m.flatMap (fun e => e.2.map (fun a => (a.start, a.start + size e.1)))

/-- Each row of `[0, b)` is in exactly one of the intervals and no other row is in any. -/
def Tiled (l : List (Int × Int)) (b : Int) : Prop :=
  ∀ r : Int, (l.countP (fun i => decide (i.1 ≤ r ∧ r < i.2)) = 1 ↔ (0 ≤ r ∧ r < b)) ∧
    (l.countP (fun i => decide (i.1 ≤ r ∧ r < i.2)) = 0 ↔ ¬ (0 ≤ r ∧ r < b))

/-- The layout expected for sets of constraints `C`, bounds `B`, objectives `O`. -/
structure Layout (s : Solver) (C B O : Cstr → Prop) (vs : Cstr → Int) : Prop where
  /-- The maps contain these constraints, in the right category, -/
  inEq : ∀ c, (∃ l, (c, l) ∈ s.eq) ↔ (C c ∧ c.type = .equal)
  inIneq : ∀ c, (∃ l, (c, l) ∈ s.ineq) ↔ (C c ∧ c.type ≠ .equal)
  inBnd : ∀ c, (∃ l, (c, l) ∈ s.bnd) ↔ B c
  inObj : ∀ c, (∃ l, (c, l) ∈ s.obj) ↔ O c
  /-- once, -/
  once : (s.eq.map (·.1)).Nodup ∧ (s.ineq.map (·.1)).Nodup ∧ (s.bnd.map (·.1)).Nodup ∧ (s.obj.map (·.1)).Nodup
  /-- with one assignment each. -/
  one : ∀ m ∈ [s.eq, s.ineq, s.bnd, s.obj], ∀ e ∈ m, ∃ a, e.2 = [a]
  /-- The counters are the numbers of rows, -/
  nEq : s.nEq = ((s.eq.map (fun e => constraintSize s.kind e.1)).sum : Nat) ∧ s.eqSize = s.nEq
  nIneq : s.nIneq = ((s.ineq.map (fun e => constraintSize s.kind e.1)).sum : Nat) ∧ s.ineqSize = s.nIneq
  nObj : s.nObj = ((s.obj.map (fun e => e.1.size)).sum : Nat) ∧ s.objSize = s.nObj
  /-- and these rows are partitioned between the assignments: for LSSOL and LexLS, equality and inequality constraints share
  the same matrix; -/
  joint : s.kind = .lssol ∨ s.kind = .lexls →
    Tiled (intervals (constraintSize s.kind) s.eq ++ intervals (constraintSize s.kind) s.ineq) (s.nEq + s.nIneq)
  /-- for QLD and Quadprog each has its own block; -/
  separate : s.kind = .qld ∨ s.kind = .quadprog →
    Tiled (intervals (constraintSize s.kind) s.eq) s.nEq ∧ Tiled (intervals (constraintSize s.kind) s.ineq) s.nIneq
  /-- objectives have theirs. -/
  objective : Tiled (intervals (·.size) s.obj) s.nObj
  /-- Bounds are at the place of their variable. -/
  bound : ∀ e ∈ s.bnd, ∀ a ∈ e.2, a.start = vs e.1

/-! ## Proof -/

theorem Tile.tiled {l : List (Int × Int)} {b : Int} (h : Tile l 0 b) : Tiled l b := by
  intro r
  have := h r
  by_cases hr : 0 ≤ r ∧ r < b
  · rw [if_pos hr] at this; rw [this]; simp [hr]
  · rw [if_neg hr] at this; rw [this]; simp [hr]

theorem Counts.of {s : Solver} (h : Sizes s) (ha : s.assertSizes) : Counts s :=
  ⟨ha.2.1.trans h.eq, ha.2.2.trans h.ineq, ha.1.trans h.obj⟩

/-- Fold of arbitrary additions. -/
theorem foldAdd (vs : Cstr → Int) : ∀ (l : List Add) (s : Solver) (C B O : Cstr → Prop),
    Lay s C B O vs → (cstrsOf l).Nodup → (bndsOf l).Nodup → ((objectivesOf l).map (·.c)).Nodup →
    (∀ c ∈ cstrsOf l, ¬ C c) → (∀ c ∈ bndsOf l, ¬ B c) → (∀ o ∈ objectivesOf l, ¬ O o.c) →
    Lay (l.foldl (Solver.add vs) s) (fun d => C d ∨ d ∈ cstrsOf l) (fun d => B d ∨ d ∈ bndsOf l)
      (fun d => O d ∨ d ∈ (objectivesOf l).map (·.c)) vs ∧
    SameHead s (l.foldl (Solver.add vs) s) ∧
    (l.foldl (Solver.add vs) s).eqSize = s.eqSize + rowsEq s.kind (cstrsOf l) ∧
    (l.foldl (Solver.add vs) s).ineqSize = s.ineqSize + rowsIneq s.kind (cstrsOf l) ∧
    (l.foldl (Solver.add vs) s).objSize = s.objSize + rowsObj (objectivesOf l) := by
  intro l
  induction l with
  | nil =>
    intro s C B O h _ _ _ _ _ _
    exact ⟨h.congr (by simp [cstrsOf]) (by simp [bndsOf]) (by simp [objectivesOf]) (by simp), SameHead.refl s,
      by simp [cstrsOf, rowsEq], by simp [cstrsOf, rowsIneq], by simp [objectivesOf, rowsObj]⟩
  | cons a l ih =>
    intro s C B O h n1 n2 n3 m1 m2 m3
    simp only [List.foldl_cons]
    cases a with
    | cstr c =>
      have e1 : cstrsOf (.cstr c :: l) = c :: cstrsOf l := rfl
      have e2 : bndsOf (.cstr c :: l) = bndsOf l := rfl
      have e3 : objectivesOf (.cstr c :: l) = objectivesOf l := rfl
      rw [e1] at n1 m1; rw [e2] at n2 m2; rw [e3] at n3 m3
      obtain ⟨h1, h2⟩ := List.nodup_cons.1 n1
      obtain ⟨i1, i2, i3, i4, i5⟩ := ih _ _ _ _ (h.addConstraint c (m1 c (by simp))) h2 n2 n3 (by
        rintro d hd (h3 | rfl)
        · exact m1 d (List.mem_cons_of_mem _ hd) h3
        · exact h1 hd) m2 m3
      have hh := addConstraint_head s c
      obtain ⟨g1, g2, g3⟩ := addConstraint_sizes s c
      rw [e1, e2, e3]
      refine ⟨i1.congr (fun d => by simp only [List.mem_cons, or_assoc]) (by simp) (by simp) (by simp), hh.trans i2, ?_, ?_, ?_⟩
      · simp only [Solver.add]; rw [i3, g1, hh.kind]; simp [rowsEq]; omega
      · simp only [Solver.add]; rw [i4, g2, hh.kind]; simp [rowsIneq]; omega
      · simp only [Solver.add]; rw [i5, g3]
    | obj o =>
      have e1 : cstrsOf (.obj o :: l) = cstrsOf l := rfl
      have e2 : bndsOf (.obj o :: l) = bndsOf l := rfl
      have e3 : objectivesOf (.obj o :: l) = o :: objectivesOf l := rfl
      rw [e1] at n1 m1; rw [e2] at n2 m2; rw [e3] at n3 m3
      obtain ⟨h1, h2⟩ := List.nodup_cons.1 n3
      obtain ⟨i1, i2, i3, i4, i5⟩ := ih _ _ _ _ (h.addObjective o (m3 o (by simp))) n1 n2 h2 m1 m2 (by
        rintro d hd (h3 | h3)
        · exact m3 d (List.mem_cons_of_mem _ hd) h3
        · refine h1 ?_
          change o.c ∈ _
          rw [← h3]; exact List.mem_map_of_mem hd)
      rw [e1, e2, e3]
      refine ⟨i1.congr (by simp) (by simp) (fun d => by simp only [List.map_cons, List.mem_cons, or_assoc]) (by simp),
        ⟨i2.kind, i2.cholesky, i2.nEq, i2.nIneq, i2.nObj, i2.bufs, i2.views⟩, i3, i4, ?_⟩
      simp only [Solver.add]; rw [i5]; simp [rowsObj, Solver.addObjective]; omega
    | bnd c =>
      have e1 : cstrsOf (.bnd c :: l) = cstrsOf l := rfl
      have e2 : bndsOf (.bnd c :: l) = c :: bndsOf l := rfl
      have e3 : objectivesOf (.bnd c :: l) = objectivesOf l := rfl
      rw [e1] at n1 m1; rw [e2] at n2 m2; rw [e3] at n3 m3
      obtain ⟨h1, h2⟩ := List.nodup_cons.1 n2
      obtain ⟨i1, i2, i3, i4, i5⟩ := ih _ _ _ _ (h.addBound c (m2 c (by simp))) n1 h2 n3 m1 (by
        rintro d hd (h3 | rfl)
        · exact m2 d (List.mem_cons_of_mem _ hd) h3
        · exact h1 hd) m3
      rw [e1, e2, e3]
      exact ⟨i1.congr (by simp) (fun d => by simp only [List.mem_cons, or_assoc]) (by simp) (by simp),
        ⟨i2.kind, i2.cholesky, i2.nEq, i2.nIneq, i2.nObj, i2.bufs, i2.views⟩, i3, i4, i5⟩

/-- A solver just reset by `startBuild`. -/
theorem startBuild_lay (s : Solver) (n nObj nEq nIneq : Nat) (ub : Bool) (vs : Cstr → Int) :
    Lay (s.startBuild n nObj nEq nIneq ub) (fun _ => False) (fun _ => False) (fun _ => False) vs := by
  refine ⟨?_, ⟨rfl, rfl, rfl⟩, ⟨fun _ => Tile.nil 0, fun _ => ⟨Tile.nil 0, Tile.nil 0⟩⟩, Tile.nil 0, ?_⟩
  · constructor <;> simp [Solver.startBuild, keys, Single]
  · intro e he; simp [Solver.startBuild] at he

theorem build_lay (s : Solver) (n nObj nEq nIneq : Nat) (ub : Bool) (l : List Add) (vs : Cstr → Int)
    (h : GoodBuild s.kind nObj nEq nIneq ub l) :
    Lay (s.build n nObj nEq nIneq ub l vs) (· ∈ cstrsOf l) (· ∈ bndsOf l) (· ∈ (objectivesOf l).map (·.c)) vs ∧
    (s.build n nObj nEq nIneq ub l vs).assertSizes ∧
    SameHead (s.startBuild n nObj nEq nIneq ub) (s.build n nObj nEq nIneq ub l vs) := by
  obtain ⟨h1, h2, h3, h4, h5⟩ := foldAdd vs l _ _ _ _ (startBuild_lay s n nObj nEq nIneq ub vs) h.nodupC h.nodupB h.nodupO
    (by simp) (by simp) (by simp)
  have hk : (s.startBuild n nObj nEq nIneq ub).kind = s.kind := rfl
  rw [hk] at h3 h4
  refine ⟨h1.congr (by simp) (by simp) (by simp) (by simp), ⟨?_, ?_, ?_⟩, h2⟩
  · refine h2.nObj.trans (Eq.trans ?_ h5.symm)
    have := h.obj
    simp only [Solver.startBuild, rowsObj]; omega
  · refine h2.nEq.trans (Eq.trans ?_ h3.symm)
    have := h.eq
    simp only [Solver.startBuild, rowsEq]; omega
  · refine h2.nIneq.trans (Eq.trans ?_ h4.symm)
    have := h.ineq
    simp only [Solver.startBuild, rowsIneq]; omega

/-- The state just before the additions of a batch. -/
theorem processExisting_lay {s : Solver} {C B O C' B' O' : Cstr → Prop} {vs vs' : Cstr → Int} (se : SolverEvents) (n : Nat)
    (h : Lay s C B O vs) (ha : s.assertSizes)
    (hC : Net C C' se.addedConstraints se.removedConstraints) (hB : Net B B' se.addedBounds se.removedBounds)
    (hO : Net O O' (se.addedObjectives.map (·.c)) se.removedObjectives)
    (hv : needMappingUpdate se = false → ∀ c, B c → vs' c = vs c) :
    Lay (s.processExisting se n vs') (fun d => C d ∧ d ∉ se.removedConstraints) (fun d => B d ∧ d ∉ se.removedBounds)
      (fun d => O d ∧ d ∉ se.removedObjectives) vs' ∧
    (s.processExisting se n vs').kind = s.kind ∧ (s.processExisting se n vs').cholesky = s.cholesky ∧
    (s.processExisting se n vs').nEq = (s.processExisting se n vs').eqSize + rowsEq s.kind se.addedConstraints ∧
    (s.processExisting se n vs').nIneq = (s.processExisting se n vs').ineqSize + rowsIneq s.kind se.addedConstraints ∧
    (s.processExisting se n vs').nObj = (s.processExisting se n vs').objSize + rowsObj se.addedObjectives := by
  obtain ⟨hm, hs, ht, ho, hb⟩ := h
  obtain ⟨r1, r2, r3, r4, r5, r6⟩ := processRemoved_spec se hm (Counts.of hs ha) hC.nodupR hO.nodupR hB.nodupR
    (fun c hc => ((hC.memR c).1 hc).1) (fun c hc => ((hO.memR c).1 hc).1) (fun c hc => ((hB.memR c).1 hc).1)
  generalize hs1 : s.processRemoved se = s1 at r1 r2 r3 r4 r5 r6
  generalize hs2 : s1.previewAdded se = s2
  have hs2' := previewAdded_eq s1 se
  rw [hs2] at hs2'
  generalize hub : (!s2.bnd.isEmpty || !se.addedBounds.isEmpty) = ub
  generalize hs3 : s2.resize n s2.nObj.toNat s2.nEq.toNat s2.nIneq.toNat ub = s3
  generalize hi : (impactRemove s.kind se).or (impactAdd s2 se) = i
  generalize hi' : s.kind.impactLogic (i.or (resizeImpact s2.kind s2.cholesky s2.bufs n s2.nObj.toNat s2.nEq.toNat s2.nIneq.toNat ub)) = i'
  have e : s.processExisting se n vs' = (s3.ranges i (needMappingUpdate se) vs').redirectAll i' := by
    simp only [Solver.processExisting, hs1, hs2, hub, hs3, hi, hi', Solver.ranges]
  have f : s3.kind = s.kind ∧ s3.cholesky = s.cholesky ∧ s3.eq = s1.eq ∧ s3.ineq = s1.ineq ∧ s3.bnd = s1.bnd ∧ s3.obj = s1.obj ∧
      s3.eqSize = s1.nEq ∧ s3.ineqSize = s1.nIneq ∧ s3.objSize = s1.nObj ∧
      s3.nEq = s1.nEq + rowsEq s.kind se.addedConstraints ∧ s3.nIneq = s1.nIneq + rowsIneq s.kind se.addedConstraints ∧
      s3.nObj = s1.nObj + rowsObj se.addedObjectives := by
    rw [← hs3, hs2', ← r3.1]
    exact ⟨rfl, r3.2.1, rfl, rfl, rfl, rfl, rfl, rfl, rfl, rfl, rfl, rfl⟩
  obtain ⟨f1, f2, f3, f4, f5, f6, f7, f8, f9, f10, f11, f12⟩ := f
  have m3 : Maps s3 (fun d => C d ∧ d ∉ se.removedConstraints) (fun d => B d ∧ d ∉ se.removedBounds)
      (fun d => O d ∧ d ∉ se.removedObjectives) :=
    ⟨f3 ▸ r1.nodupE, f4 ▸ r1.nodupI, f5 ▸ r1.nodupB, f6 ▸ r1.nodupO, f3 ▸ r1.memE, f4 ▸ r1.memI, f5 ▸ r1.memB, f6 ▸ r1.memO,
      f3 ▸ r1.singleE, f4 ▸ r1.singleI, f5 ▸ r1.singleB, f6 ▸ r1.singleO⟩
  have z3 : Sizes s3 := by
    refine ⟨?_, ?_, ?_⟩
    · rw [f1, f3, f7, ← r3.1]; exact r2.eq
    · rw [f1, f4, f8, ← r3.1]; exact r2.ineq
    · rw [f6, f9]; exact r2.obj
  -- impacts
  have hkk : s2.kind = s.kind := by rw [hs2', ← r3.1]
  have L1 := impact_logic_eq s.kind ⟨!se.removedConstraints.isEmpty, !se.removedConstraints.isEmpty, !se.removedBounds.isEmpty, !se.removedObjectives.isEmpty⟩
  have L2 := impact_logic_eq s.kind ⟨s2.nEq ≠ s2.eqSize, s2.nIneq ≠ s2.ineqSize, false, !se.addedObjectives.isEmpty⟩
  have hR : impactRemove s.kind se = s.kind.impactLogic ⟨!se.removedConstraints.isEmpty, !se.removedConstraints.isEmpty, !se.removedBounds.isEmpty, !se.removedObjectives.isEmpty⟩ := rfl
  have hA : impactAdd s2 se = s.kind.impactLogic ⟨s2.nEq ≠ s2.eqSize, s2.nIneq ≠ s2.ineqSize, false, !se.addedObjectives.isEmpty⟩ := by
    simp only [impactAdd, hkk]
  rw [← hR] at L1
  rw [← hA] at L2
  have ie : i.equality = ((impactRemove s.kind se).equality || (impactAdd s2 se).equality) := by rw [← hi]; rfl
  have ii : i.inequality = ((impactRemove s.kind se).inequality || (impactAdd s2 se).inequality) := by rw [← hi]; rfl
  have ib : i.bounds = ((impactRemove s.kind se).bounds || (impactAdd s2 se).bounds) := by rw [← hi]; rfl
  have io : i.objectives = ((impactRemove s.kind se).objectives || (impactAdd s2 se).objectives) := by rw [← hi]; rfl
  rw [L1.1, L2.1] at ie
  rw [L1.2.1, L2.2.1] at ii
  rw [L1.2.2.2, L2.2.2.2] at io
  have noneE : i.equality = false → se.removedConstraints = [] := by
    intro h; rw [ie] at h; simp at h; exact h.1.1
  have noneI : i.inequality = false → se.removedConstraints = [] := by
    intro h; rw [ii] at h; simp at h; exact h.1
  have noneO : i.objectives = false → se.removedObjectives = [] := by
    intro h; rw [io] at h; simp at h; exact h.1
  have tE : se.removedConstraints = [] → s3.eq = s.eq ∧ s3.eqSize = s.eqSize ∧ s3.ineq = s.ineq ∧ s3.ineqSize = s.ineqSize := by
    intro h
    obtain ⟨g1, g2⟩ := r4 h
    refine ⟨f3.trans g1, ?_, f4.trans g2, ?_⟩
    · rw [f7, r2.eq, r3.1, g1]; exact hs.eq.symm
    · rw [f8, r2.ineq, r3.1, g2]; exact hs.ineq.symm
  have lay := ranges_lay (vs := vs') i (needMappingUpdate se) m3 z3
    (by intro hj; rw [f1] at hj; rw [ie, ii, hj]; simp [Bool.or_comm])
    (by
      intro h1 h2
      obtain ⟨g1, g2, g3, g4⟩ := tE (noneE h1)
      simp only [CstrTiles]; rw [f1, g1, g2, g3, g4]; exact ht)
    (by
      intro h1 h2
      obtain ⟨g1, g2, g3, g4⟩ := tE (noneE h1)
      rw [f1] at h2 ⊢; rw [g1, g2]; exact (ht.2 h2).1)
    (by
      intro h1 h2
      obtain ⟨g1, g2, g3, g4⟩ := tE (noneI h1)
      rw [f1] at h2 ⊢; rw [g3, g4]; exact (ht.2 h2).2)
    (by
      intro h1
      have g := r5 (noneO h1)
      simp only [ObjTiles]
      rw [f6, f9, r2.obj, g, ← hs.obj]; exact ho)
    (by
      intro _ hnm e he a ha
      rw [f5] at he
      have he' := r6 e he
      rw [hv hnm e.1 ((hm.memB e.1).1 (List.mem_map_of_mem he'))]
      exact hb e he' a ha)
  rw [e]
  have hd := ranges_head s3 i (needMappingUpdate se) vs'
  refine ⟨lay.redirectAll i', ?_, ?_, ?_, ?_, ?_⟩
  · exact hd.kind.trans f1
  · exact hd.cholesky.trans f2
  · refine hd.nEq.trans ?_
    have : ((s3.ranges i (needMappingUpdate se) vs').redirectAll i').eqSize = s3.eqSize := by
      change (s3.ranges i (needMappingUpdate se) vs').eqSize = _
      rw [ranges_eqSize, z3.eq]; split <;> rfl
    rw [this, f10, f7]
  · refine hd.nIneq.trans ?_
    have : ((s3.ranges i (needMappingUpdate se) vs').redirectAll i').ineqSize = s3.ineqSize := by
      change (s3.ranges i (needMappingUpdate se) vs').ineqSize = _
      rw [ranges_ineqSize, z3.ineq]; split <;> rfl
    rw [this, f11, f8]
  · refine hd.nObj.trans ?_
    have : ((s3.ranges i (needMappingUpdate se) vs').redirectAll i').objSize = s3.objSize := by
      change (s3.ranges i (needMappingUpdate se) vs').objSize = _
      rw [ranges_objSize, z3.obj]; split <;> rfl
    rw [this, f12, f9]

theorem process_lay {s : Solver} {C B O C' B' O' : Cstr → Prop} {vs vs' : Cstr → Int} (se : SolverEvents) (n : Nat)
    (h : Lay s C B O vs) (ha : s.assertSizes)
    (hC : Net C C' se.addedConstraints se.removedConstraints) (hB : Net B B' se.addedBounds se.removedBounds)
    (hO : Net O O' (se.addedObjectives.map (·.c)) se.removedObjectives)
    (hv : needMappingUpdate se = false → ∀ c, B c → vs' c = vs c) :
    Lay (s.process se n vs') C' B' O' vs' ∧ (s.process se n vs').assertSizes ∧
    (s.process se n vs').kind = s.kind ∧ (s.process se n vs').cholesky = s.cholesky ∧
    SameHead (s.processExisting se n vs') (s.process se n vs') := by
  obtain ⟨p1, p2, p3, p4, p5, p6⟩ := processExisting_lay se n h ha hC hB hO hv
  generalize he : s.processExisting se n vs' = t at p1 p2 p3 p4 p5 p6
  obtain ⟨a1, a2, a3, a4, a5⟩ := foldConstraints _ _ _ se.addedConstraints t _ p1 hC.nodupA
    (fun c hc hn => ((hC.memA c).1 hc).2 hn.1)
  generalize ht : se.addedConstraints.foldl Solver.addConstraint t = t1 at a1 a2 a3 a4 a5
  obtain ⟨b1, b2, b3, b4, b5⟩ := foldBounds _ _ _ se.addedBounds t1 _ a1 hB.nodupA (fun c hc hn => ((hB.memA c).1 hc).2 hn.1)
  generalize ht2 : se.addedBounds.foldl (fun s c => s.addBound vs' c) t1 = t2 at b1 b2 b3 b4 b5
  obtain ⟨c1, c2, c3, c4, c5⟩ := foldObjectives _ _ _ se.addedObjectives t2 _ b1 hO.nodupA
    (fun o ho hn => ((hO.memA o.c).1 (List.mem_map_of_mem ho)).2 hn.1)
  have e : s.process se n vs' = se.addedObjectives.foldl Solver.addObjective t2 := by
    simp only [Solver.process, Solver.processAdded, he, ht, ht2]
  rw [← e] at c1 c2 c3 c4 c5
  have hd := (a2.trans b2).trans c2
  refine ⟨c1.congr (fun d => ((C32_apply hC).2 d).symm) (fun d => ((C32_apply hB).2 d).symm)
    (fun d => ((C32_apply hO).2 d).symm) (fun _ _ => rfl), ⟨?_, ?_, ?_⟩, hd.kind.trans p2, hd.cholesky.trans p3, hd⟩
  · rw [hd.nObj, c5, b5, a5]; exact p6
  · rw [hd.nEq, c3, b3, a3, p2]; exact p4
  · rw [hd.nIneq, c4, b4, a4, p2]; exact p5

theorem reach_lay {k : Kind} {ch : Bool} {Q : SolverEvents → Nat → Nat → (Cstr → Prop) → (Cstr → Prop) → Prop} {s : Solver} {C B O : Cstr → Prop} {n : Nat} {vs : Cstr → Int}
    (h : Reach k ch Q s C B O n vs) : Lay s C B O vs ∧ s.assertSizes ∧ s.kind = k ∧ s.cholesky = ch := by
  induction h with
  | first n nObj nEq nIneq ub l vs hg =>
    obtain ⟨h1, h2, h3⟩ := build_lay (Solver.new k ch) n nObj nEq nIneq ub l vs hg
    exact ⟨h1, h2, h3.kind, h3.cholesky⟩
  | again s C B O n' vs' n nObj nEq nIneq ub l vs _ hg ih =>
    obtain ⟨_, _, ih3, ih4⟩ := ih
    rw [← ih3] at hg
    obtain ⟨h1, h2, h3⟩ := build_lay s n nObj nEq nIneq ub l vs hg
    exact ⟨h1, h2, h3.kind.trans ih3, h3.cholesky.trans ih4⟩
  | process s C B O n vs se C' B' O' n' vs' _ hC hB hO hv _ ih =>
    obtain ⟨i1, i2, i3, i4⟩ := ih
    obtain ⟨h1, h2, h3, h4, _⟩ := process_lay se n' i1 i2 hC hB hO (fun h => (hv h).2)
    exact ⟨h1, h2, h3.trans i3, h4.trans i4⟩

/-- **C33**. In every reachable state the rows of the solver are tiled by the constraints of the problem. -/
theorem C33_layout {k : Kind} {ch : Bool} {Q : SolverEvents → Nat → Nat → (Cstr → Prop) → (Cstr → Prop) → Prop} {s : Solver} {C B O : Cstr → Prop} {n : Nat} {vs : Cstr → Int}
    (h : Reach k ch Q s C B O n vs) : Layout s C B O vs := by
  obtain ⟨⟨hm, hs, ht, ho, hb⟩, ha, hk, _⟩ := reach_lay h
  have mk : ∀ (m : AMap) (c : Cstr), (∃ l, (c, l) ∈ m) ↔ c ∈ keys m := by
    intro m c
    simp only [keys, List.mem_map]
    exact ⟨fun ⟨l, hl⟩ => ⟨(c, l), hl, rfl⟩, fun ⟨e, he, hc⟩ => ⟨e.2, by rw [← hc]; exact he⟩⟩
  obtain ⟨a1, a2, a3⟩ := ha
  refine ⟨fun c => ?_, fun c => ?_, fun c => by rw [mk]; exact hm.memB c, fun c => by rw [mk]; exact hm.memO c,
    ⟨hm.nodupE, hm.nodupI, hm.nodupB, hm.nodupO⟩, ?_, ⟨a2.trans hs.eq, a2.symm⟩, ⟨a3.trans hs.ineq, a3.symm⟩,
    ⟨a1.trans hs.obj, a1.symm⟩, fun hj => ?_, fun hj => ?_, ?_, hb⟩
  · rw [mk, hm.memE]; simp [Cstr.isEquality]
  · rw [mk, hm.memI]; simp [Cstr.isEquality]
  · intro m hm'
    simp only [List.mem_cons, List.not_mem_nil, or_false] at hm'
    rcases hm' with rfl | rfl | rfl | rfl
    · exact hm.singleE
    · exact hm.singleI
    · exact hm.singleB
    · exact hm.singleO
  · have : s.kind.joint = true := by rcases hj with hj | hj <;> rw [hj] <;> rfl
    rw [a2, a3]; exact (ht.1 this).tiled
  · have : s.kind.joint = false := by rcases hj with hj | hj <;> rw [hj] <;> rfl
    rw [a2, a3]; exact ⟨(ht.2 this).1.tiled, (ht.2 this).2.tiled⟩
  · rw [a1]; exact ho.tiled

/-! ## The condition is needed -/

private def e1 : Cstr := ⟨1, 2, .equal⟩
private def e2 : Cstr := ⟨2, 1, .equal⟩
private def i1 : Cstr := ⟨3, 3, .doubleSided⟩
private def i2 : Cstr := ⟨4, 1, .greaterThan⟩
private def b1 : Cstr := ⟨5, 4, .doubleSided⟩
private def o1 : Objective := ⟨⟨6, 3, .equal⟩, 0, 1⟩
private def o2 : Objective := ⟨⟨7, 2, .equal⟩, 0, 1⟩

/-- When a constraint is added twice to a build, it gets two assignments; removing it later erases both, but its size is
subtracted once: the number of rows of the solver is not the number of rows in use. -/
theorem C33_double_add :
    let s := (Solver.new .qld false).build 4 0 4 0 false [.cstr e2, .cstr e1, .cstr e2] (fun _ => 0)
    let t := s.process ⟨[], [], [], [], [e2], [], [], [], [], false⟩ 4 (fun _ => 0)
    s.assertSizes ∧ (∃ l, (e2, l) ∈ s.eq ∧ l.length = 2) ∧ intervals (constraintSize .qld) t.eq = [(0, 2)] ∧ t.nEq = 3 ∧
      ¬ t.assertSizes := by
  refine ⟨⟨rfl, rfl, rfl⟩, ⟨[⟨0, ⟨⟨3, 4, 4⟩, ⟨4, 4, 1⟩, 0, 4⟩⟩, ⟨3, ⟨⟨3, 4, 4⟩, ⟨4, 4, 1⟩, 0, 4⟩⟩], ?_, rfl⟩, by decide, by decide, ?_⟩
  · decide
  · intro h; exact absurd h.2.1 (by decide)

/-! ## Non-vacuity -/

/-- Differences of finite sets. -/
theorem Net.ofLists {α : Type} (S T A R : List α) (h1 : A.Nodup) (h2 : R.Nodup) (h3 : ∀ x ∈ A, x ∈ T ∧ x ∉ S)
    (h4 : ∀ x ∈ T, x ∈ A ∨ x ∈ S) (h5 : ∀ x ∈ R, x ∈ S ∧ x ∉ T) (h6 : ∀ x ∈ S, x ∈ R ∨ x ∈ T) :
    Net (· ∈ S) (· ∈ T) A R :=
  ⟨h1, h2, fun x => ⟨h3 x, fun h => (h4 x h.1).resolve_right h.2⟩, fun x => ⟨h5 x, fun h => (h6 x h.1).resolve_right h.2⟩⟩

example : GoodBuild .qld 3 3 7 true [.cstr e1, .obj o1, .cstr i1, .bnd b1, .cstr e2, .cstr i2] := by
  constructor <;> decide

/-- A build followed by a batch that removes two constraints and a bound and adds an objective and a variable. -/
theorem ex_reach : ∃ s C B O, Reach .qld true (fun _ _ _ _ _ => True) s C B O 5 (fun _ => 1) ∧ C e1 ∧ C i2 ∧ ¬ C i1 ∧ O o1.c ∧ O o2.c ∧
    s.nEq = 2 ∧ s.nIneq = 1 ∧ s.nObj = 5 := by
  have h := Reach.first (k := .qld) (ch := true) (Q := fun _ _ _ _ _ => True) 4 3 3 7 true
    [.cstr e1, .obj o1, .cstr i1, .bnd b1, .cstr e2, .cstr i2] (fun _ => 0) (by constructor <;> decide)
  have h2 := Reach.process _ _ _ _ _ _ ⟨[], [], [], [o2], [i1, e2], [b1], [], [7], [], false⟩ (· ∈ [e1, i2]) (· ∈ [])
    (· ∈ [o1.c, o2.c]) 5 (fun _ => 1) h
    (Net.ofLists _ _ _ _ (by decide) (by decide) (by decide) (by decide) (by decide) (by decide))
    (Net.ofLists _ _ _ _ (by decide) (by decide) (by decide) (by decide) (by decide) (by decide))
    (Net.ofLists _ _ _ _ (by decide) (by decide) (by decide) (by decide) (by decide) (by decide)) (by decide) trivial
  exact ⟨_, _, _, _, h2, by decide, by decide, by decide, by decide, by decide, by decide, by decide, by decide⟩

example : ∃ (s : Solver) (C B O : Cstr → Prop), s.nObj = 5 ∧ Layout s C B O (fun _ => 1) ∧ C i2 ∧ O o2.c := by
  obtain ⟨s, C, B, O, h, -, h1, -, -, h2, -, -, h3⟩ := ex_reach
  exact ⟨s, C, B, O, h3, C33_layout h, h1, h2⟩

end Verif.LS
