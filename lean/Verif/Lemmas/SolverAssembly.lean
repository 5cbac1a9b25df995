import Verif.Lemmas.Assignment6
import Verif.Model.SolverAssembly
import Verif.Properties.C34_Assignment
/-!
# Lemmas on the runs of the assignments of a solver: what they write does not depend on what was there
-/
set_option autoImplicit false
set_option linter.unusedSectionVars false

namespace Verif.ASM
open Verif Verif.CA Verif.AS

section
variable {K : Type} [Field K] [LinearOrder K]

/-! ## One assignment -/

/-- A column is set by the assignment. -/
def inSet (S : Src) (V : Vars) (c : Nat) : Bool := (setVars S V).any fun x => decide (V.col x ≤ c) && decide (c < V.col x + V.dim x)

theorem inSet_iff (S : Src) (V : Vars) (c : Nat) : inSet S V c = true ↔ ∃ x ∈ setVars S V, V.col x ≤ c ∧ c < V.col x + V.dim x := by
  simp [inSet]

/-- A row is in the range of the target. -/
def Target.has (T : Target) (r : Nat) : Bool := decide (T.start ≤ r) && decide (r < T.start + T.size)

theorem has_iff (T : Target) (r : Nat) : Target.has T r = true ↔ T.start ≤ r ∧ r < T.start + T.size := by
  simp [Target.has]

/-- A vector that the target has -/
def Target.uses (T : Target) (c : Cell) : Prop := if T.type = .doubleSided then c = .l ∨ c = .u else c = .b

theorem row_fold_set (V : Vars) (D : Data K) (r c : Nat) (l : List MOp) (h : ∃ op ∈ l, op.assign = .copy ∧ op.cols.1 ≤ c ∧ c < op.cols.1 + op.cols.2)
    (a a' : Nat → K) : l.foldl (MOp.rowStep V D r) a c = l.foldl (MOp.rowStep V D r) a' c := by
  have cong : ∀ (l : List MOp) (a a' : Nat → K), a c = a' c → l.foldl (MOp.rowStep V D r) a c = l.foldl (MOp.rowStep V D r) a' c := by
    intro l
    induction l with
    | nil => intro a a' h; exact h
    | cons op l ih =>
      intro a a' h
      simp only [List.foldl_cons]
      apply ih
      simp only [MOp.rowStep, rowOp, h]
  induction l generalizing a a' with
  | nil => obtain ⟨op, ho, _⟩ := h; simp at ho
  | cons op l ih =>
    simp only [List.foldl_cons]
    obtain ⟨op', ho, h1, h2⟩ := h
    rcases List.mem_cons.mp ho with rfl | ho
    · apply cong
      simp only [MOp.rowStep, rowOp, if_pos h2, h1, assign1]
    · exact ih ⟨op', ho, h1, h2⟩ _ _

theorem row_fold_out (V : Vars) (D : Data K) (r c : Nat) (l : List MOp) (h : ∀ op ∈ l, ¬ (op.cols.1 ≤ c ∧ c < op.cols.1 + op.cols.2)) (a : Nat → K) :
    l.foldl (MOp.rowStep V D r) a c = a c := by
  induction l generalizing a with
  | nil => rfl
  | cons op l ih =>
    simp only [List.foldl_cons]
    rw [ih (fun o ho => h o (List.mem_cons_of_mem _ ho))]
    simp only [MOp.rowStep, rowOp, if_neg (h op List.mem_cons_self)]

theorem cell_fold_set (V : Vars) (D : Data K) (m m' : Mem K) (k : Nat) (l : List (VOp K)) (hp : ∀ op ∈ l, op.plain) (h : ∃ op ∈ l, op.assign = .copy) (t t' : K) :
    l.foldl (VOp.cellStep V D m k) t = l.foldl (VOp.cellStep V D m' k) t' := by
  have step : ∀ (op : VOp K), op.plain → ∀ t, VOp.cellStep V D m k t op = VOp.cellStep V D m' k t op := by
    intro op h t
    simp only [VOp.cellStep, VOp.mulVal_plain V D m m' _ op h]
  have cong : ∀ (l : List (VOp K)), (∀ op ∈ l, op.plain) → ∀ t, l.foldl (VOp.cellStep V D m k) t = l.foldl (VOp.cellStep V D m' k) t := by
    intro l
    induction l with
    | nil => intro _ t; rfl
    | cons op l ih =>
      intro h t
      simp only [List.foldl_cons]
      rw [ih (fun o ho => h o (List.mem_cons_of_mem _ ho)), step op (h op List.mem_cons_self)]
  induction l generalizing t t' with
  | nil => obtain ⟨op, ho, _⟩ := h; simp at ho
  | cons op l ih =>
    simp only [List.foldl_cons]
    obtain ⟨op', ho, h1⟩ := h
    rcases List.mem_cons.mp ho with rfl | ho
    · rw [cong l (fun o ho => hp o (List.mem_cons_of_mem _ ho)), step _ (hp _ List.mem_cons_self)]
      simp only [VOp.cellStep, h1, assign1]
    · exact ih (fun o ho => hp o (List.mem_cons_of_mem _ ho)) ⟨op', ho, h1⟩ _ _

/-- Every entry of the range of the target, in the columns that are set and in the vectors of the target, is written by a copy. -/
structure Sets (o : Ops K) (S : Src) (T : Target) (V : Vars) : Prop where
  mat : ∀ r, Target.has T r = true → ∀ c, inSet S V c = true →
    ∃ op ∈ o.mat ++ o.matSub, op.touches r = true ∧ op.assign = .copy ∧ op.cols.1 ≤ c ∧ c < op.cols.1 + op.cols.2
  vec : ∀ cell, Target.uses T cell → ∀ k, Target.has T k = true → ∃ op ∈ o.vec ++ o.vecSub, op.dst.hits cell k = true ∧ op.assign = .copy

theorem add_mat (S : Src) (T : Target) (V : Vars) (fl : Flags) (M : MatFun) (f1 : RhsFun) (v1 : VecFun) (second : Option (RhsFun × VecFun)) (flip : Bool)
    (r : Nat) (hr : (T.rows M).1 ≤ r ∧ r < (T.rows M).1 + (T.rows M).2) (c : Nat) (hc : inSet S V c = true) :
    ∃ op ∈ (addAssignments (K := K) S T V fl M f1 v1 second flip).mat, op.touches r = true ∧ op.assign = .copy ∧ op.cols.1 ≤ c ∧ c < op.cols.1 + op.cols.2 := by
  obtain ⟨x, hx, hcx⟩ := (inSet_iff S V c).mp hc
  rw [(addAssignments_mats S T V fl M f1 v1 second flip).1]
  rcases List.mem_append.mp hx with hx | hx
  · exact ⟨addZero T V x M, List.mem_append_left _ (List.mem_map_of_mem hx), by rw [MOp.touches, Bool.and_eq_true]; exact ⟨decide_eq_true hr.1, decide_eq_true hr.2⟩, rfl, hcx⟩
  · exact ⟨addMat T V fl x M flip, List.mem_append_right _ (List.mem_map_of_mem hx), by rw [MOp.touches, Bool.and_eq_true]; exact ⟨decide_eq_true hr.1, decide_eq_true hr.2⟩, rfl, hcx⟩

theorem addVec_copy (S : Src) (T : Target) (fl : Flags) (f : RhsFun) (dst : Seg) (flip : Bool) (hT : T.rhs ≠ .zero) :
    ∃ op ∈ addVec (K := K) S T fl .copy f dst flip, op.dst = dst ∧ op.assign = .copy := by
  unfold addVec
  by_cases h : S.rhs ≠ .zero
  · rw [if_pos h]; exact ⟨_, List.mem_singleton.mpr rfl, rfl, rfl⟩
  · rw [if_neg h, if_pos hT]; exact ⟨_, List.mem_singleton.mpr rfl, rfl, rfl⟩

theorem add_vec1 (S : Src) (T : Target) (V : Vars) (fl : Flags) (M : MatFun) (f1 : RhsFun) (v1 : VecFun) (second : Option (RhsFun × VecFun)) (flip : Bool)
    (hT : T.rhs ≠ .zero) : ∃ op ∈ (addAssignments (K := K) S T V fl M f1 v1 second flip).vec, op.dst = T.seg v1 ∧ op.assign = .copy := by
  obtain ⟨op, ho, h⟩ := addVec_copy (K := K) S T fl f1 (T.seg v1) flip hT
  exact ⟨op, by simp only [addAssignments, Ops.app]; exact List.mem_append_left _ (List.mem_append_left _ ho), h⟩

theorem add_vec2 (S : Src) (T : Target) (V : Vars) (fl : Flags) (M : MatFun) (f1 : RhsFun) (v1 : VecFun) (f2 : RhsFun) (v2 : VecFun) (flip : Bool)
    (hT : T.rhs ≠ .zero) : ∃ op ∈ (addAssignments (K := K) S T V fl M f1 v1 (some (f2, v2)) flip).vec, op.dst = T.seg v2 ∧ op.assign = .copy := by
  obtain ⟨op, ho, h⟩ := addVec_copy (K := K) S T fl f2 (T.seg v2) flip hT
  exact ⟨op, by simp only [addAssignments, Ops.app]; exact List.mem_append_left _ (List.mem_append_right _ ho), h⟩

theorem hits_of {T : Target} {v : VecFun} {op : VOp K} (h : op.dst = T.seg v) {c : Cell} (hc : (T.seg v).cell = c) {k : Nat}
    (hk : (T.seg v).start ≤ k ∧ k < (T.seg v).start + (T.seg v).len) : op.dst.hits c k = true := by
  rw [h]; simp [Seg.hits, hc, hk]

/-- One group of assignments for the whole range -/
theorem sets_one {S : Src} {T : Target} {V : Vars} {fl : Flags} {f : RhsFun} {v : VecFun} {flip : Bool} (hT : T.rhs ≠ .zero)
    (hv : T.type ≠ .doubleSided) (hb : v = .b) : Sets (addAssignments (K := K) S T V fl .A f v none flip) S T V := by
  subst hb
  constructor
  · intro r hr c hc
    obtain ⟨op, ho, h⟩ := add_mat (K := K) S T V fl .A f .b none flip r ((has_iff T r).mp hr) c hc
    exact ⟨op, List.mem_append_left _ ho, h⟩
  · intro cell hu k hk
    simp only [Target.uses, if_neg hv] at hu
    subst hu
    obtain ⟨op, ho, h1, h2⟩ := add_vec1 (K := K) S T V fl .A f .b none flip hT
    exact ⟨op, List.mem_append_left _ ho, hits_of h1 rfl ((has_iff T k).mp hk), h2⟩

/-- Two right-hand sides -/
theorem sets_two {S : Src} {T : Target} {V : Vars} {fl : Flags} {f1 f2 : RhsFun} {flip : Bool} (hT : T.rhs ≠ .zero)
    (hv : T.type = .doubleSided) : Sets (addAssignments (K := K) S T V fl .A f1 .l (some (f2, .u)) flip) S T V := by
  constructor
  · intro r hr c hc
    obtain ⟨op, ho, h⟩ := add_mat (K := K) S T V fl .A f1 .l (some (f2, .u)) flip r ((has_iff T r).mp hr) c hc
    exact ⟨op, List.mem_append_left _ ho, h⟩
  · intro cell hu k hk
    simp only [Target.uses, if_pos hv] at hu
    rcases hu with rfl | rfl
    · obtain ⟨op, ho, h1, h2⟩ := add_vec1 (K := K) S T V fl .A f1 .l (some (f2, .u)) flip hT
      exact ⟨op, List.mem_append_left _ ho, hits_of h1 rfl ((has_iff T k).mp hk), h2⟩
    · obtain ⟨op, ho, h1, h2⟩ := add_vec2 (K := K) S T V fl .A f1 .l f2 .u flip hT
      exact ⟨op, List.mem_append_left _ ho, hits_of h1 rfl ((has_iff T k).mp hk), h2⟩

/-- One right-hand side and a constant -/
theorem sets_const {S : Src} {T : Target} {V : Vars} {fl : Flags} {f : RhsFun} {v v' : VecFun} {flip flip' : Bool} {d : K} (hT : T.rhs ≠ .zero)
    (hv : T.type = .doubleSided) (hvv : v = .l ∧ v' = .u ∨ v = .u ∧ v' = .l) :
    Sets ((addAssignments (K := K) S T V fl .A f v none flip).app ⟨[], [], addConst fl .copy d (T.seg v') flip', []⟩) S T V := by
  constructor
  · intro r hr c hc
    obtain ⟨op, ho, h⟩ := add_mat (K := K) S T V fl .A f v none flip r ((has_iff T r).mp hr) c hc
    exact ⟨op, by simp only [Ops.app]; exact List.mem_append_left _ (List.mem_append_left _ ho), h⟩
  · intro cell hu k hk
    simp only [Target.uses, if_pos hv] at hu
    obtain ⟨op, ho, h1, h2⟩ := add_vec1 (K := K) S T V fl .A f v none flip hT
    have l1 : (T.seg v).cell = cell → ∃ op ∈ ((addAssignments (K := K) S T V fl .A f v none flip).app ⟨[], [], addConst fl .copy d (T.seg v') flip', []⟩).vec ++
        ((addAssignments (K := K) S T V fl .A f v none flip).app ⟨[], [], addConst fl .copy d (T.seg v') flip', []⟩).vecSub, op.dst.hits cell k = true ∧ op.assign = .copy := by
      intro hc
      exact ⟨op, by simp only [Ops.app]; exact List.mem_append_left _ (List.mem_append_left _ ho), hits_of h1 hc (by rcases hvv with ⟨rfl, _⟩ | ⟨rfl, _⟩ <;> exact (has_iff T k).mp hk), h2⟩
    have l2 : (T.seg v').cell = cell → ∃ op ∈ ((addAssignments (K := K) S T V fl .A f v none flip).app ⟨[], [], addConst fl .copy d (T.seg v') flip', []⟩).vec ++
        ((addAssignments (K := K) S T V fl .A f v none flip).app ⟨[], [], addConst fl .copy d (T.seg v') flip', []⟩).vecSub, op.dst.hits cell k = true ∧ op.assign = .copy := by
      intro hc
      exact ⟨⟨.copy, fl.wt flip', .none, .const d, T.seg v'⟩, by simp only [Ops.app, addConst]; exact List.mem_append_left _ (List.mem_append_right _ (List.mem_singleton.mpr rfl)),
        hits_of rfl hc (by rcases hvv with ⟨_, rfl⟩ | ⟨_, rfl⟩ <;> exact (has_iff T k).mp hk), rfl⟩
    rcases hvv with ⟨rfl, rfl⟩ | ⟨rfl, rfl⟩ <;> rcases hu with rfl | rfl
    · exact l1 rfl
    · exact l2 rfl
    · exact l2 rfl
    · exact l1 rfl

/-- Two halves -/
theorem sets_half {S : Src} {T : Target} {V : Vars} {fl : Flags} {f1 f2 : RhsFun} {flip flip' : Bool} (hT : T.rhs ≠ .zero)
    (hv : T.type ≠ .doubleSided) (hsz : T.size = 2 * S.size) :
    Sets ((addAssignments (K := K) S T V fl .AFirstHalf f1 .bFirstHalf none flip).app (addAssignments S T V fl .ASecondHalf f2 .bSecondHalf none flip')) S T V := by
  constructor
  · intro r hr c hc
    have hr' := (has_iff T r).mp hr
    by_cases h : r < T.start + T.size / 2
    · obtain ⟨op, ho, h⟩ := add_mat (K := K) S T V fl .AFirstHalf f1 .bFirstHalf none flip r ⟨hr'.1, h⟩ c hc
      exact ⟨op, by simp only [Ops.app]; exact List.mem_append_left _ (List.mem_append_left _ ho), h⟩
    · obtain ⟨op, ho, h⟩ := add_mat (K := K) S T V fl .ASecondHalf f2 .bSecondHalf none flip' r (by simp only [Target.rows]; omega) c hc
      exact ⟨op, by simp only [Ops.app]; exact List.mem_append_left _ (List.mem_append_right _ ho), h⟩
  · intro cell hu k hk
    simp only [Target.uses, if_neg hv] at hu
    subst hu
    have hk' := (has_iff T k).mp hk
    by_cases h : k < T.start + T.size / 2
    · obtain ⟨op, ho, h1, h2⟩ := add_vec1 (K := K) S T V fl .AFirstHalf f1 .bFirstHalf none flip hT
      exact ⟨op, by simp only [Ops.app]; exact List.mem_append_left _ (List.mem_append_left _ ho), hits_of h1 rfl ⟨hk'.1, h⟩, h2⟩
    · obtain ⟨op, ho, h1, h2⟩ := add_vec1 (K := K) S T V fl .ASecondHalf f2 .bSecondHalf none flip' hT
      exact ⟨op, by simp only [Ops.app]; exact List.mem_append_left _ (List.mem_append_right _ ho), hits_of h1 rfl (by simp only [Target.seg]; omega), h2⟩

theorem create_sets {S : Src} {V : Vars} {T : Target} {fl : Flags} {big : K} {o : Ops K} (h : create big S T V fl = some o) (hT : T.rhs ≠ .zero) : Sets o S T V := by
  obtain ⟨hch, _, hb⟩ := create_some h
  have hs : S.type = .doubleSided → T.type ≠ .doubleSided → T.size = 2 * S.size := by
    intro h1 h2
    simp only [checkTarget, Bool.and_eq_true] at hch
    simpa [h1, h2] using hch.2
  cases hS : S.type <;> cases hTt : T.type <;> simp only [buildOps, hS, hTt, reduceCtorEq, if_true, if_false, Option.some.injEq] at hb
  all_goals subst hb
  · exact sets_one hT (by simp [hTt]) rfl
  · exact sets_two hT hTt
  · exact sets_one hT (by simp [hTt]) rfl
  · exact sets_one hT (by simp [hTt]) rfl
  · exact sets_const hT hTt (.inl ⟨rfl, rfl⟩)
  · exact sets_one hT (by simp [hTt]) rfl
  · exact sets_one hT (by simp [hTt]) rfl
  · exact sets_const hT hTt (.inr ⟨rfl, rfl⟩)
  · simp only [checkTarget, hS, hTt] at hch
    exact absurd hch (by simp)
  · exact sets_half hT (by simp [hTt]) (hs hS (by simp [hTt]))
  · exact sets_half hT (by simp [hTt]) (hs hS (by simp [hTt]))
  · exact sets_two hT hTt

/-! ## The runs -/

/-- The assignment exists, whatever the flags, and no substitution is by a substituted variable. -/
structure Sound (V : Vars) (j : Job) : Prop where
  check : checkTarget j.S j.T = true
  maps : mapped j.S V = true
  flat : ∀ x y, y ∈ subVars j.S x → j.S.sub y = none
  rhs : j.T.rhs ≠ .zero

theorem Sound.create {V : Vars} {j : Job} (h : Sound V j) (big : K) (fl : Flags) : ∃ o, create big j.S j.T V fl = some o := by
  have hch := h.check
  unfold AS.create
  rw [if_pos (by rw [h.check, h.maps]; rfl)]
  cases hS : j.S.type <;> cases hT : j.T.type <;> simp [buildOps, hS, hT] <;> simp [checkTarget, hS, hT] at hch

/-- An entry of the matrix is written by the assignment. -/
def Job.pat (V : Vars) (j : Job) (r c : Nat) : Bool := Target.has j.T r && inSet j.S V c

/-- No memory -/
def zeroMem : Mem K := ⟨fun _ _ => 0, fun _ _ => 0⟩

theorem run_eq {big : K} {V : Vars} {now : Now K} {j : Job} {o : Ops K} (h : create big j.S j.T V (now.fl j.c) = some o) (m : Mem K) :
    j.run big V now m = o.run V (now.dat j.c) m := by
  simp only [Job.run, h]

theorem Job.run_A {big : K} {V : Vars} {now : Now K} {j : Job} (h : Sound V j) (m : Mem K) (r c : Nat) :
    (j.run big V now m).A r c = if j.pat V r c then (j.run big V now zeroMem).A r c else m.A r c := by
  obtain ⟨o, ho⟩ := h.create big (now.fl j.c)
  have hw := build_within h.flat (create_some ho).2.2
  rw [run_eq ho, run_eq ho, AS.run_A, AS.run_A]
  by_cases hp : j.pat V r c = true
  · rw [if_pos hp]
    simp only [Job.pat, Bool.and_eq_true] at hp
    obtain ⟨op, h1, h2, h3⟩ := (create_sets ho h.rhs).mat r hp.1 c hp.2
    exact row_fold_set V _ r c _ ⟨op, List.mem_filter.mpr ⟨h1, h2⟩, h3⟩ _ _
  · rw [if_neg hp]
    apply row_fold_out
    intro op hop hc
    obtain ⟨h1, h2⟩ := List.mem_filter.mp hop
    apply hp
    simp only [Job.pat, Bool.and_eq_true]
    refine ⟨(has_iff _ _).mpr ?_, (inSet_iff _ _ _).mpr (hw.cols op h1 c hc)⟩
    have := hw.rows op h1
    simp only [MOp.touches, Bool.and_eq_true, decide_eq_true_eq] at h2
    omega

theorem Job.run_vec {big : K} {V : Vars} {now : Now K} {j : Job} (h : Sound V j) (m : Mem K) (c : Cell) (hc : Target.uses j.T c) (k : Nat) :
    (j.run big V now m).vec c k = if Target.has j.T k then (j.run big V now zeroMem).vec c k else m.vec c k := by
  obtain ⟨o, ho⟩ := h.create big (now.fl j.c)
  have hw := build_within h.flat (create_some ho).2.2
  by_cases hp : Target.has j.T k = true
  · rw [if_pos hp, run_eq ho, run_eq ho, AS.run_vec _ _ _ hw.plain, AS.run_vec _ _ _ hw.plain]
    obtain ⟨op, h1, h2, h3⟩ := (create_sets ho h.rhs).vec c hc k hp
    exact cell_fold_set V _ _ _ k _ (fun op hop => hw.plain op (List.mem_filter.mp hop).1) ⟨op, List.mem_filter.mpr ⟨h1, h2⟩, h3⟩ _ _
  · rw [if_neg hp, run_eq ho]
    exact within_frame_vec hw _ m c k (fun h => hp ((has_iff _ _).mpr h))

/-- An entry is written by one of the assignments. -/
def patOf (V : Vars) (js : List Job) (r c : Nat) : Bool := js.any fun j => j.pat V r c

/-- A row is in the range of one of the assignments. -/
def rowOf (js : List Job) (r : Nat) : Bool := js.any fun j => Target.has j.T r

theorem runJobs_A {big : K} {V : Vars} {now : Now K} (js : List Job) (h : ∀ j ∈ js, Sound V j) (m : Mem K) (r c : Nat) :
    (runJobs big V now js m).A r c = if patOf V js r c then (runJobs big V now js zeroMem).A r c else m.A r c := by
  induction js generalizing m with
  | nil => simp [runJobs, patOf]
  | cons j js ih =>
    have ih := fun m => ih (fun j hj => h j (List.mem_cons_of_mem _ hj)) m
    have e : ∀ m, runJobs big V now (j :: js) m = runJobs big V now js (j.run big V now m) := fun _ => rfl
    rw [e, e, ih (j.run big V now m), ih (j.run big V now zeroMem)]
    have hp : patOf V (j :: js) r c = (j.pat V r c || patOf V js r c) := rfl
    rw [hp]
    by_cases h1 : patOf V js r c = true
    · simp [h1]
    · simp only [h1, Bool.false_eq_true, if_false, Bool.or_false]
      exact Job.run_A (h j List.mem_cons_self) m r c

theorem runJobs_vec {big : K} {V : Vars} {now : Now K} (js : List Job) (h : ∀ j ∈ js, Sound V j) (c : Cell) (hc : ∀ j ∈ js, Target.uses j.T c) (m : Mem K) (k : Nat) :
    (runJobs big V now js m).vec c k = if rowOf js k then (runJobs big V now js zeroMem).vec c k else m.vec c k := by
  induction js generalizing m with
  | nil => simp [runJobs, rowOf]
  | cons j js ih =>
    have ih := fun m => ih (fun j hj => h j (List.mem_cons_of_mem _ hj)) (fun j hj => hc j (List.mem_cons_of_mem _ hj)) m
    have e : ∀ m, runJobs big V now (j :: js) m = runJobs big V now js (j.run big V now m) := fun _ => rfl
    rw [e, e, ih (j.run big V now m), ih (j.run big V now zeroMem)]
    have hp : rowOf (j :: js) k = (Target.has j.T k || rowOf js k) := rfl
    rw [hp]
    by_cases h1 : rowOf js k = true
    · simp [h1]
    · simp only [h1, Bool.false_eq_true, if_false, Bool.or_false]
      exact Job.run_vec (h j List.mem_cons_self) m c (hc j List.mem_cons_self) k

theorem perm_any {α : Type} (f : α → Bool) {l l' : List α} (h : l.Perm l') : l.any f = l'.any f := by
  rw [Bool.eq_iff_iff, List.any_eq_true, List.any_eq_true]
  exact ⟨fun ⟨x, hx, hf⟩ => ⟨x, h.mem_iff.mp hx, hf⟩, fun ⟨x, hx, hf⟩ => ⟨x, h.mem_iff.mpr hx, hf⟩⟩

theorem patOf_perm (V : Vars) {js js' : List Job} (h : js.Perm js') : patOf V js = patOf V js' := by
  funext r c; exact perm_any _ h

theorem rowOf_perm {js js' : List Job} (h : js.Perm js') : rowOf js = rowOf js' := by
  funext r; exact perm_any _ h

/-! ## Disjoint targets -/

/-- The ranges of the targets have no common row. -/
def Disj (js : List Job) : Prop := js.Pairwise fun j k => ∀ r, Target.has j.T r = true → Target.has k.T r = false

theorem runJobs_frame {big : K} {V : Vars} {now : Now K} (js : List Job) (h : ∀ j ∈ js, Sound V j) (r : Nat) (hr : ∀ j ∈ js, Target.has j.T r = false) (m : Mem K) :
    (runJobs big V now js m).A r = m.A r ∧ ∀ c, (runJobs big V now js m).vec c r = m.vec c r := by
  induction js generalizing m with
  | nil => exact ⟨rfl, fun _ => rfl⟩
  | cons j js ih =>
    obtain ⟨o, ho⟩ := (h j List.mem_cons_self).create big (now.fl j.c)
    have hw := build_within (h j List.mem_cons_self).flat (create_some ho).2.2
    have hn : ¬ (j.T.start ≤ r ∧ r < j.T.start + j.T.size) := by
      rw [← has_iff, hr j List.mem_cons_self]; simp
    have hi := ih (fun k hk => h k (List.mem_cons_of_mem _ hk)) (fun k hk => hr k (List.mem_cons_of_mem _ hk)) (j.run big V now m)
    have e : runJobs big V now (j :: js) m = runJobs big V now js (j.run big V now m) := rfl
    rw [e]
    rw [run_eq ho] at hi ⊢
    exact ⟨hi.1.trans (within_frame_A hw _ m r hn), fun c => (hi.2 c).trans (within_frame_vec hw _ m c r hn)⟩

/-- In its rows, an assignment is as if run alone on a matrix without anything in these rows. -/
theorem runJobs_job {big : K} {V : Vars} {now : Now K} {js : List Job} (h : ∀ j ∈ js, Sound V j) (hd : Disj js) {j : Job} (hj : j ∈ js) :
    ∃ m : Mem K, (∀ r, Target.has j.T r = true → ∀ c, m.A r c = 0) ∧ ∀ r, Target.has j.T r = true →
      (runJobs big V now js zeroMem).A r = (j.run big V now m).A r ∧ ∀ c, (runJobs big V now js zeroMem).vec c r = (j.run big V now m).vec c r := by
  obtain ⟨l1, l2, rfl⟩ := List.append_of_mem hj
  have hd' := List.pairwise_append.mp hd
  have h1 : ∀ k ∈ l1, Sound V k := fun k hk => h k (List.mem_append_left _ hk)
  have h2 : ∀ k ∈ l2, Sound V k := fun k hk => h k (List.mem_append_right _ (List.mem_cons_of_mem _ hk))
  refine ⟨runJobs big V now l1 zeroMem, ?_, ?_⟩
  · intro r hr c
    rw [(runJobs_frame l1 h1 r ?_ zeroMem).1]
    · rfl
    · intro k hk
      by_contra hc
      have := hd'.2.2 k hk j List.mem_cons_self r (by simpa using hc)
      rw [hr] at this
      exact absurd this (by simp)
  · intro r hr
    have e : runJobs big V now (l1 ++ j :: l2) zeroMem = runJobs big V now l2 (j.run big V now (runJobs big V now l1 zeroMem)) := by
      simp only [runJobs, List.foldl_append, List.foldl_cons]
    rw [e]
    exact runJobs_frame l2 h2 r (fun k hk => (List.pairwise_cons.mp hd'.2.1).1 k hk r hr) _

variable [IsStrictOrderedRing K]

/-- The rows of an assignment mean its source constraint. -/
theorem runJobs_exact {big : K} {V : Vars} {now : Now K} {js : List Job} (h : ∀ j ∈ js, Sound V j) (hd : Disj js) {j : Job} (hj : j ∈ js) {n : Nat}
    (hok : Ok j.S V (now.dat j.c) n) (hw : ∀ i < j.S.size, 0 < (now.fl j.c).omega (now.dat j.c).w i) (z : Nat → K) :
    C34.TgtSat n j.T (runJobs big V now js zeroMem) z ↔
      C34.SrcSat j.S V (now.dat j.c) (C34.value j.S V (now.dat j.c) z) ∧ C34.BigSide big j.S j.T V (now.dat j.c) z := by
  obtain ⟨m, hm, hr⟩ := runJobs_job (big := big) (now := now) h hd hj
  obtain ⟨o, ho⟩ := (h j hj).create big (now.fl j.c)
  rw [← C34.assembled_exact ho hok hw m (fun r h1 h2 c _ _ => hm r ((has_iff _ _).mpr ⟨h1, h2⟩) c) z]
  unfold C34.TgtSat C34.row
  refine forall_congr' fun r => forall_congr' fun h1 => forall_congr' fun h2 => ?_
  obtain ⟨fA, fv⟩ := hr r ((has_iff _ _).mpr ⟨h1, h2⟩)
  rw [run_eq ho] at fA fv
  rw [fA, fv, fv, fv]

end
end Verif.ASM
