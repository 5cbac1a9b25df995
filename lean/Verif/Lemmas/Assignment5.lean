import Verif.Lemmas.Assignment4
import Mathlib.Algebra.Order.Field.Basic
/-!
# Lemmas on the assignments: rows and right hand sides after a run, for each combination of conventions
-/
set_option autoImplicit false
set_option linter.unusedSectionVars false

namespace Verif.AS
open Verif Verif.CA Finset

section
variable {K : Type} [Field K] [LinearOrder K]

theorem run_A (V : Vars) (D : Data K) (o : Ops K) (m : Mem K) (r : Nat) :
    (o.run V D m).A r = ((o.mat ++ o.matSub).filter (MOp.touches r)).foldl (MOp.rowStep V D r) (m.A r) := by
  simp only [Ops.run, fold_A]
  exact fold_row V D r _ m.A

theorem run_vec (V : Vars) (D : Data K) (o : Ops K) (ho : ∀ op ∈ o.vec ++ o.vecSub, op.plain) (m : Mem K) (c : Cell) (k : Nat) :
    (o.run V D m).vec c k = ((o.vec ++ o.vecSub).filter fun op => op.dst.hits c k).foldl (VOp.cellStep V D m k) (m.vec c k) := by
  simp only [Ops.run]
  rw [fold_cell V D m c k _ ho]

theorem filter_touches_all (r : Nat) (l : List MOp) (rows : Nat × Nat) (h : ∀ op ∈ l, op.rows = rows) (hr : rows.1 ≤ r ∧ r < rows.1 + rows.2) :
    l.filter (MOp.touches r) = l := by
  rw [List.filter_eq_self]
  intro op hop
  simp [MOp.touches, h op hop, hr]

theorem filter_touches_none (r : Nat) (l : List MOp) (rows : Nat × Nat) (h : ∀ op ∈ l, op.rows = rows) (hr : ¬ (rows.1 ≤ r ∧ r < rows.1 + rows.2)) :
    l.filter (MOp.touches r) = [] := by
  rw [List.filter_eq_nil_iff]
  intro op hop
  simp only [MOp.touches, h op hop, Bool.and_eq_true, decide_eq_true_eq]
  exact hr

/-- Ops that all write the same rows -/
def Ops.inRows (o : Ops K) (rows : Nat × Nat) : Prop := (∀ op ∈ o.mat, op.rows = rows) ∧ ∀ op ∈ o.matSub, op.rows = rows

theorem inRows_add (S : Src) (T : Target) (V : Vars) (fl : Flags) (M : MatFun) (f1 : RhsFun) (v1 : VecFun)
    (second : Option (RhsFun × VecFun)) (flip : Bool) : (addAssignments (K := K) S T V fl M f1 v1 second flip).inRows (T.rows M) :=
  ⟨fun op h => addAssignments_rows S T V fl M f1 v1 second flip op (.inl h), fun op h => addAssignments_rows S T V fl M f1 v1 second flip op (.inr h)⟩

theorem filter_app_left (o1 o2 : Ops K) (r1 r2 : Nat × Nat) (h1 : o1.inRows r1) (h2 : o2.inRows r2) (r : Nat)
    (hr1 : r1.1 ≤ r ∧ r < r1.1 + r1.2) (hr2 : ¬ (r2.1 ≤ r ∧ r < r2.1 + r2.2)) :
    ((o1.app o2).mat ++ (o1.app o2).matSub).filter (MOp.touches r) = o1.mat ++ o1.matSub := by
  simp only [Ops.app, List.filter_append]
  rw [filter_touches_all r _ _ h1.1 hr1, filter_touches_all r _ _ h1.2 hr1, filter_touches_none r _ _ h2.1 hr2, filter_touches_none r _ _ h2.2 hr2]
  simp

theorem filter_app_right (o1 o2 : Ops K) (r1 r2 : Nat × Nat) (h1 : o1.inRows r1) (h2 : o2.inRows r2) (r : Nat)
    (hr1 : ¬ (r1.1 ≤ r ∧ r < r1.1 + r1.2)) (hr2 : r2.1 ≤ r ∧ r < r2.1 + r2.2) :
    ((o1.app o2).mat ++ (o1.app o2).matSub).filter (MOp.touches r) = o2.mat ++ o2.matSub := by
  simp only [Ops.app, List.filter_append]
  rw [filter_touches_none r _ _ h1.1 hr1, filter_touches_none r _ _ h1.2 hr1, filter_touches_all r _ _ h2.1 hr2, filter_touches_all r _ _ h2.2 hr2]
  simp

theorem vecs_split (o : Ops K) (l : List (VOp K)) (h : o.vec ++ o.vecSub = l) (p : VOp K → Bool) :
    o.vec.filter p ++ o.vecSub.filter p = l.filter p := by rw [← h, List.filter_append]

/-- The vector assignments of two calls with one right hand side each: at the places of the first -/
theorem vec_app_left (o1 o2 : Ops K) (l1 l2 : List (VOp K)) (e1 : o1.vec ++ o1.vecSub = l1) (e2 : o2.vec ++ o2.vecSub = l2) (s1 s2 : Seg)
    (h1 : ∀ op ∈ l1, op.dst = s1) (h2 : ∀ op ∈ l2, op.dst = s2) (c : Cell) (k : Nat) (hs1 : s1.hits c k = true) (hs2 : s2.hits c k = false) :
    ((o1.app o2).vec ++ (o1.app o2).vecSub).filter (fun op => op.dst.hits c k) = l1 := by
  have z := filter_hits_none c k l2 s2 h2 hs2
  rw [← vecs_split o2 l2 e2] at z
  have z' := List.append_eq_nil_iff.mp z
  have a := filter_hits_all c k l1 s1 h1 hs1
  rw [← vecs_split o1 l1 e1] at a
  simp only [Ops.app, List.filter_append, z'.1, z'.2, List.append_nil]
  exact a

theorem vec_app_right (o1 o2 : Ops K) (l1 l2 : List (VOp K)) (e1 : o1.vec ++ o1.vecSub = l1) (e2 : o2.vec ++ o2.vecSub = l2) (s1 s2 : Seg)
    (h1 : ∀ op ∈ l1, op.dst = s1) (h2 : ∀ op ∈ l2, op.dst = s2) (c : Cell) (k : Nat) (hs1 : s1.hits c k = false) (hs2 : s2.hits c k = true) :
    ((o1.app o2).vec ++ (o1.app o2).vecSub).filter (fun op => op.dst.hits c k) = l2 := by
  have z := filter_hits_none c k l1 s1 h1 hs1
  rw [← vecs_split o1 l1 e1] at z
  have z' := List.append_eq_nil_iff.mp z
  have a := filter_hits_all c k l2 s2 h2 hs2
  rw [← vecs_split o2 l2 e2] at a
  simp only [Ops.app, List.filter_append, z'.1, z'.2, List.nil_append]
  exact a

theorem app_plain (o1 o2 : Ops K) (h1 : ∀ op ∈ o1.vec ++ o1.vecSub, op.plain) (h2 : ∀ op ∈ o2.vec ++ o2.vecSub, op.plain) :
    ∀ op ∈ (o1.app o2).vec ++ (o1.app o2).vecSub, op.plain := by
  intro op hop
  simp only [Ops.app, List.mem_append] at hop
  simp only [List.mem_append] at h1 h2
  rcases hop with (h | h) | (h | h)
  · exact h1 op (.inl h)
  · exact h2 op (.inl h)
  · exact h1 op (.inr h)
  · exact h2 op (.inr h)

theorem add_plain (S : Src) (T : Target) (V : Vars) (fl : Flags) (M : MatFun) (f1 : RhsFun) (v1 : VecFun)
    (second : Option (RhsFun × VecFun)) (flip : Bool) :
    ∀ op ∈ (addAssignments (K := K) S T V fl M f1 v1 second flip).vec ++ (addAssignments (K := K) S T V fl M f1 v1 second flip).vecSub, op.plain := by
  intro op hop
  simp only [addAssignments, Ops.app, addParts_vec, addParts_vecSub, List.append_nil, List.nil_append, List.mem_append] at hop
  rcases hop with (h | h) | h
  · exact (addVec_dst _ _ _ _ _ _ _ op h).2
  · rcases second with _ | ⟨f2, v2⟩
    · simp at h
    · exact (addVec_dst _ _ _ _ _ _ _ op h).2
  · obtain ⟨x, _, hx⟩ := List.mem_flatMap.mp h
    cases hs : S.sub x with
    | none => simp [vecSubOf, hs] at hx
    | some i =>
      simp only [vecSubOf, hs, List.mem_append] at hx
      rcases hx with hx | hx
      · exact (addVecSub_dst _ _ _ _ _ _ _ op hx).2
      · rcases second with _ | ⟨f2, v2⟩
        · simp at hx
        · exact (addVecSub_dst _ _ _ _ _ _ _ op hx).2

theorem const_plain (fl : Flags) (A : AssignType) (d : K) (dst : Seg) (flip : Bool) :
    ∀ op ∈ (⟨[], [], addConst fl A d dst flip, []⟩ : Ops K).vec ++ (⟨[], [], addConst fl A d dst flip, []⟩ : Ops K).vecSub, op.plain := by
  intro op hop
  simp only [addConst, List.append_nil, List.mem_singleton] at hop
  subst hop
  intro c
  simp

theorem hits_self (T : Target) (v : VecFun) (i : Nat) (hi : i < (T.seg v).len) : (T.seg v).hits (T.seg v).cell ((T.seg v).start + i) = true := by
  simp [Seg.hits, hi]

theorem hits_out (s : Seg) (c : Cell) (k : Nat) (h : ¬ (s.start ≤ k ∧ k < s.start + s.len)) : s.hits c k = false := by
  cases hh : s.hits c k with
  | false => rfl
  | true =>
    simp only [Seg.hits, Bool.and_eq_true, decide_eq_true_eq] at hh
    exact absurd ⟨hh.1.2, hh.2⟩ h

/-! ## The values after a run -/

/-- The values of the rows of `M` after a run -/
def RowsAre (S : Src) (T : Target) (V : Vars) (D : Data K) (n : Nat) (fl : Flags) (m : Mem K) (M : MatFun) (flip : Bool) : Prop :=
  ∀ (z : Nat → K), ∀ i < S.size, dot n (m.A ((T.rows M).1 + i)) z = sgn flip * fl.omega D.w i * img S V D z i

/-- The values of the right hand side `v` after a run -/
def RhsIs (S : Src) (T : Target) (V : Vars) (D : Data K) (fl : Flags) (m : Mem K) (f : RhsFun) (v : VecFun) (flip : Bool) : Prop :=
  ∀ i < S.size, T.dec (m.vec (T.seg v).cell ((T.seg v).start + i)) = sgn flip * fl.omega D.w i * (S.R D f i - off S V D i)

variable {S : Src} {V : Vars} {D : Data K} {n : Nat} {T : Target} {fl : Flags} {m : Mem K}

theorem rows_one (h : Ok S V D n) (M : MatFun) (f1 : RhsFun) (v1 : VecFun) (second : Option (RhsFun × VecFun)) (flip : Bool)
    (hsz : (T.rows M).2 = S.size) (hc : ∀ r, (T.rows M).1 ≤ r → r < (T.rows M).1 + (T.rows M).2 → Clean S V n (m.A r)) (vs : List (VOp K)) :
    RowsAre S T V D n fl (((addAssignments (K := K) S T V fl M f1 v1 second flip).app ⟨[], [], vs, []⟩).run V D m) M flip := by
  intro z i hi
  rw [run_A, filter_app_left _ ⟨[], [], vs, []⟩ (T.rows M) (0, 0) (inRows_add _ _ _ _ _ _ _ _ _) ⟨by simp, by simp⟩ _ (by omega) (by omega)]
  exact row_value h T fl M f1 v1 second flip _ z (hc _ (by omega) (by omega)) i hi

theorem rows_half (h : Ok S V D n) (f1 f2 : RhsFun) (hsz : T.size = 2 * S.size)
    (hc : ∀ r, T.start ≤ r → r < T.start + T.size → Clean S V n (m.A r)) :
    RowsAre S T V D n fl (((addAssignments (K := K) S T V fl .AFirstHalf f1 .bFirstHalf none false).app
      (addAssignments S T V fl .ASecondHalf f2 .bSecondHalf none true)).run V D m) .AFirstHalf false ∧
    RowsAre S T V D n fl (((addAssignments (K := K) S T V fl .AFirstHalf f1 .bFirstHalf none false).app
      (addAssignments S T V fl .ASecondHalf f2 .bSecondHalf none true)).run V D m) .ASecondHalf true := by
  constructor
  · intro z i hi
    rw [run_A, filter_app_left _ _ (T.rows .AFirstHalf) (T.rows .ASecondHalf) (inRows_add _ _ _ _ _ _ _ _ _) (inRows_add _ _ _ _ _ _ _ _ _) _
      (by simp only [Target.rows]; omega) (by simp only [Target.rows]; omega)]
    exact row_value h T fl _ f1 _ none false _ z (hc _ (by simp only [Target.rows]; omega) (by simp only [Target.rows]; omega)) i hi
  · intro z i hi
    rw [run_A, filter_app_right _ _ (T.rows .AFirstHalf) (T.rows .ASecondHalf) (inRows_add _ _ _ _ _ _ _ _ _) (inRows_add _ _ _ _ _ _ _ _ _) _
      (by simp only [Target.rows]; omega) (by simp only [Target.rows]; omega)]
    exact row_value h T fl _ f2 _ none true _ z (hc _ (by simp only [Target.rows]; omega) (by simp only [Target.rows]; omega)) i hi

theorem rhs_half (h : Ok S V D n) (hch : checkTarget S T = true) (f1 f2 : RhsFun) (hsz : T.size = 2 * S.size) :
    RhsIs S T V D fl (((addAssignments (K := K) S T V fl .AFirstHalf f1 .bFirstHalf none false).app
      (addAssignments S T V fl .ASecondHalf f2 .bSecondHalf none true)).run V D m) f1 .bFirstHalf false ∧
    RhsIs S T V D fl (((addAssignments (K := K) S T V fl .AFirstHalf f1 .bFirstHalf none false).app
      (addAssignments S T V fl .ASecondHalf f2 .bSecondHalf none true)).run V D m) f2 .bSecondHalf true := by
  have hp := app_plain _ _ (add_plain (K := K) S T V fl .AFirstHalf f1 .bFirstHalf none false) (add_plain (K := K) S T V fl .ASecondHalf f2 .bSecondHalf none true)
  constructor
  · intro i hi
    rw [run_vec V D _ hp, vec_app_left _ _ _ _ (vecs_one S T V fl .AFirstHalf f1 .bFirstHalf false) (vecs_one S T V fl .ASecondHalf f2 .bSecondHalf true)
      (T.seg .bFirstHalf) (T.seg .bSecondHalf) (fun op ho => (vecOps_dst _ _ _ _ _ _ _ op ho).1) (fun op ho => (vecOps_dst _ _ _ _ _ _ _ op ho).1)
      _ _ (hits_self T _ i (by simp only [Target.seg]; omega)) (by
        apply hits_out; simp only [Target.seg]; omega)]
    exact vec_value h T hch fl f1 _ false m i hi _
  · intro i hi
    rw [run_vec V D _ hp, vec_app_right _ _ _ _ (vecs_one S T V fl .AFirstHalf f1 .bFirstHalf false) (vecs_one S T V fl .ASecondHalf f2 .bSecondHalf true)
      (T.seg .bFirstHalf) (T.seg .bSecondHalf) (fun op ho => (vecOps_dst _ _ _ _ _ _ _ op ho).1) (fun op ho => (vecOps_dst _ _ _ _ _ _ _ op ho).1)
      _ _ (by
        apply hits_out; simp only [Target.seg]; omega)
        (hits_self T _ i (by simp only [Target.seg]; omega))]
    exact vec_value h T hch fl f2 _ true m i hi _

/-- One right hand side, and possibly a constant elsewhere -/
theorem rhs_one (h : Ok S V D n) (hch : checkTarget S T = true) (M : MatFun) (f : RhsFun) (v : VecFun) (flip : Bool) (hsz : (T.seg v).len = S.size)
    (vs : List (VOp K)) (s : Seg) (hvs : ∀ op ∈ vs, op.dst = s ∧ op.plain) (hs : s.cell ≠ (T.seg v).cell) :
    RhsIs S T V D fl (((addAssignments (K := K) S T V fl M f v none flip).app ⟨[], [], vs, []⟩).run V D m) f v flip := by
  intro i hi
  rw [run_vec V D _ (app_plain _ ⟨[], [], vs, []⟩ (add_plain (K := K) S T V fl M f v none flip) (fun op ho => (hvs op (by simpa using ho)).2)),
    vec_app_left _ ⟨[], [], vs, []⟩ _ vs (vecs_one S T V fl M f v flip) (by simp) (T.seg v) s (fun op ho => (vecOps_dst _ _ _ _ _ _ _ op ho).1)
      (fun op ho => (hvs op ho).1) _ _ (hits_self T _ i (by omega)) (by simp [Seg.hits, hs])]
  exact vec_value h T hch fl f v flip m i hi _

/-- Two right hand sides -/
theorem rhs_two (h : Ok S V D n) (hch : checkTarget S T = true) (f1 f2 : RhsFun) (hsz : T.size = S.size) (vs : List (VOp K)) (hvs : vs = []) :
    RhsIs S T V D fl (((addAssignments (K := K) S T V fl .A f1 .l (some (f2, .u)) false).app ⟨[], [], vs, []⟩).run V D m) f1 .l false ∧
    RhsIs S T V D fl (((addAssignments (K := K) S T V fl .A f1 .l (some (f2, .u)) false).app ⟨[], [], vs, []⟩).run V D m) f2 .u false := by
  subst hvs
  have e : (addAssignments (K := K) S T V fl .A f1 .l (some (f2, .u)) false).app ⟨[], [], [], []⟩ = addAssignments (K := K) S T V fl .A f1 .l (some (f2, .u)) false := by
    simp [Ops.app]
  rw [e]
  constructor
  · intro i hi
    have hl : (T.seg .l).hits (T.seg .l).cell ((T.seg .l).start + i) = true := hits_self T _ i (by simp only [Target.seg]; omega)
    have hu : (T.seg .u).hits (T.seg .l).cell ((T.seg .l).start + i) = false := by simp [Target.seg, Seg.hits]
    rw [run_vec V D _ (add_plain _ _ _ _ _ _ _ _ _), vecs_two, if_pos ⟨hl, hu⟩]
    exact vec_value h T hch fl f1 .l false m i hi _
  · intro i hi
    have hl : (T.seg .l).hits (T.seg .u).cell ((T.seg .u).start + i) = false := by simp [Target.seg, Seg.hits]
    have hu : (T.seg .u).hits (T.seg .u).cell ((T.seg .u).start + i) = true := hits_self T _ i (by simp only [Target.seg]; omega)
    rw [run_vec V D _ (add_plain _ _ _ _ _ _ _ _ _), vecs_two, if_neg (by simp [hl]), if_pos ⟨hl, hu⟩]
    exact vec_value h T hch fl f2 .u false m i hi _

/-- The constant written in the other side -/
theorem const_side (hms : D.w.ms = -D.w.s) (hma : ∀ i, D.w.ma i = -D.w.a i) (M : MatFun) (f : RhsFun) (v v' : VecFun) (flip : Bool) (d : K) (hv : (T.seg v).cell ≠ (T.seg v').cell) (i : Nat) (hi : i < (T.seg v').len) :
    (((addAssignments (K := K) S T V fl M f v none flip).app ⟨[], [], addConst fl .copy d (T.seg v') false, []⟩).run V D m).vec
      (T.seg v').cell ((T.seg v').start + i) = fl.omega D.w i * d := by
  have e : (T.seg v').start + i - (T.seg v').start = i := by omega
  rw [run_vec V D _ (app_plain _ _ (add_plain (K := K) S T V fl M f v none flip) (const_plain _ _ _ _ _)),
    vec_app_right _ ⟨[], [], addConst fl .copy d (T.seg v') false, []⟩ _ _ (vecs_one S T V fl M f v flip) rfl (T.seg v) (T.seg v')
      (fun op ho => (vecOps_dst _ _ _ _ _ _ _ op ho).1) (by intro op ho; simp only [addConst, List.append_nil, List.mem_singleton] at ho; subst ho; rfl)
      _ _ (by simp [Seg.hits, hv]) (hits_self T _ i hi)]
  simp [addConst, VOp.cellStep, VOp.mulVal, VFrom.val, assign1, wt_at fl D.w hms hma, sgn]

end
end Verif.AS
