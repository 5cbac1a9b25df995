import Verif.Lemmas.Assignment5
/-!
# Lemmas on the assignments: frame, and rows that stay clean
-/
set_option autoImplicit false
set_option linter.unusedSectionVars false

namespace Verif.AS
open Verif Verif.CA Finset

section
variable {K : Type} [Field K] [LinearOrder K]

/-- All the assignments write in the range of the target, in the vectors of the target, and in the columns that are set. -/
structure Ops.Within (o : Ops K) (S : Src) (T : Target) (V : Vars) : Prop where
  rows : ∀ op ∈ o.mat ++ o.matSub, T.start ≤ op.rows.1 ∧ op.rows.1 + op.rows.2 ≤ T.start + T.size
  cols : ∀ op ∈ o.mat ++ o.matSub, ∀ j, (op.cols.1 ≤ j ∧ j < op.cols.1 + op.cols.2) → ∃ x ∈ setVars S V, V.col x ≤ j ∧ j < V.col x + V.dim x
  segs : ∀ op ∈ o.vec ++ o.vecSub, T.start ≤ op.dst.start ∧ op.dst.start + op.dst.len ≤ T.start + T.size
  plain : ∀ op ∈ o.vec ++ o.vecSub, op.plain

theorem within_app {o1 o2 : Ops K} {S : Src} {T : Target} {V : Vars} (h1 : o1.Within S T V) (h2 : o2.Within S T V) : (o1.app o2).Within S T V := by
  have a1 : ∀ op, op ∈ (o1.app o2).mat ++ (o1.app o2).matSub → op ∈ o1.mat ++ o1.matSub ∨ op ∈ o2.mat ++ o2.matSub := by
    intro op h
    simp only [Ops.app, List.mem_append] at h ⊢
    tauto
  have a2 : ∀ op, op ∈ (o1.app o2).vec ++ (o1.app o2).vecSub → op ∈ o1.vec ++ o1.vecSub ∨ op ∈ o2.vec ++ o2.vecSub := by
    intro op h
    simp only [Ops.app, List.mem_append] at h ⊢
    tauto
  exact ⟨fun op h => (a1 op h).elim (h1.rows op) (h2.rows op), fun op h => (a1 op h).elim (h1.cols op) (h2.cols op),
    fun op h => (a2 op h).elim (h1.segs op) (h2.segs op), fun op h => (a2 op h).elim (h1.plain op) (h2.plain op)⟩

theorem seg_in (T : Target) (v : VecFun) : T.start ≤ (T.seg v).start ∧ (T.seg v).start + (T.seg v).len ≤ T.start + T.size := by
  cases v <;> simp only [Target.seg] <;> omega

theorem rows_in (T : Target) (M : MatFun) : T.start ≤ (T.rows M).1 ∧ (T.rows M).1 + (T.rows M).2 ≤ T.start + T.size := by
  cases M <;> simp only [Target.rows] <;> omega

theorem add_segs (S : Src) (T : Target) (V : Vars) (fl : Flags) (M : MatFun) (f1 : RhsFun) (v1 : VecFun)
    (second : Option (RhsFun × VecFun)) (flip : Bool) :
    ∀ op ∈ (addAssignments (K := K) S T V fl M f1 v1 second flip).vec ++ (addAssignments (K := K) S T V fl M f1 v1 second flip).vecSub,
      ∃ v, op.dst = T.seg v := by
  intro op hop
  simp only [addAssignments, Ops.app, addParts_vec, addParts_vecSub, List.append_nil, List.nil_append, List.mem_append] at hop
  rcases hop with (h | h) | h
  · exact ⟨_, (addVec_dst _ _ _ _ _ _ _ op h).1⟩
  · rcases second with _ | ⟨f2, v2⟩
    · simp at h
    · exact ⟨_, (addVec_dst _ _ _ _ _ _ _ op h).1⟩
  · obtain ⟨x, _, hx⟩ := List.mem_flatMap.mp h
    cases hs : S.sub x with
    | none => simp [vecSubOf, hs] at hx
    | some i =>
      simp only [vecSubOf, hs, List.mem_append] at hx
      rcases hx with hx | hx
      · exact ⟨_, (addVecSub_dst _ _ _ _ _ _ _ op hx).1⟩
      · rcases second with _ | ⟨f2, v2⟩
        · simp at hx
        · exact ⟨_, (addVecSub_dst _ _ _ _ _ _ _ op hx).1⟩

theorem within_add {S : Src} {V : Vars} (hf : ∀ x y, y ∈ subVars S x → S.sub y = none) (T : Target) (fl : Flags) (M : MatFun) (f1 : RhsFun) (v1 : VecFun)
    (second : Option (RhsFun × VecFun)) (flip : Bool) : (addAssignments (K := K) S T V fl M f1 v1 second flip).Within S T V := by
  refine ⟨?_, ?_, ?_, add_plain _ _ _ _ _ _ _ _ _⟩
  · intro op h
    rw [addAssignments_rows S T V fl M f1 v1 second flip op (List.mem_append.mp h)]
    exact rows_in T M
  · intro op h
    exact addAssignments_cols hf T fl M f1 v1 second flip op (List.mem_append.mp h)
  · intro op h
    obtain ⟨v, hv⟩ := add_segs S T V fl M f1 v1 second flip op h
    rw [hv]
    exact seg_in T v

theorem within_const {S : Src} {T : Target} {V : Vars} (fl : Flags) (A : AssignType) (d : K) (v : VecFun) (flip : Bool) :
    (⟨[], [], addConst fl A d (T.seg v) flip, []⟩ : Ops K).Within S T V := by
  refine ⟨by simp, by simp, ?_, const_plain _ _ _ _ _⟩
  intro op h
  simp only [addConst, List.append_nil, List.mem_singleton] at h
  subst h
  exact seg_in T v

theorem build_within {S : Src} {V : Vars} (hf : ∀ x y, y ∈ subVars S x → S.sub y = none) {T : Target} {fl : Flags} {big : K} {o : Ops K}
    (h : buildOps big S T V fl = some o) : o.Within S T V := by
  have w := fun M f1 v1 second flip => within_add (K := K) (V := V) hf T fl M f1 v1 second flip
  cases hS : S.type <;> cases hT : T.type <;> simp only [buildOps, hS, hT] at h <;> first
    | (simp only [reduceCtorEq] at h; done)
    | (simp only [Option.some.injEq] at h; subst h; exact w _ _ _ _ _)
    | (simp only [Option.some.injEq] at h; subst h; exact within_app (w _ _ _ _ _) (w _ _ _ _ _))
    | (simp only [if_true, reduceCtorEq, if_false, Option.some.injEq] at h; subst h; exact within_app (w _ _ _ _ _) (within_const _ _ _ _ _))

theorem create_some {S : Src} {V : Vars} {T : Target} {fl : Flags} {big : K} {o : Ops K} (h : create big S T V fl = some o) :
    checkTarget S T = true ∧ mapped S V = true ∧ buildOps big S T V fl = some o := by
  unfold create at h
  split at h
  · rename_i hc
    simp only [Bool.and_eq_true] at hc
    exact ⟨hc.1, hc.2, h⟩
  · exact absurd h (by simp)

/-- Rows outside of the target are not changed. -/
theorem within_frame_A {S : Src} {V : Vars} {T : Target} {o : Ops K} (h : o.Within S T V) (D : Data K) (m : Mem K) (r : Nat)
    (hr : ¬ (T.start ≤ r ∧ r < T.start + T.size)) : (o.run V D m).A r = m.A r := by
  rw [run_A]
  have : (o.mat ++ o.matSub).filter (MOp.touches r) = [] := by
    rw [List.filter_eq_nil_iff]
    intro op hop
    have := h.rows op hop
    simp only [MOp.touches, Bool.and_eq_true, decide_eq_true_eq]
    omega
  rw [this]
  rfl

/-- Coefficients of the vectors outside of the target are not changed. -/
theorem within_frame_vec {S : Src} {V : Vars} {T : Target} {o : Ops K} (h : o.Within S T V) (D : Data K) (m : Mem K) (c : Cell) (k : Nat)
    (hk : ¬ (T.start ≤ k ∧ k < T.start + T.size)) : (o.run V D m).vec c k = m.vec c k := by
  rw [run_vec V D o h.plain]
  have : (o.vec ++ o.vecSub).filter (fun op => op.dst.hits c k) = [] := by
    rw [List.filter_eq_nil_iff]
    intro op hop
    have := h.segs op hop
    simp only [Seg.hits, Bool.and_eq_true, decide_eq_true_eq]
    omega
  rw [this]
  rfl

theorem within_clean {S : Src} {V : Vars} {T : Target} {o : Ops K} (h : o.Within S T V) {n : Nat} (D : Data K) (m : Mem K) (r : Nat)
    (hc : Clean S V n (m.A r)) : Clean S V n ((o.run V D m).A r) := by
  rw [run_A]
  apply clean_fold D r _ _ _ hc
  intro op hop
  exact h.cols op (List.mem_filter.mp hop).1

end
end Verif.AS
