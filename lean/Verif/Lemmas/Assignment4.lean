import Verif.Lemmas.Assignment3
/-!
# Lemmas on the assignments: the right hand sides, the rows that are set
-/
set_option autoImplicit false
set_option linter.unusedSectionVars false

namespace Verif.AS
open Verif Verif.CA Finset

section
variable {K : Type} [Field K] [LinearOrder K]

/-! ## What is written stays in the target -/

theorem addAssignments_rows (S : Src) (T : Target) (V : Vars) (fl : Flags) (M : MatFun) (f1 : RhsFun) (v1 : VecFun)
    (second : Option (RhsFun × VecFun)) (flip : Bool) (op : MOp)
    (h : op ∈ (addAssignments (K := K) S T V fl M f1 v1 second flip).mat ∨ op ∈ (addAssignments (K := K) S T V fl M f1 v1 second flip).matSub) :
    op.rows = T.rows M := by
  obtain ⟨e1, e2⟩ := addAssignments_mats (K := K) S T V fl M f1 v1 second flip
  rw [e1, e2] at h
  rcases h with h | h
  · rcases List.mem_append.mp h with h | h
    · obtain ⟨y, _, rfl⟩ := List.mem_map.mp h; rfl
    · obtain ⟨y, _, rfl⟩ := List.mem_map.mp h; rfl
  · obtain ⟨x, _, ho⟩ := List.mem_flatMap.mp h
    obtain ⟨y, _, rfl⟩ := List.mem_map.mp ho
    unfold addMatSub1
    cases S.prop x <;> rfl

/-- The columns written are in those that are set. -/
theorem addAssignments_cols {S : Src} {V : Vars} (hf : ∀ x y, y ∈ subVars S x → S.sub y = none) (T : Target) (fl : Flags) (M : MatFun) (f1 : RhsFun) (v1 : VecFun)
    (second : Option (RhsFun × VecFun)) (flip : Bool) (op : MOp)
    (h : op ∈ (addAssignments (K := K) S T V fl M f1 v1 second flip).mat ∨ op ∈ (addAssignments (K := K) S T V fl M f1 v1 second flip).matSub)
    (j : Nat) (hj : op.cols.1 ≤ j ∧ j < op.cols.1 + op.cols.2) : ∃ x ∈ setVars S V, V.col x ≤ j ∧ j < V.col x + V.dim x := by
  obtain ⟨e1, e2⟩ := addAssignments_mats (K := K) S T V fl M f1 v1 second flip
  rw [e1, e2] at h
  rcases h with h | h
  · rcases List.mem_append.mp h with h | h
    · obtain ⟨y, hy, rfl⟩ := List.mem_map.mp h; exact ⟨y, List.mem_append_left _ hy, hj⟩
    · obtain ⟨y, hy, rfl⟩ := List.mem_map.mp h; exact ⟨y, List.mem_append_right _ hy, hj⟩
  · obtain ⟨x, hx, ho⟩ := List.mem_flatMap.mp h
    obtain ⟨y, hy, rfl⟩ := List.mem_map.mp ho
    have hj' : V.col y ≤ j ∧ j < V.col y + V.dim y := by
      revert hj; unfold addMatSub1; cases S.prop x <;> exact id
    exact ⟨y, subVars_set hf x (List.mem_filter.mp hx).1 y hy (by omega), hj'⟩

/-- A row that is clean stays clean. -/
theorem clean_fold {S : Src} {V : Vars} {n : Nat} (D : Data K) (r : Nat) (l : List MOp)
    (h : ∀ op ∈ l, ∀ j, (op.cols.1 ≤ j ∧ j < op.cols.1 + op.cols.2) → ∃ x ∈ setVars S V, V.col x ≤ j ∧ j < V.col x + V.dim x)
    (a : Nat → K) (hc : Clean S V n a) : Clean S V n (l.foldl (MOp.rowStep V D r) a) := by
  induction l generalizing a with
  | nil => exact hc
  | cons op l ih =>
    apply ih (fun o ho => h o (List.mem_cons_of_mem _ ho))
    intro j hj hno
    simp only [MOp.rowStep]
    rw [rowOp_out _ _ _ _ _ _ (fun hh => by
      obtain ⟨x, hx, hxj⟩ := h op List.mem_cons_self j hh
      exact hno x hx hxj)]
    exact hc j hj hno

/-! ## Right hand sides -/

/-- The right hand side of the source, in the form `Jx = R` -/
def Src.R (S : Src) (D : Data K) (f : RhsFun) (i : Nat) : K :=
  match S.rhs with
  | .zero => 0
  | .asGiven => (VFrom.rhs f : VFrom K).val D ⟨fun _ _ => 0, fun _ _ => 0⟩ i
  | .opposite => -(VFrom.rhs f : VFrom K).val D ⟨fun _ _ => 0, fun _ _ => 0⟩ i

/-- The contribution to the image of the constant parts of the substitutions -/
def off (S : Src) (V : Vars) (D : Data K) (i : Nat) : K :=
  ((substParts S V).map fun x => ∑ k ∈ range (V.dim x), D.jac x i k * D.subB x k).sum

/-- The value of a vector of the target in the form `Ax = value` -/
def Target.dec (T : Target) (t : K) : K :=
  match T.rhs with
  | .zero => 0
  | .asGiven => t
  | .opposite => -t

/-- The vector assignments that write in the segment of `v` -/
def vecOps (S : Src) (T : Target) (V : Vars) (fl : Flags) (f : RhsFun) (v : VecFun) (flip : Bool) : List (VOp K) :=
  addVec S T fl .copy f (T.seg v) flip ++
    (substParts S V).flatMap fun x => match S.sub x with | some i => addVecSub S T fl i (T.seg v) x flip | none => []

theorem vecSub_fold {S : Src} {V : Vars} {D : Data K} {n : Nat} (h : Ok S V D n) (T : Target) (fl : Flags) (v : VecFun) (flip : Bool) (m0 : Mem K)
    (i : Nat) (hi : i < S.size) (l : List Nat) (hT : T.rhs ≠ .zero) (hl : ∀ x ∈ l, (S.sub x).isSome = true) (t : K) :
    (l.flatMap fun x => match S.sub x with | some i => addVecSub S T fl i (T.seg v) x flip | none => []).foldl
      (VOp.cellStep V D m0 ((T.seg v).start + i)) t =
      t + (if T.rhs = .asGiven then -1 else 1) * (sgn flip * fl.omega D.w i * (l.map fun x => ∑ k ∈ range (V.dim x), D.jac x i k * D.subB x k).sum) := by
  have e : (T.seg v).start + i - (T.seg v).start = i := by omega
  induction l generalizing t with
  | nil => simp
  | cons x l ih =>
    simp only [List.flatMap_cons, List.foldl_append, List.map_cons, List.sum_cons]
    rw [ih (fun y hy => hl y (List.mem_cons_of_mem _ hy))]
    obtain ⟨s, hs⟩ := Option.isSome_iff_exists.mp (hl x List.mem_cons_self)
    have hone : (match S.sub x with | some i => addVecSub S T fl i (T.seg v) x flip | none => []).foldl
        (VOp.cellStep V D m0 ((T.seg v).start + i)) t =
        t + (if T.rhs = .asGiven then -1 else 1) * (sgn flip * fl.omega D.w i * ∑ k ∈ range (V.dim x), D.jac x i k * D.subB x k) := by
      rw [hs]
      simp only [addVecSub]
      by_cases hb : s.useB = true
      · rw [if_pos hb]
        cases hp : S.prop x with
        | identity =>
          rw [(jac_mul h x i hi _).1 hp]
          cases hr : T.rhs <;> cases flip <;>
            simp_all [VOp.cellStep, VOp.mulVal, VFrom.val, assign1, wt_at fl D.w h.ms h.ma, sgn] <;> ring
        | minusIdentity =>
          rw [(jac_mul h x i hi _).2 hp]
          cases hr : T.rhs <;> cases flip <;>
            simp_all [VOp.cellStep, VOp.mulVal, VFrom.val, assign1, wt_at fl D.w h.ms h.ma, sgn] <;> ring
        | other =>
          cases hr : T.rhs <;> cases flip <;>
            simp_all [VOp.cellStep, VOp.mulVal, VFrom.val, assign1, wt_at fl D.w h.ms h.ma, sgn] <;> ring
      · have hb' : s.useB = false := by simpa using hb
        have h0 : ∑ k ∈ range (V.dim x), D.jac x i k * D.subB x k = 0 := by
          apply Finset.sum_eq_zero
          intro k hk
          rw [h.subB x s hs hb' k (mem_range.mp hk), mul_zero]
        rw [if_neg hb, h0]
        simp
    rw [hone]
    ring

theorem substParts_some (S : Src) (V : Vars) : ∀ x ∈ substParts S V, (S.sub x).isSome = true := by
  intro x hx
  have := (List.mem_filter.mp hx).2
  simp only [Bool.and_eq_true] at this
  exact this.2

/-- The value of a right hand side of the target -/
theorem vec_value {S : Src} {V : Vars} {D : Data K} {n : Nat} (h : Ok S V D n) (T : Target) (hch : checkTarget S T = true) (fl : Flags)
    (f : RhsFun) (v : VecFun) (flip : Bool) (m0 : Mem K) (i : Nat) (hi : i < S.size) (t : K) :
    T.dec ((vecOps S T V fl f v flip).foldl (VOp.cellStep V D m0 ((T.seg v).start + i)) t) =
      sgn flip * fl.omega D.w i * (S.R D f i - off S V D i) := by
  have e : (T.seg v).start + i - (T.seg v).start = i := by omega
  by_cases hT : T.rhs = .zero
  · simp only [checkTarget, Bool.and_eq_true] at hch
    have h2 := hch.1.2
    simp only [hT, Bool.not_eq_true', Bool.and_eq_false_iff, decide_eq_false_iff_not, not_or, not_not, not_true, or_false] at h2
    have h0 : off S V D i = 0 := by
      apply List.sum_eq_zero
      intro t ht
      obtain ⟨x, hx, rfl⟩ := List.mem_map.mp ht
      obtain ⟨s, hs⟩ := Option.isSome_iff_exists.mp (substParts_some S V x hx)
      apply Finset.sum_eq_zero
      intro k hk
      have hub : s.useB = false := by
        have hu := h2.2
        have hm : (x, s) ∈ S.subs := by
          simp only [Src.sub, Option.map_eq_some_iff] at hs
          obtain ⟨p, hp, rfl⟩ := hs
          have h1 := List.find?_some hp
          simp at h1
          subst h1
          exact List.mem_of_find?_eq_some hp
        cases hb : s.useB with
        | false => rfl
        | true => exact absurd (List.any_eq_true.mpr ⟨_, hm, hb⟩) hu
      rw [h.subB x s hs hub k (mem_range.mp hk), mul_zero]
    simp only [Target.dec, hT, Src.R, h2.1, h0]
    simp
  · simp only [vecOps, List.foldl_append]
    rw [vecSub_fold h T fl v flip m0 i hi _ hT (substParts_some S V)]
    show T.dec (_ + _ * (_ * off S V D i)) = _
    have hm : ∀ m m' : Mem K, (VFrom.rhs f : VFrom K).val D m i = (VFrom.rhs f : VFrom K).val D m' i :=
      fun m m' => VFrom.val_plain D m m' i _ (by intro c; simp)
    cases hS : S.rhs <;> cases hr : T.rhs <;> cases flip <;>
      simp_all [addVec, VOp.cellStep, VOp.mulVal, assign1, Target.dec, Src.R, wt_at fl D.w h.ms h.ma, sgn] <;>
      (try rw [hm m0 ⟨fun _ _ => 0, fun _ _ => 0⟩]) <;> (try simp [VFrom.val]) <;> ring

/-! ## Which assignments write at a place -/

theorem addVec_dst (S : Src) (T : Target) (fl : Flags) (A : AssignType) (f : RhsFun) (dst : Seg) (flip : Bool) :
    ∀ op ∈ addVec (K := K) S T fl A f dst flip, op.dst = dst ∧ op.plain := by
  intro op hop
  unfold addVec at hop
  split at hop
  · simp only [List.mem_singleton] at hop; subst hop; exact ⟨rfl, by intro c; simp⟩
  · split at hop
    · simp only [List.mem_singleton] at hop; subst hop; exact ⟨rfl, by intro c; simp⟩
    · simp at hop

theorem addVecSub_dst (S : Src) (T : Target) (fl : Flags) (i : SubInfo) (dst : Seg) (x : Nat) (flip : Bool) :
    ∀ op ∈ addVecSub (K := K) S T fl i dst x flip, op.dst = dst ∧ op.plain := by
  intro op hop
  unfold addVecSub at hop
  split at hop
  · cases hp : S.prop x <;> simp only [hp, List.mem_singleton] at hop <;> subst hop <;> exact ⟨rfl, by intro c; simp⟩
  · simp at hop

theorem filter_hits_all (c : Cell) (k : Nat) (l : List (VOp K)) (dst : Seg) (h : ∀ op ∈ l, op.dst = dst) (hd : dst.hits c k = true) :
    l.filter (fun op => op.dst.hits c k) = l := by
  rw [List.filter_eq_self]
  intro op hop
  rw [h op hop, hd]

theorem filter_hits_none (c : Cell) (k : Nat) (l : List (VOp K)) (dst : Seg) (h : ∀ op ∈ l, op.dst = dst) (hd : dst.hits c k = false) :
    l.filter (fun op => op.dst.hits c k) = [] := by
  rw [List.filter_eq_nil_iff]
  intro op hop
  rw [h op hop, hd]
  simp

/-- The vector assignments of a call to `addAssignments` with one right hand side -/
theorem vecs_one (S : Src) (T : Target) (V : Vars) (fl : Flags) (M : MatFun) (f : RhsFun) (v : VecFun) (flip : Bool) :
    (addAssignments (K := K) S T V fl M f v none flip).vec ++ (addAssignments (K := K) S T V fl M f v none flip).vecSub =
      vecOps S T V fl f v flip := by
  simp only [addAssignments, Ops.app, addParts_vec, addParts_vecSub, vecOps, Option.map_none, List.append_nil, List.nil_append]
  congr 1
  apply List.flatMap_congr
  intro x _
  simp only [vecSubOf]
  cases S.sub x <;> simp

theorem vecOps_dst (S : Src) (T : Target) (V : Vars) (fl : Flags) (f : RhsFun) (v : VecFun) (flip : Bool) :
    ∀ op ∈ vecOps (K := K) S T V fl f v flip, op.dst = T.seg v ∧ op.plain := by
  intro op hop
  rcases List.mem_append.mp hop with ho | ho
  · exact addVec_dst _ _ _ _ _ _ _ op ho
  · obtain ⟨x, _, hx⟩ := List.mem_flatMap.mp ho
    cases hs : S.sub x with
    | none => simp [hs] at hx
    | some i => simp only [hs] at hx; exact addVecSub_dst _ _ _ _ _ _ _ op hx

/-- Those of a call with two right hand sides, at a place of the first or of the second one -/
theorem vecs_two (S : Src) (T : Target) (V : Vars) (fl : Flags) (M : MatFun) (f1 : RhsFun) (v1 : VecFun) (f2 : RhsFun) (v2 : VecFun) (flip : Bool)
    (c : Cell) (k : Nat) :
    (((addAssignments (K := K) S T V fl M f1 v1 (some (f2, v2)) flip).vec ++
        (addAssignments (K := K) S T V fl M f1 v1 (some (f2, v2)) flip).vecSub).filter fun op => op.dst.hits c k) =
      if (T.seg v1).hits c k = true ∧ (T.seg v2).hits c k = false then vecOps S T V fl f1 v1 flip
      else if (T.seg v1).hits c k = false ∧ (T.seg v2).hits c k = true then vecOps S T V fl f2 v2 flip
      else if (T.seg v1).hits c k = false ∧ (T.seg v2).hits c k = false then []
      else (((addAssignments (K := K) S T V fl M f1 v1 (some (f2, v2)) flip).vec ++
        (addAssignments (K := K) S T V fl M f1 v1 (some (f2, v2)) flip).vecSub).filter fun op => op.dst.hits c k) := by
  have d1 := fun f v op h => (addVec_dst (K := K) S T fl .copy f (T.seg v) flip op h).1
  have d2 := fun i v x op h => (addVecSub_dst (K := K) S T fl i (T.seg v) x flip op h).1
  have key : ∀ (v v' : VecFun) (sw : Bool) (l : List Nat), (T.seg v).hits c k = true → (T.seg v').hits c k = false →
      (l.flatMap (vecSubOf (K := K) S T fl (if sw then v' else v) (some (if sw then v else v')) flip)).filter (fun op => op.dst.hits c k) =
      l.flatMap fun x => match S.sub x with | some i => addVecSub S T fl i (T.seg v) x flip | none => [] := by
    intro v v' sw l hv hv'
    induction l with
    | nil => rfl
    | cons x l ih =>
      simp only [List.flatMap_cons, List.filter_append, ih]
      congr 1
      cases hs : S.sub x with
      | none => simp [vecSubOf, hs]
      | some i =>
        simp only [vecSubOf, hs, List.filter_append]
        cases sw
        · simp only [Bool.false_eq_true, if_false]
          rw [filter_hits_all c k _ _ (d2 i v x) hv, filter_hits_none c k _ _ (d2 i v' x) hv', List.append_nil]
        · simp only [if_true]
          rw [filter_hits_all c k _ _ (d2 i v x) hv, filter_hits_none c k _ _ (d2 i v' x) hv', List.nil_append]
  have keyn : ∀ l : List Nat, (T.seg v1).hits c k = false → (T.seg v2).hits c k = false →
      (l.flatMap (vecSubOf (K := K) S T fl v1 (some v2) flip)).filter (fun op => op.dst.hits c k) = [] := by
    intro l h1 h2
    induction l with
    | nil => rfl
    | cons x l ih =>
      simp only [List.flatMap_cons, List.filter_append, ih]
      cases hs : S.sub x with
      | none => simp [vecSubOf, hs]
      | some i =>
        simp only [vecSubOf, hs, List.filter_append]
        rw [filter_hits_none c k _ _ (d2 i v1 x) h1, filter_hits_none c k _ _ (d2 i v2 x) h2]
        rfl
  simp only [addAssignments, Ops.app, addParts_vec, addParts_vecSub, List.append_nil, List.nil_append, List.filter_append, Option.map_some]
  cases h1 : (T.seg v1).hits c k <;> cases h2 : (T.seg v2).hits c k
  · rw [filter_hits_none c k _ _ (d1 f1 v1) h1, filter_hits_none c k _ _ (d1 f2 v2) h2, keyn _ h1 h2]
    simp
  · rw [filter_hits_none c k _ _ (d1 f1 v1) h1, filter_hits_all c k _ _ (d1 f2 v2) h2]
    have := key v2 v1 true (S.parts.filter fun x => decide (V.dim x ≠ 0) && (S.sub x).isSome) h2 h1
    simp only [if_true] at this
    rw [this]
    simp [vecOps, substParts]
  · rw [filter_hits_all c k _ _ (d1 f1 v1) h1, filter_hits_none c k _ _ (d1 f2 v2) h2]
    have := key v1 v2 false (S.parts.filter fun x => decide (V.dim x ≠ 0) && (S.sub x).isSome) h1 h2
    simp only [Bool.false_eq_true, if_false] at this
    rw [this]
    simp [vecOps, substParts]
  · simp

end
end Verif.AS
