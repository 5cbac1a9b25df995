import Verif.Lemmas.Assignment
/-!
# Lemmas on the assignments: the lists of compiled assignments
-/
set_option autoImplicit false
set_option linter.unusedSectionVars false

namespace Verif.AS
open Verif Verif.CA Finset

section
variable {K : Type} [Field K] [LinearOrder K]

/-! ## Rows -/

/-- The rows of the assignment include `r`. -/
def MOp.touches (r : Nat) (op : MOp) : Bool := decide (op.rows.1 ≤ r) && decide (r < op.rows.1 + op.rows.2)

/-- The values written by a matrix assignment in the row `r` -/
def MOp.rowVal (V : Vars) (D : Data K) (r : Nat) (op : MOp) (k : Nat) : K :=
  op.wt.at D.w (r - op.rows.1) * op.src.val D V (r - op.rows.1) k

/-- The effect on the row `r` -/
def MOp.rowStep (V : Vars) (D : Data K) (r : Nat) (a : Nat → K) (op : MOp) : Nat → K :=
  rowOp op.assign op.cols.1 op.cols.2 (op.rowVal V D r) a

theorem fold_row (V : Vars) (D : Data K) (r : Nat) (l : List MOp) (A : Nat → Nat → K) :
    l.foldl (fun A op => op.run V D A) A r = (l.filter (MOp.touches r)).foldl (MOp.rowStep V D r) (A r) := by
  induction l generalizing A with
  | nil => rfl
  | cons op l ih =>
    simp only [List.foldl_cons]
    rw [ih, MOp.run_row, List.filter_cons]
    by_cases h : op.rows.1 ≤ r ∧ r < op.rows.1 + op.rows.2
    · rw [if_pos h, if_pos (by simp [MOp.touches, h])]
      rfl
    · rw [if_neg h, if_neg (by simp only [MOp.touches, Bool.and_eq_true, decide_eq_true_eq]; exact h)]

/-! ## Coefficients of vectors -/

/-- The segment has the place `k` of the cell `c`. -/
def Seg.hits (c : Cell) (k : Nat) (s : Seg) : Bool := decide (s.cell = c) && decide (s.start ≤ k) && decide (k < s.start + s.len)

/-- The coefficients read by a vector assignment -/
def VFrom.val (D : Data K) (m : Mem K) (i : Nat) : VFrom K → K
  | .zero => 0
  | .rhs .e => D.e i
  | .rhs .l => D.l i
  | .rhs .u => D.u i
  | .const c => c
  | .cell c => m.vec c i
  | .subB x => D.subB x i

/-- The coefficients read by a vector assignment and multiplied -/
def VOp.mulVal (V : Vars) (D : Data K) (m : Mem K) (i : Nat) (op : VOp K) : K :=
  match op.mult with
  | .none => op.src.val D m i
  | .jac x => ∑ j ∈ range (V.dim x), D.jac x i j * op.src.val D m j
  | .invJac x => (D.jac x i i)⁻¹ * op.src.val D m i

/-- The source of a vector assignment at `i` -/
def srcAt (F : Source) (c : K) (v : Nat → K) (i : Nat) : K :=
  match F with
  | .external => v i
  | .zero => 0
  | .constant => c

/-- The multiplied source of a vector assignment at `i` -/
def mulAt (M : MatrixMult) (m : Nat → Nat → K) (cols : Nat) (f : Nat → K) (i : Nat) : K :=
  match M with
  | .general => ∑ j ∈ range cols, m i j * f j
  | .inverseDiagonal => (m i i)⁻¹ * f i
  | _ => f i

/-- The weight at `i` -/
def wtAt (W : WeightMult) (s : K) (d : Nat → K) (i : Nat) : K :=
  match W with
  | .none => 1
  | .minus => -1
  | .scalar => s
  | .diagonal => d i

theorem runV_val (A : AssignType) (W : WeightMult) (M : MatrixMult) (hM : M ≠ .custom) (F : Source) (s : K) (d : Nat → K)
    (m : Nat → Nat → K) (cols : Nat) (c : K) (v out : Nat → K) (i : Nat) :
    (runV A W M F s d m cols c v out).getD out i = assign1 A (out i) (wtAt W s d i * mulAt M m cols (srcAt F c v) i) := by
  cases F
  case zero =>
    have h0 : mulAt M m cols (srcAt .zero c v) i = 0 := by cases M <;> simp [mulAt, srcAt]
    rw [h0, mul_zero]
    cases A <;> simp [runV, assign1]
  all_goals
    cases M
    case custom => exact absurd rfl hM
    all_goals
      cases W <;> cases A <;>
        simp [runV, applyMatrixMultV, applyWeightMult, applyMatrixMultCachedV, cacheV, useAssignCache, useProductCache, assignV, assign1,
          wtAt, mulAt, srcAt, mul_comm]
      all_goals simp [Finset.mul_sum]

theorem VOp.run_at (V : Vars) (D : Data K) (op : VOp K) (m : Mem K) (c : Cell) (k : Nat) :
    (op.run V D m).vec c k = if op.dst.hits c k then
        assign1 op.assign (m.vec c k) (op.wt.at D.w (k - op.dst.start) * op.mulVal V D m (k - op.dst.start))
      else m.vec c k := by
  have hw : ∀ (wt : Wt) (i : Nat), wtAt wt.kind (wt.scal D.w) (wt.diag D.w) i = wt.at D.w i := by
    intro wt i
    cases wt with
    | none => rfl
    | minus => rfl
    | scalar neg => rfl
    | diagonal neg => simp only [wtAt, Wt.kind, Wt.diag, Wt.at]; split <;> rfl
  have hs : ∀ (src : VFrom K) (i : Nat), srcAt (src.get D m).1 (src.get D m).2.1 (src.get D m).2.2 i = src.val D m i := by
    intro src i
    cases src with
    | rhs f => cases f <;> rfl
    | _ => rfl
  have hm : ∀ (op : VOp K) (i : Nat), mulAt (op.mult.get D V).1 (op.mult.get D V).2.1 (op.mult.get D V).2.2
      (srcAt (op.src.get D m).1 (op.src.get D m).2.1 (op.src.get D m).2.2) i = op.mulVal V D m i := by
    intro op i
    cases h : op.mult <;> simp [VOp.mulVal, VMult.get, mulAt, hs, h]
  have hc : (op.mult.get D V).1 ≠ .custom := by cases op.mult <;> simp [VMult.get]
  by_cases hcell : c = op.dst.cell
  · by_cases hk : op.dst.start ≤ k ∧ k < op.dst.start + op.dst.len
    · have hh : op.dst.hits c k = true := by simp [Seg.hits, hcell, hk]
      rw [hh, if_pos rfl]
      simp only [VOp.run, if_pos hcell, writeSeg, if_pos hk]
      rw [runV_val _ _ _ hc, hw, hm]
      have e1 : op.dst.start + (k - op.dst.start) = k := by omega
      simp only [e1]
    · have hh : op.dst.hits c k = false := by
        simp only [Seg.hits, hcell, decide_true, Bool.true_and, Bool.and_eq_false_iff, decide_eq_false_iff_not]
        omega
      rw [hh]
      simp only [VOp.run, if_pos hcell, writeSeg, if_neg hk]
      rfl
  · have hh : op.dst.hits c k = false := by simp [Seg.hits, Ne.symm hcell]
    rw [hh]
    simp only [VOp.run, if_neg hcell]
    rfl

/-- The assignment does not read a temporary vector. -/
def VOp.plain (op : VOp K) : Prop := ∀ c, op.src ≠ .cell c

/-- The effect on a coefficient at the place `k`, for an assignment that does not read the memory -/
def VOp.cellStep (V : Vars) (D : Data K) (m0 : Mem K) (k : Nat) (t : K) (op : VOp K) : K :=
  assign1 op.assign t (op.wt.at D.w (k - op.dst.start) * op.mulVal V D m0 (k - op.dst.start))

theorem VFrom.val_plain (D : Data K) (m m' : Mem K) (i : Nat) (f : VFrom K) (h : ∀ c, f ≠ .cell c) : f.val D m i = f.val D m' i := by
  cases f with
  | cell c => exact absurd rfl (h c)
  | rhs f => cases f <;> rfl
  | _ => rfl

theorem VOp.mulVal_plain (V : Vars) (D : Data K) (m m' : Mem K) (i : Nat) (op : VOp K) (h : op.plain) :
    op.mulVal V D m i = op.mulVal V D m' i := by
  simp only [VOp.mulVal, VFrom.val_plain D m m' _ op.src h]

theorem fold_A (V : Vars) (D : Data K) (l : List (VOp K)) (m : Mem K) : (l.foldl (fun m op => op.run V D m) m).A = m.A := by
  induction l generalizing m with
  | nil => rfl
  | cons op l ih => exact (ih (op.run V D m)).trans rfl

theorem fold_cell (V : Vars) (D : Data K) (m0 : Mem K) (c : Cell) (k : Nat) (l : List (VOp K)) (hl : ∀ op ∈ l, op.plain) (m : Mem K) :
    (l.foldl (fun m op => op.run V D m) m).vec c k = (l.filter fun op => op.dst.hits c k).foldl (VOp.cellStep V D m0 k) (m.vec c k) := by
  induction l generalizing m with
  | nil => rfl
  | cons op l ih =>
    simp only [List.foldl_cons]
    rw [ih (fun o ho => hl o (List.mem_cons_of_mem _ ho)), VOp.run_at, List.filter_cons]
    rw [VOp.mulVal_plain V D m m0 _ op (hl op List.mem_cons_self)]
    by_cases h : op.dst.hits c k = true
    · rw [if_pos h, if_pos h]
      rfl
    · rw [if_neg h, if_neg h]

/-! ## The lists made by `addAssignments` -/

/-- The parts that are copied -/
def directParts (S : Src) (V : Vars) : List Nat := S.parts.filter fun x => decide (V.dim x ≠ 0) && (S.sub x).isNone

/-- The parts that are substituted -/
def substParts (S : Src) (V : Vars) : List Nat := S.parts.filter fun x => decide (V.dim x ≠ 0) && (S.sub x).isSome

/-- The variables in the substitution of `x` -/
def subVars (S : Src) (x : Nat) : List Nat := match S.sub x with | some i => i.vars | none => []

theorem addParts_mat (S : Src) (T : Target) (V : Vars) (fl : Flags) (M : MatFun) (v1 : VecFun) (v2 : Option VecFun) (flip : Bool)
    (l : List Nat) : (addParts (K := K) S T V fl M v1 v2 flip l).mat =
      (l.filter fun x => decide (V.dim x ≠ 0) && (S.sub x).isNone).map fun x => addMat T V fl x M flip := by
  induction l with
  | nil => rfl
  | cons x l ih =>
    simp only [addParts]
    by_cases hx : V.dim x = 0
    · rw [if_pos hx, ih]
      simp [hx]
    · rw [if_neg hx]
      cases hs : S.sub x with
      | none => simp [Ops.app, ih, hx, hs]
      | some i => simp [Ops.app, ih, hs]

theorem addParts_matSub (S : Src) (T : Target) (V : Vars) (fl : Flags) (M : MatFun) (v1 : VecFun) (v2 : Option VecFun) (flip : Bool)
    (l : List Nat) : (addParts (K := K) S T V fl M v1 v2 flip l).matSub =
      (l.filter fun x => decide (V.dim x ≠ 0) && (S.sub x).isSome).flatMap fun x => (subVars S x).map (addMatSub1 S T V fl x M flip) := by
  induction l with
  | nil => rfl
  | cons x l ih =>
    simp only [addParts]
    by_cases hx : V.dim x = 0
    · rw [if_pos hx, ih]
      simp [hx]
    · rw [if_neg hx]
      cases hs : S.sub x with
      | none => simp [Ops.app, ih, hs]
      | some i => simp [Ops.app, ih, hx, hs, subVars]

theorem addParts_vec (S : Src) (T : Target) (V : Vars) (fl : Flags) (M : MatFun) (v1 : VecFun) (v2 : Option VecFun) (flip : Bool)
    (l : List Nat) : (addParts (K := K) S T V fl M v1 v2 flip l).vec = [] := by
  induction l with
  | nil => rfl
  | cons x l ih =>
    simp only [addParts]
    by_cases hx : V.dim x = 0
    · rw [if_pos hx, ih]
    · rw [if_neg hx]
      cases hs : S.sub x <;> simp [Ops.app, ih]

/-- The assignments added to the right hand sides for `x` -/
def vecSubOf (S : Src) (T : Target) (fl : Flags) (v1 : VecFun) (v2 : Option VecFun) (flip : Bool) (x : Nat) : List (VOp K) :=
  match S.sub x with
  | some i => addVecSub S T fl i (T.seg v1) x flip ++ (match v2 with | some v => addVecSub S T fl i (T.seg v) x flip | none => [])
  | none => []

theorem addParts_vecSub (S : Src) (T : Target) (V : Vars) (fl : Flags) (M : MatFun) (v1 : VecFun) (v2 : Option VecFun) (flip : Bool)
    (l : List Nat) : (addParts (K := K) S T V fl M v1 v2 flip l).vecSub =
      (l.filter fun x => decide (V.dim x ≠ 0) && (S.sub x).isSome).flatMap (vecSubOf S T fl v1 v2 flip) := by
  induction l with
  | nil => rfl
  | cons x l ih =>
    simp only [addParts]
    by_cases hx : V.dim x = 0
    · rw [if_pos hx, ih]
      simp [hx]
    · rw [if_neg hx]
      cases hs : S.sub x with
      | none => simp [Ops.app, ih, hs]
      | some i =>
        simp [Ops.app, ih, hx, hs, vecSubOf]
        cases v2 <;> rfl

end
end Verif.AS
