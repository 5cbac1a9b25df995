import Verif.Lemmas.Assignment2
/-!
# Lemmas on the assignments: the value of an assembled row at a point
-/
set_option autoImplicit false
set_option linter.unusedSectionVars false

namespace Verif.AS
open Verif Verif.CA Finset

/-- What is known when an assignment is run: the variables of the source have disjoint columns in the first `n`, the properties of the
Jacobians and of the vectors of the substitutions are true, the weights come with their opposites. -/
structure Ok {K : Type} [Field K] (S : Src) (V : Vars) (D : Data K) (n : Nat) : Prop where
  maps : mapped S V = true
  range : ∀ x, V.known x = true → V.col x + V.dim x ≤ n
  disj : ∀ x y, V.known x = true → V.known y = true → x ≠ y → ∀ j, (V.col x ≤ j ∧ j < V.col x + V.dim x) →
    ¬ (V.col y ≤ j ∧ j < V.col y + V.dim y)
  nodup : S.parts.Nodup
  ident : ∀ x, S.prop x = .identity → V.dim x = S.size ∧ ∀ i < S.size, ∀ k < S.size, D.jac x i k = if i = k then 1 else 0
  minus : ∀ x, S.prop x = .minusIdentity → V.dim x = S.size ∧ ∀ i < S.size, ∀ k < S.size, D.jac x i k = if i = k then -1 else 0
  subB : ∀ x i, S.sub x = some i → i.useB = false → ∀ k < V.dim x, D.subB x k = 0
  flat : ∀ x y, y ∈ subVars S x → S.sub y = none
  ms : D.w.ms = -D.w.s
  ma : ∀ i, D.w.ma i = -D.w.a i

section
variable {K : Type} [Field K] [LinearOrder K]

/-- Sign of a flip -/
def sgn (flip : Bool) : K := if flip then -1 else 1

/-- The weight of a row -/
def Flags.omega (fl : Flags) (w : Weights K) (i : Nat) : K := (fl.wt false).at w i

theorem wt_at (fl : Flags) (w : Weights K) (hs : w.ms = -w.s) (ha : ∀ i, w.ma i = -w.a i) (flip : Bool) (i : Nat) :
    (fl.wt flip).at w i = sgn flip * fl.omega w i := by
  obtain ⟨ds, da⟩ := fl
  cases da <;> cases ds <;> cases flip <;> simp [Flags.omega, Flags.wt, Wt.at, sgn, hs, ha]

/-- The value of a part of the source as a function of the unknowns of the solver: itself, or the linear part of its substitution. -/
def lin (S : Src) (V : Vars) (D : Data K) (z : Nat → K) (x k : Nat) : K :=
  match S.sub x with
  | none => z (V.col x + k)
  | some i => (i.vars.map fun y => ∑ j ∈ range (V.dim y), D.subA x y k j * z (V.col y + j)).sum

/-- The block written by a copy -/
def MOp.blk (V : Vars) (D : Data K) (r : Nat) (op : MOp) : Blk K := ⟨op.cols.1, op.cols.2, op.rowVal V D r⟩

theorem fold_copies (V : Vars) (D : Data K) (r : Nat) (l : List MOp) (h : ∀ op ∈ l, op.assign = .copy) (a : Nat → K) :
    l.foldl (MOp.rowStep V D r) a = copies (l.map (MOp.blk V D r)) a := by
  induction l generalizing a with
  | nil => rfl
  | cons op l ih =>
    simp only [List.foldl_cons, List.map_cons, copies]
    rw [ih (fun o ho => h o (List.mem_cons_of_mem _ ho))]
    simp only [copies, MOp.rowStep, h op List.mem_cons_self, MOp.blk]

/-- Sign of the contribution of an addition or of a subtraction -/
def MOp.sg (op : MOp) : K := if op.assign = .sub then -1 else 1

theorem dot_fold_sub (V : Vars) (D : Data K) (r n : Nat) (z : Nat → K) (l : List MOp)
    (h : ∀ op ∈ l, (op.assign = .add ∨ op.assign = .sub) ∧ op.cols.1 + op.cols.2 ≤ n) (a : Nat → K) :
    dot n (l.foldl (MOp.rowStep V D r) a) z =
      dot n a z + (l.map fun op => op.sg * ∑ k ∈ range op.cols.2, op.rowVal V D r k * z (op.cols.1 + k)).sum := by
  induction l generalizing a with
  | nil => simp
  | cons op l ih =>
    simp only [List.foldl_cons, List.map_cons, List.sum_cons]
    rw [ih (fun o ho => h o (List.mem_cons_of_mem _ ho))]
    have hop := h op List.mem_cons_self
    rcases hop.1 with ha | ha
    · simp only [MOp.rowStep, ha, dot_add n _ _ hop.2, MOp.sg]
      simp
      ring
    · simp only [MOp.rowStep, ha, dot_sub n _ _ hop.2, MOp.sg]
      simp
      ring

theorem sum_delta (n i : Nat) (hi : i < n) (a : K) (v : Nat → K) : ∑ j ∈ range n, (if i = j then a else 0) * v j = a * v i := by
  rw [Finset.sum_eq_single i]
  · simp
  · intro j _ hj; simp [Ne.symm hj]
  · intro h; exact absurd (mem_range.mpr hi) h

/-- The product by a Jacobian that has the property -/
theorem jac_mul {S : Src} {V : Vars} {D : Data K} {n : Nat} (h : Ok S V D n) (x i : Nat) (hi : i < S.size) (v : Nat → K) :
    (S.prop x = .identity → ∑ j ∈ range (V.dim x), D.jac x i j * v j = v i) ∧
    (S.prop x = .minusIdentity → ∑ j ∈ range (V.dim x), D.jac x i j * v j = -v i) := by
  constructor
  · intro hp
    obtain ⟨hd, hj⟩ := h.ident x hp
    rw [hd, Finset.sum_congr rfl (fun j hj' => by rw [hj i hi j (mem_range.mp hj')]), sum_delta _ _ hi, one_mul]
  · intro hp
    obtain ⟨hd, hj⟩ := h.minus x hp
    rw [hd, Finset.sum_congr rfl (fun j hj' => by rw [hj i hi j (mem_range.mp hj')]), sum_delta _ _ hi]
    ring

theorem matSub_value {S : Src} {V : Vars} {D : Data K} {n : Nat} (h : Ok S V D n) (T : Target) (fl : Flags) (M : MatFun) (flip : Bool)
    (z : Nat → K) (i : Nat) (hi : i < S.size) (x y : Nat) :
    (addMatSub1 S T V fl x M flip y).sg * ∑ k ∈ range (addMatSub1 S T V fl x M flip y).cols.2,
        (addMatSub1 S T V fl x M flip y).rowVal V D ((T.rows M).1 + i) k * z ((addMatSub1 S T V fl x M flip y).cols.1 + k) =
      sgn flip * fl.omega D.w i *
        ∑ j ∈ range (V.dim x), D.jac x i j * ∑ k ∈ range (V.dim y), D.subA x y j k * z (V.col y + k) := by
  have e : (T.rows M).1 + i - (T.rows M).1 = i := by omega
  cases hp : S.prop x with
  | identity =>
    rw [(jac_mul h x i hi _).1 hp]
    simp only [addMatSub1, hp, MOp.sg, MOp.rowVal, MFrom.val, e, wt_at fl D.w h.ms h.ma]
    cases flip <;> simp [sgn, Finset.mul_sum, mul_assoc]
  | minusIdentity =>
    rw [(jac_mul h x i hi _).2 hp]
    simp only [addMatSub1, hp, MOp.sg, MOp.rowVal, MFrom.val, e, wt_at fl D.w h.ms h.ma]
    cases flip <;> simp [sgn, Finset.mul_sum, mul_assoc]
  | other =>
    have hsw : ∑ k ∈ range (V.dim y), (∑ j ∈ range (V.dim x), D.jac x i j * D.subA x y j k) * z (V.col y + k) =
        ∑ j ∈ range (V.dim x), D.jac x i j * ∑ k ∈ range (V.dim y), D.subA x y j k * z (V.col y + k) := by
      simp only [Finset.sum_mul, Finset.mul_sum]
      rw [Finset.sum_comm]
      simp only [mul_assoc]
    rw [← hsw]
    simp only [addMatSub1, hp, MOp.sg, MOp.rowVal, MFrom.val, e, wt_at fl D.w h.ms h.ma]
    cases flip <;> simp only [sgn, Finset.mul_sum, Finset.sum_mul] <;> simp [mul_assoc]

/-! ## The list of blocks -/

theorem nodup_eraseDups (l : List Nat) : l.eraseDups.Nodup := by
  suffices h : ∀ n (l : List Nat), l.length ≤ n → l.eraseDups.Nodup from h _ l (Nat.le_refl _)
  intro n
  induction n with
  | zero => intro l hl; rw [List.length_eq_zero_iff.mp (Nat.le_zero.mp hl)]; simp
  | succ n ih =>
    intro l hl
    cases l with
    | nil => simp
    | cons a l =>
      rw [List.eraseDups_cons, List.nodup_cons]
      refine ⟨fun hm => ?_, ih _ (Nat.le_trans (List.length_filter_le _ _) (by simpa using hl))⟩
      have := List.mem_filter.mp (List.mem_eraseDups.mp hm)
      simp at this

/-- The variables whose columns are set -/
def setVars (S : Src) (V : Vars) : List Nat := intoVars S ++ directParts S V

theorem setVars_nodup {S : Src} {V : Vars} (h : S.parts.Nodup) : (setVars S V).Nodup := by
  refine List.nodup_append.mpr ⟨(nodup_eraseDups _).filter _, h.filter _, ?_⟩
  intro a ha b hb e
  subst e
  have h1 := (List.mem_filter.mp ha).2
  have h2 := (List.mem_filter.mp hb).1
  simp at h1
  exact h1 h2

theorem setVars_known {S : Src} {V : Vars} (h : mapped S V = true) : ∀ x ∈ setVars S V, V.known x = true := by
  intro x hx
  simp only [mapped, Bool.and_eq_true, List.all_eq_true] at h
  rcases List.mem_append.mp hx with hx | hx
  · exact h.1 x hx
  · have h1 := List.mem_filter.mp hx
    have h2 := h.2 x h1.1
    simp only [Bool.and_eq_true, decide_eq_true_eq, Option.isNone_iff_eq_none] at h1
    rw [h1.2.2] at h2
    simpa [h1.2.1] using h2

theorem subVars_known {S : Src} {V : Vars} (h : mapped S V = true) (x : Nat) (hx : x ∈ substParts S V) :
    ∀ y ∈ subVars S x, V.known y = true := by
  simp only [mapped, Bool.and_eq_true, List.all_eq_true] at h
  have h1 := List.mem_filter.mp hx
  simp only [Bool.and_eq_true, decide_eq_true_eq] at h1
  have h2 := h.2 x h1.1
  obtain ⟨i, hi⟩ := Option.isSome_iff_exists.mp h1.2.2
  rw [hi] at h2
  intro y hy
  simp only [subVars, hi] at hy
  have h3 : i.vars.all V.known = true := by simpa [h1.2.1] using h2
  exact List.all_eq_true.mp h3 y hy

/-- The columns of the variables in the substitutions are set. -/
theorem subVars_set {S : Src} {V : Vars} (hf : ∀ x y, y ∈ subVars S x → S.sub y = none) (x : Nat) (hx : x ∈ S.parts) (y : Nat) (hy : y ∈ subVars S x)
    (hd : V.dim y ≠ 0) : y ∈ setVars S V := by
  refine List.mem_append.mpr ?_
  by_cases hp : y ∈ S.parts
  · right
    refine List.mem_filter.mpr ⟨hp, ?_⟩
    simp [hd, hf x y hy]
  · left
    refine List.mem_filter.mpr ⟨List.mem_eraseDups.mpr ?_, by simp [hp]⟩
    exact List.mem_flatMap.mpr ⟨x, hx, hy⟩

/-- Outside of the columns set by the assignment, the row is zero. (The solvers set their matrices to zero when they are created.) -/
def Clean (S : Src) (V : Vars) (n : Nat) (a : Nat → K) : Prop :=
  ∀ j < n, (∀ x ∈ setVars S V, ¬ (V.col x ≤ j ∧ j < V.col x + V.dim x)) → a j = 0

/-- The matrix assignments of one call to `addAssignments` -/
theorem addAssignments_mats (S : Src) (T : Target) (V : Vars) (fl : Flags) (M : MatFun) (f1 : RhsFun) (v1 : VecFun)
    (second : Option (RhsFun × VecFun)) (flip : Bool) :
    (addAssignments (K := K) S T V fl M f1 v1 second flip).mat =
      (intoVars S).map (fun y => addZero T V y M) ++ (directParts S V).map (fun x => addMat T V fl x M flip) ∧
    (addAssignments (K := K) S T V fl M f1 v1 second flip).matSub =
      (substParts S V).flatMap fun x => (subVars S x).map (addMatSub1 S T V fl x M flip) := by
  constructor
  · simp only [addAssignments, Ops.app, addParts_mat]; rfl
  · simp only [addAssignments, Ops.app, addParts_matSub]; rfl

theorem lin_direct (S : Src) (V : Vars) (D : Data K) (z : Nat → K) (x k : Nat) (h : S.sub x = none) : lin S V D z x k = z (V.col x + k) := by
  simp only [lin, h]

theorem lin_subst (S : Src) (V : Vars) (D : Data K) (z : Nat → K) (x k : Nat) (h : (S.sub x).isSome) :
    lin S V D z x k = ((subVars S x).map fun y => ∑ j ∈ range (V.dim y), D.subA x y k j * z (V.col y + j)).sum := by
  obtain ⟨i, hi⟩ := Option.isSome_iff_exists.mp h
  simp only [lin, subVars, hi]

theorem sum_list_comm (l : List Nat) (n : Nat) (c : Nat → K) (f : Nat → Nat → K) :
    ∑ j ∈ range n, c j * (l.map fun y => f y j).sum = (l.map fun y => ∑ j ∈ range n, c j * f y j).sum := by
  induction l with
  | nil => simp
  | cons y l ih =>
    simp only [List.map_cons, List.sum_cons, mul_add, Finset.sum_add_distrib, ih]

theorem sum_map_mul (l : List Nat) (c : K) (f : Nat → K) : (l.map fun x => c * f x).sum = c * (l.map f).sum := by
  induction l with
  | nil => simp
  | cons y l ih => simp only [List.map_cons, List.sum_cons, mul_add, ih]

/-- The image of the point by the linear part of the source, after substitution -/
def img (S : Src) (V : Vars) (D : Data K) (z : Nat → K) (i : Nat) : K :=
  (S.parts.map fun x => ∑ k ∈ range (V.dim x), D.jac x i k * lin S V D z x k).sum

theorem img_split (S : Src) (V : Vars) (D : Data K) (z : Nat → K) (i : Nat) :
    img S V D z i = ((directParts S V).map fun x => ∑ k ∈ range (V.dim x), D.jac x i k * z (V.col x + k)).sum +
      ((substParts S V).map fun x => ∑ k ∈ range (V.dim x), D.jac x i k * lin S V D z x k).sum := by
  have key : ∀ l : List Nat, (l.map fun x => ∑ k ∈ range (V.dim x), D.jac x i k * lin S V D z x k).sum =
      ((l.filter fun x => decide (V.dim x ≠ 0) && (S.sub x).isNone).map fun x => ∑ k ∈ range (V.dim x), D.jac x i k * z (V.col x + k)).sum +
      ((l.filter fun x => decide (V.dim x ≠ 0) && (S.sub x).isSome).map fun x => ∑ k ∈ range (V.dim x), D.jac x i k * lin S V D z x k).sum := by
    intro l
    induction l with
    | nil => simp
    | cons x l ih =>
      simp only [List.map_cons, List.sum_cons, ih]
      by_cases hd : V.dim x = 0
      · simp [hd]
      · cases hs : S.sub x with
        | none =>
          have := fun k => lin_direct S V D z x k hs
          simp [hd, hs, this]
          ring
        | some s =>
          simp [hd, hs]
          ring
  exact key S.parts

/-- The value of an assembled row -/
theorem row_value {S : Src} {V : Vars} {D : Data K} {n : Nat} (h : Ok S V D n) (T : Target) (fl : Flags) (M : MatFun) (f1 : RhsFun)
    (v1 : VecFun) (second : Option (RhsFun × VecFun)) (flip : Bool) (a z : Nat → K) (hc : Clean S V n a) (i : Nat) (hi : i < S.size) :
    dot n (((addAssignments (K := K) S T V fl M f1 v1 second flip).mat ++
        (addAssignments (K := K) S T V fl M f1 v1 second flip).matSub).foldl (MOp.rowStep V D ((T.rows M).1 + i)) a) z =
      sgn flip * fl.omega D.w i * img S V D z i := by
  have e : (T.rows M).1 + i - (T.rows M).1 = i := by omega
  obtain ⟨e1, e2⟩ := addAssignments_mats (K := K) S T V fl M f1 v1 second flip
  rw [e1, e2, List.foldl_append, dot_fold_sub V D _ n z]
  · rw [fold_copies, dot_copies n]
    · rw [img_split, mul_add]
      congr 1
      · simp only [List.map_append, List.sum_append, List.map_map]
        have hz : (List.map ((fun b : Blk K => ∑ k ∈ range b.d, b.v k * z (b.c + k)) ∘ MOp.blk V D ((T.rows M).1 + i) ∘ fun y => addZero T V y M)
            (intoVars S)).sum = 0 := by
          apply List.sum_eq_zero
          intro t ht
          obtain ⟨y, _, rfl⟩ := List.mem_map.mp ht
          simp [MOp.blk, addZero, MOp.rowVal, MFrom.val]
        rw [hz, zero_add, ← sum_map_mul]
        congr 1
        apply List.map_congr_left
        intro x _
        simp only [Function.comp, MOp.blk, addMat, MOp.rowVal, MFrom.val, e, wt_at fl D.w h.ms h.ma, Finset.mul_sum, mul_assoc]
      · have key : ∀ l : List Nat, (∀ x ∈ l, (S.sub x).isSome = true) →
            ((l.flatMap fun x => (subVars S x).map (addMatSub1 S T V fl x M flip)).map fun op =>
              op.sg * ∑ k ∈ range op.cols.2, op.rowVal V D ((T.rows M).1 + i) k * z (op.cols.1 + k)).sum =
            sgn flip * fl.omega D.w i * (l.map fun x => ∑ k ∈ range (V.dim x), D.jac x i k * lin S V D z x k).sum := by
          intro l hl
          induction l with
          | nil => simp
          | cons x l ih =>
            simp only [List.flatMap_cons, List.map_append, List.sum_append, List.map_cons, List.sum_cons, mul_add]
            rw [ih (fun y hy => hl y (List.mem_cons_of_mem _ hy))]
            congr 1
            have hx := hl x List.mem_cons_self
            simp only [lin_subst S V D z x _ hx]
            rw [sum_list_comm _ _ _ (fun y k => ∑ j ∈ range (V.dim y), D.subA x y k j * z (V.col y + j)), ← sum_map_mul, List.map_map]
            congr 1
            apply List.map_congr_left
            intro y _
            exact matSub_value h T fl M flip z i hi x y
        apply key
        intro x hx
        have := (List.mem_filter.mp hx).2
        simp only [Bool.and_eq_true] at this
        exact this.2
    · intro b hb
      obtain ⟨op, hop, rfl⟩ := List.mem_map.mp hb
      rcases List.mem_append.mp hop with ho | ho
      · obtain ⟨y, hy, rfl⟩ := List.mem_map.mp ho
        exact h.range y (setVars_known h.maps y (List.mem_append_left _ hy))
      · obtain ⟨y, hy, rfl⟩ := List.mem_map.mp ho
        exact h.range y (setVars_known h.maps y (List.mem_append_right _ hy))
    · have hblk : List.map (fun b : Blk K => (b.c, b.d)) (List.map (MOp.blk V D ((T.rows M).1 + i))
          ((intoVars S).map (fun y => addZero T V y M) ++ (directParts S V).map (fun x => addMat T V fl x M flip))) =
          (setVars S V).map fun x => (V.col x, V.dim x) := by
        simp only [setVars, List.map_append, List.map_map]
        rfl
      have hp : ((setVars S V).map fun x => (V.col x, V.dim x)).Pairwise fun p q => ∀ j, (p.1 ≤ j ∧ j < p.1 + p.2) → ¬ (q.1 ≤ j ∧ j < q.1 + q.2) := by
        rw [List.pairwise_map]
        have hn := setVars_nodup (V := V) h.nodup
        refine List.Pairwise.imp_of_mem ?_ hn
        intro x y hx hy hne j
        exact h.disj x y (setVars_known h.maps x hx) (setVars_known h.maps y hy) hne j
      rw [← hblk, List.pairwise_map] at hp
      exact hp
    · intro j hj hno
      apply hc j hj
      intro x hx
      rcases List.mem_append.mp hx with hx | hx
      · exact hno (MOp.blk V D ((T.rows M).1 + i) (addZero T V x M)) (List.mem_map_of_mem (List.mem_append_left _ (List.mem_map_of_mem hx)))
      · exact hno (MOp.blk V D ((T.rows M).1 + i) (addMat T V fl x M flip)) (List.mem_map_of_mem (List.mem_append_right _ (List.mem_map_of_mem hx)))
    · intro op hop
      rcases List.mem_append.mp hop with ho | ho
      · obtain ⟨y, hy, rfl⟩ := List.mem_map.mp ho; rfl
      · obtain ⟨y, hy, rfl⟩ := List.mem_map.mp ho; rfl
  · intro op hop
    obtain ⟨x, hx, ho⟩ := List.mem_flatMap.mp hop
    obtain ⟨y, hy, rfl⟩ := List.mem_map.mp ho
    have hk := subVars_known h.maps x hx y hy
    have hr := h.range y hk
    unfold addMatSub1
    cases S.prop x <;> cases flip <;> simp [hr]

end
end Verif.AS
