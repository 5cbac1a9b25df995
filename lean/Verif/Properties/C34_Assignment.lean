import Verif.Lemmas.Assignment6
import Mathlib.Algebra.Order.Ring.Rat
import Mathlib.Algebra.Field.Rat
import Mathlib.Tactic.NormNum
/-!
# C34, C35, C39: the assembled rows mean the source constraint

The specification below does not use the assignments: a source constraint holds at values of its variables, the rows of a target hold at
a point of the solver. The arithmetic is that of an ordered field; rounding is not modelled.
-/
set_option autoImplicit false
set_option linter.unusedSectionVars false

namespace Verif.C34
open Verif Verif.CA Verif.AS Finset

section
variable {K : Type} [Field K] [LinearOrder K]

/-- The value meant by a vector, for a convention on the right hand side (include/tvm/constraint/enums.h, lines 29-37) -/
def side (r : Rhs) (v : K) : K :=
  match r with
  | .zero => 0
  | .asGiven => v
  | .opposite => -v

/-- The values of the variables of the source at the point `z` of the solver: an unknown of the solver, or its substitution
`Σ A_y y + b`. -/
def value (S : Src) (V : Vars) (D : Data K) (z : Nat → K) (x k : Nat) : K :=
  match S.sub x with
  | none => z (V.col x + k)
  | some i => (i.vars.map fun y => ∑ j ∈ range (V.dim y), D.subA x y k j * z (V.col y + j)).sum + D.subB x k

/-- The constant part of the values -/
def const (S : Src) (D : Data K) (x k : Nat) : K := if (S.sub x).isSome then D.subB x k else 0

/-- `Σ J_x x` for the values `X` -/
def image (S : Src) (V : Vars) (D : Data K) (X : Nat → Nat → K) (i : Nat) : K :=
  (S.parts.map fun x => ∑ k ∈ range (V.dim x), D.jac x i k * X x k).sum

/-- The source constraint holds for the values `X`. -/
def SrcSat (S : Src) (V : Vars) (D : Data K) (X : Nat → Nat → K) : Prop :=
  ∀ i < S.size,
    match S.type with
    | .equal => image S V D X i = side S.rhs (D.e i)
    | .greaterThan => side S.rhs (D.l i) ≤ image S V D X i
    | .lowerThan => image S V D X i ≤ side S.rhs (D.u i)
    | .doubleSided => side S.rhs (D.l i) ≤ image S V D X i ∧ image S V D X i ≤ side S.rhs (D.u i)

/-- `Σ_c A_rc z_c` over the `n` columns -/
def row (n : Nat) (m : Mem K) (z : Nat → K) (r : Nat) : K := ∑ c ∈ range n, m.A r c * z c

/-- The rows of the target hold at `z`. -/
def TgtSat (n : Nat) (T : Target) (m : Mem K) (z : Nat → K) : Prop :=
  ∀ r, T.start ≤ r → r < T.start + T.size →
    match T.type with
    | .equal => row n m z r = side T.rhs (m.vec .b r)
    | .greaterThan => side T.rhs (m.vec .b r) ≤ row n m z r
    | .lowerThan => row n m z r ≤ side T.rhs (m.vec .b r)
    | .doubleSided => side T.rhs (m.vec .l r) ≤ row n m z r ∧ row n m z r ≤ side T.rhs (m.vec .u r)

/-- The condition that comes from writing `±big` for the missing side of a one sided constraint in a double sided target -/
def BigSide (big : K) (S : Src) (T : Target) (V : Vars) (D : Data K) (z : Nat → K) : Prop :=
  T.type = .doubleSided → ∀ i < S.size,
    (S.type = .greaterThan → image S V D (value S V D z) i - image S V D (const S D) i ≤ side T.rhs big) ∧
    (S.type = .lowerThan → side T.rhs (-big) ≤ image S V D (value S V D z) i - image S V D (const S D) i)

/-! ## One assignment -/

theorem image_value (S : Src) (V : Vars) (D : Data K) (z : Nat → K) (i : Nat) :
    image S V D (value S V D z) i = img S V D z i + image S V D (const S D) i := by
  unfold image img
  induction S.parts with
  | nil => simp
  | cons x l ih =>
    simp only [List.map_cons, List.sum_cons, ih]
    have : ∑ k ∈ range (V.dim x), D.jac x i k * value S V D z x k =
        ∑ k ∈ range (V.dim x), D.jac x i k * lin S V D z x k + ∑ k ∈ range (V.dim x), D.jac x i k * const S D x k := by
      rw [← Finset.sum_add_distrib]
      apply Finset.sum_congr rfl
      intro k _
      simp only [value, lin, const]
      cases S.sub x <;> simp [mul_add]
    rw [this]
    ring

theorem image_const (S : Src) (V : Vars) (D : Data K) (i : Nat) : image S V D (const S D) i = off S V D i := by
  have key : ∀ l : List Nat, (l.map fun x => ∑ k ∈ range (V.dim x), D.jac x i k * const S D x k).sum =
      ((l.filter fun x => decide (V.dim x ≠ 0) && (S.sub x).isSome).map fun x => ∑ k ∈ range (V.dim x), D.jac x i k * D.subB x k).sum := by
    intro l
    induction l with
    | nil => rfl
    | cons x l ih =>
      simp only [List.map_cons, List.sum_cons, ih]
      by_cases hd : V.dim x = 0
      · simp [hd]
      · cases hs : S.sub x with
        | none => simp [hs, const]
        | some s => simp [hd, hs, const]
  exact key S.parts

theorem side_dec (T : Target) (t : K) : side T.rhs t = T.dec t := by
  unfold side Target.dec
  cases T.rhs <;> rfl

theorem side_R (S : Src) (D : Data K) (i : Nat) :
    side S.rhs (D.e i) = S.R D .e i ∧ side S.rhs (D.l i) = S.R D .l i ∧ side S.rhs (D.u i) = S.R D .u i := by
  unfold side Src.R
  cases S.rhs <;> exact ⟨rfl, rfl, rfl⟩

theorem forall_range (a s : Nat) (P : Nat → Prop) : (∀ r, a ≤ r → r < a + s → P r) ↔ ∀ i < s, P (a + i) := by
  constructor
  · intro h i hi; exact h _ (by omega) (by omega)
  · intro h r h1 h2
    have := h (r - a) (by omega)
    rwa [show a + (r - a) = r by omega] at this

theorem forall_half (s : Nat) (P : Nat → Prop) : (∀ i < 2 * s, P i) ↔ (∀ i < s, P i ∧ P (s + i)) := by
  constructor
  · intro h i hi; exact ⟨h i (by omega), h (s + i) (by omega)⟩
  · intro h i hi
    by_cases hs : i < s
    · exact (h i hs).1
    · have := (h (i - s) (by omega)).2
      rwa [show s + (i - s) = i by omega] at this

variable [IsStrictOrderedRing K]

theorem cmp_eq (w g r o : K) (hw : 0 < w) : w * g = w * (r - o) ↔ g + o = r := by
  constructor
  · intro h
    have := mul_left_cancel₀ (ne_of_gt hw) h
    rw [this]; ring
  · intro h; rw [← h]; ring

theorem cmp_ge (w g r o : K) (hw : 0 < w) : w * (r - o) ≤ w * g ↔ r ≤ g + o := by
  rw [mul_le_mul_iff_right₀ hw]
  constructor <;> intro h <;> linarith

theorem cmp_le (w g r o : K) (hw : 0 < w) : w * g ≤ w * (r - o) ↔ g + o ≤ r := by
  rw [mul_le_mul_iff_right₀ hw]
  constructor <;> intro h <;> linarith

theorem cmp_ge' (w g r o : K) (hw : 0 < w) : -1 * w * (r - o) ≤ -1 * w * g ↔ g + o ≤ r := by
  rw [← cmp_le w g r o hw]
  constructor <;> intro h <;> linarith

theorem cmp_le' (w g r o : K) (hw : 0 < w) : -1 * w * g ≤ -1 * w * (r - o) ↔ r ≤ g + o := by
  rw [← cmp_ge w g r o hw]
  constructor <;> intro h <;> linarith

/-- Exactly what the assembled rows say: the source constraint, with the substitutions, and for a one sided source in a double sided
target the condition `BigSide`. -/
theorem assembled_exact {S : Src} {V : Vars} {D : Data K} {n : Nat} {T : Target} {fl : Flags} {big : K} {o : Ops K}
    (hb : create big S T V fl = some o) (h : Ok S V D n) (hw : ∀ i < S.size, 0 < fl.omega D.w i) (m : Mem K)
    (hc : ∀ r, T.start ≤ r → r < T.start + T.size → Clean S V n (m.A r)) (z : Nat → K) :
    TgtSat n T (o.run V D m) z ↔ SrcSat S V D (value S V D z) ∧ BigSide big S T V D z := by
  obtain ⟨hch, hmap, hb⟩ := create_some hb
  have hnil : ∀ o : Ops K, o = o.app ⟨[], [], [], []⟩ := by intro o; simp [Ops.app]
  have szs : (S.type = .doubleSided → T.type ≠ .doubleSided → T.size = 2 * S.size) ∧ (¬ (S.type = .doubleSided ∧ T.type ≠ .doubleSided) → T.size = S.size) := by
    have := hch
    simp only [checkTarget, Bool.and_eq_true] at this
    have hs := this.2
    refine ⟨fun h1 h2 => by simpa [h1, h2] using hs, fun h3 => ?_⟩
    by_cases h1 : S.type = .doubleSided
    · by_cases h2 : T.type = .doubleSided
      · simpa [h1, h2] using hs
      · exact absurd ⟨h1, h2⟩ h3
    · simpa [h1] using hs
  unfold TgtSat SrcSat BigSide
  rw [forall_range]
  simp only [image_value, side_dec, image_const, add_sub_cancel_right, (side_R S D _).1, (side_R S D _).2.1, (side_R S D _).2.2]
  show (∀ i < T.size, _) ↔ _
  cases hS : S.type
  case equal =>
    cases hTt : T.type <;> simp only [buildOps, hS, hTt, reduceCtorEq, Option.some.injEq] at hb
    · have hsz := szs.2 (by simp [hS])
      subst hb
      rw [hnil (addAssignments _ _ _ _ _ _ _ _ _)]
      have r := rows_one (fl := fl) (m := m) h .A .e .b none false hsz hc []
      have v := rhs_one (fl := fl) (m := m) h hch .A .e .b false hsz [] ⟨.l, 0, 0⟩ (by simp) (by simp [Target.seg])
      simp only [reduceCtorEq, false_implies, and_true, implies_true, hsz]
      refine forall₂_congr fun i hi => ?_
      rw [show row n _ z (T.start + i) = _ from r z i hi, show T.dec (Mem.vec _ .b (T.start + i)) = _ from v i hi]
      simpa [sgn] using cmp_eq _ _ _ _ (hw i hi)
    · have hsz := szs.2 (by simp [hS])
      subst hb
      rw [hnil (addAssignments _ _ _ _ _ _ _ _ _)]
      have r := rows_one (fl := fl) (m := m) h .A .e .l (some (.e, .u)) false hsz hc []
      obtain ⟨v1, v2⟩ := rhs_two (fl := fl) (m := m) h hch .e .e hsz [] rfl
      simp only [reduceCtorEq, false_implies, and_true, implies_true, hsz]
      refine forall₂_congr fun i hi => ?_
      rw [show row n _ z (T.start + i) = _ from r z i hi, show T.dec (Mem.vec _ .l (T.start + i)) = _ from v1 i hi,
        show T.dec (Mem.vec _ .u (T.start + i)) = _ from v2 i hi]
      simp only [sgn, Bool.false_eq_true, if_false, one_mul]
      rw [cmp_ge _ _ _ _ (hw i hi), cmp_le _ _ _ _ (hw i hi)]
      exact ⟨fun ⟨a, b⟩ => le_antisymm b a, fun e => ⟨le_of_eq e.symm, le_of_eq e⟩⟩
  case greaterThan =>
    cases hTt : T.type <;> simp only [buildOps, hS, hTt, reduceCtorEq, if_true, if_false, decide_false, Bool.not_false, Option.some.injEq] at hb
    · have hsz := szs.2 (by simp [hS])
      subst hb
      rw [hnil (addAssignments _ _ _ _ _ _ _ _ _)]
      have r := rows_one (fl := fl) (m := m) h .A .l .b none false hsz hc []
      have v := rhs_one (fl := fl) (m := m) h hch .A .l .b false hsz [] ⟨.l, 0, 0⟩ (by simp) (by simp [Target.seg])
      simp only [reduceCtorEq, false_implies, and_true, hsz]
      refine forall₂_congr fun i hi => ?_
      rw [show row n _ z (T.start + i) = _ from r z i hi, show T.dec (Mem.vec _ .b (T.start + i)) = _ from v i hi]
      simpa [sgn] using cmp_ge _ _ _ _ (hw i hi)
    · have hsz := szs.2 (by simp [hS])
      subst hb
      rw [hnil (addAssignments _ _ _ _ _ _ _ _ _)]
      have r := rows_one (fl := fl) (m := m) h .A .l .b none true hsz hc []
      have v := rhs_one (fl := fl) (m := m) h hch .A .l .b true hsz [] ⟨.l, 0, 0⟩ (by simp) (by simp [Target.seg])
      simp only [reduceCtorEq, false_implies, and_true, hsz]
      refine forall₂_congr fun i hi => ?_
      rw [show row n _ z (T.start + i) = _ from r z i hi, show T.dec (Mem.vec _ .b (T.start + i)) = _ from v i hi]
      exact cmp_le' _ _ _ _ (hw i hi)
    · have hsz := szs.2 (by simp [hS])
      subst hb
      have r := rows_one (fl := fl) (m := m) h .A .l .l none false hsz hc (addConst fl .copy big (T.seg .u) false)
      have v := rhs_one (fl := fl) (m := m) h hch .A .l .l false hsz (addConst fl .copy big (T.seg .u) false) (T.seg .u)
        (by intro op ho; exact ⟨by simp only [addConst, List.mem_singleton] at ho; subst ho; rfl, const_plain fl .copy big (T.seg .u) false op (by simpa using ho)⟩)
        (by simp [Target.seg])
      simp only [hsz, reduceCtorEq, false_implies, and_true, forall_const]
      rw [← forall₂_and]
      refine forall₂_congr fun i hi => ?_
      have c := const_side (S := S) (V := V) (T := T) (fl := fl) (m := m) h.ms h.ma .A .l .l .u false big (by simp [Target.seg]) i (by simp only [Target.seg]; omega)
      rw [show row n _ z (T.start + i) = _ from r z i hi, show T.dec (Mem.vec _ .l (T.start + i)) = _ from v i hi,
        show Mem.vec _ .u (T.start + i) = _ from c]
      simp only [sgn, Bool.false_eq_true, if_false, one_mul]
      rw [cmp_ge _ _ _ _ (hw i hi)]
      refine and_congr Iff.rfl ?_
      have hdec : T.dec (fl.omega D.w i * big) = fl.omega D.w i * T.dec big := by
        unfold Target.dec; cases T.rhs <;> simp
      rw [hdec, mul_le_mul_iff_right₀ (hw i hi)]
  case lowerThan =>
    cases hTt : T.type <;> simp only [buildOps, hS, hTt, reduceCtorEq, if_true, if_false, decide_true, Bool.not_true, Option.some.injEq] at hb
    · have hsz := szs.2 (by simp [hS])
      subst hb
      rw [hnil (addAssignments _ _ _ _ _ _ _ _ _)]
      have r := rows_one (fl := fl) (m := m) h .A .u .b none true hsz hc []
      have v := rhs_one (fl := fl) (m := m) h hch .A .u .b true hsz [] ⟨.l, 0, 0⟩ (by simp) (by simp [Target.seg])
      simp only [reduceCtorEq, false_implies, and_true, hsz]
      refine forall₂_congr fun i hi => ?_
      rw [show row n _ z (T.start + i) = _ from r z i hi, show T.dec (Mem.vec _ .b (T.start + i)) = _ from v i hi]
      exact cmp_ge' _ _ _ _ (hw i hi)
    · have hsz := szs.2 (by simp [hS])
      subst hb
      rw [hnil (addAssignments _ _ _ _ _ _ _ _ _)]
      have r := rows_one (fl := fl) (m := m) h .A .u .b none false hsz hc []
      have v := rhs_one (fl := fl) (m := m) h hch .A .u .b false hsz [] ⟨.l, 0, 0⟩ (by simp) (by simp [Target.seg])
      simp only [reduceCtorEq, false_implies, and_true, hsz]
      refine forall₂_congr fun i hi => ?_
      rw [show row n _ z (T.start + i) = _ from r z i hi, show T.dec (Mem.vec _ .b (T.start + i)) = _ from v i hi]
      simpa [sgn] using cmp_le _ _ _ _ (hw i hi)
    · have hsz := szs.2 (by simp [hS])
      subst hb
      have r := rows_one (fl := fl) (m := m) h .A .u .u none false hsz hc (addConst fl .copy (-big) (T.seg .l) false)
      have v := rhs_one (fl := fl) (m := m) h hch .A .u .u false hsz (addConst fl .copy (-big) (T.seg .l) false) (T.seg .l)
        (by intro op ho; exact ⟨by simp only [addConst, List.mem_singleton] at ho; subst ho; rfl, const_plain fl .copy (-big) (T.seg .l) false op (by simpa using ho)⟩)
        (by simp [Target.seg])
      simp only [hsz, reduceCtorEq, false_implies, true_and, forall_const]
      rw [← forall₂_and]
      refine forall₂_congr fun i hi => ?_
      have c := const_side (S := S) (V := V) (T := T) (fl := fl) (m := m) h.ms h.ma .A .u .u .l false (-big) (by simp [Target.seg]) i (by simp only [Target.seg]; omega)
      rw [show row n _ z (T.start + i) = _ from r z i hi, show T.dec (Mem.vec _ .u (T.start + i)) = _ from v i hi,
        show Mem.vec _ .l (T.start + i) = _ from c]
      simp only [sgn, Bool.false_eq_true, if_false, one_mul]
      rw [cmp_le _ _ _ _ (hw i hi), and_comm]
      refine and_congr Iff.rfl ?_
      have hdec : T.dec (fl.omega D.w i * -big) = fl.omega D.w i * T.dec (-big) := by
        unfold Target.dec; cases T.rhs <;> simp
      rw [hdec, mul_le_mul_iff_right₀ (hw i hi)]
  case doubleSided =>
    cases hTt : T.type <;> simp only [buildOps, hS, hTt, Option.some.injEq] at hb
    · simp only [checkTarget, hS, hTt] at hch
      exact absurd hch (by simp)
    · have hsz := szs.1 hS (by simp [hTt])
      have hh : T.size / 2 = S.size := by omega
      subst hb
      obtain ⟨r1, r2⟩ := rows_half (fl := fl) (m := m) h .l .u hsz hc
      obtain ⟨v1, v2⟩ := rhs_half (fl := fl) (m := m) h hch .l .u hsz
      simp only [reduceCtorEq, false_implies, and_true, hsz]
      rw [forall_half]
      refine forall₂_congr fun i hi => ?_
      rw [show row n _ z (T.start + i) = _ from r1 z i hi, show T.dec (Mem.vec _ .b (T.start + i)) = _ from v1 i hi]
      have r2' := r2 z i hi
      have v2' := v2 i hi
      simp only [Target.rows, Target.seg, hh, Nat.add_assoc] at r2' v2'
      rw [show row n _ z (T.start + (S.size + i)) = _ from r2', v2']
      simp only [sgn, Bool.false_eq_true, if_false, one_mul, if_true]
      rw [cmp_ge _ _ _ _ (hw i hi), cmp_ge' _ _ _ _ (hw i hi)]
    · have hsz := szs.1 hS (by simp [hTt])
      have hh : T.size / 2 = S.size := by omega
      subst hb
      obtain ⟨r1, r2⟩ := rows_half (fl := fl) (m := m) h .u .l hsz hc
      obtain ⟨v1, v2⟩ := rhs_half (fl := fl) (m := m) h hch .u .l hsz
      simp only [reduceCtorEq, false_implies, and_true, hsz]
      rw [forall_half]
      refine forall₂_congr fun i hi => ?_
      rw [show row n _ z (T.start + i) = _ from r1 z i hi, show T.dec (Mem.vec _ .b (T.start + i)) = _ from v1 i hi]
      have r2' := r2 z i hi
      have v2' := v2 i hi
      simp only [Target.rows, Target.seg, hh, Nat.add_assoc] at r2' v2'
      rw [show row n _ z (T.start + (S.size + i)) = _ from r2', v2']
      simp only [sgn, Bool.false_eq_true, if_false, one_mul, if_true]
      rw [cmp_le _ _ _ _ (hw i hi), cmp_le' _ _ _ _ (hw i hi), and_comm]
    · have hsz := szs.2 (by simp [hTt])
      subst hb
      rw [hnil (addAssignments _ _ _ _ _ _ _ _ _)]
      have r := rows_one (fl := fl) (m := m) h .A .l .l (some (.u, .u)) false hsz hc []
      obtain ⟨v1, v2⟩ := rhs_two (fl := fl) (m := m) h hch .l .u hsz [] rfl
      simp only [reduceCtorEq, false_implies, and_true, implies_true, hsz]
      refine forall₂_congr fun i hi => ?_
      rw [show row n _ z (T.start + i) = _ from r z i hi, show T.dec (Mem.vec _ .l (T.start + i)) = _ from v1 i hi,
        show T.dec (Mem.vec _ .u (T.start + i)) = _ from v2 i hi]
      simp only [sgn, Bool.false_eq_true, if_false, one_mul]
      rw [cmp_ge _ _ _ _ (hw i hi), cmp_le _ _ _ _ (hw i hi)]

/-! ## All the assignments to a matrix, run again and again -/

/-- An assignment to a matrix: source, target, flags of the weights, compiled assignments -/
structure Job (K : Type) where
  S : Src
  T : Target
  fl : Flags
  o : Ops K

/-- One run of all the assignments (`updateLinearData`): the data read by each one may have changed since the last run. -/
def round (V : Vars) (jobs : List (Job K)) (D : Job K → Data K) (m : Mem K) : Mem K := jobs.foldl (fun m j => j.o.run V (D j) m) m

/-- The memory after any number of rounds, from a matrix set to zero; the vectors hold anything. -/
inductive Mems (V : Vars) (jobs : List (Job K)) : Mem K → Prop
  | init (m : Mem K) (h : ∀ r c, m.A r c = 0) : Mems V jobs m
  | step (m : Mem K) (D : Job K → Data K) (h : Mems V jobs m) : Mems V jobs (round V jobs D m)

/-- The assignments come from the constructor, no substitution is by a substituted variable, and the targets are disjoint. -/
structure System (big : K) (V : Vars) (jobs : List (Job K)) : Prop where
  built : ∀ j ∈ jobs, create big j.S j.T V j.fl = some j.o
  flat : ∀ j ∈ jobs, ∀ x i, j.S.sub x = some i → ∀ y ∈ i.vars, j.S.sub y = none
  disjoint : jobs.Pairwise fun j k => ∀ r, j.T.start ≤ r ∧ r < j.T.start + j.T.size → ¬ (k.T.start ≤ r ∧ r < k.T.start + k.T.size)

theorem System.within {big : K} {V : Vars} {jobs : List (Job K)} (h : System big V jobs) : ∀ j ∈ jobs, j.o.Within j.S j.T V := by
  intro j hj
  refine build_within ?_ (create_some (h.built j hj)).2.2
  intro x y hy
  cases hs : j.S.sub x with
  | none => simp [subVars, hs] at hy
  | some i => simp only [subVars, hs] at hy; exact h.flat j hj x i hs y hy

theorem round_clean {V : Vars} {n : Nat} {S : Src} (l : List (Job K)) (D : Job K → Data K) (r : Nat) (j : Job K)
    (hj : j.S = S) (hw : ∀ k ∈ l, k.o.Within k.S k.T V) (hd : ∀ k ∈ l, k = j ∨ ¬ (k.T.start ≤ r ∧ r < k.T.start + k.T.size)) (m : Mem K)
    (hc : Clean S V n (m.A r)) : Clean S V n ((round V l D m).A r) := by
  induction l generalizing m with
  | nil => exact hc
  | cons k l ih =>
    apply ih (fun k hk => hw k (List.mem_cons_of_mem _ hk)) (fun k hk => hd k (List.mem_cons_of_mem _ hk))
    rcases hd k List.mem_cons_self with rfl | hr
    · subst hj; exact within_clean (hw k List.mem_cons_self) (D k) m r hc
    · rw [within_frame_A (hw k List.mem_cons_self) (D k) m r hr]; exact hc

theorem round_frame {V : Vars} (l : List (Job K)) (D : Job K → Data K) (r : Nat) (hw : ∀ k ∈ l, k.o.Within k.S k.T V)
    (hd : ∀ k ∈ l, ¬ (k.T.start ≤ r ∧ r < k.T.start + k.T.size)) (m : Mem K) :
    (round V l D m).A r = m.A r ∧ ∀ c, (round V l D m).vec c r = m.vec c r := by
  induction l generalizing m with
  | nil => exact ⟨rfl, fun _ => rfl⟩
  | cons k l ih =>
    have := ih (fun k hk => hw k (List.mem_cons_of_mem _ hk)) (fun k hk => hd k (List.mem_cons_of_mem _ hk)) (k.o.run V (D k) m)
    have h1 := within_frame_A (hw k List.mem_cons_self) (D k) m r (hd k List.mem_cons_self)
    have h2 := fun c => within_frame_vec (hw k List.mem_cons_self) (D k) m c r (hd k List.mem_cons_self)
    exact ⟨this.1.trans h1, fun c => (this.2 c).trans (h2 c)⟩

theorem disjoint_split {V : Vars} {big : K} {jobs l1 l2 : List (Job K)} {j : Job K} (hs : System big V jobs) (e : jobs = l1 ++ j :: l2) (r : Nat)
    (hr : j.T.start ≤ r ∧ r < j.T.start + j.T.size) :
    (∀ k ∈ l1, ¬ (k.T.start ≤ r ∧ r < k.T.start + k.T.size)) ∧ ∀ k ∈ l2, ¬ (k.T.start ≤ r ∧ r < k.T.start + k.T.size) := by
  have h := hs.disjoint
  rw [e, List.pairwise_append] at h
  refine ⟨fun k hk hkr => h.2.2 k hk j List.mem_cons_self r hkr hr, fun k hk => ?_⟩
  exact (List.pairwise_cons.mp h.2.1).1 k hk r hr

theorem mems_clean {big : K} {V : Vars} {jobs : List (Job K)} (hs : System big V jobs) (n : Nat) (m : Mem K) (h : Mems V jobs m) :
    ∀ j ∈ jobs, ∀ r, j.T.start ≤ r → r < j.T.start + j.T.size → Clean j.S V n (m.A r) := by
  induction h with
  | init m h => intro j _ r _ _ c _ _; exact h r c
  | step m D h ih =>
    intro j hj r h1 h2
    refine round_clean jobs D r j rfl hs.within ?_ m (ih j hj r h1 h2)
    obtain ⟨l1, l2, e⟩ := List.append_of_mem hj
    obtain ⟨d1, d2⟩ := disjoint_split hs e r ⟨h1, h2⟩
    intro k hk
    rw [e] at hk
    rcases List.mem_append.mp hk with hk | hk
    · exact .inr (d1 k hk)
    · rcases List.mem_cons.mp hk with rfl | hk
      · exact .inl rfl
      · exact .inr (d2 k hk)

/-- The meaning of the rows of one of the assignments, after all have been run, any number of times -/
theorem round_exact {big : K} {V : Vars} {jobs : List (Job K)} (hs : System big V jobs) (n : Nat) (m : Mem K) (hm : Mems V jobs m) (D : Job K → Data K)
    (j : Job K) (hj : j ∈ jobs) (hok : Ok j.S V (D j) n) (hw : ∀ i < j.S.size, 0 < j.fl.omega (D j).w i) (z : Nat → K) :
    TgtSat n j.T (round V jobs D m) z ↔ SrcSat j.S V (D j) (value j.S V (D j) z) ∧ BigSide big j.S j.T V (D j) z := by
  obtain ⟨l1, l2, e⟩ := List.append_of_mem hj
  have hw1 : ∀ k ∈ l1, k.o.Within k.S k.T V := fun k hk => hs.within k (by rw [e]; exact List.mem_append_left _ hk)
  have hw2 : ∀ k ∈ l2, k.o.Within k.S k.T V := fun k hk => hs.within k (by rw [e]; exact List.mem_append_right _ (List.mem_cons_of_mem _ hk))
  have er : round V jobs D m = round V l2 D (j.o.run V (D j) (round V l1 D m)) := by
    rw [e]; simp only [round, List.foldl_append, List.foldl_cons]
  rw [← assembled_exact (hs.built j hj) hok hw (round V l1 D m) ?_ z, er]
  · unfold TgtSat row
    refine forall_congr' fun r => forall_congr' fun h1 => forall_congr' fun h2 => ?_
    obtain ⟨fA, fv⟩ := round_frame l2 D r hw2 (disjoint_split hs e r ⟨h1, h2⟩).2 (j.o.run V (D j) (round V l1 D m))
    rw [fA, fv, fv, fv]
  · intro r h1 h2
    rw [(round_frame l1 D r hw1 (disjoint_split hs e r ⟨h1, h2⟩).1 m).1]
    exact mems_clean hs n m hm j hj r h1 h2

/-! ## The properties -/

/-- A one sided constraint is not assembled in a double sided target with opposite right hand side. -/
def SidesOk (j : Job K) : Prop := j.T.type = .doubleSided → (j.S.type = .greaterThan ∨ j.S.type = .lowerThan) → j.T.rhs = .asGiven

/-- The images of the point, without the constants of the substitutions, are within `±big`. -/
def Within (big : K) (V : Vars) (D : Data K) (S : Src) (z : Nat → K) : Prop :=
  ∀ i < S.size, -big ≤ image S V D (value S V D z) i - image S V D (const S D) i ∧
    image S V D (value S V D z) i - image S V D (const S D) i ≤ big

/-- **C39**, with substitutions: after any number of rounds, a point satisfies the rows of all the targets iff the source constraints hold for
the values of the variables at this point, those that are substituted having the value of their substitution. -/
theorem C39_substituted_partial {big : K} {V : Vars} {jobs : List (Job K)} (hs : System big V jobs) (n : Nat) (m : Mem K) (hm : Mems V jobs m)
    (D : Job K → Data K) (hok : ∀ j ∈ jobs, Ok j.S V (D j) n) (hw : ∀ j ∈ jobs, ∀ i < j.S.size, 0 < j.fl.omega (D j).w i)
    (hside : ∀ j ∈ jobs, SidesOk j) (z : Nat → K) (hz : ∀ j ∈ jobs, Within big V (D j) j.S z) :
    (∀ j ∈ jobs, TgtSat n j.T (round V jobs D m) z) ↔ ∀ j ∈ jobs, SrcSat j.S V (D j) (value j.S V (D j) z) := by
  refine forall_congr' fun j => forall_congr' fun hj => ?_
  rw [round_exact hs n m hm D j hj (hok j hj) (hw j hj) z]
  refine ⟨fun h => h.1, fun h => ⟨h, ?_⟩⟩
  intro hT i hi
  have hz' := hz j hj i hi
  refine ⟨fun hS => ?_, fun hS => ?_⟩
  · rw [hside j hj hT (.inl hS)]; exact hz'.2
  · rw [hside j hj hT (.inr hS)]; exact hz'.1

/-- **C34**, without substitutions: the values of the variables are those of the point. -/
theorem C34_assembled_partial {big : K} {V : Vars} {jobs : List (Job K)} (hs : System big V jobs) (hns : ∀ j ∈ jobs, j.S.subs = []) (n : Nat)
    (m : Mem K) (hm : Mems V jobs m) (D : Job K → Data K) (hok : ∀ j ∈ jobs, Ok j.S V (D j) n)
    (hw : ∀ j ∈ jobs, ∀ i < j.S.size, 0 < j.fl.omega (D j).w i) (hside : ∀ j ∈ jobs, SidesOk j) (z : Nat → K)
    (hz : ∀ j ∈ jobs, ∀ i < j.S.size, -big ≤ image j.S V (D j) (fun x k => z (V.col x + k)) i ∧ image j.S V (D j) (fun x k => z (V.col x + k)) i ≤ big) :
    (∀ j ∈ jobs, TgtSat n j.T (round V jobs D m) z) ↔ ∀ j ∈ jobs, SrcSat j.S V (D j) fun x k => z (V.col x + k) := by
  have hsub : ∀ j ∈ jobs, ∀ x, j.S.sub x = none := fun j hj x => by simp [Src.sub, hns j hj]
  have hv : ∀ j ∈ jobs, value j.S V (D j) z = fun x k => z (V.col x + k) := by
    intro j hj; funext x k; simp [value, hsub j hj]
  have hc : ∀ j ∈ jobs, ∀ i, image j.S V (D j) (const j.S (D j)) i = 0 := by
    intro j hj i
    have : const j.S (D j) = fun _ _ => 0 := by funext x k; simp [const, hsub j hj]
    rw [this]
    apply List.sum_eq_zero
    intro t ht
    obtain ⟨x, _, rfl⟩ := List.mem_map.mp ht
    simp
  rw [C39_substituted_partial hs n m hm D hok hw hside z (by
    intro j hj i hi
    rw [hv j hj, hc j hj, sub_zero]
    exact hz j hj i hi)]
  exact forall_congr' fun j => forall_congr' fun hj => by rw [hv j hj]

/-- **C35**, right hand side as given: the missing side of a one sided constraint constrains nothing within `±big`. -/
theorem C35_as_given_partial {big : K} {V : Vars} {jobs : List (Job K)} (hs : System big V jobs) (n : Nat) (m : Mem K) (hm : Mems V jobs m)
    (D : Job K → Data K) (j : Job K) (hj : j ∈ jobs) (hok : Ok j.S V (D j) n) (hw : ∀ i < j.S.size, 0 < j.fl.omega (D j).w i)
    (hT : j.T.rhs = .asGiven) (z : Nat → K) (hz : Within big V (D j) j.S z) :
    TgtSat n j.T (round V jobs D m) z ↔ SrcSat j.S V (D j) (value j.S V (D j) z) := by
  rw [round_exact hs n m hm D j hj hok hw z]
  refine ⟨fun h => h.1, fun h => ⟨h, ?_⟩⟩
  intro _ i hi
  have hz' := hz i hi
  rw [hT]
  exact ⟨fun _ => hz'.2, fun _ => hz'.1⟩

/-- **C35** is false with an opposite right hand side: no point within `±big` satisfies the rows of a one sided constraint assembled in a
double sided target, whatever the constraint. -/
theorem C35_opposite_false {big : K} {V : Vars} {jobs : List (Job K)} (hs : System big V jobs) (n : Nat) (m : Mem K) (hm : Mems V jobs m)
    (D : Job K → Data K) (j : Job K) (hj : j ∈ jobs) (hok : Ok j.S V (D j) n) (hw : ∀ i < j.S.size, 0 < j.fl.omega (D j).w i)
    (hT : j.T.type = .doubleSided) (hR : j.T.rhs = .opposite) (hS : j.S.type = .greaterThan ∨ j.S.type = .lowerThan) (hsz : 0 < j.S.size)
    (z : Nat → K) (hz : ∀ i < j.S.size, -big < image j.S V (D j) (value j.S V (D j) z) i - image j.S V (D j) (const j.S (D j)) i ∧
      image j.S V (D j) (value j.S V (D j) z) i - image j.S V (D j) (const j.S (D j)) i < big) :
    ¬ TgtSat n j.T (round V jobs D m) z := by
  rw [round_exact hs n m hm D j hj hok hw z]
  rintro ⟨_, hb⟩
  have h0 := hb hT 0 hsz
  have hz0 := hz 0 hsz
  rw [hR] at h0
  simp only [side, neg_neg] at h0
  rcases hS with hS | hS
  · exact absurd (h0.1 hS) (not_le.mpr hz0.1)
  · exact absurd (h0.2 hS) (not_le.mpr hz0.2)

/-- The sources a target can represent: an equality in a target for equalities or with two sides, an inequality in any other target; a source
with a right-hand side in a target with one; as many rows, twice as many for two sides in a one-sided target. -/
def Fits (S : Src) (T : Target) : Prop :=
  (S.type = .equal → T.type = .equal ∨ T.type = .doubleSided) ∧ (S.type ≠ .equal → T.type ≠ .equal) ∧
  ((S.rhs ≠ .zero ∨ ∃ p ∈ S.subs, p.2.useB = true) → T.rhs ≠ .zero) ∧
  T.size = (if S.type = .doubleSided ∧ T.type ≠ .doubleSided then 2 * S.size else S.size)

/-- An assignment is refused exactly when the target cannot represent the source or a variable is not in the target. -/
theorem C34_accepted (big : K) (S : Src) (T : Target) (V : Vars) (fl : Flags) :
    (checkTarget S T = true ↔ Fits S T) ∧ ((∃ o, create big S T V fl = some o) ↔ Fits S T ∧ mapped S V = true) := by
  have h1 : checkTarget S T = true ↔ Fits S T := by
    unfold checkTarget Fits
    simp only [Bool.and_eq_true, Bool.not_eq_true', Bool.and_eq_false_iff, decide_eq_false_iff_not, List.any_eq_true]
    generalize (∃ x ∈ S.subs, x.2.useB = true) = P
    by_cases h1 : S.type = .equal
    · simp [h1]; tauto
    · by_cases h2 : S.type = .doubleSided
      · by_cases h3 : T.type = .doubleSided
        · simp [h2, h3]; tauto
        · simp [h2, h3]; tauto
      · simp [h1, h2]; tauto
  refine ⟨h1, ?_⟩
  unfold create
  constructor
  · rintro ⟨o, ho⟩
    by_cases hc : (checkTarget S T && mapped S V) = true
    · rw [Bool.and_eq_true] at hc
      exact ⟨h1.mp hc.1, hc.2⟩
    · rw [if_neg hc] at ho; simp at ho
  · rintro ⟨hf, hm⟩
    rw [if_pos (by rw [Bool.and_eq_true]; exact ⟨h1.mpr hf, hm⟩)]
    obtain ⟨f1, f2, -, -⟩ := hf
    unfold buildOps
    cases hS : S.type <;> cases hT : T.type <;> simp_all

/-- An assignment does not change anything outside of the range of its target. -/
theorem C34_frame {big : K} {V : Vars} {S : Src} {T : Target} {fl : Flags} {o : Ops K} (hb : create big S T V fl = some o)
    (hf : ∀ x i, S.sub x = some i → ∀ y ∈ i.vars, S.sub y = none) (D : Data K) (m : Mem K) (r : Nat) (hr : ¬ (T.start ≤ r ∧ r < T.start + T.size)) :
    (o.run V D m).A r = m.A r ∧ ∀ c, (o.run V D m).vec c r = m.vec c r := by
  have w : o.Within S T V := by
    refine build_within ?_ (create_some hb).2.2
    intro x y hy
    cases hs : S.sub x with
    | none => simp [subVars, hs] at hy
    | some i => simp only [subVars, hs] at hy; exact hf x i hs y hy
  exact ⟨within_frame_A w D m r hr, fun c => within_frame_vec w D m c r hr⟩

end

/-! ## The targets of the solvers -/

/-- The solvers -/
inductive Solver where
  | lssol | lexls | lexlsHierarchical | qld | quadprog
deriving Repr, DecidableEq

/-- What is assigned -/
inductive Kind where
  | equality | inequality | objective
deriving Repr, DecidableEq

/-- The conventions of the targets the solvers create (LSSOLLeastSquareSolver.cpp, lines 102, 109, 118; LexLSLeastSquareSolver.cpp, lines 125, 132,
141; LexLSHierarchicalLeastSquareSolver.cpp, lines 167, 175; QLDLeastSquareSolver.cpp, lines 85, 92-93, 100;
QuadprogLeastSquareSolver.cpp, lines 116, 123, 132). The hierarchical solver has no separate objectives. -/
def convention : Solver → Kind → CType × Rhs
  | .lssol, .objective => (.equal, .asGiven)
  | .lssol, _ => (.doubleSided, .asGiven)
  | .lexls, _ => (.doubleSided, .asGiven)
  | .lexlsHierarchical, _ => (.doubleSided, .asGiven)
  | .qld, .equality => (.equal, .opposite)
  | .qld, .inequality => (.greaterThan, .opposite)
  | .qld, .objective => (.equal, .opposite)
  | .quadprog, .equality => (.equal, .asGiven)
  | .quadprog, .inequality => (.lowerThan, .asGiven)
  | .quadprog, .objective => (.equal, .opposite)

/-- No solver uses the failing combination: **C34**, **C35** and **C39** hold for all the targets of the solvers. -/
theorem C35_solvers {K : Type} (j : Job K) (s : Solver) (k : Kind) (h : (j.T.type, j.T.rhs) = convention s k) : SidesOk j := by
  intro hT _
  cases s <;> cases k <;> simp_all [convention]

/-! ## Concrete cases -/

/-- Three variables of size 1: 0 is in column 0, 1 is substituted, 2 is in column 1. -/
def exV : Vars := ⟨fun _ => 1, fun x => x == 0 || x == 2, fun x => if x = 2 then 1 else 0⟩

/-- `3 x_0 + 5 x_1 ≥ 1` where `x_1 = 2 x_2 + 7` -/
def exS1 : Src := ⟨.greaterThan, .asGiven, 1, [0, 1], fun _ => .other, [(1, ⟨[2], true⟩)]⟩
/-- `x_0 = 4` -/
def exS2 : Src := ⟨.equal, .opposite, 1, [0], fun _ => .identity, []⟩
/-- `x_0 ≥ 0` -/
def exS3 : Src := ⟨.greaterThan, .zero, 1, [0], fun _ => .identity, []⟩

def exD1 : Data ℚ := ⟨fun x _ _ => if x = 0 then 3 else 5, fun _ => 0, fun _ => 1, fun _ => 0, fun _ _ _ _ => 2, fun _ _ => 7,
  ⟨1, -1, fun _ => 1, fun _ => -1⟩⟩
def exD2 : Data ℚ := ⟨fun _ _ _ => 1, fun _ => -4, fun _ => 0, fun _ => 0, fun _ _ _ _ => 0, fun _ _ => 0, ⟨1, -1, fun _ => 1, fun _ => -1⟩⟩

def exT1 : Target := ⟨.doubleSided, .asGiven, 0, 1⟩
def exT2 : Target := ⟨.doubleSided, .asGiven, 1, 1⟩
def exT3 : Target := ⟨.doubleSided, .opposite, 0, 1⟩

def exJ1 : Job ℚ := ⟨exS1, exT1, ⟨true, true⟩, (create 1000 exS1 exT1 exV ⟨true, true⟩).getD .nil⟩
def exJ2 : Job ℚ := ⟨exS2, exT2, ⟨true, true⟩, (create 1000 exS2 exT2 exV ⟨true, true⟩).getD .nil⟩
def exJ3 : Job ℚ := ⟨exS3, exT3, ⟨true, true⟩, (create 1000 exS3 exT3 exV ⟨true, true⟩).getD .nil⟩

/-- A matrix of zeros, and vectors of anything -/
def exM : Mem ℚ := ⟨fun _ _ => 0, fun _ _ => 42⟩

theorem ex_known (x : Nat) (h : exV.known x = true) : x = 0 ∨ x = 2 := by simpa [exV] using h

theorem ex_range (x : Nat) (h : exV.known x = true) : exV.col x + exV.dim x ≤ 2 := by
  rcases ex_known x h with rfl | rfl <;> decide

theorem ex_disj (x y : Nat) (hx : exV.known x = true) (hy : exV.known y = true) (hne : x ≠ y) (j : Nat)
    (hj : exV.col x ≤ j ∧ j < exV.col x + exV.dim x) : ¬ (exV.col y ≤ j ∧ j < exV.col y + exV.dim y) := by
  rcases ex_known x hx with rfl | rfl <;> rcases ex_known y hy with rfl | rfl <;> simp [exV] at * <;> omega

theorem ex_sub1 (x : Nat) : exS1.sub x = if x = 1 then some ⟨[2], true⟩ else none := by
  by_cases h : x = 1
  · subst h; rfl
  · simp [Src.sub, exS1, h]; intro h'; exact absurd h'.symm h

theorem ex_ok1 : Ok exS1 exV exD1 2 := by
  refine ⟨by decide, ex_range, ex_disj, by decide, by simp [exS1], by simp [exS1], ?_, ?_, rfl, fun _ => rfl⟩
  · intro x i hs hb
    rw [ex_sub1] at hs
    split at hs <;> simp at hs
    rw [← hs] at hb; simp at hb
  · intro x y hy
    simp only [subVars, ex_sub1] at hy
    rw [ex_sub1]
    by_cases h : x = 1
    · simp [h] at hy; simp [hy]
    · simp [h] at hy

theorem ex_ok2 (T : CType) (R : Rhs) : Ok ⟨T, R, 1, [0], fun _ => .identity, []⟩ exV exD2 2 := by
  refine ⟨rfl, ex_range, ex_disj, by simp, ?_, by simp, by simp [Src.sub], by simp [subVars, Src.sub], rfl, fun _ => rfl⟩
  intro x _
  refine ⟨rfl, ?_⟩
  intro i hi k hk
  simp only at hi hk
  rw [show i = k by omega]
  simp [exD2]

theorem ex_system : System (1000 : ℚ) exV [exJ1, exJ2] := by
  refine ⟨?_, ?_, ?_⟩
  · intro j hj
    simp only [List.mem_cons, List.not_mem_nil, or_false] at hj
    rcases hj with rfl | rfl <;> rfl
  · intro j hj x i hs y hy
    simp only [List.mem_cons, List.not_mem_nil, or_false] at hj
    rcases hj with rfl | rfl
    · simp only [exJ1, ex_sub1] at hs ⊢
      split at hs <;> simp at hs
      subst hs; simp at hy; simp [hy]
    · simp [exJ2, exS2, Src.sub] at hs
  · simp only [List.pairwise_cons, List.mem_singleton, forall_eq, List.Pairwise.nil, and_true, List.not_mem_nil, false_implies, implies_true]
    intro r h
    simp only [exJ1, exJ2, exT1, exT2] at *
    omega

/-- The data of the two constraints -/
def exD (j : Job ℚ) : Data ℚ := if j.T.start = 0 then exD1 else exD2

/-- Two constraints, one with a substitution, after three rounds: the hypotheses of `C39_substituted_partial` are met at the point
`x_0 = 4`, `x_2 = -4`, where both constraints hold: `3·4 + 5·(2·(-4) + 7) = 7 ≥ 1`. -/
example : ∀ j ∈ [exJ1, exJ2], TgtSat 2 j.T (round exV [exJ1, exJ2] exD (round exV [exJ1, exJ2] exD (round exV [exJ1, exJ2] exD exM)))
    fun c => if c = 0 then 4 else -4 := by
  have hok : ∀ j ∈ [exJ1, exJ2], Ok j.S exV (exD j) 2 := by
    intro j hj
    simp only [List.mem_cons, List.not_mem_nil, or_false] at hj
    rcases hj with rfl | rfl
    · exact ex_ok1
    · exact ex_ok2 _ _
  refine (C39_substituted_partial ex_system 2 _ (.step _ _ (.step _ _ (.init _ (fun _ _ => rfl)))) exD hok ?_ ?_ _ ?_).mpr ?_
  · intro j hj i _
    simp only [List.mem_cons, List.not_mem_nil, or_false] at hj
    rcases hj with rfl | rfl <;> simp [Flags.omega, Flags.wt, Wt.at, exJ1, exJ2]
  · intro j hj _ _
    simp only [List.mem_cons, List.not_mem_nil, or_false] at hj
    rcases hj with rfl | rfl <;> rfl
  · intro j hj i hi
    simp only [List.mem_cons, List.not_mem_nil, or_false] at hj
    rcases hj with rfl | rfl
    · have e1 : exS1.sub 0 = none := rfl
      have e2 : exS1.sub 1 = some ⟨[2], true⟩ := rfl
      have e3 : exS1.parts = [0, 1] := rfl
      simp [image, e3, value, const, e1, e2, exV, exD, exJ1, exT1, exD1]
      constructor <;> norm_num
    · have e1 : exS2.sub 0 = none := rfl
      have e3 : exS2.parts = [0] := rfl
      simp [image, e3, value, const, e1, exV, exD, exJ2, exT2, exD2]
      constructor <;> norm_num
  · intro j hj i hi
    simp only [List.mem_cons, List.not_mem_nil, or_false] at hj
    rcases hj with rfl | rfl
    · have e1 : exS1.sub 0 = none := rfl
      have e2 : exS1.sub 1 = some ⟨[2], true⟩ := rfl
      have e3 : exS1.parts = [0, 1] := rfl
      show (1 : ℚ) ≤ image exS1 exV exD1 _ i
      simp [image, e3, value, e1, e2, exV, exJ1, exD, exT1, exD1]
      norm_num
    · have e1 : exS2.sub 0 = none := rfl
      have e3 : exS2.parts = [0] := rfl
      show image exS2 exV exD2 _ i = -(-4)
      simp [image, e3, value, e1, exV, exJ2, exD, exT2, exD2]

/-- **C34** is false for a one sided constraint in a double sided target with opposite right hand side: `x_0 ≥ 0` holds at `x_0 = 1`, the
assembled rows do not. (The rows are `-0 ≤ x_0 ≤ -1000`.) -/
theorem C34_opposite_false :
    SrcSat exS3 exV exD2 (value exS3 exV exD2 fun _ => 1) ∧ ¬ TgtSat 2 exT3 (round exV [exJ3] (fun _ => exD2) exM) fun _ => 1 := by
  have hs : System (1000 : ℚ) exV [exJ3] := by
    refine ⟨?_, ?_, by simp⟩
    · intro j hj; simp only [List.mem_singleton] at hj; subst hj; rfl
    · intro j hj x i hx; simp only [List.mem_singleton] at hj; subst hj; simp [exJ3, exS3, Src.sub] at hx
  have e1 : exS3.sub 0 = none := rfl
  have e3 : exS3.parts = [0] := rfl
  constructor
  · intro i hi
    show (0 : ℚ) ≤ image exS3 exV exD2 _ i
    simp [image, e3, value, e1, exV, exD2]
  · refine C35_opposite_false hs 2 exM (.init _ (fun _ _ => rfl)) (fun _ => exD2) exJ3 (by simp) (ex_ok2 _ _) ?_ rfl rfl (.inl rfl) (by decide) _ ?_
    · intro i _; simp [Flags.omega, Flags.wt, Wt.at, exJ3]
    · intro i _
      have e4 : exJ3.S = exS3 := rfl
      simp [image, e3, e4, value, const, e1, exV, exD2]
      norm_num

-- the theorems applied to the constraints of the example, at the point (4, -4)
example : ∀ j ∈ [exJ2], TgtSat 2 j.T (round exV [exJ2] (fun _ => exD2) exM) fun _ => 4 := by
  have hs : System (1000 : ℚ) exV [exJ2] := by
    refine ⟨?_, ?_, by simp⟩
    · intro j hj; simp only [List.mem_singleton] at hj; subst hj; rfl
    · intro j hj x i hx; simp only [List.mem_singleton] at hj; subst hj; simp [exJ2, exS2, Src.sub] at hx
  have e3 : exS2.parts = [0] := rfl
  refine (C34_assembled_partial hs (by simp [exJ2, exS2]) 2 exM (.init _ (fun _ _ => rfl)) (fun _ => exD2) ?_ ?_ ?_ _ ?_).2 ?_
  · intro j hj; simp only [List.mem_singleton] at hj; subst hj; exact ex_ok2 _ _
  · intro j hj i _; simp only [List.mem_singleton] at hj; subst hj; simp [Flags.omega, Flags.wt, Wt.at, exJ2]
  · intro j hj _ _; simp only [List.mem_singleton] at hj; subst hj; rfl
  · intro j hj i _
    simp only [List.mem_singleton] at hj; subst hj
    have e4 : exJ2.S = exS2 := rfl
    simp [image, e3, e4, exV, exD2]
    norm_num
  · intro j hj i _
    simp only [List.mem_singleton] at hj; subst hj
    show image exS2 exV exD2 _ i = -(-4)
    simp [image, e3, exV, exD2]
example : TgtSat 2 exT1 (round exV [exJ1, exJ2] exD exM) fun c => if c = 0 then 4 else -4 := by
  have e1 : exS1.sub 0 = none := rfl
  have e2 : exS1.sub 1 = some ⟨[2], true⟩ := rfl
  have e3 : exS1.parts = [0, 1] := rfl
  refine (C35_as_given_partial ex_system 2 exM (.init _ (fun _ _ => rfl)) exD exJ1 (by simp) ex_ok1 ?_ rfl _ ?_).2 ?_
  · intro i _; simp [Flags.omega, Flags.wt, Wt.at, exJ1]
  · intro i _
    simp [image, e3, value, const, e1, e2, exV, exD, exJ1, exT1, exD1]
    constructor <;> norm_num
  · intro i _
    show (1 : ℚ) ≤ image exS1 exV exD1 _ i
    simp [image, e3, value, e1, e2, exV, exJ1, exD, exT1, exD1]
    norm_num
example : (exJ1.o.run exV exD1 exM).A 5 = exM.A 5 ∧ ∀ c, (exJ1.o.run exV exD1 exM).vec c 5 = exM.vec c 5 :=
  C34_frame (ex_system.built exJ1 (by simp)) (ex_system.flat exJ1 (by simp)) exD1 exM 5 (by simp [exJ1, exT1])
example : SidesOk exJ1 := C35_solvers exJ1 .lssol .inequality rfl

end Verif.C34
