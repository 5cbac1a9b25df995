import Verif.Lemmas.Assignment3
import Mathlib.Algebra.Order.Ring.Rat
import Mathlib.Algebra.Field.Rat
import Mathlib.Tactic.NormNum
import Mathlib.Tactic.Linarith
/-!
# C38: the bounds given to the solver are the intersection of the bound constraints

A bound is a linear constraint on one variable with an invertible diagonal Jacobian. The solver resets its bounds to `±big` and runs the
assignments of all the bounds (src/solver/LeastSquareSolver.cpp, lines 85-99 and 146-148); each is built with `first = false`.
-/
set_option autoImplicit false
set_option linter.unusedSectionVars false

namespace Verif.C38
open Verif Verif.CA Verif.AS Finset

section
variable {K : Type} [Field K] [LinearOrder K]

/-- A bound constraint on a variable of size `n` placed at `start` in the vector of unknowns -/
structure Bound (K : Type) where
  type : CType
  rhs : Rhs
  p : BProp
  start : Nat
  n : Nat
  jac : Nat → Nat → K
  e : Nat → K
  l : Nat → K
  u : Nat → K
  /-- what memory holds for the weights: the constructor for bounds does not write them (Assignment.cpp, lines 38-48) -/
  w : Weights K

/-- The Jacobian is what the properties say: diagonal and invertible, the identity or minus the identity. -/
def Bound.Honest (b : Bound K) : Prop :=
  (∀ i < b.n, ∀ j < b.n, i ≠ j → b.jac i j = 0) ∧ (∀ i < b.n, b.jac i i ≠ 0) ∧
  (b.p = .identity → ∀ i < b.n, b.jac i i = 1) ∧ (b.p = .minusIdentity → ∀ i < b.n, b.jac i i = -1)

/-! ## Specification -/

/-- The value meant by a vector, for a convention on the right hand side -/
def side (r : Rhs) (v : K) : K :=
  match r with
  | .zero => 0
  | .asGiven => v
  | .opposite => -v

/-- The constraint holds at the point `z`. -/
def Bound.Sat (b : Bound K) (z : Nat → K) : Prop :=
  ∀ i < b.n,
    match b.type with
    | .equal => ∑ j ∈ range b.n, b.jac i j * z (b.start + j) = side b.rhs (b.e i)
    | .greaterThan => side b.rhs (b.l i) ≤ ∑ j ∈ range b.n, b.jac i j * z (b.start + j)
    | .lowerThan => ∑ j ∈ range b.n, b.jac i j * z (b.start + j) ≤ side b.rhs (b.u i)
    | .doubleSided => side b.rhs (b.l i) ≤ ∑ j ∈ range b.n, b.jac i j * z (b.start + j) ∧
        ∑ j ∈ range b.n, b.jac i j * z (b.start + j) ≤ side b.rhs (b.u i)

/-- The point is in the box. -/
def InBox (N : Nat) (l u z : Nat → K) : Prop := ∀ k < N, l k ≤ z k ∧ z k ≤ u k

/-! ## Running the assignments -/

/-- The source of the assignment -/
def Bound.src (b : Bound K) : Src := ⟨b.type, b.rhs, b.n, [0], fun _ => .other, []⟩

/-- The target of the assignment (AssignmentTarget.cpp, lines 36-39) -/
def Bound.tgt (b : Bound K) : Target := ⟨.doubleSided, .asGiven, b.start, b.n⟩

/-- What the assignment reads; it has no substitution, and its weights, which are not written, are any. -/
def Bound.data (b : Bound K) : Data K := ⟨fun _ => b.jac, b.e, b.l, b.u, fun _ _ _ _ => 0, fun _ _ => 0, b.w⟩

/-- The run of the assignment of a bound (Assignment.cpp, lines 38-48 and 115-128) -/
def Bound.run (big : K) (first : Bool) (b : Bound K) (m : Mem K) : Mem K :=
  (buildBounds big b.src b.tgt 0 b.n b.p first).foldl (fun m op => op.run ⟨fun _ => b.n, fun _ => true, fun _ => b.start⟩ b.data m) m

/-- The bounds after the reset (e.g. src/solver/QLDLeastSquareSolver.cpp, lines 111-115) and all the assignments -/
def runAll (big : K) (bs : List (Bound K)) (m : Mem K) : Mem K :=
  bs.foldl (fun m b => b.run big false m)
    ⟨m.A, fun c => if c = .l then fun _ => -big else if c = .u then fun _ => big else m.vec c⟩

/-- The two numbers the assignment computes for a row -/
def Bound.pair (big : K) (b : Bound K) (i : Nat) : K × K :=
  match b.type with
  | .equal => (side b.rhs (b.e i), side b.rhs (b.e i))
  | .greaterThan => (side b.rhs (b.l i), big)
  | .lowerThan => (-big, side b.rhs (b.u i))
  | .doubleSided => (side b.rhs (b.l i), side b.rhs (b.u i))

/-- ... and for a diagonal Jacobian: the constants are multiplied by the coefficient -/
def Bound.dpair (big : K) (b : Bound K) (i : Nat) : K × K :=
  match b.type with
  | .equal => ((b.jac i i)⁻¹ * side b.rhs (b.e i), (b.jac i i)⁻¹ * side b.rhs (b.e i))
  | .greaterThan => ((b.jac i i)⁻¹ * side b.rhs (b.l i), b.jac i i * big)
  | .lowerThan => (b.jac i i * -big, (b.jac i i)⁻¹ * side b.rhs (b.u i))
  | .doubleSided => ((b.jac i i)⁻¹ * side b.rhs (b.l i), (b.jac i i)⁻¹ * side b.rhs (b.u i))

/-- The interval of a row -/
def Bound.ival (big : K) (b : Bound K) (i : Nat) : K × K :=
  match b.p with
  | .identity => b.pair big i
  | .minusIdentity => (-(b.pair big i).2, -(b.pair big i).1)
  | .diagonal => (min (b.dpair big i).1 (b.dpair big i).2, max (b.dpair big i).2 (b.dpair big i).1)

theorem sum_diag (b : Bound K) (h : b.Honest) (i : Nat) (hi : i < b.n) (v : Nat → K) : ∑ j ∈ range b.n, b.jac i j * v j = b.jac i i * v i := by
  rw [Finset.sum_eq_single i]
  · intro j hj hne; rw [h.1 i hi j (mem_range.mp hj) (Ne.symm hne), zero_mul]
  · intro hn; exact absurd (mem_range.mpr hi) hn

theorem run_at (big : K) (first : Bool) (b : Bound K) (h : b.Honest) (m : Mem K) (k : Nat) :
    (b.run big first m).vec .l k =
        (if b.start ≤ k ∧ k < b.start + b.n then
          (if first then (b.ival big (k - b.start)).1 else max (m.vec .l k) (b.ival big (k - b.start)).1) else m.vec .l k) ∧
    (b.run big first m).vec .u k =
        (if b.start ≤ k ∧ k < b.start + b.n then
          (if first then (b.ival big (k - b.start)).2 else min (m.vec .u k) (b.ival big (k - b.start)).2) else m.vec .u k) := by
  obtain ⟨ty, rhs, p, start, n, jac, e, l, u, w⟩ := b
  by_cases hk : start ≤ k ∧ k < start + n
  · have hlt : k - start < n := by omega
    have hs := sum_diag _ h (k - start) hlt
    simp only at hs
    cases p <;> cases ty <;> cases rhs <;> cases first <;>
      simp [Bound.run, buildBounds, addBounds, addSide, addSideD, addVec, addConst, addCell, Bound.src, Bound.tgt, Bound.data, boundFlags, Flags.wt,
        VOp.run_at, Seg.hits, Target.seg, Wt.at, VOp.mulVal, VFrom.val, assign1, Bound.ival, Bound.pair, Bound.dpair, side, hk, hs, hlt]
  · cases p <;> cases ty <;> cases rhs <;> cases first <;>
      simp [Bound.run, buildBounds, addBounds, addSide, addSideD, addVec, addConst, addCell, Bound.src, Bound.tgt, Bound.data, boundFlags, Flags.wt,
        VOp.run_at, Seg.hits, Target.seg, hk]

/-! ## The claim -/

variable [IsStrictOrderedRing K]

/-- What is missing for a diagonal Jacobian that is not known to be plus or minus the identity: the two sides must be in order, and the constant
put for a missing side, which is multiplied by the coefficient, must be beyond the other side and the point. -/
def Bound.Fits (big : K) (b : Bound K) (z : Nat → K) : Prop :=
  b.p = .diagonal → ∀ i < b.n,
    match b.type with
    | .equal => True
    | .greaterThan => side b.rhs (b.l i) ≤ b.jac i i * b.jac i i * big ∧ |z (b.start + i)| ≤ |b.jac i i| * big
    | .lowerThan => -(b.jac i i * b.jac i i * big) ≤ side b.rhs (b.u i) ∧ |z (b.start + i)| ≤ |b.jac i i| * big
    | .doubleSided => side b.rhs (b.l i) ≤ side b.rhs (b.u i)

/-- Dividing the two sides by the coefficient and sorting them -/
theorem sorted_iff (d l u x : K) (hd : d ≠ 0) (hlu : l ≤ u) :
    (min (d⁻¹ * l) (d⁻¹ * u) ≤ x ∧ x ≤ max (d⁻¹ * u) (d⁻¹ * l)) ↔ (l ≤ d * x ∧ d * x ≤ u) := by
  rcases lt_or_gt_of_ne hd with h | h
  · have hi : d⁻¹ < 0 := inv_lt_zero.mpr h
    have h1 : d⁻¹ * u ≤ d⁻¹ * l := mul_le_mul_of_nonpos_left hlu hi.le
    rw [min_eq_right h1, max_eq_right h1]
    have e1 : d⁻¹ * u ≤ x ↔ d * x ≤ u := by
      rw [← mul_le_mul_left_of_neg h, mul_inv_cancel_left₀ hd]
    have e2 : x ≤ d⁻¹ * l ↔ l ≤ d * x := by
      rw [← mul_le_mul_left_of_neg h, mul_inv_cancel_left₀ hd]
    rw [e1, e2]
    exact And.comm
  · have hi : 0 < d⁻¹ := inv_pos.mpr h
    have h1 : d⁻¹ * l ≤ d⁻¹ * u := mul_le_mul_of_nonneg_left hlu hi.le
    rw [min_eq_left h1, max_eq_left h1, inv_mul_le_iff₀ h, le_inv_mul_iff₀ h]

theorem dbig (d x : K) (hd : d ≠ 0) : d * x = d⁻¹ * (d * d * x) := by
  rw [mul_assoc, inv_mul_cancel_left₀ hd]

/-- One row of one bound -/
theorem row_iff (big : K) (b : Bound K) (h : b.Honest) (z : Nat → K) (hz : b.Fits big z) (i : Nat) (hi : i < b.n)
    (hb : -big ≤ z (b.start + i) ∧ z (b.start + i) ≤ big) :
    ((b.ival big i).1 ≤ z (b.start + i) ∧ z (b.start + i) ≤ (b.ival big i).2) ↔
      (match b.type with
      | .equal => b.jac i i * z (b.start + i) = side b.rhs (b.e i)
      | .greaterThan => side b.rhs (b.l i) ≤ b.jac i i * z (b.start + i)
      | .lowerThan => b.jac i i * z (b.start + i) ≤ side b.rhs (b.u i)
      | .doubleSided => side b.rhs (b.l i) ≤ b.jac i i * z (b.start + i) ∧ b.jac i i * z (b.start + i) ≤ side b.rhs (b.u i)) := by
  obtain ⟨h1, h2, h3, h4⟩ := h
  cases hp : b.p with
  | identity =>
    have hd := h3 hp i hi
    cases ht : b.type <;> simp only [Bound.ival, hp, Bound.pair, ht, hd, one_mul]
    · constructor
      · rintro ⟨a, c⟩; exact le_antisymm c a
      · intro e; exact ⟨e.ge, e.le⟩
    · exact ⟨fun a => a.1, fun a => ⟨a, hb.2⟩⟩
    · exact ⟨fun a => a.2, fun a => ⟨hb.1, a⟩⟩
  | minusIdentity =>
    have hd := h4 hp i hi
    cases ht : b.type <;> simp only [Bound.ival, hp, Bound.pair, ht, hd, neg_mul, one_mul]
    · constructor
      · rintro ⟨a, c⟩; apply le_antisymm <;> linarith
      · intro e; constructor <;> linarith
    · exact ⟨fun a => by linarith [a.2], fun a => ⟨by linarith [hb.1], by linarith⟩⟩
    · exact ⟨fun a => by linarith [a.1], fun a => ⟨by linarith, by linarith [hb.2]⟩⟩
    · exact ⟨fun a => ⟨by linarith [a.2], by linarith [a.1]⟩, fun a => ⟨by linarith [a.2], by linarith [a.1]⟩⟩
  | diagonal =>
    have hd := h2 i hi
    have hf := hz hp i hi
    have habs : |z (b.start + i)| ≤ |b.jac i i| * big →
        -(b.jac i i * b.jac i i * big) ≤ b.jac i i * z (b.start + i) ∧ b.jac i i * z (b.start + i) ≤ b.jac i i * b.jac i i * big := by
      intro ha
      have : |b.jac i i * z (b.start + i)| ≤ b.jac i i * b.jac i i * big := by
        rw [abs_mul, ← abs_mul_abs_self (b.jac i i), mul_assoc]
        exact mul_le_mul_of_nonneg_left ha (abs_nonneg _)
      exact abs_le.mp this
    cases ht : b.type <;> simp only [ht] at hf <;> simp only [Bound.ival, hp, Bound.dpair, ht]
    · rw [sorted_iff _ _ _ _ hd le_rfl]
      constructor
      · rintro ⟨a, c⟩; exact le_antisymm c a
      · intro e; exact ⟨e.ge, e.le⟩
    · rw [dbig _ big hd, sorted_iff _ _ _ _ hd hf.1]
      exact ⟨fun a => a.1, fun a => ⟨a, (habs hf.2).2⟩⟩
    · rw [dbig _ (-big) hd, mul_neg, sorted_iff _ _ _ _ hd hf.1]
      exact ⟨fun a => a.2, fun a => ⟨(habs hf.2).1, a⟩⟩
    · rw [sorted_iff _ _ _ _ hd hf]

theorem sat_rows (b : Bound K) (h : b.Honest) (z : Nat → K) :
    b.Sat z ↔ ∀ i < b.n,
      (match b.type with
      | .equal => b.jac i i * z (b.start + i) = side b.rhs (b.e i)
      | .greaterThan => side b.rhs (b.l i) ≤ b.jac i i * z (b.start + i)
      | .lowerThan => b.jac i i * z (b.start + i) ≤ side b.rhs (b.u i)
      | .doubleSided => side b.rhs (b.l i) ≤ b.jac i i * z (b.start + i) ∧ b.jac i i * z (b.start + i) ≤ side b.rhs (b.u i)) := by
  unfold Bound.Sat
  refine forall_congr' fun i => forall_congr' fun hi => ?_
  rw [sum_diag b h i hi (fun j => z (b.start + j))]

/-- One run, after other bounds, restricts the box to the points that satisfy the constraint. -/
theorem run_inter (big : K) (N : Nat) (b : Bound K) (h : b.Honest) (hN : b.start + b.n ≤ N) (m : Mem K) (z : Nat → K)
    (hz : b.Fits big z) (hb : ∀ k < N, -big ≤ z k ∧ z k ≤ big) :
    InBox N ((b.run big false m).vec .l) ((b.run big false m).vec .u) z ↔ InBox N (m.vec .l) (m.vec .u) z ∧ b.Sat z := by
  rw [sat_rows b h]
  constructor
  · intro hin
    constructor
    · intro k hk
      have := hin k hk
      rw [(run_at big false b h m k).1, (run_at big false b h m k).2] at this
      by_cases hr : b.start ≤ k ∧ k < b.start + b.n
      · rw [if_pos hr, if_pos hr] at this
        simp only [Bool.false_eq_true, if_false, max_le_iff, le_min_iff] at this
        exact ⟨this.1.1, this.2.1⟩
      · rwa [if_neg hr, if_neg hr] at this
    · intro i hi
      have := hin (b.start + i) (by omega)
      have hr : b.start ≤ b.start + i ∧ b.start + i < b.start + b.n := by omega
      rw [(run_at big false b h m _).1, (run_at big false b h m _).2, if_pos hr, if_pos hr] at this
      simp only [Bool.false_eq_true, if_false, max_le_iff, le_min_iff, Nat.add_sub_cancel_left] at this
      exact (row_iff big b h z hz i hi (hb _ (by omega))).mp ⟨this.1.2, this.2.2⟩
  · rintro ⟨hin, hs⟩ k hk
    have := hin k hk
    rw [(run_at big false b h m k).1, (run_at big false b h m k).2]
    by_cases hr : b.start ≤ k ∧ k < b.start + b.n
    · rw [if_pos hr, if_pos hr]
      simp only [Bool.false_eq_true, if_false, max_le_iff, le_min_iff]
      have hi : k - b.start < b.n := by omega
      have hk' : b.start + (k - b.start) = k := by omega
      have := (row_iff big b h z hz (k - b.start) hi (by rw [hk']; exact hb k hk)).mpr (hs _ hi)
      rw [hk'] at this
      exact ⟨⟨(hin k hk).1, this.1⟩, ⟨(hin k hk).2, this.2⟩⟩
    · rw [if_neg hr, if_neg hr]; exact this

/-- **C38**: whatever the bounds, on the same variable or not, the bounds given to the solver hold at a point within `±big` exactly when all the
bound constraints hold. Missing: the diagonal Jacobians that do not meet `Fits`, for which the claim is false (below). -/
theorem C38_intersection_partial (big : K) (N : Nat) (bs : List (Bound K)) (h : ∀ b ∈ bs, b.Honest) (hN : ∀ b ∈ bs, b.start + b.n ≤ N) (m : Mem K)
    (z : Nat → K) (hz : ∀ b ∈ bs, b.Fits big z) :
    InBox N ((runAll big bs m).vec .l) ((runAll big bs m).vec .u) z ↔ (∀ k < N, -big ≤ z k ∧ z k ≤ big) ∧ ∀ b ∈ bs, b.Sat z := by
  have key : ∀ (bs : List (Bound K)) (m : Mem K), (∀ b ∈ bs, b.Honest) → (∀ b ∈ bs, b.start + b.n ≤ N) → (∀ b ∈ bs, b.Fits big z) →
      (∀ k < N, -big ≤ z k ∧ z k ≤ big) →
      (InBox N ((bs.foldl (fun m b => b.run big false m) m).vec .l) ((bs.foldl (fun m b => b.run big false m) m).vec .u) z ↔
        InBox N (m.vec .l) (m.vec .u) z ∧ ∀ b ∈ bs, b.Sat z) := by
    intro bs
    induction bs with
    | nil => intro m _ _ _ _; simp
    | cons b bs ih =>
      intro m h1 h2 h3 hb
      simp only [List.foldl_cons]
      rw [ih _ (fun c hc => h1 c (by simp [hc])) (fun c hc => h2 c (by simp [hc])) (fun c hc => h3 c (by simp [hc])) hb,
        run_inter big N b (h1 b (by simp)) (h2 b (by simp)) m z (h3 b (by simp)) hb]
      simp only [List.mem_cons, forall_eq_or_imp, and_assoc]
  have mono : ∀ (bs : List (Bound K)) (m : Mem K), (∀ b ∈ bs, b.Honest) → ∀ k,
      m.vec .l k ≤ (bs.foldl (fun m b => b.run big false m) m).vec .l k ∧ (bs.foldl (fun m b => b.run big false m) m).vec .u k ≤ m.vec .u k := by
    intro bs
    induction bs with
    | nil => intro m _ k; exact ⟨le_rfl, le_rfl⟩
    | cons b bs ih =>
      intro m h1 k
      have h2 := ih (b.run big false m) (fun c hc => h1 c (by simp [hc])) k
      have h3 := run_at big false b (h1 b (by simp)) m k
      rw [h3.1, h3.2] at h2
      simp only [List.foldl_cons]
      by_cases hr : b.start ≤ k ∧ k < b.start + b.n
      · rw [if_pos hr, if_pos hr] at h2
        simp only [Bool.false_eq_true, if_false, max_le_iff, le_min_iff] at h2
        exact ⟨h2.1.1, h2.2.1⟩
      · rwa [if_neg hr, if_neg hr] at h2
  constructor
  · intro hin
    have hb : ∀ k < N, -big ≤ z k ∧ z k ≤ big := by
      intro k hk
      have hm := mono bs ⟨m.A, fun c => if c = .l then fun _ => -big else if c = .u then fun _ => big else m.vec c⟩ h k
      simp only [if_true, reduceCtorEq, if_false] at hm
      exact ⟨le_trans hm.1 (hin k hk).1, le_trans (hin k hk).2 hm.2⟩
    exact ⟨hb, ((key bs _ h hN hz hb).mp hin).2⟩
  · rintro ⟨hb, hs⟩
    refine (key bs _ h hN hz hb).mpr ⟨?_, hs⟩
    intro k hk
    simpa using hb k hk

/-- Without diagonal Jacobians other than plus or minus the identity there is no condition. -/
theorem C38_identity (big : K) (N : Nat) (bs : List (Bound K)) (h : ∀ b ∈ bs, b.Honest) (hN : ∀ b ∈ bs, b.start + b.n ≤ N)
    (hp : ∀ b ∈ bs, b.p ≠ .diagonal) (m : Mem K) (z : Nat → K) :
    InBox N ((runAll big bs m).vec .l) ((runAll big bs m).vec .u) z ↔ (∀ k < N, -big ≤ z k ∧ z k ≤ big) ∧ ∀ b ∈ bs, b.Sat z :=
  C38_intersection_partial big N bs h hN m z fun b hb hd => absurd hd (hp b hb)

/-- The result does not depend on the order of the bounds. -/
theorem C38_order (big : K) (bs bs' : List (Bound K)) (hp : bs.Perm bs') (h : ∀ b ∈ bs, b.Honest) (m : Mem K) (k : Nat) :
    (runAll big bs m).vec .l k = (runAll big bs' m).vec .l k ∧ (runAll big bs m).vec .u k = (runAll big bs' m).vec .u k := by
  unfold runAll
  generalize (⟨m.A, fun c => if c = .l then fun _ => -big else if c = .u then fun _ => big else m.vec c⟩ : Mem K) = m0
  have congr : ∀ (l : List (Bound K)) (m1 m2 : Mem K), (∀ b ∈ l, b.Honest) → m1.vec .l k = m2.vec .l k → m1.vec .u k = m2.vec .u k →
      (l.foldl (fun m b => b.run big false m) m1).vec .l k = (l.foldl (fun m b => b.run big false m) m2).vec .l k ∧
      (l.foldl (fun m b => b.run big false m) m1).vec .u k = (l.foldl (fun m b => b.run big false m) m2).vec .u k := by
    intro l
    induction l with
    | nil => intro m1 m2 _ a b; exact ⟨a, b⟩
    | cons b l ih =>
      intro m1 m2 hl a c
      refine ih _ _ (fun x hx => hl x (by simp [hx])) ?_ ?_
      · rw [(run_at big false b (hl b (by simp)) m1 k).1, (run_at big false b (hl b (by simp)) m2 k).1, a]
      · rw [(run_at big false b (hl b (by simp)) m1 k).2, (run_at big false b (hl b (by simp)) m2 k).2, c]
  induction hp generalizing m0 with
  | nil => exact ⟨rfl, rfl⟩
  | cons b _ ih => exact ih (fun x hx => h x (by simp [hx])) _
  | swap b c l =>
    have hb := h b (by simp)
    have hc := h c (by simp)
    refine congr l _ _ (fun x hx => h x (by simp [hx])) ?_ ?_
    · simp only [(run_at big false b hb _ k).1, (run_at big false c hc _ k).1, Bool.false_eq_true, if_false]
      split <;> split <;> simp [max_left_comm, max_comm]
    · simp only [(run_at big false b hb _ k).2, (run_at big false c hc _ k).2, Bool.false_eq_true, if_false]
      split <;> split <;> simp [min_left_comm, min_comm]
  | trans h1 _ ih1 ih2 =>
    have a := ih1 h m0
    have b := ih2 (fun x hx => h x (h1.mem_iff.mpr hx)) m0
    exact ⟨a.1.trans b.1, a.2.trans b.2⟩

/-- A bound built as the first one on its variable replaces the bounds. -/
theorem C38_first (big : K) (b : Bound K) (h : b.Honest) (m : Mem K) (z : Nat → K) (hz : b.Fits big z)
    (hb : ∀ i < b.n, -big ≤ z (b.start + i) ∧ z (b.start + i) ≤ big) :
    (∀ i < b.n, (b.run big true m).vec .l (b.start + i) ≤ z (b.start + i) ∧ z (b.start + i) ≤ (b.run big true m).vec .u (b.start + i)) ↔ b.Sat z := by
  rw [sat_rows b h]
  refine forall_congr' fun i => forall_congr' fun hi => ?_
  have hr : b.start ≤ b.start + i ∧ b.start + i < b.start + b.n := by omega
  rw [(run_at big true b h m _).1, (run_at big true b h m _).2, if_pos hr, if_pos hr]
  simp only [if_true, Nat.add_sub_cancel_left]
  exact row_iff big b h z hz i hi (hb i hi)

/-- Bounds with a one sided target: as soon as the target is not empty, the assignment takes a segment of an empty vector, or is dropped. -/
theorem C38_one_sided_false (S : Src) (T : Target) (hT : 0 < T.size) (x : Nat) (p : BProp) (f : RhsFun) (first : Bool) :
    addBound (K := K) S T x p f first = if p = .minusIdentity then some [] else none := by
  cases p <;> simp [addBound] <;> omega

end

/-! ## Concrete cases -/

/-- No bound yet -/
def exM : Mem ℚ := ⟨fun _ _ => 0, fun _ _ => 0⟩

/-- `2 x ∈ [l, u]` on a variable of size 1 -/
def ex2 (l u : ℚ) : Bound ℚ := ⟨.doubleSided, .asGiven, .diagonal, 0, 1, fun _ _ => 2, fun _ => 0, fun _ => l, fun _ => u, ⟨7, 5, fun _ => 3, fun _ => 2⟩⟩

theorem ex2_honest (l u : ℚ) : (ex2 l u).Honest := by
  refine ⟨?_, ?_, ?_, ?_⟩
  · intro i hi j hj hne
    have : i < 1 := hi
    have : j < 1 := hj
    omega
  · intro i _; simp [ex2]
  · intro h; exact absurd h (by simp [ex2])
  · intro h; exact absurd h (by simp [ex2])

/-- `-x ≥ -3` on the same variable -/
def ex3 : Bound ℚ := ⟨.greaterThan, .asGiven, .minusIdentity, 0, 1, fun _ _ => -1, fun _ => 0, fun _ => -3, fun _ => 0, ⟨7, 5, fun _ => 3, fun _ => 2⟩⟩

theorem ex3_honest : ex3.Honest := by
  refine ⟨?_, ?_, ?_, ?_⟩
  · intro i hi j hj hne
    have : i < 1 := hi
    have : j < 1 := hj
    omega
  · intro i _; simp [ex3]
  · intro h; exact absurd h (by simp [ex3])
  · intro _ i _; rfl

/-- The hypotheses hold for `2 x ∈ [4, 10]` and `-x ≥ -3`: the bounds are `2 ≤ x ≤ 3`. -/
example : (∀ b ∈ [ex2 4 10, ex3], b.Honest) ∧ (∀ b ∈ [ex2 4 10, ex3], b.start + b.n ≤ 1) ∧ (∀ b ∈ [ex2 4 10, ex3], b.Fits 100 fun _ => 5/2) ∧
    (runAll 100 [ex2 4 10, ex3] exM).vec .l 0 = 2 ∧ (runAll 100 [ex2 4 10, ex3] exM).vec .u 0 = 3 := by
  have h1 := ex2_honest 4 10
  have h2 := ex3_honest
  refine ⟨by simp [h1, h2], by simp [ex2, ex3], ?_, ?_, ?_⟩
  · simp only [List.mem_cons, List.not_mem_nil, or_false, forall_eq_or_imp, forall_eq]
    refine ⟨?_, ?_⟩
    · intro _ i _; show (4 : ℚ) ≤ 10; norm_num
    · intro h; exact absurd h (by simp [ex3])
  · simp only [runAll, List.foldl_cons, List.foldl_nil, (run_at 100 false _ h1 _ 0).1, (run_at 100 false _ h2 _ 0).1]
    norm_num [show ¬ (Cell.u = Cell.l) by decide, ex2, ex3, Bound.ival, Bound.pair, Bound.dpair, side]
  · simp only [runAll, List.foldl_cons, List.foldl_nil, (run_at 100 false _ h1 _ 0).2, (run_at 100 false _ h2 _ 0).2]
    norm_num [show ¬ (Cell.u = Cell.l) by decide, ex2, ex3, Bound.ival, Bound.pair, Bound.dpair, side]

/-- **C38** is false for a double sided bound with a diagonal Jacobian and crossed sides: no `x` has `4 ≤ 2 x ≤ 2`, but the solver gets
`1 ≤ x ≤ 2`. -/
theorem C38_crossed_false : ∃ (b : Bound ℚ) (z : Nat → ℚ), b.Honest ∧ (∀ k, -100 ≤ z k ∧ z k ≤ 100) ∧ (∀ z : Nat → ℚ, ¬ b.Sat z) ∧
    InBox 1 ((runAll 100 [b] exM).vec .l) ((runAll 100 [b] exM).vec .u) z := by
  refine ⟨ex2 4 2, fun _ => 1, ex2_honest 4 2, by intro k; norm_num, ?_, ?_⟩
  · intro z h
    have := h 0 (by simp [ex2])
    simp [ex2, side] at this
    linarith [this.1, this.2]
  · intro k hk
    have hk0 : k = 0 := by omega
    subst hk0
    simp only [runAll, List.foldl_cons, List.foldl_nil, (run_at 100 false _ (ex2_honest 4 2) _ 0).1, (run_at 100 false _ (ex2_honest 4 2) _ 0).2]
    norm_num [show ¬ (Cell.u = Cell.l) by decide, ex2, Bound.ival, Bound.dpair, side]

/-- **C38** is false for a one sided bound with a small coefficient: `x/2 ≥ 0` gives `0 ≤ x ≤ big/2`. -/
theorem C38_small_false : ∃ (b : Bound ℚ) (z : Nat → ℚ), b.Honest ∧ (∀ k, -100 ≤ z k ∧ z k ≤ 100) ∧ b.Sat z ∧
    ¬ InBox 1 ((runAll 100 [b] exM).vec .l) ((runAll 100 [b] exM).vec .u) z := by
  have hh : (⟨.greaterThan, .asGiven, .diagonal, 0, 1, fun _ _ => 1/2, fun _ => 0, fun _ => 0, fun _ => 0, ⟨7, 5, fun _ => 3, fun _ => 2⟩⟩ : Bound ℚ).Honest := by
    refine ⟨?_, ?_, ?_, ?_⟩
    · intro i hi j hj hne
      have : i < 1 := hi
      have : j < 1 := hj
      omega
    · intro i _; norm_num
    · intro h; exact absurd h (by simp)
    · intro h; exact absurd h (by simp)
  refine ⟨_, fun _ => 80, hh, by intro k; norm_num, ?_, ?_⟩
  · intro i hi
    norm_num [side]
  · intro hin
    have := (hin 0 (by norm_num)).2
    simp only [runAll, List.foldl_cons, List.foldl_nil, (run_at 100 false _ hh _ 0).2] at this
    norm_num [Bound.ival, Bound.dpair, side] at this

-- the theorems applied to the bounds of the example, and to `-x ≥ -3` alone
theorem ex_all : (∀ b ∈ [ex2 4 10, ex3], b.Honest) ∧ (∀ b ∈ [ex2 4 10, ex3], b.start + b.n ≤ 1) ∧
    ∀ b ∈ [ex2 4 10, ex3], b.Fits 100 fun _ => 5/2 := by
  refine ⟨by simp [ex2_honest 4 10, ex3_honest], by simp [ex2, ex3], ?_⟩
  simp only [List.mem_cons, List.not_mem_nil, or_false, forall_eq_or_imp, forall_eq]
  exact ⟨fun _ i _ => by show (4 : ℚ) ≤ 10; norm_num, fun h => absurd h (by simp [ex3])⟩

example : (∀ b ∈ [ex2 4 10, ex3], b.Sat fun _ => 5/2) →
    InBox 1 ((runAll 100 [ex2 4 10, ex3] exM).vec .l) ((runAll 100 [ex2 4 10, ex3] exM).vec .u) fun _ => (5/2 : ℚ) := fun h =>
  (C38_intersection_partial 100 1 _ ex_all.1 ex_all.2.1 exM (fun _ => 5/2) ex_all.2.2).2 ⟨fun _ _ => by norm_num, h⟩
example : ∀ b ∈ [ex2 4 10, ex3], b.Sat fun _ => (5/2 : ℚ) := by
  simp only [List.mem_cons, List.not_mem_nil, or_false, forall_eq_or_imp, forall_eq]
  constructor
  · intro i hi
    have : i < 1 := hi
    obtain rfl : i = 0 := by omega
    norm_num [ex2, side]
  · intro i hi
    have : i < 1 := hi
    obtain rfl : i = 0 := by omega
    norm_num [ex3, side]
example : InBox 1 ((runAll 100 [ex3] exM).vec .l) ((runAll 100 [ex3] exM).vec .u) (fun _ => (2 : ℚ)) ↔
    (∀ k < 1, -100 ≤ (fun _ => (2 : ℚ)) k ∧ (fun _ => (2 : ℚ)) k ≤ 100) ∧ ∀ b ∈ [ex3], b.Sat fun _ => 2 :=
  C38_identity 100 1 [ex3] (by simp [ex3_honest]) (by simp [ex3]) (by simp [ex3]) exM (fun _ => 2)
example (k : Nat) := C38_order 100 [ex2 4 10, ex3] [ex3, ex2 4 10] (List.Perm.swap ..) ex_all.1 exM k
example := C38_first 100 (ex2 4 10) (ex2_honest 4 10) exM (fun _ => 5/2) (ex_all.2.2 _ (by simp)) (fun _ _ => by norm_num)

end Verif.C38
