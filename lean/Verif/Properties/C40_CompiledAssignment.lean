import Mathlib.Algebra.BigOperators.Ring.Finset
import Mathlib.Tactic.Ring
import Mathlib.Tactic.NormNum
import Mathlib.Algebra.Order.Ring.Rat
import Mathlib.Algebra.Field.Rat
import Verif.Model.CompiledAssignment
/-!
# C40: a compiled assignment computes its formula

`t = op(t, w * M * f)` for a vector, `t = op(t, w * f * M)` for a matrix, whatever the caches and shortcuts.
-/
set_option autoImplicit false

namespace Verif.C40
open Verif.CA Finset

section
variable {K : Type} [Field K] [LinearOrder K]

/-! ## Specification -/

/-- The operator: `t = x`, `t += x`, `t -= x`, `t = min(t, x)`, `t = max(t, x)` -/
def op : AssignType → K → K → K
  | .copy, _, x => x
  | .add, t, x => t + x
  | .sub, t, x => t - x
  | .min, t, x => Min.min t x
  | .max, t, x => Max.max t x

/-- The weight of the row `i` -/
def weight (W : WeightMult) (s : K) (d : Nat → K) (i : Nat) : K :=
  match W with
  | .none => 1
  | .minus => -1
  | .scalar => s
  | .diagonal => d i

/-- The entries of the multiplier, for a multiplier given by the coefficients `m` -/
def entry (M : MatrixMult) (m : Nat → Nat → K) (i j : Nat) : K :=
  match M with
  | .identity => if i = j then 1 else 0
  | .general => m i j
  | .inverseDiagonal => if i = j then 1 / m i i else 0
  | .custom => 0

/-- The coefficients of the source -/
def source (F : Source) (c : K) (v : Nat → K) (j : Nat) : K :=
  match F with
  | .external => v j
  | .zero => 0
  | .constant => c

/-- The coefficients of a matrix source -/
def sourceM (F : Source) (f : Nat → Nat → K) (i j : Nat) : K :=
  match F with
  | .external => f i j
  | _ => 0

/-! ## Vectors -/

omit [LinearOrder K] in
theorem sum_delta (n i : Nat) (hi : i < n) (a : K) (v : Nat → K) :
    ∑ j ∈ range n, (if i = j then a else 0) * v j = a * v i := by
  rw [Finset.sum_eq_single i]
  · simp
  · intro j _ hj; simp [Ne.symm hj]
  · intro h; exact absurd (mem_range.mpr hi) h

omit [LinearOrder K] in
theorem sum_delta_right (n j : Nat) (hj : j < n) (a : Nat → K) (v : Nat → K) :
    ∑ k ∈ range n, v k * (if k = j then a k else 0) = v j * a j := by
  rw [Finset.sum_eq_single j]
  · simp
  · intro k _ hk; simp [hk]
  · intro h; exact absurd (mem_range.mpr hj) h

/-- The formula of a vector assignment. For the identity and the inverse of a diagonal, the size of the target is at most the number
of columns of the (square) multiplier. -/
theorem C40_vector (A : AssignType) (W : WeightMult) (M : MatrixMult) (F : Source) (s : K) (d : Nat → K) (m : Nat → Nat → K)
    (n cols : Nat) (c : K) (v t : Nat → K) (hM : M ≠ .custom) (hn : M = .general ∨ n ≤ cols) :
    ∃ t' : Nat → K, runV A W M F s d m cols c v t = some t' ∧
      ∀ i < n, t' i = op A (t i) (weight W s d i * ∑ j ∈ range cols, entry M m i j * source F c v j) := by
  cases F
  case zero =>
    cases A <;> refine ⟨_, rfl, fun i hi => ?_⟩ <;> simp [op, source]
  all_goals
    cases M
    case custom => exact absurd rfl hM
    case identity =>
      have hc : n ≤ cols := by simpa using hn
      cases W <;> cases A <;> refine ⟨_, rfl, fun i hi => ?_⟩ <;> have hi' : i < cols := by omega
      all_goals
        simp [entry, hi', op, source, weight, assignV, assign1, applyWeightMult, cacheV, useAssignCache, useProductCache, mul_comm]
    case inverseDiagonal =>
      have hc : n ≤ cols := by simpa using hn
      cases W <;> cases A <;> refine ⟨_, rfl, fun i hi => ?_⟩ <;> have hi' : i < cols := by omega
      all_goals
        simp [entry, hi', op, source, weight, assignV, assign1, applyWeightMult, cacheV, useAssignCache, useProductCache]
    case general =>
      cases W <;> cases A <;> refine ⟨_, rfl, fun i hi => ?_⟩ <;>
        simp [entry, op, source, weight, assignV, assign1, applyWeightMult, cacheV, applyMatrixMultCachedV, useAssignCache, useProductCache, Finset.sum_mul]

/-- The formula of a matrix assignment; there is no constant source for matrices. For the identity and the inverse of a diagonal, the
number of columns of the target is at most the number of rows of the (square) multiplier. -/
theorem C40_matrix (A : AssignType) (W : WeightMult) (M : MatrixMult) (F : Source) (s : K) (d : Nat → K) (m : Nat → Nat → K)
    (p rows : Nat) (f t : Nat → Nat → K) (hM : M ≠ .custom) (hF : F ≠ .constant) (hp : M = .general ∨ p ≤ rows) :
    ∃ t' : Nat → Nat → K, runM A W M F s d m rows f t = some t' ∧
      ∀ i, ∀ j < p, t' i j = op A (t i j) (weight W s d i * ∑ k ∈ range rows, sourceM F f i k * entry M m k j) := by
  cases F
  case constant => exact absurd rfl hF
  case zero =>
    cases A <;> refine ⟨_, rfl, fun i j hj => ?_⟩ <;> simp [op, sourceM]
  case external =>
    cases M
    case custom => exact absurd rfl hM
    case identity =>
      have hc : p ≤ rows := by simpa using hp
      cases W <;> cases A <;> refine ⟨_, rfl, fun i j hj => ?_⟩ <;>
        simp only [entry, sum_delta_right rows j (by omega), op, sourceM, weight, assign1, applyWeightMultM] <;> simp
    case inverseDiagonal =>
      have hc : p ≤ rows := by simpa using hp
      cases W <;> cases A <;> refine ⟨_, rfl, fun i j hj => ?_⟩ <;>
        simp only [entry, sum_delta_right rows j (by omega), op, sourceM, weight, assign1, applyWeightMultM] <;> simp
    case general =>
      cases W <;> cases A <;> refine ⟨_, rfl, fun i j hj => ?_⟩ <;>
        simp [entry, op, sourceM, weight, assign1, applyWeightMultM]

omit [Field K] [LinearOrder K] in
/-- Nothing else is written: a vector in which the target is a segment, a matrix in which it is a block. -/
theorem C40_frame (mem : Nat → K) (start n : Nat) (f : (Nat → K) → Nat → K) :
    (∀ i < n, writeSeg mem start n f (start + i) = f (fun i => mem (start + i)) i) ∧
    ∀ k, ¬ (start ≤ k ∧ k < start + n) → writeSeg mem start n f k = mem k := by
  refine ⟨fun i hi => ?_, fun k hk => ?_⟩
  · have h1 : start ≤ start + i ∧ start + i < start + n := by omega
    simp [writeSeg, h1]
  · simp [writeSeg, hk]

omit [Field K] [LinearOrder K] in
/-- The same for a block of a matrix. -/
theorem C40_frame_block (mem : Nat → Nat → K) (r c n p : Nat) (f : (Nat → Nat → K) → Nat → Nat → K) :
    (∀ i < n, ∀ j < p, writeBlock mem r c n p f (r + i) (c + j) = f (fun i j => mem (r + i) (c + j)) i j) ∧
    ∀ i j, ¬ ((r ≤ i ∧ i < r + n) ∧ (c ≤ j ∧ j < c + p)) → writeBlock mem r c n p f i j = mem i j := by
  refine ⟨fun i hi j hj => ?_, fun i j hij => ?_⟩
  · have h1 : (r ≤ r + i ∧ r + i < r + n) ∧ (c ≤ c + j ∧ c + j < c + p) := by omega
    simp [writeBlock, h1]
  · simp only [writeBlock, if_neg hij]

/-- The custom multiplier can not be used with any source that needs it: the code does not compile. -/
theorem C40_custom (A : AssignType) (W : WeightMult) (F : Source) (s : K) (d : Nat → K) (m : Nat → Nat → K) (cols : Nat) (c : K)
    (v t : Nat → K) (hF : F ≠ .zero) : runV A W .custom F s d m cols c v t = none := by
  cases F
  case zero => exact absurd rfl hF
  all_goals cases W <;> cases A <;> rfl

end

/-- A wrapper accepts exactly the kind of source it was made with: a double for a constant source, a reference otherwise. -/
theorem C40_wrapper (F : Source) (isDouble : Bool) : wrapperFromOk F isDouble = true ↔ (isDouble = true ↔ F = .constant) := by
  cases F <;> cases isDouble <;> simp [wrapperFromOk]

/-! ## The hypotheses are met -/

/-- A weighted product with a constant, subtracted: the shortcut with the sum of the columns. -/
example : runV (K := ℚ) .sub .diagonal .general .constant 0 (fun i => (i : ℚ) + 1) (fun i j => 10 * (i : ℚ) + j) 2 3 (fun _ => 0)
    (fun _ => 100) = some fun i : Nat => 100 - ((i : ℚ) + 1) * ((∑ j ∈ range 2, (10 * (i : ℚ) + j)) * 3) := rfl

/-- The formula in a particular case -/
example : ∃ t' : Nat → ℚ, runV .max .minus .inverseDiagonal .external 0 (fun _ => 0) (fun _ _ => 4) 3 0 (fun i => -(i : ℚ)) (fun _ => 0)
    = some t' ∧ t' 2 = 1 / 2 := by
  obtain ⟨t', h, hf⟩ := C40_vector (K := ℚ) .max .minus .inverseDiagonal .external 0 (fun _ => 0) (fun _ _ => 4) 3 3 0
    (fun i => -(i : ℚ)) (fun _ => 0) (by decide) (by simp)
  refine ⟨t', h, ?_⟩
  rw [hf 2 (by decide)]
  simp [op, weight, entry, source]
  norm_num

example : ∃ t' : Nat → Nat → ℚ, runM (K := ℚ) .add .scalar .general .external 2 (fun _ => 0) (fun _ _ => 4) 3 (fun i k => i + k) (fun _ _ => 1) = some t' ∧ t' 2 1 = 73 := by
  obtain ⟨t', h, hf⟩ := C40_matrix (K := ℚ) .add .scalar .general .external 2 (fun _ => 0) (fun _ _ => 4) 2 3 (fun i k => i + k) (fun _ _ => 1)
    (by decide) (by decide) (Or.inl rfl)
  refine ⟨t', h, ?_⟩
  rw [hf 2 1 (by decide)]
  simp [op, weight, entry, sourceM, Finset.sum_range_succ]
  norm_num

example : runV (K := ℚ) .copy .scalar .custom .external 2 (fun _ => 0) (fun _ _ => 4) 3 0 (fun _ => 1) (fun _ => 1) = none := C40_custom _ _ _ _ _ _ _ _ _ _ (by decide)

end Verif.C40
