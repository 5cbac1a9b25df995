import Verif.Model.DiagnosticMatrix
import Mathlib.Algebra.Order.Ring.Int
import Mathlib.Tactic.Ring
import Mathlib.Tactic.Linarith
/-!
# C100 - whether an address is that of a coefficient of a matrix
-/
set_option autoImplicit false

namespace Verif.C100
open Verif Verif.DM

/-! ## Specification -/

/-- `p` is the address of a coefficient of `M`. -/
def IsCoeff (M : Layout) (p : Int) : Prop := ∃ i j : Int, 0 ≤ i ∧ i < M.rows ∧ 0 ≤ j ∧ j < M.cols ∧ p = M.data + i * M.rowStride + j * M.colStride

/-- The columns come one after the other: the last row of a column is before the first one of the next column. It is so of matrices, of
their blocks, and of maps with an inner stride. -/
def ColumnMajor (M : Layout) : Prop := 0 ≤ M.rows ∧ 0 ≤ M.cols ∧ 0 < M.rowStride ∧ (M.rows - 1) * M.rowStride < M.colStride

/-! ## Properties -/

/-- **C100 (defined).** Nothing is divided by zero, whatever the sizes and the strides. -/
theorem C100_defined (p : Int) (M : Layout) : ∃ b, isInMatrix p M = some b := by
  unfold isInMatrix
  simp only
  by_cases a : p - M.data < 0
  · rw [if_pos a]; exact ⟨_, rfl⟩
  rw [if_neg a]
  by_cases b : p - M.data ≥ M.cols * M.colStride
  · rw [if_pos b]; exact ⟨_, rfl⟩
  rw [if_neg b]
  have hc : M.colStride ≠ 0 := fun e => b (by rw [e, mul_zero]; omega)
  unfold cmod
  rw [if_neg hc]
  simp only
  have hr : 0 ≤ (p - M.data).tmod M.colStride := Int.tmod_nonneg _ (by omega)
  by_cases c : (p - M.data).tmod M.colStride ≥ M.rows * M.rowStride
  · rw [if_pos c]; exact ⟨_, rfl⟩
  rw [if_neg c]
  have hd : M.rowStride ≠ 0 := fun e => c (by rw [e, mul_zero]; omega)
  rw [if_neg hd]
  exact ⟨_, rfl⟩

/-- **C100 (partial).** For a matrix whose columns come one after the other, the test answers yes exactly for the addresses of the
coefficients. Missing: the maps whose columns overlap, or with a row stride larger than the column stride (`C100_false`). -/
theorem C100_partial (p : Int) (M : Layout) (h : ColumnMajor M) : isInMatrix p M = some true ↔ IsCoeff M p := by
  obtain ⟨h1, h2, h3, h4⟩ := h
  unfold isInMatrix IsCoeff
  simp only
  by_cases hm : M.rows = 0
  · -- no coefficient
    constructor
    · intro e
      exfalso
      by_cases a : p - M.data < 0
      · rw [if_pos a] at e; simp at e
      rw [if_neg a] at e
      by_cases b : p - M.data ≥ M.cols * M.colStride
      · rw [if_pos b] at e; simp at e
      rw [if_neg b] at e
      by_cases hc : M.colStride = 0
      · rw [hc, mul_zero] at b; omega
      unfold cmod at e
      rw [if_neg hc] at e
      simp only at e
      have hr : 0 ≤ (p - M.data).tmod M.colStride := Int.tmod_nonneg _ (by omega)
      rw [if_pos (by rw [hm, zero_mul]; exact hr)] at e
      simp at e
    · rintro ⟨i, j, a, b, _⟩; omega
  have hrows : 1 ≤ M.rows := by omega
  have hcs : 0 < M.colStride := lt_of_le_of_lt (mul_nonneg (by omega) (by omega)) h4
  constructor
  · intro e
    by_cases a : p - M.data < 0
    · rw [if_pos a] at e; simp at e
    rw [if_neg a] at e
    by_cases b : p - M.data ≥ M.cols * M.colStride
    · rw [if_pos b] at e; simp at e
    rw [if_neg b] at e
    unfold cmod at e
    rw [if_neg (by omega)] at e
    simp only at e
    by_cases c : (p - M.data).tmod M.colStride ≥ M.rows * M.rowStride
    · rw [if_pos c] at e; simp at e
    rw [if_neg c, if_neg (by omega)] at e
    simp only [Option.some.injEq, decide_eq_true_eq] at e
    have hr : 0 ≤ (p - M.data).tmod M.colStride := Int.tmod_nonneg _ (by omega)
    have q1 := Int.tmod_add_mul_tdiv (p - M.data) M.colStride
    have q2 := Int.tmod_add_mul_tdiv ((p - M.data).tmod M.colStride) M.rowStride
    rw [e, zero_add] at q2
    generalize (p - M.data).tmod M.colStride = r at *
    have n1 : 0 ≤ (p - M.data).tdiv M.colStride := Int.tdiv_nonneg (by omega) (by omega)
    have n2 : 0 ≤ r.tdiv M.rowStride := Int.tdiv_nonneg hr (by omega)
    generalize (p - M.data).tdiv M.colStride = j at *
    generalize r.tdiv M.rowStride = i at *
    refine ⟨i, j, n2, ?_, n1, ?_, ?_⟩
    · by_contra hi
      have : M.rows * M.rowStride ≤ i * M.rowStride := mul_le_mul_of_nonneg_right (by omega) (by omega)
      have : i * M.rowStride = r := by rw [mul_comm]; exact q2
      omega
    · by_contra hj
      have : M.cols * M.colStride ≤ j * M.colStride := mul_le_mul_of_nonneg_right (by omega) (by omega)
      have : j * M.colStride = M.colStride * j := mul_comm _ _
      omega
    · have : i * M.rowStride = M.rowStride * i := mul_comm _ _
      have : j * M.colStride = M.colStride * j := mul_comm _ _
      omega
  · rintro ⟨i, j, hi0, hi, hj0, hj, hp⟩
    have a1 : 0 ≤ i * M.rowStride := mul_nonneg hi0 (by omega)
    have a2 : 0 ≤ j * M.colStride := mul_nonneg hj0 (by omega)
    have a3 : i * M.rowStride ≤ (M.rows - 1) * M.rowStride := mul_le_mul_of_nonneg_right (by omega) (by omega)
    have a4 : j * M.colStride ≤ (M.cols - 1) * M.colStride := mul_le_mul_of_nonneg_right (by omega) (by omega)
    have a5 : (M.cols - 1) * M.colStride = M.cols * M.colStride - M.colStride := by ring
    have a6 : (M.rows - 1) * M.rowStride = M.rows * M.rowStride - M.rowStride := by ring
    have hd : p - M.data = i * M.rowStride + j * M.colStride := by omega
    have hmod : (i * M.rowStride + j * M.colStride).tmod M.colStride = i * M.rowStride := by
      rw [Int.tmod_eq_emod_of_nonneg (by omega), Int.add_mul_emod_self_right, Int.emod_eq_of_lt a1 (by omega)]
    rw [hd, if_neg (by omega), if_neg (by omega)]
    unfold cmod
    rw [if_neg (by omega)]
    simp only
    rw [hmod, if_neg (by omega), if_neg (by omega)]
    simp only [Option.some.injEq, decide_eq_true_eq]
    rw [Int.tmod_eq_emod_of_nonneg a1, Int.mul_emod_left]

/-- **C100 (a block in a matrix).** A coefficient of a matrix is found in a block of it exactly if it is one of the coefficients of the
block (for a block of rows of the matrix; nothing is asked of the columns). -/
theorem C100_block (A : Layout) (hA : ColumnMajor A) (i0 j0 m n : Int) (hm : 0 ≤ m) (hn : 0 ≤ n) (h0 : 0 ≤ i0) (h1 : i0 + m ≤ A.rows)
    (i j : Int) (hi : 0 ≤ i ∧ i < A.rows) :
    isInMatrix4 A i j ⟨A.coeff i0 j0, m, n, A.rowStride, A.colStride⟩ = some true ↔
      (i0 ≤ i ∧ i < i0 + m) ∧ j0 ≤ j ∧ j < j0 + n := by
  obtain ⟨r1, r2, r3, r4⟩ := hA
  have hB : ColumnMajor ⟨A.coeff i0 j0, m, n, A.rowStride, A.colStride⟩ := by
    refine ⟨hm, hn, r3, ?_⟩
    have : (m - 1) * A.rowStride ≤ (A.rows - 1) * A.rowStride := mul_le_mul_of_nonneg_right (by omega) (by omega)
    show (m - 1) * A.rowStride < A.colStride
    omega
  unfold isInMatrix4
  rw [C100_partial _ _ hB]
  unfold IsCoeff Layout.coeff
  simp only
  constructor
  · rintro ⟨a, b, ha0, ha, hb0, hb, e⟩
    have key : (i - i0 - a) * A.rowStride = (j0 + b - j) * A.colStride := by linarith
    -- the rows are closer than the columns
    have hb1 : (i - i0 - a) * A.rowStride ≤ (A.rows - 1) * A.rowStride := mul_le_mul_of_nonneg_right (by omega) (by omega)
    have hb2 : -((A.rows - 1) * A.rowStride) ≤ (i - i0 - a) * A.rowStride := by
      have : (-(A.rows - 1)) * A.rowStride ≤ (i - i0 - a) * A.rowStride := mul_le_mul_of_nonneg_right (by omega) (by omega)
      linarith
    have hcs : 0 < A.colStride := lt_of_le_of_lt (mul_nonneg (by omega) (by omega)) r4
    have z : j0 + b - j = 0 := by
      by_contra hne
      rcases lt_or_gt_of_ne hne with k | k
      · have : (j0 + b - j) * A.colStride ≤ (-1) * A.colStride := mul_le_mul_of_nonneg_right (by omega) (by omega)
        linarith
      · have : 1 * A.colStride ≤ (j0 + b - j) * A.colStride := mul_le_mul_of_nonneg_right (by omega) (by omega)
        linarith
    rw [z, zero_mul] at key
    have z2 : i - i0 - a = 0 := by
      rcases mul_eq_zero.1 key with k | k
      · exact k
      · omega
    omega
  · rintro ⟨⟨a1, a2⟩, b1, b2⟩
    exact ⟨i - i0, j - j0, by omega, by omega, by omega, by omega, by ring⟩

/-- **C100 (false).** For maps whose columns overlap, and for those that are transposed by their strides, coefficients are missed. -/
theorem C100_false :
    (∃ (M : Layout) (p : Int), 0 < M.rowStride ∧ 0 < M.colStride ∧ M.rowStride ≤ M.colStride ∧ IsCoeff M p ∧ isInMatrix p M = some false) ∧
    ∃ (M : Layout) (p : Int), 0 < M.rowStride ∧ 0 < M.colStride ∧ M.cols * M.colStride ≤ M.rowStride ∧ IsCoeff M p ∧ isInMatrix p M = some false :=
  ⟨⟨⟨0, 3, 2, 1, 1⟩, 3, by decide, by decide, by decide, ⟨2, 1, by decide, by decide, by decide, by decide, by decide⟩, by decide⟩,
    ⟨0, 2, 3, 3, 1⟩, 3, by decide, by decide, by decide, ⟨1, 0, by decide, by decide, by decide, by decide, by decide⟩, by decide⟩

/-- **C100 (ranges of values).** `hasElemAbsInRange` answers whether a coefficient has its absolute value in the range, ends included. -/
theorem C100_range {K : Type} [AddCommGroup K] [LinearOrder K] (A : List K) (emin emax : K) :
    hasElemAbsInRange A emin emax = true ↔ ∃ a ∈ A, emin ≤ |a| ∧ |a| ≤ emax := by
  unfold hasElemAbsInRange
  rw [List.any_eq_true]
  simp

/-! ## Examples -/

/-- The block of 2 rows and 3 columns of a matrix of 5 rows, and a map with inner stride 2 -/
example : ColumnMajor ⟨100, 2, 3, 1, 5⟩ ∧ isInMatrix 106 ⟨100, 2, 3, 1, 5⟩ = some true ∧ isInMatrix 107 ⟨100, 2, 3, 1, 5⟩ = some false ∧
    ColumnMajor ⟨0, 2, 2, 2, 3⟩ ∧ isInMatrix 5 ⟨0, 2, 2, 2, 3⟩ = some true ∧ isInMatrix 1 ⟨0, 2, 2, 2, 3⟩ = some false := by
  refine ⟨⟨by decide, by decide, by decide, by decide⟩, by decide, by decide, ⟨by decide, by decide, by decide, by decide⟩, by decide, by decide⟩

example : isInMatrix 107 ⟨100, 2, 3, 1, 5⟩ ≠ some true := fun h => by
  obtain ⟨i, j, h1, h2, h3⟩ := (C100_partial 107 ⟨100, 2, 3, 1, 5⟩ ⟨by decide, by decide, by decide, by decide⟩).1 h
  simp only at *
  omega
example : isInMatrix4 ⟨100, 4, 3, 1, 5⟩ 2 1 ⟨106, 2, 2, 1, 5⟩ = some true :=
  (C100_block ⟨100, 4, 3, 1, 5⟩ ⟨by decide, by decide, by decide, by decide⟩ 1 1 2 2 (by decide) (by decide) (by decide) (by decide) 2 1 (by decide)).2 (by decide)

end Verif.C100
