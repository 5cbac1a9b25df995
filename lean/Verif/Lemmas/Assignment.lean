import Mathlib.Algebra.BigOperators.Ring.Finset
import Mathlib.Algebra.BigOperators.Intervals
import Mathlib.Tactic.Ring
import Mathlib.Tactic.Linarith
import Verif.Model.Assignment
/-!
# Lemmas on the assignments: the effect of each compiled assignment on a row
-/
set_option autoImplicit false

namespace Verif.AS
open Verif Verif.CA Finset

section
variable {K : Type} [Field K] [LinearOrder K]

/-- The value of a weight at the row `i` -/
def Wt.at (w : Weights K) (i : Nat) : Wt → K
  | .none => 1
  | .minus => -1
  | .scalar neg => if neg then w.ms else w.s
  | .diagonal neg => if neg then w.ma i else w.a i

/-- The coefficients read by a matrix assignment -/
def MFrom.val (D : Data K) (V : Vars) (i k : Nat) : MFrom → K
  | .zero => 0
  | .jac x => D.jac x i k
  | .sub x y => D.subA x y i k
  | .prod x y => ∑ j ∈ range (V.dim x), D.jac x i j * D.subA x y j k

/-- The effect on a row of writing `v` in the columns `[c, c + d)` -/
def rowOp (A : AssignType) (c d : Nat) (v : Nat → K) (a : Nat → K) : Nat → K :=
  fun j => if c ≤ j ∧ j < c + d then assign1 A (a j) (v (j - c)) else a j

theorem MOp.run_row (V : Vars) (D : Data K) (op : MOp) (A : Nat → Nat → K) (r : Nat) :
    op.run V D A r = if op.rows.1 ≤ r ∧ r < op.rows.1 + op.rows.2 then
      rowOp op.assign op.cols.1 op.cols.2 (fun k => op.wt.at D.w (r - op.rows.1) * op.src.val D V (r - op.rows.1) k) (A r)
    else A r := by
  obtain ⟨as, wt, src, ⟨r0, n⟩, ⟨c0, p⟩⟩ := op
  funext j
  simp only [MOp.run, writeBlock]
  by_cases hr : r0 ≤ r ∧ r < r0 + n
  · rw [if_pos hr]
    simp only [rowOp]
    by_cases hc : c0 ≤ j ∧ j < c0 + p
    · rw [if_pos ⟨hr, hc⟩, if_pos hc]
      have e1 : r0 + (r - r0) = r := by omega
      have e2 : c0 + (j - c0) = j := by omega
      cases src <;> cases wt <;> cases as <;>
        simp [MFrom.get, MFrom.val, Wt.kind, Wt.scal, Wt.diag, Wt.at, runM, applyMatrixMultM, applyWeightMultM, useAssignCache,
          useProductCache, assign1, e1, e2]
      all_goals split <;> simp
    · rw [if_neg (fun h => hc h.2), if_neg hc]
  · rw [if_neg (fun h => hr h.1), if_neg hr]

/-! ## The value of a row at a point -/

/-- `Σ a_c z_c` over the first `n` columns -/
def dot (n : Nat) (a z : Nat → K) : K := ∑ c ∈ range n, a c * z c

omit [LinearOrder K] in
theorem sum_window (n c d : Nat) (h : c + d ≤ n) (f : Nat → Nat → K) :
    ∑ j ∈ range n, (if c ≤ j ∧ j < c + d then f (j - c) j else 0) = ∑ k ∈ range d, f k (c + k) := by
  obtain ⟨m, rfl⟩ := Nat.exists_eq_add_of_le h
  rw [Finset.sum_range_add, Finset.sum_range_add]
  have h1 : ∑ j ∈ range c, (if c ≤ j ∧ j < c + d then f (j - c) j else 0) = 0 := by
    apply Finset.sum_eq_zero
    intro j hj
    rw [if_neg]
    have := mem_range.mp hj
    omega
  have h3 : ∑ k ∈ range m, (if c ≤ c + d + k ∧ c + d + k < c + d then f (c + d + k - c) (c + d + k) else 0) = 0 := by
    apply Finset.sum_eq_zero
    intro j _
    rw [if_neg]
    omega
  have h2 : ∑ k ∈ range d, (if c ≤ c + k ∧ c + k < c + d then f (c + k - c) (c + k) else 0) = ∑ k ∈ range d, f k (c + k) := by
    apply Finset.sum_congr rfl
    intro k hk
    have := mem_range.mp hk
    rw [if_pos (by omega)]
    congr 1
    omega
  rw [h1, h2, h3]
  ring

theorem dot_add (n c d : Nat) (h : c + d ≤ n) (v a z : Nat → K) :
    dot n (rowOp .add c d v a) z = dot n a z + ∑ k ∈ range d, v k * z (c + k) := by
  rw [← sum_window n c d h fun k j => v k * z j]
  simp only [dot]
  rw [← Finset.sum_add_distrib]
  apply Finset.sum_congr rfl
  intro j _
  simp only [rowOp, assign1]
  split <;> ring

theorem dot_sub (n c d : Nat) (h : c + d ≤ n) (v a z : Nat → K) :
    dot n (rowOp .sub c d v a) z = dot n a z - ∑ k ∈ range d, v k * z (c + k) := by
  rw [← sum_window n c d h fun k j => v k * z j]
  simp only [dot]
  rw [← Finset.sum_sub_distrib]
  apply Finset.sum_congr rfl
  intro j _
  simp only [rowOp, assign1]
  split <;> ring

/-! ## Copies -/

/-- Columns of a block -/
def inCols (cd : Nat × Nat) (j : Nat) : Prop := cd.1 ≤ j ∧ j < cd.1 + cd.2

/-- A block of columns with the values written in it -/
structure Blk (K : Type) where
  c : Nat
  d : Nat
  v : Nat → K

/-- The row after copies of blocks, one after the other -/
def copies (l : List (Blk K)) (a : Nat → K) : Nat → K := l.foldl (fun a b => rowOp .copy b.c b.d b.v a) a

/-- Columns of a block -/
def Blk.has (b : Blk K) (j : Nat) : Prop := b.c ≤ j ∧ j < b.c + b.d

theorem rowOp_out (A : AssignType) (c d : Nat) (v a : Nat → K) (j : Nat) (h : ¬ (c ≤ j ∧ j < c + d)) : rowOp A c d v a j = a j := by
  simp only [rowOp, if_neg h]

theorem copies_out (l : List (Blk K)) (a : Nat → K) (j : Nat) (h : ∀ b ∈ l, ¬ b.has j) : copies l a j = a j := by
  induction l generalizing a with
  | nil => rfl
  | cons b l ih =>
    have := ih (rowOp .copy b.c b.d b.v a) (fun b' hb' => h b' (List.mem_cons_of_mem _ hb'))
    exact this.trans (rowOp_out _ _ _ _ _ _ (h b (List.mem_cons_self)))

/-- Two rows that agree on the columns without block become the same. -/
theorem copies_congr (l : List (Blk K)) (a a' : Nat → K) (h : ∀ j, (∀ b ∈ l, ¬ b.has j) → a j = a' j) : copies l a = copies l a' := by
  induction l generalizing a a' with
  | nil => funext j; exact h j (by simp)
  | cons b l ih =>
    apply ih
    intro j hj
    simp only [rowOp]
    by_cases hb : b.c ≤ j ∧ j < b.c + b.d
    · rw [if_pos hb, if_pos hb]; rfl
    · rw [if_neg hb, if_neg hb]
      apply h
      intro b' hb'
      rcases List.mem_cons.mp hb' with rfl | hm
      · exact hb
      · exact hj b' hm

omit [LinearOrder K] in
theorem dot_zero (n : Nat) (a z : Nat → K) (h : ∀ j < n, a j = 0) : dot n a z = 0 := by
  apply Finset.sum_eq_zero
  intro j hj
  rw [h j (mem_range.mp hj), zero_mul]

/-- A row that is zero in the first `n` columns outside of the blocks, after the copies of disjoint blocks. -/
theorem dot_copies (n : Nat) (l : List (Blk K)) (a z : Nat → K) (hn : ∀ b ∈ l, b.c + b.d ≤ n)
    (hd : l.Pairwise fun b b' => ∀ j, b.has j → ¬ b'.has j) (h0 : ∀ j < n, (∀ b ∈ l, ¬ b.has j) → a j = 0) :
    dot n (copies l a) z = (l.map fun b => ∑ k ∈ range b.d, b.v k * z (b.c + k)).sum := by
  have key : ∀ (l : List (Blk K)) (a : Nat → K), (∀ b ∈ l, b.c + b.d ≤ n) →
      (l.Pairwise fun b b' => ∀ j, b.has j → ¬ b'.has j) → (∀ b ∈ l, ∀ j, b.has j → a j = 0) →
      dot n (copies l a) z = dot n a z + (l.map fun b => ∑ k ∈ range b.d, b.v k * z (b.c + k)).sum := by
    intro l
    induction l with
    | nil => intro a _ _ _; simp [copies]
    | cons b l ih =>
      intro a hn hd h0
      have hd' := List.pairwise_cons.mp hd
      have e : rowOp .copy b.c b.d b.v a = rowOp .add b.c b.d b.v a := by
        funext j
        simp only [rowOp]
        by_cases hj : b.c ≤ j ∧ j < b.c + b.d
        · rw [if_pos hj, if_pos hj]
          simp only [assign1]
          rw [h0 b List.mem_cons_self j hj, zero_add]
        · rw [if_neg hj, if_neg hj]
      have hs := ih (rowOp .copy b.c b.d b.v a) (fun b' hb' => hn b' (List.mem_cons_of_mem _ hb')) hd'.2 (by
        intro b' hb' j hj
        rw [rowOp_out _ _ _ _ _ _ (fun h => hd'.1 b' hb' j h hj)]
        exact h0 b' (List.mem_cons_of_mem _ hb') j hj)
      show dot n (copies l (rowOp .copy b.c b.d b.v a)) z = _
      rw [hs, e, dot_add n b.c b.d (hn b List.mem_cons_self)]
      simp only [List.map_cons, List.sum_cons]
      ring
  classical
  let a0 : Nat → K := fun j => if ∃ b ∈ l, b.has j then 0 else a j
  have e : copies l a = copies l a0 := by
    apply copies_congr
    intro j hj
    have : ¬ ∃ b ∈ l, b.has j := fun ⟨b, hb, h⟩ => hj b hb h
    simp only [a0, if_neg this]
  rw [e, key l a0 hn hd (fun b hb j hj => by
    have : ∃ b ∈ l, b.has j := ⟨b, hb, hj⟩
    simp only [a0, if_pos this])]
  have z0 : dot n a0 z = 0 := by
    apply dot_zero
    intro j hj
    simp only [a0]
    by_cases h : ∃ b ∈ l, b.has j
    · rw [if_pos h]
    · rw [if_neg h]
      exact h0 j hj (fun b hb hh => h ⟨b, hb, hh⟩)
  rw [z0, zero_add]

end
end Verif.AS
