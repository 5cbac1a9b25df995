import Verif.Lemmas.DiagonalCalculator
import Mathlib.Algebra.BigOperators.Group.Finset.Piecewise
import Mathlib.Algebra.Field.Rat
import Mathlib.Tactic.NormNum
/-!
# C42 - the diagonal calculator provides a generalized inverse and nullspace bases

The specification is written with plain sums over the indices of the columns.
-/
set_option autoImplicit false
set_option linter.unusedSectionVars false

namespace Verif.C42
open Verif Verif.DC Finset

variable {K : Type} [Field K]

/-- The `m × n` matrix `A` has the declared structure: its row `k` is the row `sel[k]` of a diagonal matrix, the selected rows are those
declared as non-zero or as zero, in increasing order, and a row is zero when and only when it is declared so. -/
structure Selects (A : Nat → Nat → K) (m n : Nat) (nnz zeros sel : List Nat) : Prop where
  inc : sel.Pairwise (· < ·)
  mem : ∀ i, i ∈ sel ↔ i ∈ nnz ∨ i ∈ zeros
  len : sel.length = m
  off : ∀ k i : Nat, sel[k]? = some i → ∀ j, j < n → j ≠ i → A k j = 0
  zero : ∀ k i : Nat, sel[k]? = some i → i ∈ zeros → A k i = 0
  nz : ∀ k i : Nat, sel[k]? = some i → i ∈ nnz → A k i ≠ 0

/-- No undeclared index is before an index declared as zero. -/
def Gapless (nnz zeros : List Nat) : Prop := ∀ i ∈ zeros, ∀ j < i, j ∈ nnz ∨ j ∈ zeros

/-- A calculator that was obtained from one of the constructors -/
inductive Built : Impl → Prop
  | lists (a b : List Int) (nnz zeros : List Nat) (m n rank : Nat) (I : Impl) (hm : make a b = some (nnz, zeros))
      (h : Impl.ofLists m n rank nnz zeros = .ok () I) : Built I
  | range (m n rank : Nat) (first size : Int) (hr : 0 < rank) (I : Impl) (h : Impl.ofRange m n rank first size = .ok () I) : Built I

/-! ## The constructor from indices -/

theorem go_iff (l seen : List Int) (out : List Int) :
    make.go seen l = some out ↔ out = l.reverse ++ seen ∧ (∀ i ∈ l, 0 ≤ i) ∧ l.Nodup ∧ ∀ i ∈ l, i ∉ seen := by
  induction l generalizing seen with
  | nil => simp [make.go, eq_comm]
  | cons x l ih =>
    rw [make.go]
    by_cases h1 : x < 0
    · rw [if_pos h1]
      simp only [reduceCtorEq, false_iff]
      intro h
      have := h.2.1 x (by simp); omega
    · rw [if_neg h1]
      by_cases h2 : x ∈ seen
      · rw [if_pos h2]
        simp only [reduceCtorEq, false_iff]
        intro h
        exact h.2.2.2 x (by simp) h2
      · rw [if_neg h2, ih]
        simp only [List.reverse_cons, List.append_assoc, List.singleton_append, List.mem_cons, List.nodup_cons, not_or]
        constructor
        · rintro ⟨a, b, c, d⟩
          refine ⟨a, ?_, ⟨fun hx => (d x hx).1 rfl, c⟩, ?_⟩
          · rintro i (rfl | hi)
            · omega
            · exact b i hi
          · rintro i (rfl | hi)
            · exact h2
            · exact (d i hi).2
        · rintro ⟨a, b, c, d⟩
          refine ⟨a, fun i hi => b i (.inr hi), c.2, fun i hi => ⟨?_, d i (.inr hi)⟩⟩
          rintro rfl
          exact c.1 hi

theorem sort_mem (a : List Int) (i : Int) : i ∈ a.mergeSort ↔ i ∈ a := (List.mergeSort_perm a _).mem_iff

theorem sorted_inc (a : List Int) (h : a.Nodup) (hp : ∀ i ∈ a, 0 ≤ i) : (a.mergeSort.map Int.toNat).Pairwise (· < ·) := by
  rw [List.pairwise_map]
  have h1 : a.mergeSort.Pairwise fun x y => decide (x ≤ y) = true := by
    apply List.pairwise_mergeSort
    · intro a b c; simp only [decide_eq_true_eq]; omega
    · intro a b; simp only [Bool.or_eq_true, decide_eq_true_eq]; omega
  have h2 : a.mergeSort.Nodup := (List.mergeSort_perm a _).nodup_iff.mpr h
  refine (h1.and h2).imp_of_mem ?_
  intro x y hx hy hxy
  have := hp x ((sort_mem a x).mp hx)
  have := hp y ((sort_mem a y).mp hy)
  have h3 := hxy.1
  simp only [decide_eq_true_eq] at h3
  have h4 := hxy.2
  omega

/-- **C42.** The constructor accepts the indices exactly when there is a non-zero row and the indices are non-negative and all different, in
whatever order they are. It keeps them in increasing order. -/
theorem C42_make (a b : List Int) (nnz zeros : List Nat) :
    make a b = some (nnz, zeros) ↔
      (a ≠ [] ∧ (∀ i ∈ a ++ b, 0 ≤ i) ∧ (a ++ b).Nodup) ∧
      (nnz.Pairwise (· < ·) ∧ ∀ i : Nat, i ∈ nnz ↔ (i : Int) ∈ a) ∧ (zeros.Pairwise (· < ·) ∧ ∀ i : Nat, i ∈ zeros ↔ (i : Int) ∈ b) := by
  have hmem : ∀ (c : List Int), (∀ i ∈ c, 0 ≤ i) → ∀ i : Nat, i ∈ c.mergeSort.map Int.toNat ↔ (i : Int) ∈ c := by
    intro c hc i
    simp only [List.mem_map, sort_mem]
    constructor
    · rintro ⟨x, hx, rfl⟩
      have := hc x hx
      rwa [Int.toNat_of_nonneg this]
    · intro h; exact ⟨i, h, by simp⟩
  have hne : a.mergeSort = [] ↔ a = [] := by
    constructor
    · intro h
      have := List.mergeSort_perm a (fun x y => decide (x ≤ y))
      rw [h] at this
      exact (List.Perm.nil_eq this).symm
    · rintro rfl; simp
  have hnd : ∀ c : List Int, c.mergeSort.Nodup ↔ c.Nodup := fun c => (List.mergeSort_perm c _).nodup_iff
  unfold make
  simp only
  by_cases h0 : a.mergeSort = []
  · rw [if_pos h0]
    simp only [reduceCtorEq, false_iff]
    intro h; exact h.1.1 (hne.mp h0)
  rw [if_neg h0]
  have h0' : a ≠ [] := fun e => h0 (hne.mpr e)
  have hall : (make.go [] a.mergeSort ≠ none ∧ make.go (a.mergeSort.reverse ++ []) b.mergeSort ≠ none) ↔ ((∀ i ∈ a ++ b, 0 ≤ i) ∧ (a ++ b).Nodup) := by
    have e : ∀ seen l, make.go seen l ≠ none ↔ ((∀ i ∈ l, 0 ≤ i) ∧ l.Nodup ∧ ∀ i ∈ l, i ∉ seen) := by
      intro seen l
      rw [Option.ne_none_iff_exists']
      simp only [go_iff]
      simp
    rw [e, e]
    simp only [sort_mem, hnd, List.mem_append, List.mem_reverse, List.nodup_append, List.not_mem_nil, or_false, not_false_eq_true, implies_true, and_true]
    constructor
    · rintro ⟨⟨p1, p2⟩, p3, p4, p5⟩
      refine ⟨?_, p2, p4, ?_⟩
      · rintro i (h | h)
        · exact p1 i h
        · exact p3 i h
      · intro x hx y hy e; subst e; exact p5 x hy hx
    · rintro ⟨p1, p2, p3, p4⟩
      exact ⟨⟨fun i h => p1 i (.inl h), p2⟩, fun i h => p1 i (.inr h), p3, fun i hi hi' => p4 i hi' i hi rfl⟩
  constructor
  · intro h
    cases h1 : make.go [] a.mergeSort with
    | none => simp [h1] at h
    | some seen =>
      simp only [h1] at h
      have hseen := ((go_iff _ _ _).mp h1).1
      cases h2 : make.go seen b.mergeSort with
      | none => simp [h2] at h
      | some s2 =>
        simp only [h2, Option.some.injEq, Prod.mk.injEq] at h
        have hh := hall.mp ⟨by rw [h1]; simp, by rw [← hseen, h2]; simp⟩
        have hp := hh.1
        have hn := hh.2
        rw [List.nodup_append] at hn
        have hpa : ∀ i ∈ a, 0 ≤ i := fun i hi => hp i (by simp [hi])
        have hpb : ∀ i ∈ b, 0 ≤ i := fun i hi => hp i (by simp [hi])
        rw [← h.1, ← h.2]
        exact ⟨⟨h0', hh⟩, ⟨sorted_inc a hn.1 hpa, hmem a hpa⟩, ⟨sorted_inc b hn.2.1 hpb, hmem b hpb⟩⟩
  · rintro ⟨⟨_, hh⟩, ⟨ha1, ha2⟩, ⟨hb1, hb2⟩⟩
    have hp := hh.1
    have hn := hh.2
    rw [List.nodup_append] at hn
    have hpa : ∀ i ∈ a, 0 ≤ i := fun i hi => hp i (by simp [hi])
    have hpb : ∀ i ∈ b, 0 ≤ i := fun i hi => hp i (by simp [hi])
    obtain ⟨g1, g2⟩ := hall.mpr hh
    cases h1 : make.go [] a.mergeSort with
    | none => exact absurd h1 g1
    | some seen =>
      have hseen := ((go_iff _ _ _).mp h1).1
      cases h2 : make.go seen b.mergeSort with
      | none => rw [← hseen] at g2; exact absurd h2 g2
      | some s2 =>
        have e1 : a.mergeSort.map Int.toNat = nnz := inc_ext (sorted_inc a hn.1 hpa) ha1 fun i => by rw [hmem a hpa, ha2]
        have e2 : b.mergeSort.map Int.toNat = zeros := inc_ext (sorted_inc b hn.2.1 hpb) hb1 fun i => by rw [hmem b hpb, hb2]
        simp only [h2, e1, e2]

theorem Built.good {I : Impl} (h : Built I) : Good I := by
  cases h with
  | lists a b nnz zeros m n rank I hm h =>
    obtain ⟨⟨_, _, h3⟩, ⟨h4, h5⟩, ⟨h6, h7⟩⟩ := (C42_make a b nnz zeros).mp hm
    rw [List.nodup_append] at h3
    exact (good_ofLists m n rank nnz zeros h4 h6 (fun i hi hz => h3.2.2 _ ((h5 i).mp hi) _ ((h7 i).mp hz) rfl) I h).1
  | range m n rank first size hr I h =>
    rcases good_ofRange m n rank first size I h with h | h
    · exact h.1
    · omega

/-- **C42.** What the constructor from indices accepts for a matrix: indices within the columns, as many non-zero rows as the declared rank. -/
theorem C42_lists (m n rank : Nat) (nnz zeros : List Nat) (a b : List Int) (hm : make a b = some (nnz, zeros)) :
    Impl.ofLists m n rank nnz zeros = .throw () ∨
    ∃ I, Impl.ofLists m n rank nnz zeros = .ok () I ∧ I.m = m ∧ I.n = n ∧ I.nnz = nnz ∧ I.zeros = zeros ∧
      nnz.length = rank ∧ (∀ i ∈ nnz, i < n) ∧ ∀ i ∈ zeros, i < n := by
  obtain ⟨⟨h1, _, h3⟩, ⟨h4, h5⟩, ⟨h6, h7⟩⟩ := (C42_make a b nnz zeros).mp hm
  rw [List.nodup_append] at h3
  have hdisj : ∀ i ∈ nnz, i ∉ zeros := fun i hi hz => h3.2.2 _ ((h5 i).mp hi) _ ((h7 i).mp hz) rfl
  have hlast : ∀ l : List Nat, l.Pairwise (· < ·) → ∀ i ∈ l, i ≤ l.getLast?.getD 0 := by
    intro l hl i hi
    have hne : l ≠ [] := by rintro rfl; simp at hi
    rw [List.getLast?_eq_some_getLast hne]
    simp only [Option.getD_some]
    obtain ⟨k, hk, rfl⟩ := List.getElem_of_mem hi
    rw [List.getLast_eq_getElem]
    rw [List.pairwise_iff_getElem] at hl
    by_cases hkl : k < l.length - 1
    · exact Nat.le_of_lt (hl k (l.length - 1) hk (by omega) hkl)
    · have : k = l.length - 1 := by omega
      subst this; exact le_rfl
  unfold Impl.ofLists
  by_cases ha : n ≤ optionalMax nnz zeros
  · left; rw [if_pos ha]
  rw [if_neg ha]
  by_cases hb : nnz.length ≠ rank
  · left; rw [if_pos hb]
  rw [if_neg hb]
  right
  have ha' : max (nnz.getLast?.getD 0) (zeros.getLast?.getD 0) < n := by unfold optionalMax at ha; omega
  have hn : ∀ i ∈ nnz, i < n := fun i hi => by have := hlast nnz h4 i hi; omega
  have hz : ∀ i ∈ zeros, i < n := fun i hi => by have := hlast zeros h6 i hi; omega
  refine ⟨⟨m, n, nnz, innzLoop nnz zeros n 0 0, cnnzLoop n 0 nnz, zeros⟩, ?_, rfl, rfl, rfl, rfl, not_not.mp hb, hn, hz⟩
  unfold build
  rw [if_neg]
  simp only [Bool.or_eq_true, List.any_eq_true, decide_eq_true_eq, not_or, not_exists, not_and, Nat.not_le]
  exact ⟨hn, hz⟩

/-! ## The sums -/

/-- A product with `A` has a single term. -/
theorem sum_A {A : Nat → Nat → K} {m n : Nat} {nnz zeros sel : List Nat} (hs : Selects A m n nnz zeros sel) (k i : Nat) (hk : sel[k]? = some i) (hi : i < n)
    (x : Nat → K) : ∑ j ∈ range n, A k j * x j = A k i * x i := by
  rw [Finset.sum_eq_single i]
  · intro j hj hji
    rw [hs.off k i hk j (by simpa using hj) hji, zero_mul]
  · intro h; exact absurd (by simpa using hi) h

theorem sum_N {I : Impl} (g : Good I) (z : Nat → K) (j : Nat) :
    (∀ (q : Nat), I.cnnz[q]? = some j → ∑ i ∈ range I.cnnz.length, I.N (K := K) j i * z i = z q) ∧
    (j ∈ I.nnz → ∑ i ∈ range I.cnnz.length, I.N (K := K) j i * z i = 0) := by
  constructor
  · intro q hq
    have hql := (List.getElem?_eq_some_iff.mp hq).1
    rw [Finset.sum_eq_single q]
    · rw [N_eq, if_pos hq, one_mul]
    · intro i hi hiq
      rw [N_eq, if_neg, zero_mul]
      intro e
      apply hiq
      have hil := (List.getElem?_eq_some_iff.mp e).1
      have h1 := (List.getElem?_eq_some_iff.mp e).2
      have h2 := (List.getElem?_eq_some_iff.mp hq).2
      have hinc := g.cnnz_inc
      rw [List.pairwise_iff_getElem] at hinc
      rcases Nat.lt_trichotomy i q with h | h | h
      · have := hinc i q hil hql h; omega
      · exact h
      · have := hinc q i hql hil h; omega
    · intro h; exact absurd (by simpa using hql) h
  · intro hj
    apply Finset.sum_eq_zero
    intro i _
    rw [N_eq, if_neg, zero_mul]
    intro e
    have := List.mem_of_getElem? e
    exact ((g.cnnz_mem j).mp this).2 hj

theorem card_cnnz {I : Impl} (g : Good I) : I.cnnz.length + I.nnz.length = I.n := by
  have hperm : (I.cnnz ++ I.nnz).Perm (List.range I.n) := by
    rw [List.perm_ext_iff_of_nodup]
    · intro a
      rw [List.mem_append, g.cnnz_mem, List.mem_range]
      constructor
      · rintro (h | h)
        · exact h.1
        · exact g.nnz_lt a h
      · intro h
        by_cases ha : a ∈ I.nnz
        · exact .inr ha
        · exact .inl ⟨h, ha⟩
    · rw [List.nodup_append]
      refine ⟨g.cnnz_inc.imp fun h => by omega, g.nnz_inc.imp fun h => by omega, ?_⟩
      rintro x hx y hy rfl
      exact ((g.cnnz_mem x).mp hx).2 hy
    · exact List.nodup_range
  have := hperm.length_eq
  simpa using this

theorem lt_of_sel {I : Impl} (g : Good I) {A : Nat → Nat → K} {sel : List Nat} (hs : Selects A I.m I.n I.nnz I.zeros sel) (k i : Nat) (hk : sel[k]? = some i) :
    i < I.n ∧ (i ∈ I.nnz ∨ i ∈ I.zeros) := by
  have := (hs.mem i).mp (List.mem_of_getElem? hk)
  refine ⟨?_, this⟩
  rcases this with h | h
  · exact g.nnz_lt i h
  · exact g.zeros_lt i h

theorem zeros_lt_m {I : Impl} {A : Nat → Nat → K} {sel : List Nat} (hs : Selects A I.m I.n I.nnz I.zeros sel) (hg : Gapless I.nnz I.zeros) :
    ∀ i ∈ I.zeros, i < I.m ∧ sel[i]? = some i := by
  intro i hi
  have : sel[i]? = some i := by
    have := inc_self sel hs.inc 0 i (by simp) (by
      intro j _ hj
      rw [hs.mem]
      rcases Nat.lt_or_ge j i with h | h
      · exact hg i hi j h
      · have : j = i := by omega
        subst this; exact .inr hi)
    simpa using this
  refine ⟨?_, this⟩
  have := (List.getElem?_eq_some_iff.mp this).1
  have := hs.len
  omega

/-! ## The generalized inverse and the nullspace -/

/-- **C42.** `A A# A = A` (the calculator is given `A` itself to multiply by the inverse), as long as the rows read for `Sᵀ` exist. The
result is the opposite with the flag `minus`. -/
theorem C42_inverse (I : Impl) (hI : Built I) (A : Nat → Nat → K) (sel : List Nat) (hs : Selects A I.m I.n I.nnz I.zeros sel) (hz : ∀ i ∈ I.zeros, i < I.m)
    (outA outS : Nat → Nat → K) (minus : Bool) :
    ∃ a s, I.premultiply A outA outS A minus = .ok () (a, s) ∧
      ∀ k < I.m, ∀ j < I.n, ∑ l ∈ range I.n, A k l * a l j = (if minus then -1 else 1) * A k j := by
  obtain ⟨a, s, h1, h2, h3, _⟩ := premul_rows hI.good sel hs.inc hs.mem hs.len hz A outA outS A minus
  refine ⟨a, s, h1, ?_⟩
  intro k hk j hj
  have hks : k < sel.length := by rw [hs.len]; exact hk
  have hki : sel[k]? = some sel[k] := List.getElem?_eq_getElem hks
  obtain ⟨hin, hi⟩ := lt_of_sel hI.good hs k _ hki
  rw [sum_A hs k _ hki hin (fun l => a l j)]
  by_cases hn : sel[k] ∈ I.nnz
  · rw [h2 k _ j hki hn]
    have hne := hs.nz k _ hki hn
    cases minus
    · simp only [Bool.false_eq_true, if_false, one_mul]
      rw [one_div, mul_inv_cancel_left₀ hne]
    · simp only [if_true, neg_mul, one_mul, mul_neg]
      rw [one_div, mul_inv_cancel_left₀ hne]
  · have hz : sel[k] ∈ I.zeros := hi.resolve_left hn
    rw [hs.zero k _ hki hz, zero_mul]
    have : A k j = 0 := by
      by_cases hj' : j = sel[k]
      · rw [hj']; exact hs.zero k _ hki hz
      · exact hs.off k _ hki j hj hj'
    rw [this, mul_zero]

/-- **C42.** `A N = 0`, and `N` has `n - r` columns. -/
theorem C42_nullspace (I : Impl) (hI : Built I) (A : Nat → Nat → K) (sel : List Nat) (hs : Selects A I.m I.n I.nnz I.zeros sel) :
    I.cnnz.length + I.nnz.length = I.n ∧ ∀ k < I.m, ∀ i < I.cnnz.length, ∑ j ∈ range I.n, A k j * I.N (K := K) j i = 0 := by
  refine ⟨card_cnnz hI.good, ?_⟩
  intro k hk i hi
  have hks : k < sel.length := by rw [hs.len]; exact hk
  have hki : sel[k]? = some sel[k] := List.getElem?_eq_getElem hks
  obtain ⟨hin, hm⟩ := lt_of_sel hI.good hs k _ hki
  rw [sum_A hs k _ hki hin (fun j => I.N (K := K) j i)]
  rcases hm with hm | hm
  · rw [N_eq, if_neg, mul_zero]
    intro e
    exact ((hI.good.cnnz_mem _).mp (List.mem_of_getElem? e)).2 hm
  · rw [hs.zero k _ hki hm, zero_mul]

/-- **C42.** `postMultiplyByN` computes the product by `N`, and adds it to what is there when asked. -/
theorem C42_postN (I : Impl) (hI : Built I) (out inp : Nat → Nat → K) (add : Bool) (i j : Nat) (hj : j < I.cnnz.length) :
    I.postN out inp add i j = (if add then out i j else 0) + ∑ l ∈ range I.n, inp i l * I.N (K := K) l j := by
  rw [postN_eq out inp add i j hj]
  congr 1
  have hq : I.cnnz[j]? = some I.cnnz[j] := List.getElem?_eq_getElem hj
  have hlt := ((hI.good.cnnz_mem _).mp (List.mem_of_getElem? hq)).1
  rw [Finset.sum_eq_single I.cnnz[j]]
  · rw [N_eq, if_pos hq, mul_one]
  · intro l _ hl
    rw [N_eq, if_neg, mul_zero]
    intro e
    rw [hq] at e
    exact hl (Option.some.inj e).symm
  · intro h; exact absurd (by simpa using hlt) h

/-- **C42, partial**: `Sᵀ A = 0`, and the solutions of `A x = c` are the `A# c + N z`, for one `z` each; there are solutions exactly when `Sᵀ c = 0`.
The columns of `inp` are as many right-hand sides `c`. Partial: only for the structures without an undeclared index before an index declared as
zero (`C42_row_false` and `C42_ub`). -/
theorem C42_solutions_partial (I : Impl) (hI : Built I) (A : Nat → Nat → K) (sel : List Nat) (hs : Selects A I.m I.n I.nnz I.zeros sel)
    (hg : Gapless I.nnz I.zeros) (outA outS inp : Nat → Nat → K) :
    (∃ a s, I.premultiply A outA outS inp false = .ok () (a, s) ∧
      ∀ q, ∀ x : Nat → K, (∀ k < I.m, ∑ j ∈ range I.n, A k j * x j = inp k q) ↔
        (∀ i < I.zeros.length, s i q = 0) ∧
        ∃ z : Nat → K, (∀ j < I.n, x j = a j q + ∑ i ∈ range I.cnnz.length, I.N (K := K) j i * z i) ∧
          ∀ z' : Nat → K, (∀ j < I.n, x j = a j q + ∑ i ∈ range I.cnnz.length, I.N (K := K) j i * z' i) → ∀ i < I.cnnz.length, z' i = z i) ∧
    ∃ a s, I.premultiply A outA outS A false = .ok () (a, s) ∧ ∀ i < I.zeros.length, ∀ j < I.n, s i j = 0 := by
  have g := hI.good
  have hzm := zeros_lt_m hs hg
  constructor
  · obtain ⟨a, s, h1, h2, h3, h4⟩ := premul_rows g sel hs.inc hs.mem hs.len (fun i hi => (hzm i hi).1) A outA outS inp false
    refine ⟨a, s, h1, ?_⟩
    intro q x
    have hrow : ∀ k < I.m, ∃ i, sel[k]? = some i ∧ i < I.n ∧ (i ∈ I.nnz ∨ i ∈ I.zeros) ∧ ∑ j ∈ range I.n, A k j * x j = A k i * x i := by
      intro k hk
      have hks : k < sel.length := by rw [hs.len]; exact hk
      have hki : sel[k]? = some sel[k] := List.getElem?_eq_getElem hks
      obtain ⟨hin, hi⟩ := lt_of_sel g hs k _ hki
      exact ⟨_, hki, hin, hi, sum_A hs k _ hki hin x⟩
    have hplace : ∀ i ∈ I.nnz, ∃ k < I.m, sel[k]? = some i := by
      intro i hi
      obtain ⟨k, hk, e⟩ := List.getElem_of_mem ((hs.mem i).mpr (.inl hi))
      exact ⟨k, by rw [← hs.len]; exact hk, by rw [List.getElem?_eq_getElem hk, e]⟩
    constructor
    · intro hx
      refine ⟨?_, ?_⟩
      · intro i hi
        rw [h4 i q hi]
        obtain ⟨hm, hsel⟩ := hzm I.zeros[i] (List.getElem_mem hi)
        have := hx _ hm
        rw [sum_A hs _ _ hsel (g.zeros_lt _ (List.getElem_mem hi)) x, hs.zero _ _ hsel (List.getElem_mem hi), zero_mul] at this
        exact this.symm
      · refine ⟨fun i => x (I.cnnz.getD i 0), ?_, ?_⟩
        · intro j hj
          by_cases hjn : j ∈ I.nnz
          · rw [(sum_N g _ j).2 hjn, add_zero]
            obtain ⟨k, hk, hkj⟩ := hplace j hjn
            have hxx := hx k hk
            rw [sum_A hs k j hkj hj x] at hxx
            rw [h2 k j q hkj hjn, ← hxx]
            simp only [Bool.false_eq_true, if_false]
            rw [one_div, inv_mul_cancel_left₀ (hs.nz k j hkj hjn)]
          · obtain ⟨p, hp, e⟩ := List.getElem_of_mem ((g.cnnz_mem j).mpr ⟨hj, hjn⟩)
            have hpj : I.cnnz[p]? = some j := by rw [List.getElem?_eq_getElem hp, e]
            rw [(sum_N g _ j).1 p hpj, h3 j q hj hjn, zero_add]
            rw [List.getD_eq_getElem?_getD, hpj]
            rfl
        · intro z' hz' i hi
          have hpj : I.cnnz[i]? = some I.cnnz[i] := List.getElem?_eq_getElem hi
          obtain ⟨hlt, hnn⟩ := (g.cnnz_mem _).mp (List.mem_of_getElem? hpj)
          have := hz' _ hlt
          rw [(sum_N g z' _).1 i hpj, h3 _ q hlt hnn, zero_add] at this
          show z' i = x (I.cnnz.getD i 0)
          rw [List.getD_eq_getElem?_getD, hpj]
          exact this.symm
    · rintro ⟨hS, z, hz, _⟩ k hk
      obtain ⟨i, hki, hin, hm, hsum⟩ := hrow k hk
      rw [hsum]
      by_cases hi : i ∈ I.nnz
      · rw [hz i hin, (sum_N g z i).2 hi, add_zero, h2 k i q hki hi]
        simp only [Bool.false_eq_true, if_false]
        rw [one_div, mul_inv_cancel_left₀ (hs.nz k i hki hi)]
      · have hiz := hm.resolve_left hi
        obtain ⟨_, hsel⟩ := hzm i hiz
        have hik : i = k := by
          have hl1 := (List.getElem?_eq_some_iff.mp hki).1
          have hl2 := (List.getElem?_eq_some_iff.mp hsel).1
          have e1 := (List.getElem?_eq_some_iff.mp hki).2
          have e2 := (List.getElem?_eq_some_iff.mp hsel).2
          have hinc := hs.inc
          rw [List.pairwise_iff_getElem] at hinc
          rcases Nat.lt_trichotomy i k with h | h | h
          · have := hinc i k hl2 hl1 h; omega
          · exact h
          · have := hinc k i hl1 hl2 h; omega
        rw [hs.zero k i hki hiz, zero_mul]
        obtain ⟨p, hp, e⟩ := List.getElem_of_mem hiz
        have := hS p hp
        rw [h4 p q hp, e] at this
        rw [← hik, this]
  · obtain ⟨a, s, h1, _, _, h4⟩ := premul_rows g sel hs.inc hs.mem hs.len (fun i hi => (hzm i hi).1) A outA outS A false
    refine ⟨a, s, h1, ?_⟩
    intro i hi j hj
    rw [h4 i j hi]
    obtain ⟨_, hsel⟩ := hzm I.zeros[i] (List.getElem_mem hi)
    by_cases e : j = I.zeros[i]
    · rw [e]; exact hs.zero _ _ hsel (List.getElem_mem hi)
    · exact hs.off _ _ hsel j hj e

/-- **C42**, the case of a range of rows of a diagonal matrix, without zero row: everything holds. -/
theorem C42_range (m n rank : Nat) (first size : Int) (hr : 0 < rank) (I : Impl) (h : Impl.ofRange m n rank first size = .ok () I) :
    Built I ∧ Gapless I.nnz I.zeros ∧ I.zeros = [] ∧ (∀ i, i ∈ I.nnz ↔ first ≤ i ∧ (i : Int) < first + rank) ∧ 0 ≤ first ∧ first + rank ≤ n ∧
      (size = rank ∨ (size = -1 ∧ (rank : Int) = n - first)) := by
  rcases good_ofRange m n rank first size I h with hh | hh
  · obtain ⟨_, _, _, h1, h2, h3, h4, h5⟩ := hh
    refine ⟨.range m n rank first size hr I h, ?_, h3, ?_, h1, by omega, h2⟩
    · intro i hi; rw [h3] at hi; simp at hi
    · intro i; rw [h4, mem_between]; omega
  · omega

/-! ## What goes wrong with an undeclared index before an index declared as zero -/

/-- the rows 1, 2 and 3 of a diagonal matrix of size 4, the row 2 being zero -/
def exA : Nat → Nat → ℚ := fun i j => if i = 0 ∧ j = 1 then 2 else if i = 2 ∧ j = 3 then 5 else 0

/-- **C42, negation.** `Sᵀ` selects the wrong row: with the rows 1, 2 and 3 of a diagonal matrix of size 4, the row 2 being zero, the last
row of `A`, which is not zero, is taken for the zero one: the solvable system `A x = (0, 0, 5)` is declared without solution. -/
theorem C42_row_false :
    ∃ (I : Impl) (A : Nat → Nat → ℚ) (sel : List Nat), Built I ∧ Selects A I.m I.n I.nnz I.zeros sel ∧
      ∃ (inp : Nat → Nat → ℚ) (a s : Nat → Nat → ℚ), I.premultiply A (fun _ _ => 0) (fun _ _ => 0) inp false = .ok () (a, s) ∧ s 0 0 ≠ 0 ∧
      ∃ x : Nat → ℚ, ∀ k < I.m, ∑ j ∈ range I.n, A k j * x j = inp k 0 := by
  refine ⟨⟨3, 4, [1, 3], [0, 2], [0, 2], [2]⟩, exA, [1, 2, 3], ?_, ⟨by decide, ?_, rfl, ?_, ?_, ?_⟩, fun i _ => if i = 2 then 5 else 0, ?_⟩
  · refine .lists [1, 3] [2] [1, 3] [2] 3 4 2 _ ?_ ?_
    · exact ((C42_make _ _ _ _).mpr ⟨⟨by decide, by decide, by decide⟩, ⟨by decide, fun i => by simp only [List.mem_cons, List.not_mem_nil, or_false]; omega⟩, ⟨by decide, fun i => by simp only [List.mem_cons, List.not_mem_nil, or_false]; omega⟩⟩)
    · decide +kernel
  · intro i; simp only [List.mem_cons, List.not_mem_nil, or_false]; tauto
  · intro k i hk j hj hji
    unfold exA
    match k, hk with
    | 0, hk => simp at hk; subst hk; simp [hji]
    | 1, hk => simp
    | 2, hk => simp at hk; subst hk; simp [hji]
    | k + 3, hk => simp at hk
  · intro k i hk hz
    simp only [List.mem_cons, List.not_mem_nil, or_false] at hz
    subst hz
    unfold exA
    simp
  · intro k i hk hz
    unfold exA
    match k, hk with
    | 0, hk => simp at hk; subst hk; norm_num
    | 1, hk => simp at hk; subst hk; simp at hz
    | 2, hk => simp at hk; subst hk; norm_num
    | k + 3, hk => simp at hk
  · refine ⟨_, _, rfl, ?_, fun j => if j = 3 then 1 else 0, ?_⟩
    · show (5 : ℚ) ≠ 0
      norm_num
    · intro k hk
      match k, hk with
      | 0, _ => simp [exA]
      | 1, _ => simp [exA]
      | 2, _ => simp [exA]
      | k + 3, hk => have hk : k + 3 < 3 := hk; omega

/-- **C42, negation.** A row of `Sᵀ` beyond the rows of `A` is read when an index declared as zero is not less than the number of rows. -/
theorem C42_ub (I : Impl) (i : Nat) (hi : i ∈ I.zeros) (hm : I.m ≤ i) (A outA outS inp : Nat → Nat → K) (minus : Bool) :
    I.premultiply A outA outS inp minus = .ub := by
  unfold Impl.premultiply
  rw [if_pos]
  simp only [Bool.or_eq_true, List.any_eq_true, decide_eq_true_eq]
  exact .inr ⟨i, hi, hm⟩

/-- The rows 1 and 2 of a diagonal matrix of size 3, the row 2 being zero, meet the hypotheses of `C42_ub`. -/
example : ∃ I : Impl, Built I ∧ 2 ∈ I.zeros ∧ I.m ≤ 2 ∧ Selects (K := ℚ) (fun i j => if i = 0 ∧ j = 1 then 1 else 0) I.m I.n I.nnz I.zeros [1, 2] := by
  refine ⟨⟨2, 3, [1], [0], [0, 2], [2]⟩, .lists [1] [2] [1] [2] 2 3 1 _ ((C42_make _ _ _ _).mpr ⟨⟨by decide, by decide, by decide⟩, ⟨by decide, fun i => by simp only [List.mem_cons, List.not_mem_nil, or_false]; omega⟩, ⟨by decide, fun i => by simp only [List.mem_cons, List.not_mem_nil, or_false]; omega⟩⟩) (by decide +kernel), by decide, by decide,
    ⟨by decide, ?_, rfl, ?_, ?_, ?_⟩⟩
  · intro i; simp only [List.mem_cons, List.not_mem_nil, or_false]
  · intro k i hk j hj hji
    match k, hk with
    | 0, hk => simp at hk; subst hk; simp [hji]
    | k + 1, hk => simp
  · intro k i hk hz
    simp only [List.mem_cons, List.not_mem_nil, or_false] at hz
    subst hz; simp
  · intro k i hk hz
    simp only [List.mem_cons, List.not_mem_nil, or_false] at hz
    subst hz
    match k, hk with
    | 0, hk => simp
    | 1, hk => simp at hk
    | k + 2, hk => simp at hk

/-! ## A case that meets the hypotheses: rows 0, 1 and 2 of a diagonal matrix of size 4, the row 1 being zero, the indices given in disorder -/

def exB : Nat → Nat → ℚ := fun i j => if i = 0 ∧ j = 0 then 2 else if i = 2 ∧ j = 2 then -3 else 0

theorem exB_meets : ∃ I : Impl, Built I ∧ Selects exB I.m I.n I.nnz I.zeros [0, 1, 2] ∧ Gapless I.nnz I.zeros ∧ (∀ i ∈ I.zeros, i < I.m) ∧ I.cnnz = [1, 3] := by
  refine ⟨⟨3, 4, [0, 2], [0, 2], [1, 3], [1]⟩, .lists [2, 0] [1] [0, 2] [1] 3 4 2 _ ((C42_make _ _ _ _).mpr ⟨⟨by decide, by decide, by decide⟩, ⟨by decide, fun i => by simp only [List.mem_cons, List.not_mem_nil, or_false]; omega⟩, ⟨by decide, fun i => by simp only [List.mem_cons, List.not_mem_nil, or_false]; omega⟩⟩) (by decide +kernel), ⟨by decide, ?_, rfl, ?_, ?_, ?_⟩, ?_, by decide, rfl⟩
  · intro i; simp only [List.mem_cons, List.not_mem_nil, or_false]; tauto
  · intro k i hk j hj hji
    unfold exB
    match k, hk with
    | 0, hk => simp at hk; subst hk; simp [hji]
    | 1, hk => simp
    | 2, hk => simp at hk; subst hk; simp [hji]
    | k + 3, hk => simp at hk
  · intro k i hk hz
    simp only [List.mem_cons, List.not_mem_nil, or_false] at hz
    subst hz; unfold exB; simp
  · intro k i hk hz
    unfold exB
    match k, hk with
    | 0, hk => simp at hk; subst hk; norm_num
    | 1, hk => simp at hk; subst hk; simp at hz
    | 2, hk => simp at hk; subst hk; norm_num
    | k + 3, hk => simp at hk
  · intro i hi j hj
    simp only [List.mem_cons, List.not_mem_nil, or_false] at hi
    subst hi
    have : j = 0 := by omega
    subst this; simp

example : ∃ I : Impl, Impl.ofRange 2 4 2 1 2 = .ok () I := ⟨_, rfl⟩
/-- the size -1 is for all the rows that follow -/
example : ∃ I : Impl, Impl.ofRange 3 4 3 1 (-1) = .ok () I ∧ I.nnz = [1, 2, 3] ∧ I.cnnz = [0] := ⟨_, rfl, rfl, rfl⟩

-- the theorems applied to the rows of the second example
example : ∃ I : Impl, Built I ∧ ∃ a s, I.premultiply exB (fun _ _ => 9) (fun _ _ => 9) exB true = .ok () (a, s) ∧
    ∀ k < I.m, ∀ j < I.n, ∑ l ∈ range I.n, exB k l * a l j = (if true then -1 else 1) * exB k j := by
  obtain ⟨I, h1, h2, _, h4, _⟩ := exB_meets
  exact ⟨I, h1, C42_inverse I h1 exB _ h2 h4 _ _ true⟩
example : ∃ I : Impl, I.cnnz.length + I.nnz.length = I.n ∧
    ∀ k < I.m, ∀ i < I.cnnz.length, ∑ j ∈ range I.n, exB k j * I.N (K := ℚ) j i = 0 := by
  obtain ⟨I, h1, h2, _⟩ := exB_meets
  exact ⟨I, C42_nullspace I h1 exB _ h2⟩
example : ∃ I : Impl, Built I ∧ I.postN (fun _ _ => (5 : ℚ)) exB true 0 1 = 5 + ∑ l ∈ range I.n, exB 0 l * I.N (K := ℚ) l 1 := by
  obtain ⟨I, h1, _, _, _, h5⟩ := exB_meets
  exact ⟨I, h1, C42_postN I h1 (fun _ _ => 5) exB true 0 1 (by rw [h5]; decide)⟩
-- the solutions of `exB x = b` for any right hand sides
example (b : Nat → Nat → ℚ) : ∃ (I : Impl) (s : Nat → Nat → ℚ), Built I ∧ ∀ q, ∀ x : Nat → ℚ,
    (∀ k < I.m, ∑ j ∈ range I.n, exB k j * x j = b k q) → ∀ i < I.zeros.length, s i q = 0 := by
  obtain ⟨I, h1, h2, h3, _⟩ := exB_meets
  obtain ⟨_, s, _, h⟩ := (C42_solutions_partial I h1 exB _ h2 h3 (fun _ _ => 0) (fun _ _ => 0) b).1
  exact ⟨I, s, h1, fun q x hx => ((h q x).1 hx).1⟩
example : ∃ I : Impl, Impl.ofRange 2 4 2 1 2 = .ok () I ∧ Built I ∧ ∀ i : Nat, i ∈ I.nnz ↔ (1 : Int) ≤ i ∧ (i : Int) < 1 + (2 : Nat) :=
  ⟨_, rfl, (C42_range 2 4 2 1 2 (by decide) _ rfl).1, (C42_range 2 4 2 1 2 (by decide) _ rfl).2.2.2.1⟩
example : (⟨2, 3, [1], [0], [0, 2], [2]⟩ : Impl).premultiply exB exB exB exB false = .ub :=
  C42_ub _ 2 (by decide) (by decide) _ _ _ _ false
example := C42_lists 3 4 2 [0, 2] [1] [2, 0] [1] ((C42_make _ _ _ _).mpr ⟨⟨by decide, by decide, by decide⟩,
  ⟨by decide, fun i => by simp only [List.mem_cons, List.not_mem_nil, or_false]; omega⟩,
  ⟨by decide, fun i => by simp only [List.mem_cons, List.not_mem_nil, or_false]; omega⟩⟩)

end Verif.C42
