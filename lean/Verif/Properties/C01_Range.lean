import Verif.Model.Range
/-!
# C01: `tvm::Range` queries are set queries
-/
set_option autoImplicit false

namespace Verif.C01
open Verif

/-! ## Specification: a range denotes a set of integers. -/

/-- `k` is an integer denoted by the pair (start, dim). -/
def Denotes (r : Range) (k : Int) : Prop := r.start ≤ k ∧ k < r.start + r.dim

/-- **C01** membership -/
theorem C01_contains_int (r : Range) (k : Int) : r.containsInt k = true ↔ Denotes r k := by
  simp only [Range.containsInt, Denotes, Bool.and_eq_true, decide_eq_true_eq]
  rfl

/-- **C01** inclusion, for a non-empty `o` -/
theorem C01_contains_range (r o : Range) (ho : 0 < o.dim) :
    r.contains o = true ↔ ∀ k, Denotes o k → Denotes r k := by
  simp only [Range.contains, Range.containsInt, Denotes, Bool.and_eq_true,
    decide_eq_true_eq]
  simp only [Range.stop]
  constructor
  · intro h k hk; omega
  · intro h
    have h1 := h o.start (by omega)
    have h2 := h (o.start + o.dim - 1) (by omega)
    omega

/-- **C01** intersection, for non-empty ranges -/
theorem C01_intersects (r o : Range) (hr : 0 < r.dim) (ho : 0 < o.dim) :
    r.intersects o = true ↔ ∃ k, Denotes r k ∧ Denotes o k := by
  simp only [Range.intersects, Range.containsInt, Denotes, Bool.or_eq_true,
    Bool.and_eq_true, decide_eq_true_eq]
  simp only [Range.stop]
  constructor
  · rintro (h | h)
    · exact ⟨o.start, by omega⟩
    · exact ⟨r.start, by omega⟩
  · rintro ⟨k, h⟩; omega

/-- **C01** intersection is symmetric, without any hypothesis -/
theorem C01_intersects_comm (r o : Range) : r.intersects o = o.intersects r := by
  simp [Range.intersects, Bool.or_comm]

/-- **C01** `relativeRange` is the translation that sends the start of `r` to 0, and for a contained
range it lies in `[0, r.dim)`. -/
theorem C01_relativeRange (r o : Range) (k : Int) :
    Denotes (r.relativeRange o) k ↔ Denotes o (k + r.start) := by
  simp only [Range.relativeRange, Range.unshift, Denotes]; omega

theorem C01_relativeRange_mem (r o : Range) (h : r.contains o = true) (k : Int)
    (hk : Denotes (r.relativeRange o) k) : 0 ≤ k ∧ k < r.dim := by
  simp only [Range.contains, Range.containsInt, Bool.and_eq_true,
    decide_eq_true_eq] at h
  simp only [Range.stop] at h
  simp only [Range.relativeRange, Range.unshift, Denotes] at hk; omega

/-- **C01** translations: `r + i` denotes the integers of `r` moved by `i`, `r - i` is the inverse, and the queries do not
depend on the origin. -/
theorem C01_shift (r o : Range) (i k : Int) :
    (Denotes (r.shift i) k ↔ Denotes r (k - i)) ∧ (Denotes (r.unshift i) k ↔ Denotes r (k + i)) ∧
    (r.shift i).unshift i = r ∧ (r.unshift i).shift i = r ∧
    (r.shift i).contains (o.shift i) = r.contains o ∧ (r.shift i).intersects (o.shift i) = r.intersects o ∧
    (r.shift i).relativeRange (o.shift i) = r.relativeRange o := by
  have e1 : ∀ (q : Range) (j : Int), (q.shift j).start = q.start + j ∧ (q.shift j).dim = q.dim := fun _ _ => ⟨rfl, rfl⟩
  have e2 : ∀ (q : Range) (j : Int), (q.unshift j).start = q.start - j ∧ (q.unshift j).dim = q.dim := fun _ _ => ⟨rfl, rfl⟩
  have ext : ∀ p q : Range, p.start = q.start → p.dim = q.dim → p = q := by
    rintro ⟨a, m⟩ ⟨b, n⟩ h1 h2
    simp only at h1 h2
    rw [h1, h2]
  refine ⟨?_, ?_, ?_, ?_, ?_, ?_, ?_⟩
  · simp only [Denotes, e1]; omega
  · simp only [Denotes, e2]; omega
  · exact ext _ _ (by rw [(e2 _ _).1, (e1 _ _).1]; omega) rfl
  · exact ext _ _ (by rw [(e1 _ _).1, (e2 _ _).1]; omega) rfl
  · rw [Bool.eq_iff_iff]
    simp only [Range.contains, Range.containsInt, Bool.and_eq_true, decide_eq_true_eq]
    simp only [Range.stop, e1]
    omega
  · rw [Bool.eq_iff_iff]
    simp only [Range.intersects, Range.containsInt, Bool.or_eq_true, Bool.and_eq_true, decide_eq_true_eq]
    simp only [Range.stop, e1]
    omega
  · exact ext _ _ (by show o.start + i - (r.start + i) = o.start - r.start; omega) rfl

/-- **C01** For an empty `o`, `contains` answers whether the start of `o` is in `r`
(as documented lines 37-40), so that the empty set of an outside `o` is not contained. -/
theorem C01_contains_empty (r o : Range) (ho : o.dim = 0) :
    r.contains o = true ↔ Denotes r o.start := by
  simp only [Range.contains, Range.containsInt, Denotes, Bool.and_eq_true,
    decide_eq_true_eq]
  simp only [Range.stop]; omega

/-- **C01** (the set reading is false for empty ranges) a non-empty range is reported to intersect
an empty one located inside it, and an empty range does not contain itself. -/
theorem C01_empty_false :
    (∃ r o : Range, 0 ≤ r.dim ∧ 0 ≤ o.dim ∧ r.intersects o = true ∧ ¬ ∃ k, Denotes r k ∧ Denotes o k) ∧
    (∃ r : Range, 0 ≤ r.dim ∧ r.contains r = false ∧ ∀ k, Denotes r k → Denotes r k) := by
  refine ⟨⟨⟨0, 3⟩, ⟨1, 0⟩, by decide, by decide, by decide, ?_⟩, ⟨0, 0⟩, by decide, by decide, fun _ h => h⟩
  rintro ⟨k, h1, h2⟩
  simp only [Denotes] at h1 h2; omega

example : (⟨3, 8⟩ : Range).relativeRange ⟨5, 2⟩ = ⟨2, 2⟩ := by decide
example : 0 < (⟨0, 4⟩ : Range).dim ∧ (⟨0, 4⟩ : Range).intersects ⟨3, 3⟩ = true
    ∧ (⟨0, 4⟩ : Range).contains ⟨3, 3⟩ = false := by decide

-- each theorem applied to the ranges of the test of the project (overlapping, included, empty)
example : ∀ k, Denotes ⟨5, 2⟩ k → Denotes ⟨3, 8⟩ k := (C01_contains_range ⟨3, 8⟩ ⟨5, 2⟩ (by decide)).1 (by decide)
example : ∃ k, Denotes ⟨0, 4⟩ k ∧ Denotes ⟨3, 3⟩ k := (C01_intersects ⟨0, 4⟩ ⟨3, 3⟩ (by decide) (by decide)).1 (by decide)
example : (0 : Int) ≤ 3 ∧ (3 : Int) < 8 := C01_relativeRange_mem ⟨3, 8⟩ ⟨5, 2⟩ (by decide) 3 (by unfold Denotes; decide)
example : (⟨3, 8⟩ : Range).contains ⟨5, 0⟩ = true ∧ (⟨3, 8⟩ : Range).contains ⟨11, 0⟩ = false := by
  have h1 := (C01_contains_empty ⟨3, 8⟩ ⟨5, 0⟩ rfl).2 (by unfold Denotes; decide)
  have h2 := mt (C01_contains_empty ⟨3, 8⟩ ⟨11, 0⟩ rfl).1 (by unfold Denotes; decide)
  exact ⟨h1, by simpa using h2⟩

end Verif.C01
