import Verif.Model.TaskDynamics
import Mathlib.Order.Bounds.Basic
import Mathlib.Tactic.Linarith
import Mathlib.Tactic.Ring
import Mathlib.Tactic.FieldSimp
/-!
# C44 Clamping keeps direction and respects bounds

The specification is the set of the factors between 0 and 1 that bring every component within its bounds; the factor applied by the code is the
greatest element of this set.
-/
set_option autoImplicit false
set_option linter.unusedSectionVars false

namespace Verif.C44
open Verif TD
variable {K : Type} [Field K] [LinearOrder K] [IsStrictOrderedRing K]

/-- `v` has its `n` components within the bounds. -/
def Within (n : Nat) (lo hi v : Nat → K) : Prop := ∀ i, i < n → lo i ≤ v i ∧ v i ≤ hi i

/-- The admissible factors for `v` -/
def Factors (n : Nat) (lo hi v : Nat → K) : Set K := {s | 0 ≤ s ∧ s ≤ 1 ∧ Within n lo hi (fun i => s * v i)}

/-- The bounds contain zero (what the constructors require). -/
def Around (n : Nat) (lo hi : Nat → K) : Prop := ∀ i, i < n → lo i ≤ 0 ∧ 0 ≤ hi i

theorem le_stdMin (t a b : K) : t ≤ stdMin a b ↔ t ≤ a ∧ t ≤ b := by
  unfold stdMin
  by_cases h : b < a
  · rw [if_pos h]; exact ⟨fun h1 => ⟨by linarith, h1⟩, fun h1 => h1.2⟩
  · rw [if_neg h]; exact ⟨fun h1 => ⟨h1, by linarith [not_lt.mp h]⟩, fun h1 => h1.1⟩

theorem step_le (lo hi v : Nat → K) (s t : K) (i : Nat) (hl : lo i ≤ 0) (hh : 0 ≤ hi i) (h0 : 0 ≤ t) (hs : s ≤ 1) :
    t ≤ clampStep lo hi v s i ↔ t ≤ s ∧ lo i ≤ t * v i ∧ t * v i ≤ hi i := by
  unfold clampStep
  by_cases h1 : hi i < v i
  · have hv : 0 < v i := by linarith
    rw [if_pos h1, le_stdMin, le_div_iff₀ hv]
    have : 0 ≤ t * v i := mul_nonneg h0 hv.le
    exact ⟨fun h => ⟨h.1, by linarith, h.2⟩, fun h => ⟨h.1, h.2.2⟩⟩
  · rw [if_neg h1]
    by_cases h2 : v i < lo i
    · have hv : v i < 0 := by linarith
      rw [if_pos h2, le_stdMin, le_div_iff_of_neg hv]
      have : t * v i ≤ 0 := mul_nonpos_of_nonneg_of_nonpos h0 hv.le
      exact ⟨fun h => ⟨h.1, h.2, by linarith⟩, fun h => ⟨h.1, h.2.1⟩⟩
    · rw [if_neg h2]
      refine ⟨fun h => ⟨h, ?_⟩, fun h => h.1⟩
      have ht : t ≤ 1 := by linarith
      have h1' := not_lt.mp h1
      have h2' := not_lt.mp h2
      constructor
      · by_cases hv : 0 ≤ v i
        · have := mul_nonneg h0 hv; linarith
        · have : v i ≤ t * v i := by nlinarith [not_le.mp hv]
          linarith
      · by_cases hv : 0 ≤ v i
        · have : t * v i ≤ v i := by nlinarith
          linarith
        · have := mul_nonpos_of_nonneg_of_nonpos h0 (not_le.mp hv).le; linarith

theorem step_le_self (lo hi v : Nat → K) (s : K) (i : Nat) : clampStep lo hi v s i ≤ s := by
  unfold clampStep stdMin
  by_cases h1 : hi i < v i
  · rw [if_pos h1]
    by_cases h : hi i / v i < s
    · rw [if_pos h]; exact h.le
    · rw [if_neg h]
  · rw [if_neg h1]
    by_cases h2 : v i < lo i
    · rw [if_pos h2]
      by_cases h : lo i / v i < s
      · rw [if_pos h]; exact h.le
      · rw [if_neg h]
    · rw [if_neg h2]

theorem step_nonneg (lo hi v : Nat → K) (s : K) (i : Nat) (hl : lo i ≤ 0) (hh : 0 ≤ hi i) (h0 : 0 ≤ s) : 0 ≤ clampStep lo hi v s i := by
  unfold clampStep stdMin
  by_cases h1 : hi i < v i
  · rw [if_pos h1]
    by_cases h : hi i / v i < s
    · rw [if_pos h]; exact div_nonneg hh (by linarith)
    · rw [if_neg h]; exact h0
  · rw [if_neg h1]
    by_cases h2 : v i < lo i
    · rw [if_pos h2]
      by_cases h : lo i / v i < s
      · rw [if_pos h]; exact div_nonneg_of_nonpos hl (by linarith)
      · rw [if_neg h]; exact h0
    · rw [if_neg h2]; exact h0

theorem fold_spec (lo hi v : Nat → K) (l : List Nat) (hb : ∀ i ∈ l, lo i ≤ 0 ∧ 0 ≤ hi i) (s : K) (h0 : 0 ≤ s) (h1 : s ≤ 1) :
    0 ≤ l.foldl (clampStep lo hi v) s ∧
    ∀ t, 0 ≤ t → (t ≤ l.foldl (clampStep lo hi v) s ↔ t ≤ s ∧ ∀ i ∈ l, lo i ≤ t * v i ∧ t * v i ≤ hi i) := by
  induction l generalizing s with
  | nil => simp [h0]
  | cons i l ih =>
    have hi' := hb i List.mem_cons_self
    obtain ⟨a, b⟩ := ih (fun j hj => hb j (List.mem_cons_of_mem _ hj)) (clampStep lo hi v s i)
      (step_nonneg lo hi v s i hi'.1 hi'.2 h0) (le_trans (step_le_self lo hi v s i) h1)
    refine ⟨a, fun t ht => ?_⟩
    rw [List.foldl_cons, b t ht, step_le lo hi v s t i hi'.1 hi'.2 ht h1]
    constructor
    · rintro ⟨⟨p, q⟩, r⟩
      refine ⟨p, fun j hj => ?_⟩
      rcases List.mem_cons.mp hj with rfl | hj
      · exact q
      · exact r j hj
    · rintro ⟨p, q⟩
      exact ⟨⟨p, q i List.mem_cons_self⟩, fun j hj => q j (List.mem_cons_of_mem _ hj)⟩

/-- The factor of the code is the greatest admissible one, for all vectors and all bounds around zero. -/
theorem C44_greatest (n : Nat) (lo hi v : Nat → K) (hb : Around n lo hi) : IsGreatest (Factors n lo hi v) (clampFactor n lo hi v) := by
  obtain ⟨a, b⟩ := fold_spec lo hi v (List.range n) (fun i hi' => hb i (List.mem_range.mp hi')) 1 zero_le_one le_rfl
  have c := (b _ a).mp le_rfl
  refine ⟨⟨a, c.1, fun i hi' => c.2 i (List.mem_range.mpr hi')⟩, ?_⟩
  rintro t ⟨t0, t1, t2⟩
  exact (b t t0).mpr ⟨t1, fun i hi' => t2 i (List.mem_range.mp hi')⟩

/-- The value is the inner value multiplied by this factor, and is within the bounds. -/
theorem C44_value (n : Nat) (lo hi v : Nat → K) (hb : Around n lo hi) :
    ∃ s, IsGreatest (Factors n lo hi v) s ∧ (∀ i, clampValue n lo hi v i = s * v i) ∧ Within n lo hi (clampValue n lo hi v) := by
  refine ⟨_, C44_greatest n lo hi v hb, fun i => mul_comm _ _, fun i hi' => ?_⟩
  have := (C44_greatest n lo hi v hb).1.2.2 i hi'
  simpa [clampValue, mul_comm] using this

/-- The value is unchanged exactly when it is within the bounds, and the factor is 1 then and only then. -/
theorem C44_unchanged (n : Nat) (lo hi v : Nat → K) (hb : Around n lo hi) :
    (clampFactor n lo hi v = 1 ↔ Within n lo hi v) ∧ ((∀ i, i < n → clampValue n lo hi v i = v i) ↔ Within n lo hi v) := by
  have g := C44_greatest n lo hi v hb
  have h1 : Within n lo hi v → clampFactor n lo hi v = 1 := by
    intro w
    exact le_antisymm g.1.2.1 (g.2 ⟨zero_le_one, le_rfl, by simpa [Within] using w⟩)
  refine ⟨⟨fun h => ?_, h1⟩, fun h => ?_, fun h i _ => ?_⟩
  · have := g.1.2.2
    rw [h] at this
    simpa [Within] using this
  · intro i hi'
    have := (C44_value n lo hi v hb).choose_spec.2.2 i hi'
    rw [h i hi'] at this
    exact this
  · unfold clampValue
    rw [h1 h, mul_one]

/-- Clamping twice is clamping once. -/
theorem C44_idempotent (n : Nat) (lo hi v : Nat → K) (hb : Around n lo hi) (i : Nat) (hi' : i < n) :
    clampValue n lo hi (clampValue n lo hi v) i = clampValue n lo hi v i :=
  (C44_unchanged n lo hi _ hb).2.mpr (C44_value n lo hi v hb).choose_spec.2.2 i hi'

theorem anyB_false (n : Nat) (p : Nat → Bool) : anyB n p = false ↔ ∀ i, i < n → p i = false := by
  unfold anyB
  simp [List.any_eq_false]

/-- The bounds of the constructor of the implementation, for a function of size `n`: a scalar counts for all components. -/
def At (n : Nat) (b : Bnd K) (v : Nat → K) : Prop :=
  match b with
  | .scalar k => ∀ i, v i = k
  | .vec m w => m = n ∧ v = w

/-- The implementation is constructed exactly for bounds of the size of the function that are around zero, and it stores these bounds. The
hypothesis of the other theorems thus holds in every object constructed (as long as the bounds are not changed by hand). -/
theorem C44_impl (n : Nat) (lo hi : Bnd K) :
    (∀ l h, clampedImpl n lo hi = some (l, h) → l.n = n ∧ h.n = n ∧ At n lo l.v ∧ At n hi h.v ∧ Around n l.v h.v) ∧
    (∀ l h : Nat → K, At n lo l → At n hi h → Around n l h → clampedImpl n lo hi = some (⟨n, l⟩, ⟨n, h⟩)) := by
  constructor
  · intro l h hc
    unfold clampedImpl at hc
    simp only at hc
    by_cases h1 : (lo.toVec n).n ≠ n ∨ (hi.toVec n).n ≠ n
    · rw [if_pos h1] at hc; simp at hc
    · rw [if_neg h1] at hc
      simp only [not_or, not_not] at h1
      by_cases h2 : anyB n (fun i => decide (0 < (lo.toVec n).v i)) = true
      · rw [if_pos h2] at hc; simp at hc
      · rw [if_neg h2] at hc
        by_cases h3 : anyB n (fun i => decide ((hi.toVec n).v i < 0)) = true
        · rw [if_pos h3] at hc; simp at hc
        · rw [if_neg h3] at hc
          simp only [Option.some.injEq, Prod.mk.injEq] at hc
          obtain ⟨rfl, rfl⟩ := hc
          rw [Bool.not_eq_true, anyB_false] at h2 h3
          refine ⟨h1.1, h1.2, ?_, ?_, fun i hi' => ⟨?_, ?_⟩⟩
          · cases lo with
            | scalar k => exact fun _ => rfl
            | vec m w => exact ⟨h1.1, rfl⟩
          · cases hi with
            | scalar k => exact fun _ => rfl
            | vec m w => exact ⟨h1.2, rfl⟩
          · have := h2 i hi'; simpa using this
          · have := h3 i hi'; simpa using this
  · intro l h hl hh ha
    have e1 : lo.toVec n = ⟨n, l⟩ := by
      cases lo with
      | scalar k => simp only [Bnd.toVec, Vec.mk.injEq, true_and]; funext i; exact (hl i).symm
      | vec m w => obtain ⟨rfl, rfl⟩ := hl; rfl
    have e2 : hi.toVec n = ⟨n, h⟩ := by
      cases hi with
      | scalar k => simp only [Bnd.toVec, Vec.mk.injEq, true_and]; funext i; exact (hh i).symm
      | vec m w => obtain ⟨rfl, rfl⟩ := hh; rfl
    unfold clampedImpl
    simp only [e1, e2]
    rw [if_neg (by simp), if_neg, if_neg]
    · rw [Bool.not_eq_true, anyB_false]
      intro i hi'; simpa using (ha i hi').2
    · rw [Bool.not_eq_true, anyB_false]
      intro i hi'; simpa using (ha i hi').1

/-- The first constructor accepts exactly the pairs of the same kind and the same size around zero; the symmetric version accepts exactly the
bounds that are not negative. -/
theorem C44_constructor :
    (∀ l h : K, clampedAccepts (.scalar l) (.scalar h) = true ↔ l ≤ 0 ∧ 0 ≤ h) ∧
    (∀ (n m : Nat) (l h : Nat → K), clampedAccepts (.vec n l) (.vec m h) = true ↔ n = m ∧ Around n l h) ∧
    (∀ h : K, clampedAccepts (clampedSymmetric (.scalar h)).1 (clampedSymmetric (.scalar h)).2 = true ↔ 0 ≤ h) ∧
    (∀ (n : Nat) (h : Nat → K), clampedAccepts (clampedSymmetric (.vec n h)).1 (clampedSymmetric (.vec n h)).2 = true ↔
      ∀ i, i < n → 0 ≤ h i) := by
  have v : ∀ (n m : Nat) (l h : Nat → K), clampedAccepts (.vec n l) (.vec m h) = true ↔ n = m ∧ Around n l h := by
    intro n m l h
    simp only [clampedAccepts, Bool.and_eq_true, decide_eq_true_eq, Bool.not_eq_true', anyB_false, decide_eq_false_iff_not, not_lt]
    constructor
    · rintro ⟨⟨rfl, a⟩, b⟩
      exact ⟨rfl, fun i hi => ⟨a i hi, b i hi⟩⟩
    · rintro ⟨rfl, a⟩
      exact ⟨⟨rfl, fun i hi => (a i hi).1⟩, fun i hi => (a i hi).2⟩
  have s : ∀ l h : K, clampedAccepts (.scalar l) (.scalar h) = true ↔ l ≤ 0 ∧ 0 ≤ h := by
    intro l h
    simp [clampedAccepts]
  refine ⟨s, v, fun h => ?_, fun n h => ?_⟩
  · simp only [clampedSymmetric, s]
    constructor
    · exact fun a => a.2
    · exact fun a => ⟨by linarith, a⟩
  · simp only [clampedSymmetric, v, true_and]
    constructor
    · exact fun a i hi => (a i hi).2
    · exact fun a i hi => ⟨by linarith [a i hi], a i hi⟩

/-- A case: the second component needs the factor 1/4, the third one only 1/2. -/
def exV : Nat → ℚ := fun i => if i = 0 then 1 else if i = 1 then 8 else -2
def exLo : Nat → ℚ := fun _ => -1
def exHi : Nat → ℚ := fun _ => 2

example : Around 3 exLo exHi := fun _ _ => ⟨by norm_num [exLo], by norm_num [exHi]⟩

example : clampFactor 3 exLo exHi exV = 1 / 4 ∧ clampValue 3 exLo exHi exV 1 = 2 ∧ clampValue 3 exLo exHi exV 2 = -1 / 2 := by
  decide +kernel

example : ¬ Within 3 exLo exHi exV := fun h => absurd (h 1 (by decide)).2 (by decide +kernel)

/-- The case is one that the constructor accepts. -/
example : (clampedImpl 3 (.scalar (-1) : Bnd ℚ) (.scalar 2)).isSome = true := by decide +kernel

-- the theorems applied to this case
theorem ex_around : Around 3 exLo exHi := fun _ _ => ⟨by norm_num [exLo], by norm_num [exHi]⟩

example : IsGreatest (Factors 3 exLo exHi exV) (1 / 4) := by
  have := C44_greatest 3 exLo exHi exV ex_around
  rwa [show clampFactor 3 exLo exHi exV = 1 / 4 by decide +kernel] at this
example : Within 3 exLo exHi (clampValue 3 exLo exHi exV) := by
  obtain ⟨_, _, _, h⟩ := C44_value 3 exLo exHi exV ex_around
  exact h
example : clampFactor 3 exLo exHi (fun _ => 1) = 1 :=
  (C44_unchanged 3 exLo exHi (fun _ => 1) ex_around).1.2 fun _ _ => ⟨by norm_num [exLo], by norm_num [exHi]⟩
example := C44_idempotent 3 exLo exHi exV ex_around 1 (by decide)
example : clampedImpl 3 (.scalar (-1) : Bnd ℚ) (.scalar 2) = some (⟨3, exLo⟩, ⟨3, exHi⟩) :=
  (C44_impl 3 (.scalar (-1)) (.scalar 2)).2 exLo exHi (fun _ => rfl : ∀ _, _) (fun _ => rfl : ∀ _, _) ex_around

end Verif.C44
