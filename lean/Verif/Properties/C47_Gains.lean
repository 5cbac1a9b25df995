import Verif.Model.TaskDynamics
import Mathlib.Analysis.Real.Sqrt
import Mathlib.Tactic.LinearCombination
import Mathlib.Algebra.BigOperators.Ring.Finset
import Mathlib.Tactic.Linarith
import Mathlib.Tactic.Ring
/-!
# C47 The default damping of the proportional derivative dynamics is critical

The specification: `λ² + kv λ + kp` has a double root (`kv² = 4 kp`), with a damping that is not negative. It holds for scalar and diagonal
gains. It is false for a matrix gain, where the code gives `kv = 2 kp`, and the setter does not set the stiffness.
-/
set_option autoImplicit false
set_option linter.unusedSectionVars false

namespace Verif.C47
open Verif TD
variable {K : Type} [Field K] [LinearOrder K] [IsStrictOrderedRing K]

/-- `sqrt` is the square root of the numbers that are not negative. -/
def IsSqrt (sqrt : K → K) : Prop := ∀ x, 0 ≤ x → 0 ≤ sqrt x ∧ sqrt x * sqrt x = x

/-- The damping `c` is critical for the stiffness `k`. -/
def Critical (k c : K) : Prop := 0 ≤ c ∧ c * c = 4 * k

/-- A critical damping is one for which the characteristic polynomial is a square. -/
theorem critical_iff (k c : K) (hc : 0 ≤ c) : Critical k c ↔ ∃ r, ∀ x, x * x + c * x + k = (x - r) * (x - r) := by
  constructor
  · rintro ⟨_, h⟩
    refine ⟨-(c / 2), fun x => ?_⟩
    have : k = c / 2 * (c / 2) := by linarith
    rw [this]; ring
  · rintro ⟨r, h⟩
    refine ⟨hc, ?_⟩
    have h0 := h 0
    have h1 := h 1
    have : c = -2 * r := by linarith
    rw [this]
    linarith

/-- The product of two matrices of size `n` -/
def mmul (n : Nat) (A B : Nat → Nat → K) : Nat → Nat → K := fun i j => ∑ k ∈ Finset.range n, A i k * B k j

/-- A gain and a damping are critical, for a function of size `n`: every component is for scalars and diagonal matrices, `kv kv = 4 kp` as
matrices. -/
def CriticalGain (n : Nat) : Gain K → Gain K → Prop
  | .scalar k, .scalar c => Critical k c
  | .diag m d, .diag m' c => m = n ∧ m' = n ∧ ∀ i, i < n → Critical (d i) (c i)
  | .matrix r c M, .matrix r' c' C => r = n ∧ c = n ∧ r' = n ∧ c' = n ∧ ∀ i j, i < n → j < n → mmul n C C i j = 4 * M i j
  | _, _ => False

/-- The coefficients of a gain are not negative. -/
def Nonneg (n : Nat) : Gain K → Prop
  | .scalar k => 0 ≤ k
  | .diag m d => m = n ∧ ∀ i, i < n → 0 ≤ d i
  | .matrix _ _ _ => False

/-- The part that holds: for a scalar or a diagonal gain, the constructor from `kp` alone and the setter keep `kp` and give a critical damping. The
part that misses: matrix gains (see `C47_matrix_false`). -/
theorem C47_critical_partial (sqrt : K → K) (hs : IsSqrt sqrt) (S : Schur K) (n : Nat) (kp : Gain K) (old : Gain K × Gain K) (h : Nonneg n kp) :
    (pdCritical sqrt S kp).1 = kp ∧ CriticalGain n kp (pdCritical sqrt S kp).2 ∧
    pdSetCritical sqrt S n old kp = some (pdCritical sqrt S kp) := by
  have key : ∀ x : K, 0 ≤ x → Critical x (2 * sqrt x) := by
    intro x hx
    obtain ⟨a, b⟩ := hs x hx
    exact ⟨by linarith, by linear_combination 4 * b⟩
  cases kp with
  | scalar k => exact ⟨rfl, key k h, rfl⟩
  | diag m d =>
    refine ⟨rfl, ⟨h.1, h.1, fun i hi => key _ (h.2 i hi)⟩, ?_⟩
    simp [pdSetCritical, gainFits, h.1, pdCritical]
  | matrix r c M => exact h.elim

/-- What the decomposition gives for a symmetric matrix: `kp = U T Uᵀ`, `U` orthogonal and `T` diagonal. -/
structure IsSchur (n : Nat) (S : Schur K) (M : Nat → Nat → K) : Prop where
  product : ∀ i j, i < n → j < n → M i j = ∑ k ∈ Finset.range n, ∑ l ∈ Finset.range n, S.U i k * S.T k l * S.U j l
  diagonal : ∀ k l, k < n → l < n → k ≠ l → S.T k l = 0
  orthogonal : ∀ i j, i < n → j < n → (∑ k ∈ Finset.range n, S.U i k * S.U j k) = if i = j then 1 else 0

/-- For a matrix, the damping of the code is twice the stiffness. -/
theorem C47_matrix_damping (n : Nat) (S : Schur K) (M : Nat → Nat → K) (h : IsSchur n S M) (i j : Nat) (hi : i < n) (hj : j < n) :
    schurDamping n S i j = 2 * M i j := by
  unfold schurDamping
  rw [h.product i j hi hj, Finset.mul_sum]
  apply Finset.sum_congr rfl
  intro k hk
  have hk := Finset.mem_range.mp hk
  rw [Finset.sum_eq_single k]
  · ring
  · intro l hl hne
    rw [h.diagonal k l hk (Finset.mem_range.mp hl) (Ne.symm hne)]; ring
  · intro hc; exact absurd (Finset.mem_range.mpr hk) hc

/-- So that it is critical only for the matrices with `kp kp = kp` (the eigenvalues are 0 and 1). -/
theorem C47_matrix (sqrt : K → K) (n : Nat) (S : Schur K) (M : Nat → Nat → K) (h : IsSchur n S M) :
    CriticalGain n (.matrix n n M) (pdCritical sqrt S (.matrix n n M)).2 ↔ ∀ i j, i < n → j < n → mmul n M M i j = M i j := by
  have e : ∀ i j, i < n → j < n → mmul n (schurDamping n S) (schurDamping n S) i j = 4 * mmul n M M i j := by
    intro i j hi hj
    unfold mmul
    rw [Finset.mul_sum]
    apply Finset.sum_congr rfl
    intro k hk
    have hk := Finset.mem_range.mp hk
    rw [C47_matrix_damping n S M h i k hi hk, C47_matrix_damping n S M h k j hk hj]
    ring
  simp only [pdCritical, CriticalGain, true_and]
  constructor
  · intro a i j hi hj
    have := a i j hi hj
    rw [e i j hi hj] at this
    linarith
  · intro a i j hi hj
    rw [e i j hi hj, a i j hi hj]

/-- The stiffness `4 I` of size 2 -/
def exM : Nat → Nat → ℚ := fun i j => if i = j then 4 else 0
def exS : Schur ℚ := ⟨fun i j => if i = j then 1 else 0, exM⟩

theorem exS_isSchur : IsSchur 2 exS exM := by
  refine ⟨fun i j hi hj => ?_, fun k l _ _ hne => if_neg hne, fun i j hi hj => ?_⟩
  · rcases (show i = 0 ∨ i = 1 by omega) with rfl | rfl <;> rcases (show j = 0 ∨ j = 1 by omega) with rfl | rfl <;> decide +kernel
  · rcases (show i = 0 ∨ i = 1 by omega) with rfl | rfl <;> rcases (show j = 0 ∨ j = 1 by omega) with rfl | rfl <;> decide +kernel

/-- The claim is false for matrices: a positive definite matrix for which the damping of the constructor is not critical. The double of the
claim is also false of the setter: the stiffness is not the one given. -/
theorem C47_matrix_false (sqrt : ℚ → ℚ) :
    ¬ CriticalGain 2 (.matrix 2 2 exM) (pdCritical sqrt exS (.matrix 2 2 exM)).2 ∧
    (∀ old : Gain ℚ × Gain ℚ, (pdSetCritical sqrt exS 2 old (.matrix 2 2 exM)).map (·.1) = some old.1) := by
  constructor
  · rw [C47_matrix sqrt 2 exS exM exS_isSchur]
    intro h
    exact absurd (h 0 0 (by decide) (by decide)) (by decide +kernel)
  · intro old
    rfl

/-- The setter with two arguments accepts the gains of the size of the function, and sets both of them. -/
theorem C47_setter (n : Nat) (kp kv : Gain K) :
    pdSetGains n kp kv = if gainFits n kp = true ∧ gainFits n kv = true then some (kp, kv) else none := by
  unfold pdSetGains
  by_cases h1 : gainFits n kp = true
  · by_cases h2 : gainFits n kv = true
    · simp [h1, h2]
    · simp [h1, h2]
  · simp [h1]

/-- The hypotheses are met by the real square root. -/
example : IsSqrt Real.sqrt := fun x hx => ⟨Real.sqrt_nonneg x, Real.mul_self_sqrt hx⟩

example : Nonneg 2 (.diag 2 (fun i => if i = 0 then 4 else 9) : Gain ℝ) :=
  ⟨rfl, fun i _ => by by_cases h : i = 0 <;> simp [h]⟩

-- the theorems applied to a diagonal stiffness and to the matrix
example : CriticalGain 2 (.diag 2 (fun i => if i = 0 then 4 else 9) : Gain ℝ)
    (pdCritical Real.sqrt ⟨fun _ _ => 0, fun _ _ => 0⟩ (.diag 2 (fun i => if i = 0 then 4 else 9))).2 :=
  (C47_critical_partial Real.sqrt (fun x hx => ⟨Real.sqrt_nonneg x, Real.mul_self_sqrt hx⟩) _ 2 (.diag 2 (fun i => if i = 0 then 4 else 9)) (.scalar 0, .scalar 0)
    ⟨rfl, fun i _ => by by_cases h : i = 0 <;> simp [h]⟩).2.1
example : schurDamping 2 exS 1 1 = 2 * 4 := C47_matrix_damping 2 exS exM exS_isSchur 1 1 (by decide) (by decide)
example : ¬ ∀ i j, i < 2 → j < 2 → mmul 2 exM exM i j = exM i j := fun h =>
  (C47_matrix_false id).1 ((C47_matrix id 2 exS exM exS_isSchur).2 h)

end Verif.C47
