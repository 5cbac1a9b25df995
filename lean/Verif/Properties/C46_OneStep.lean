import Verif.Model.TaskDynamics
import Mathlib.Tactic.Linarith
import Mathlib.Tactic.Ring
import Mathlib.Tactic.FieldSimp
/-!
# C46 OneStepToZero reaches the target in one step

The specification is the Taylor prediction of the task function after the time `dt`.
-/
set_option autoImplicit false
set_option linter.unusedSectionVars false

namespace Verif.C46
open Verif TD
variable {K : Type} [Field K] [LinearOrder K] [IsStrictOrderedRing K]

/-- The prediction after the time `dt` with the velocity `w` -/
def predict1 (f dt w : K) : K := f + dt * w

/-- The prediction after the time `dt` with the velocity `v` and the acceleration `w` -/
def predict2 (f v dt w : K) : K := f + dt * v + dt ^ 2 / 2 * w

/-- The accepted parameters are the orders 1 and 2 with a positive time step. -/
theorem C46_parameters (order : Nat) (dt : K) : oneStepCheck order dt = true ↔ (order = 1 ∨ order = 2) ∧ 0 < dt := by
  unfold oneStepCheck
  by_cases h0 : order = 0
  · rw [if_pos h0]; simp [h0]
  · rw [if_neg h0]
    by_cases h2 : 2 < order
    · rw [if_pos h2]
      constructor
      · intro h; simp at h
      · rintro ⟨h, _⟩; omega
    · rw [if_neg h2]
      by_cases hd : dt ≤ 0
      · rw [if_pos hd]
        constructor
        · intro h; simp at h
        · rintro ⟨_, h⟩; exact absurd h (not_lt.mpr hd)
      · rw [if_neg hd]
        exact ⟨fun _ => ⟨by omega, not_le.mp hd⟩, fun _ => rfl⟩

/-- First order: the value is the only velocity for which the prediction is the right-hand side. -/
theorem C46_first (dt : K) (h : oneStepCheck 1 dt = true) (f vel rhs : Nat → K) (i : Nat) (w : K) :
    predict1 (f i) dt w = rhs i ↔ w = oneStepValue 1 dt f vel rhs i := by
  have hd : dt ≠ 0 := ((C46_parameters 1 dt).mp h).2.ne'
  unfold predict1 oneStepValue
  rw [if_neg (by decide)]
  rw [eq_div_iff hd]
  constructor
  · intro e; linarith
  · intro e; linarith

/-- Second order: the value is the only acceleration for which the prediction is the right-hand side. -/
theorem C46_second (dt : K) (h : oneStepCheck 2 dt = true) (f vel rhs : Nat → K) (i : Nat) (w : K) :
    predict2 (f i) (vel i) dt w = rhs i ↔ w = oneStepValue 2 dt f vel rhs i := by
  have hd : dt ≠ 0 := ((C46_parameters 2 dt).mp h).2.ne'
  have key : ∀ w : K, predict2 (f i) (vel i) dt w - rhs i = dt ^ 2 / 2 * (w - oneStepValue 2 dt f vel rhs i) := by
    intro w
    unfold predict2 oneStepValue
    rw [if_pos rfl]
    field_simp
    ring
  have h2 : dt ^ 2 / 2 ≠ 0 := div_ne_zero (pow_ne_zero 2 hd) two_ne_zero
  rw [← sub_eq_zero, key w, mul_eq_zero, or_iff_right h2, sub_eq_zero]

/-- The sequence of the predictions of the first order stays at the right-hand side after the first step, if the constraint is followed. -/
theorem C46_first_steps (dt : K) (h : oneStepCheck 1 dt = true) (f : Nat → Nat → K) (vel rhs : Nat → K) (i : Nat)
    (hf : ∀ k, f (k + 1) i = predict1 (f k i) dt (oneStepValue 1 dt (f k) vel rhs i)) (k : Nat) : f (k + 1) i = rhs i := by
  rw [hf k]
  exact (C46_first dt h (f k) vel rhs i _).mpr rfl

/-- The sequence of the predictions of the second order is at the right-hand side at the end of each step, but the velocity only changes its sign from the second step on: a velocity that is not zero after the first step never
vanishes. -/
theorem C46_second_steps (dt : K) (h : oneStepCheck 2 dt = true) (f vel : Nat → Nat → K) (rhs : Nat → K) (i : Nat)
    (hf : ∀ k, f (k + 1) i = predict2 (f k i) (vel k i) dt (oneStepValue 2 dt (f k) (vel k) rhs i))
    (hv : ∀ k, vel (k + 1) i = vel k i + dt * oneStepValue 2 dt (f k) (vel k) rhs i) (k : Nat) :
    f (k + 1) i = rhs i ∧ vel (k + 1) i = (-1) ^ k * (2 * (rhs i - f 0 i) / dt - vel 0 i) := by
  have hd : dt ≠ 0 := ((C46_parameters 2 dt).mp h).2.ne'
  have h1 : ∀ k, f (k + 1) i = rhs i := fun k => by
    rw [hf k]
    exact (C46_second dt h (f k) (vel k) rhs i _).mpr rfl
  refine ⟨h1 k, ?_⟩
  induction k with
  | zero =>
    rw [hv 0]
    simp only [oneStepValue, if_true, pow_zero, one_mul]
    field_simp
    ring
  | succ k ih =>
    rw [hv (k + 1)]
    simp only [oneStepValue, if_true, h1 k, sub_self, zero_div, zero_sub]
    rw [ih, pow_succ]
    field_simp
    ring

/-- From the value 0, at rest, to 1 with the step 1: the velocity is 2 after one step, then -2, and so on. -/
example : ∃ f vel : Nat → Nat → ℚ, (∀ k, f (k + 1) 0 = predict2 (f k 0) (vel k 0) 1 (oneStepValue 2 1 (f k) (vel k) (fun _ => 1) 0)) ∧
    (∀ k, vel (k + 1) 0 = vel k 0 + 1 * oneStepValue 2 1 (f k) (vel k) (fun _ => 1) 0) ∧ f 0 0 = 0 ∧ vel 0 0 = 0 := by
  refine ⟨fun k _ => if k = 0 then 0 else 1, fun k _ => if k = 0 then 0 else (-1) ^ (k - 1) * 2, fun k => ?_, fun k => ?_, rfl, rfl⟩
  · cases k with
    | zero => norm_num [predict2, oneStepValue]
    | succ k => simp [predict2, oneStepValue]; ring
  · cases k with
    | zero => norm_num [oneStepValue]
    | succ k => simp [oneStepValue, pow_succ]; ring

/-- A case of each order -/
example : oneStepCheck 1 (1 / 10 : ℚ) = true ∧ oneStepCheck 2 (1 / 10 : ℚ) = true ∧
    oneStepValue 1 (1 / 10 : ℚ) (fun _ => 3) (fun _ => 5) (fun _ => 1) 0 = -20 ∧
    oneStepValue 2 (1 / 10 : ℚ) (fun _ => 3) (fun _ => 5) (fun _ => 1) 0 = -500 := by decide +kernel

-- the theorems applied with the time step 1/10
example := (C46_first (1 / 10 : ℚ) (by decide +kernel) (fun _ => 3) (fun _ => 5) (fun _ => 1) 0 (-20)).2 (by norm_num [oneStepValue])
example := (C46_second (1 / 10 : ℚ) (by decide +kernel) (fun _ => 3) (fun _ => 5) (fun _ => 1) 0 (-500)).2 (by norm_num [oneStepValue])
example (k : Nat) : (fun (k _ : Nat) => if k = 0 then (3 : ℚ) else 1) (k + 1) 0 = 1 :=
  C46_first_steps (1 / 10 : ℚ) (by decide +kernel) (fun k _ => if k = 0 then 3 else 1) (fun _ => 0) (fun _ => 1) 0
    (fun k => by cases k <;> norm_num [predict1, oneStepValue]) k

end Verif.C46
