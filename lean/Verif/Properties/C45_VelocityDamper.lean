import Verif.Model.TaskDynamics
import Mathlib.Tactic.Linarith
import Mathlib.Tactic.Ring
import Mathlib.Tactic.FieldSimp
/-!
# C45 The velocity damper keeps the distance safe

The specification is about trajectories: a sequence of values `f` of the task function over time, where each velocity over a step (each acceleration, for the
second order) obeys the constraint with the value computed by the damper at the beginning of the step. The distance to the limit
(`f - rhs` for `f ≥ rhs`, `rhs - f` for `f ≤ rhs`) is to stay at least the safety distance.
-/
set_option autoImplicit false
set_option linter.unusedSectionVars false

namespace Verif.C45
open Verif TD
variable {K : Type} [Field K] [LinearOrder K] [IsStrictOrderedRing K]

/-! ## Specification -/

/-- The sense of the constraint, as a sign: the damper is used for `f ≥ rhs` and for `f ≤ rhs`. -/
inductive Sense
  | above
  | below

def Sense.type : Sense → CType
  | .above => .greaterThan
  | .below => .lowerThan

/-- The distance to the limit -/
def Sense.dist (s : Sense) (f rhs : K) : K :=
  match s with
  | .above => f - rhs
  | .below => rhs - f

/-- `x` is in the relation with the bound `b`. -/
def Sense.Rel (s : Sense) (x b : K) : Prop :=
  match s with
  | .above => b ≤ x
  | .below => x ≤ b

/-- The state of the damper before the step `k` -/
def state (s : Sense) (D : VD K) (f vel : Nat → Nat → K) (rhs : Nat → K) : Nat → VD K
  | 0 => D
  | k + 1 => (updateVD s.type (state s D f vel rhs k) (f k) (vel k) rhs).1

/-- The value computed at the step `k` -/
def value (s : Sense) (D : VD K) (f vel : Nat → Nat → K) (rhs : Nat → K) (k : Nat) : Nat → Option K :=
  (updateVD s.type (state s D f vel rhs k) (f k) (vel k) rhs).2

/-- A trajectory of the first order: `vel (k+1)` is the velocity over the step `k`, it is the one that obeys the constraint of this step. -/
structure First (s : Sense) (D : VD K) (dt : K) (f vel : Nat → Nat → K) (rhs : Nat → K) : Prop where
  move : ∀ k i, i < D.n → f (k + 1) i = f k i + dt * vel (k + 1) i
  obeys : ∀ k i, i < D.n → ∃ x, value s D f vel rhs k i = some x ∧ s.Rel (vel (k + 1) i) x

/-- A trajectory of the second order: the acceleration over the step obeys the constraint, the velocity is integrated first and the value next. -/
structure Second (s : Sense) (D : VD K) (f vel acc : Nat → Nat → K) (rhs : Nat → K) : Prop where
  move : ∀ k i, i < D.n → f (k + 1) i = f k i + D.dt * vel (k + 1) i
  accel : ∀ k i, i < D.n → vel (k + 1) i = vel k i + D.dt * acc k i
  obeys : ∀ k i, i < D.n → ∃ x, value s D f vel rhs k i = some x ∧ s.Rel (acc k i) x

/-- The component `i` is at least at the safety distance. -/
def Safe (s : Sense) (D : VD K) (f : Nat → Nat → K) (rhs : Nat → K) (k i : Nat) : Prop := D.ds i ≤ s.dist (f k i) (rhs i)

/-- From outside of the zone of interaction, one step does not go further than the safety distance. -/
def NoJump (s : Sense) (D : VD K) (f : Nat → Nat → K) (rhs : Nat → K) : Prop :=
  ∀ k i, i < D.n → D.di i < s.dist (f k i) (rhs i) → D.ds i ≤ s.dist (f (k + 1) i) (rhs i)

/-- A damper with a fixed damping, as the constructors make it -/
structure Fixed (D : VD K) (xsi : Nat → K) : Prop where
  manual : D.autoXsi = false
  zone : ∀ i, i < D.n → D.ds i < D.di i
  damping : ∀ i, i < D.n → D.axsi i = some (-(xsi i / (D.di i - D.ds i)))

/-! ## Fixed damping -/

theorem fixed_state (s : Sense) (D : VD K) (xsi : Nat → K) (h : Fixed D xsi) (f vel : Nat → Nat → K) (rhs : Nat → K) (k : Nat) :
    state s D f vel rhs k = D := by
  induction k with
  | zero => rfl
  | succ k ih =>
    simp only [state, ih]
    cases s <;> simp [Sense.type, updateVD, updateVD_, h.manual]

/-- The documented value, for the first order: `-ξ (d - ds) / (di - ds)` on the distance in the zone of interaction, with the sign of the sense. -/
theorem C45_value_first (s : Sense) (D : VD K) (xsi : Nat → K) (h : Fixed D xsi) (ho : D.order ≠ 2) (f vel : Nat → Nat → K) (rhs : Nat → K)
    (k i : Nat) (hi : i < D.n) :
    value s D f vel rhs k i = some (
      let d := s.dist (f k i) (rhs i)
      let v := if D.di i < d then -D.big else -(xsi i * ((d - D.ds i) / (D.di i - D.ds i)))
      match s with | .above => v | .below => -v) := by
  have hz := h.zone i hi
  have hne : D.di i - D.ds i ≠ 0 := by intro e; linarith
  unfold value
  rw [fixed_state s D xsi h]
  cases s with
  | above =>
    simp only [Sense.type, updateVD, updateVD_, h.manual, reduceCtorEq, if_false, h.damping i hi, Option.map_some, if_neg ho,
      Bool.false_eq_true]
    have hD : Sense.above.dist (f k i) (rhs i) = f k i - rhs i := rfl
    by_cases hd : D.di i < Sense.above.dist (f k i) (rhs i)
    · rw [if_pos hd, if_pos (hD ▸ hd)]
    · rw [if_neg hd, if_neg (hD ▸ hd), hD]; congr 1; field_simp
  | below =>
    simp only [Sense.type, updateVD, updateVD_, h.manual, if_true, if_false, h.damping i hi, Option.map_some, if_neg ho,
      Bool.false_eq_true]
    have hD : Sense.below.dist (f k i) (rhs i) = rhs i - f k i := rfl
    by_cases hd : D.di i < Sense.below.dist (f k i) (rhs i)
    · rw [if_pos hd, if_pos (hD ▸ hd), neg_neg]
    · rw [if_neg hd, if_neg (hD ▸ hd), hD]; congr 1; field_simp

/-- The documented value, for the second order: the constraint on the acceleration is the one on the velocity at the end of the step. -/
theorem C45_value_second (s : Sense) (D : VD K) (xsi : Nat → K) (h : Fixed D xsi) (ho : D.order = 2) (f vel : Nat → Nat → K) (rhs : Nat → K)
    (k i : Nat) (hi : i < D.n) :
    value s D f vel rhs k i = some (
      let d := s.dist (f k i) (rhs i)
      let dd := match s with | .above => vel k i | .below => -vel k i
      let v := if D.di i < d then -D.big else -(xsi i / D.dt * ((d - D.ds i) / (D.di i - D.ds i))) - dd / D.dt
      match s with | .above => v | .below => -v) := by
  have hz := h.zone i hi
  have hne : D.di i - D.ds i ≠ 0 := by intro e; linarith
  unfold value
  rw [fixed_state s D xsi h]
  cases s with
  | above =>
    simp only [Sense.type, updateVD, updateVD_, h.manual, reduceCtorEq, if_false, h.damping i hi, Option.map_some, if_pos ho,
      Bool.false_eq_true]
    have hD : Sense.above.dist (f k i) (rhs i) = f k i - rhs i := rfl
    by_cases hd : D.di i < Sense.above.dist (f k i) (rhs i)
    · rw [if_pos hd, if_pos (hD ▸ hd)]
    · rw [if_neg hd, if_neg (hD ▸ hd), hD]; congr 1; ring
  | below =>
    simp only [Sense.type, updateVD, updateVD_, h.manual, if_true, if_false, h.damping i hi, Option.map_some, if_pos ho,
      Bool.false_eq_true]
    have hD : Sense.below.dist (f k i) (rhs i) = rhs i - f k i := rfl
    by_cases hd : D.di i < Sense.below.dist (f k i) (rhs i)
    · rw [if_pos hd, if_pos (hD ▸ hd), neg_neg]
    · rw [if_neg hd, if_neg (hD ▸ hd), hD]; congr 1; ring

/-- One step in the zone: `d' ≥ d - dt ξ (d - ds) / (di - ds) ≥ ds` if `ξ dt ≤ di - ds`. -/
theorem zone_step (ds di d d' dt xsi w : K) (hz : ds < di) (hdt : 0 ≤ dt) (hx : xsi * dt ≤ di - ds) (hd : ds ≤ d)
    (hm : d' = d + dt * w) (hw : -(xsi * ((d - ds) / (di - ds))) ≤ w) : ds ≤ d' := by
  have hp : 0 < di - ds := by linarith
  have h1 : xsi * dt / (di - ds) ≤ 1 := (div_le_one hp).mpr hx
  have h2 : dt * (-(xsi * ((d - ds) / (di - ds)))) ≤ dt * w := mul_le_mul_of_nonneg_left hw hdt
  have h3 : dt * (-(xsi * ((d - ds) / (di - ds)))) = -((d - ds) * (xsi * dt / (di - ds))) := by ring
  have h4 : (d - ds) * (xsi * dt / (di - ds)) ≤ (d - ds) * 1 := mul_le_mul_of_nonneg_left h1 (by linarith)
  rw [h3] at h2
  linarith

/-- First order, fixed damping: along every trajectory that obeys the damper and cannot jump over the zone of interaction, of any length and for
both senses, the distance stays at least the safety distance if it is so at the beginning and `ξ dt ≤ di - ds`. -/
theorem C45_safe_first (s : Sense) (D : VD K) (xsi : Nat → K) (h : Fixed D xsi) (ho : D.order ≠ 2) (dt : K) (hdt : 0 ≤ dt)
    (hx : ∀ i, i < D.n → xsi i * dt ≤ D.di i - D.ds i) (f vel : Nat → Nat → K) (rhs : Nat → K) (ht : First s D dt f vel rhs)
    (hj : NoJump s D f rhs) (h0 : ∀ i, i < D.n → Safe s D f rhs 0 i) : ∀ k i, i < D.n → Safe s D f rhs k i := by
  intro k
  induction k with
  | zero => exact h0
  | succ k ih =>
    intro i hi
    by_cases hd : D.di i < s.dist (f k i) (rhs i)
    · exact hj k i hi hd
    · obtain ⟨x, e, r⟩ := ht.obeys k i hi
      rw [C45_value_first s D xsi h ho f vel rhs k i hi, Option.some.injEq] at e
      simp only [if_neg hd] at e
      have hm := ht.move k i hi
      have hs := ih i hi
      unfold Safe at hs ⊢
      cases s with
      | above =>
        simp only [Sense.dist, Sense.Rel] at *
        exact zone_step _ (D.di i) (f k i - rhs i) _ dt (xsi i) (vel (k + 1) i) (h.zone i hi) hdt (hx i hi) hs (by rw [hm]; ring)
          (by rw [e]; exact r)
      | below =>
        simp only [Sense.dist, Sense.Rel] at *
        exact zone_step _ (D.di i) (rhs i - f k i) _ dt (xsi i) (-vel (k + 1) i) (h.zone i hi) hdt (hx i hi) hs (by rw [hm]; ring)
          (by linarith)

/-- The absence of jump is itself a consequence of the constraint when `big dt ≤ di - ds` (first order). -/
theorem C45_noJump (s : Sense) (D : VD K) (xsi : Nat → K) (h : Fixed D xsi) (ho : D.order ≠ 2) (dt : K) (hdt : 0 ≤ dt)
    (hb : ∀ i, i < D.n → D.big * dt ≤ D.di i - D.ds i) (f vel : Nat → Nat → K) (rhs : Nat → K) (ht : First s D dt f vel rhs) :
    NoJump s D f rhs := by
  intro k i hi hd
  obtain ⟨x, e, r⟩ := ht.obeys k i hi
  rw [C45_value_first s D xsi h ho f vel rhs k i hi, Option.some.injEq] at e
  simp only [if_pos hd] at e
  have hm := ht.move k i hi
  have hb := hb i hi
  cases s with
  | above =>
    simp only [Sense.dist, Sense.Rel] at *
    have := mul_le_mul_of_nonneg_left r hdt
    rw [← e] at this
    linarith
  | below =>
    simp only [Sense.dist, Sense.Rel] at *
    have := mul_le_mul_of_nonneg_left r hdt
    rw [← e] at this
    linarith

/-- Second order, fixed damping: the same for a trajectory integrated with the time step of the damper. -/
theorem C45_safe_second (s : Sense) (D : VD K) (xsi : Nat → K) (h : Fixed D xsi) (ho : D.order = 2) (hdt : 0 < D.dt)
    (hx : ∀ i, i < D.n → xsi i * D.dt ≤ D.di i - D.ds i) (f vel acc : Nat → Nat → K) (rhs : Nat → K) (ht : Second s D f vel acc rhs)
    (hj : NoJump s D f rhs) (h0 : ∀ i, i < D.n → Safe s D f rhs 0 i) : ∀ k i, i < D.n → Safe s D f rhs k i := by
  intro k
  induction k with
  | zero => exact h0
  | succ k ih =>
    intro i hi
    by_cases hd : D.di i < s.dist (f k i) (rhs i)
    · exact hj k i hi hd
    · obtain ⟨x, e, r⟩ := ht.obeys k i hi
      rw [C45_value_second s D xsi h ho f vel rhs k i hi, Option.some.injEq] at e
      simp only [if_neg hd] at e
      have hm := ht.move k i hi
      have ha := ht.accel k i hi
      have hs := ih i hi
      unfold Safe at hs ⊢
      cases s with
      | above =>
        simp only [Sense.dist, Sense.Rel] at *
        refine zone_step _ (D.di i) (f k i - rhs i) _ D.dt (xsi i) (vel (k + 1) i) (h.zone i hi) hdt.le (hx i hi) hs (by rw [hm]; ring) ?_
        have h1 := mul_le_mul_of_nonneg_left r hdt.le
        have h2 : D.dt * x = -(xsi i * ((f k i - rhs i - D.ds i) / (D.di i - D.ds i))) - vel k i := by
          rw [← e]; field_simp
        rw [ha]; linarith
      | below =>
        simp only [Sense.dist, Sense.Rel] at *
        refine zone_step _ (D.di i) (rhs i - f k i) _ D.dt (xsi i) (-vel (k + 1) i) (h.zone i hi) hdt.le (hx i hi) hs (by rw [hm]; ring) ?_
        have h1 := mul_le_mul_of_nonneg_left r hdt.le
        have h2 : D.dt * x = xsi i * ((rhs i - f k i - D.ds i) / (D.di i - D.ds i)) - vel k i := by
          rw [← e]; field_simp; ring
        rw [ha]; linarith

/-- A velocity that obeys the damper at the distance `d` -/
def sharpVel (D : VD K) (x d : K) : K := if D.di 0 < d then 0 else -(x * ((d - D.ds 0) / (D.di 0 - D.ds 0)))

/-- The distances of the trajectory with these velocities, from the interaction distance -/
def sharpDist (D : VD K) (x dt : K) : Nat → K
  | 0 => D.di 0
  | k + 1 => sharpDist D x dt k + dt * sharpVel D x (sharpDist D x dt k)

/-- The condition on the damping is necessary: if `ξ dt > di - ds`, there is a trajectory that obeys the damper, starts at the interaction
distance and is closer than the safety distance after one step. -/
theorem C45_sharp (D : VD K) (xsi : Nat → K) (h : Fixed D xsi) (ho : D.order ≠ 2) (hn : D.n = 1) (dt : K) (hb : 0 < D.big)
    (hx : D.di 0 - D.ds 0 < xsi 0 * dt) :
    ∃ (f vel : Nat → Nat → K), First .above D dt f vel (fun _ => 0) ∧ NoJump .above D f (fun _ => 0) ∧ Safe .above D f (fun _ => 0) 0 0 ∧
      ¬ Safe .above D f (fun _ => 0) 1 0 := by
  have hz := h.zone 0 (by omega)
  have hp : 0 < D.di 0 - D.ds 0 := by linarith
  have hD : ∀ x : K, Sense.above.dist x 0 = x := fun x => sub_zero x
  refine ⟨fun k _ => sharpDist D (xsi 0) dt k,
    fun k _ => match k with | 0 => 0 | k + 1 => sharpVel D (xsi 0) (sharpDist D (xsi 0) dt k), ⟨?_, ?_⟩, ?_, ?_, ?_⟩
  · intro k i _; rfl
  · intro k i hi
    have hi0 : i = 0 := by omega
    subst hi0
    refine ⟨_, C45_value_first .above D xsi h ho _ _ _ k 0 hi, ?_⟩
    simp only [hD, Sense.Rel, sharpVel]
    by_cases h1 : D.di 0 < sharpDist D (xsi 0) dt k
    · rw [if_pos h1, if_pos h1]; linarith
    · rw [if_neg h1, if_neg h1]
  · intro k i hi hd
    have hi0 : i = 0 := by omega
    subst hi0
    rw [hD] at hd ⊢
    simp only [sharpDist, sharpVel, if_pos hd]
    linarith
  · show D.ds 0 ≤ D.di 0 - 0
    linarith
  · show ¬ D.ds 0 ≤ D.di 0 + dt * sharpVel D (xsi 0) (D.di 0) - 0
    simp only [sharpVel, if_neg (lt_irrefl (D.di 0)), div_self hp.ne']
    linarith

/-- In the zone of interaction and not closer than the safety distance, staying at rest obeys the damper; closer than the safety distance, the velocity has to
increase the distance (if `ξ` is positive). -/
theorem C45_rest (s : Sense) (D : VD K) (xsi : Nat → K) (h : Fixed D xsi) (ho : D.order ≠ 2) (hb : 0 < D.big) (f vel : Nat → Nat → K)
    (rhs : Nat → K) (k i : Nat) (hi : i < D.n) (hx : 0 < xsi i) :
    ∃ x, value s D f vel rhs k i = some x ∧ (s.Rel 0 x ↔ Safe s D f rhs k i) := by
  refine ⟨_, C45_value_first s D xsi h ho f vel rhs k i hi, ?_⟩
  have hz := h.zone i hi
  have hp : 0 < D.di i - D.ds i := by linarith
  unfold Safe
  simp only
  generalize s.dist (f k i) (rhs i) = d
  by_cases hd : D.di i < d
  · rw [if_pos hd]
    have : D.ds i ≤ d := by linarith
    cases s with
    | above => simp only [Sense.Rel]; exact ⟨fun _ => this, fun _ => by linarith⟩
    | below => simp only [Sense.Rel]; exact ⟨fun _ => this, fun _ => by linarith⟩
  · rw [if_neg hd]
    have key : 0 ≤ xsi i * ((d - D.ds i) / (D.di i - D.ds i)) ↔ D.ds i ≤ d := by
      rw [mul_nonneg_iff_of_pos_left hx, le_div_iff₀ hp, zero_mul, sub_nonneg]
    cases s with
    | above => simp only [Sense.Rel]; rw [← key]; exact ⟨fun _ => by linarith, fun _ => by linarith⟩
    | below => simp only [Sense.Rel]; rw [← key]; exact ⟨fun _ => by linarith, fun _ => by linarith⟩

/-! ## Both modes -/

/-- Both senses are symmetric: the damper for `f ≤ rhs` does on `(f, vel, rhs)` what the one for `f ≥ rhs` does on the opposite vectors, the value
is the opposite one, in all modes and orders. -/
theorem C45_symmetric (D : VD K) (f vel rhs : Nat → K) :
    (updateVD .lowerThan D f vel rhs).1 = (updateVD .greaterThan D (fun i => -f i) (fun i => -vel i) (fun i => -rhs i)).1 ∧
    ∀ i, (updateVD .lowerThan D f vel rhs).2 i =
      ((updateVD .greaterThan D (fun i => -f i) (fun i => -vel i) (fun i => -rhs i)).2 i).map fun x => -x := by
  have e : (fun i => -f i - -rhs i) = fun i => rhs i - f i := by funext i; ring
  have a : ∀ (D : VD K) i d dv, autoStep D (-1) i d dv = autoStep D 1 i d (-dv) := by
    intro D i d dv
    unfold autoStep
    rw [show (-1 : K) * dv = 1 * -dv by ring]
  have u : updateVD_ D (-1) (fun i => rhs i - f i) vel = updateVD_ D 1 (fun i => rhs i - f i) (fun i => -vel i) := by
    unfold updateVD_
    simp only [a]
  constructor
  · simp only [updateVD, if_true, reduceCtorEq, if_false, e, u]
  · intro i
    simp only [updateVD, if_true, reduceCtorEq, if_false, e, u]
    by_cases hd : D.di i < rhs i - f i
    · have hd' : D.di i < -f i - -rhs i := by linarith
      rw [if_pos hd, if_pos hd']; simp
    · have hd' : ¬ D.di i < -f i - -rhs i := by intro h; exact hd (by linarith)
      rw [if_neg hd, if_neg hd']
      cases (updateVD_ D 1 (fun i => rhs i - f i) (fun i => -vel i)).2 i with
      | none => rfl
      | some x =>
        simp only [Option.map_some]
        by_cases ho : D.order = 2
        · simp [ho]
        · simp [ho]

/-- Beyond the interaction distance the bound is the one that does not constrain, in all modes and orders. -/
theorem C45_outside (s : Sense) (D : VD K) (f vel rhs : Nat → K) (i : Nat) (hd : D.di i < s.dist (f i) (rhs i)) :
    (updateVD s.type D f vel rhs).2 i = some (match s with | .above => -D.big | .below => D.big) := by
  cases s with
  | above => simp only [Sense.type, updateVD, reduceCtorEq, if_false]; rw [if_pos (show D.di i < f i - rhs i from hd)]
  | below => simp only [Sense.type, updateVD, if_true]; rw [if_pos (show D.di i < rhs i - f i from hd)]

/-- The same value and velocity twice in a row give the same result (documented, VelocityDamper.h, lines 35-39). -/
theorem C45_stable (t : CType) (D : VD K) (f vel rhs : Nat → K) :
    updateVD t (updateVD t D f vel rhs).1 f vel rhs = updateVD t D f vel rhs := by
  have a : ∀ (D E : VD K) (s : K) i d dv, E.di = D.di → E.axsi i = (autoStep D s i d dv).1 → E.active i = (autoStep D s i d dv).2 →
      autoStep E s i d dv = autoStep D s i d dv := by
    intro D E s i d dv hdi h1 h2
    unfold autoStep at h1 h2 ⊢
    rw [hdi]
    by_cases c1 : d ≤ D.di i ∧ D.active i = false
    · rw [if_pos c1] at h1 h2 ⊢
      rw [if_neg (by simp [h2]), if_neg (by intro c; exact absurd c1.1 (not_le.mpr c.1)), h1, h2]
    · rw [if_neg c1] at h1 h2 ⊢
      by_cases c2 : D.di i < d ∧ D.active i = true
      · rw [if_pos c2] at h1 h2 ⊢
        rw [if_neg (by intro c; exact absurd c.1 (not_le.mpr c2.1)), if_neg (by simp [h2]), h1, h2]
      · rw [if_neg c2] at h1 h2 ⊢
        simp only at h1 h2
        rw [h1, h2, if_neg c1, if_neg c2]
  have b : ∀ (s : K) (d : Nat → K), updateVD_ (updateVD_ D s d vel).1 s d vel = updateVD_ D s d vel := by
    intro s d
    by_cases ha : D.autoXsi = true
    · have e : ∀ i, i < D.n → autoStep (updateVD_ D s d vel).1 s i (d i) (vel i) = autoStep D s i (d i) (vel i) := by
        intro i hi
        apply a
        · simp [updateVD_, ha]
        · simp [updateVD_, ha, hi]
        · simp [updateVD_, ha, hi]
      have f1 : (updateVD_ D s d vel).1 = ⟨D.n, D.order, D.dt, D.ds, D.di, D.xsiOff, D.a, D.big, D.autoXsi,
          fun i => if i < D.n then (autoStep D s i (d i) (vel i)).1 else D.axsi i,
          fun i => if i < D.n then (autoStep D s i (d i) (vel i)).2 else D.active i⟩ := by
        simp [updateVD_, ha]
      have f2 : (updateVD_ (updateVD_ D s d vel).1 s d vel).1 = (updateVD_ D s d vel).1 := by
        have g : ∀ (E : VD K), E.autoXsi = true → (∀ i, i < E.n → (autoStep E s i (d i) (vel i)).1 = E.axsi i) →
            (∀ i, i < E.n → (autoStep E s i (d i) (vel i)).2 = E.active i) → (updateVD_ E s d vel).1 = E := by
          intro E hE h1 h2
          have : (updateVD_ E s d vel).1 = ⟨E.n, E.order, E.dt, E.ds, E.di, E.xsiOff, E.a, E.big, E.autoXsi,
              fun i => if i < E.n then (autoStep E s i (d i) (vel i)).1 else E.axsi i,
              fun i => if i < E.n then (autoStep E s i (d i) (vel i)).2 else E.active i⟩ := by
            simp [updateVD_, hE]
          rw [this]
          cases E with
          | mk n o dt ds di off aa big au ax ac =>
            simp only [VD.mk.injEq, true_and]
            constructor
            · funext i
              by_cases hi : i < n
              · rw [if_pos hi]; exact h1 i hi
              · rw [if_neg hi]
            · funext i
              by_cases hi : i < n
              · rw [if_pos hi]; exact h2 i hi
              · rw [if_neg hi]
        have hn : (updateVD_ D s d vel).1.n = D.n := by rw [f1]
        apply g
        · rw [f1]; exact ha
        · intro i hi
          rw [hn] at hi
          rw [e i hi, f1]
          simp only [if_pos hi]
        · intro i hi
          rw [hn] at hi
          rw [e i hi, f1]
          simp only [if_pos hi]
      have v : ∀ E : VD K, (updateVD_ E s d vel).2 = fun i => ((updateVD_ E s d vel).1.axsi i).map fun x =>
          (d i - (updateVD_ E s d vel).1.ds i) * x := fun E => rfl
      refine Prod.ext f2 ?_
      rw [v, v D, f2]
    · have f1 : ∀ E : VD K, E.autoXsi = false → (updateVD_ E s d vel).1 = E := by
        intro E hE; simp [updateVD_, hE]
      rw [f1 D (by simpa using ha)]
  have c : ∀ (s : K) (d : Nat → K), (updateVD_ D s d vel).1.di = D.di ∧ (updateVD_ D s d vel).1.order = D.order ∧
      (updateVD_ D s d vel).1.dt = D.dt ∧ (updateVD_ D s d vel).1.big = D.big := by
    intro s d
    by_cases ha : D.autoXsi = true
    · simp [updateVD_, ha]
    · simp [updateVD_, ha]
  by_cases ht : t = .lowerThan
  · simp only [updateVD, if_pos ht, b, c]
  · simp only [updateVD, if_neg ht, b, c]

/-! ## Automatic damping -/

/-- A damper with automatic damping, as the constructors make it -/
structure Auto (D : VD K) (off : Nat → K) : Prop where
  automatic : D.autoXsi = true
  zone : ∀ i, i < D.n → D.ds i < D.di i
  slope : ∀ i, i < D.n → D.a i = -(D.di i - D.ds i)⁻¹
  offset : ∀ i, i < D.n → D.xsiOff i = off i

/-- The derivative of the distance -/
def Sense.rate (s : Sense) (v : K) : K :=
  match s with
  | .above => v
  | .below => -v

theorem rate_rate (s : Sense) (x : K) : s.rate (s.rate x) = x := by cases s <;> simp [Sense.rate]

theorem rel_rate (s : Sense) (x y : K) : s.Rel x (s.rate y) ↔ y ≤ s.rate x := by
  cases s with
  | above => exact Iff.rfl
  | below => simp only [Sense.Rel, Sense.rate]; exact le_neg

theorem dist_add (s : Sense) (f rhs x : K) : s.dist (f + x) rhs = s.dist f rhs + s.rate x := by
  cases s <;> simp only [Sense.dist, Sense.rate] <;> ring

/-- What an update does, for both senses -/
theorem upd (s : Sense) (D : VD K) (ha : D.autoXsi = true) (f vel rhs : Nat → K) :
    (updateVD s.type D f vel rhs).1 = ⟨D.n, D.order, D.dt, D.ds, D.di, D.xsiOff, D.a, D.big, D.autoXsi,
      fun i => if i < D.n then (autoStep D 1 i (s.dist (f i) (rhs i)) (s.rate (vel i))).1 else D.axsi i,
      fun i => if i < D.n then (autoStep D 1 i (s.dist (f i) (rhs i)) (s.rate (vel i))).2 else D.active i⟩ := by
  have a : ∀ i d dv, autoStep D (-1) i d dv = autoStep D 1 i d (-dv) := by
    intro i d dv
    unfold autoStep
    rw [show (-1 : K) * dv = 1 * -dv by ring]
  cases s with
  | above => simp [Sense.type, updateVD, updateVD_, ha, Sense.dist, Sense.rate]
  | below => simp [Sense.type, updateVD, updateVD_, ha, Sense.dist, Sense.rate, a]

theorem upd_value (s : Sense) (D : VD K) (f vel rhs : Nat → K) (i : Nat) (hd : ¬ D.di i < s.dist (f i) (rhs i)) :
    (updateVD s.type D f vel rhs).2 i = ((updateVD s.type D f vel rhs).1.axsi i).map fun x =>
      s.rate (let v := (s.dist (f i) (rhs i) - (updateVD s.type D f vel rhs).1.ds i) * x
              if D.order = 2 then (v - s.rate (vel i)) / D.dt else v) := by
  cases s with
  | above =>
    simp only [Sense.type, updateVD, reduceCtorEq, if_false]
    rw [if_neg (show ¬ D.di i < f i - rhs i from hd)]
    simp only [updateVD_, Option.map_map]
    rfl
  | below =>
    simp only [Sense.type, updateVD, if_true]
    rw [if_neg (show ¬ D.di i < rhs i - f i from hd)]
    simp only [updateVD_, Option.map_map]
    congr 1
    funext x
    simp only [Function.comp, Sense.rate, Sense.dist]
    by_cases ho : D.order = 2
    · simp only [if_pos ho]; ring
    · simp only [if_neg ho]

theorem auto_consts (s : Sense) (D : VD K) (off : Nat → K) (h : Auto D off) (f vel : Nat → Nat → K) (rhs : Nat → K) (k : Nat) :
    let E := state s D f vel rhs k
    E.n = D.n ∧ E.order = D.order ∧ E.dt = D.dt ∧ E.ds = D.ds ∧ E.di = D.di ∧ E.xsiOff = D.xsiOff ∧ E.a = D.a ∧ E.big = D.big ∧
      E.autoXsi = true := by
  induction k with
  | zero => exact ⟨rfl, rfl, rfl, rfl, rfl, rfl, rfl, rfl, h.automatic⟩
  | succ k ih =>
    simp only [state] at ih ⊢
    rw [upd s _ ih.2.2.2.2.2.2.2.2]
    exact ih

/-- The step `k` is the first one in the zone of interaction, or the first one after a time outside. -/
def Enters (s : Sense) (D : VD K) (f : Nat → Nat → K) (rhs : Nat → K) (k i : Nat) : Prop :=
  s.dist (f k i) (rhs i) ≤ D.di i ∧ ∀ j, k = j + 1 → D.di i < s.dist (f j i) (rhs i)

/-- The documented damping (VelocityDamper.h, lines 58-61) for the distance `d` and its derivative `r` -/
def xsiAt (ds di off d r : K) : K := -((di - ds) / (d - ds)) * r + off

/-- The damper is active exactly when it was in the zone of interaction at the previous step, and its damping is then the documented one,
computed with the values of the last step that entered the zone. -/
theorem C45_auto_damping (s : Sense) (D : VD K) (off : Nat → K) (h : Auto D off) (hi0 : ∀ i, i < D.n → D.active i = false)
    (f vel : Nat → Nat → K) (rhs : Nat → K) (hne : ∀ k i, i < D.n → Enters s D f rhs k i → s.dist (f k i) (rhs i) ≠ D.ds i)
    (k i : Nat) (hi : i < D.n) :
    ((state s D f vel rhs (k + 1)).active i = true ↔ s.dist (f k i) (rhs i) ≤ D.di i) ∧
    (s.dist (f k i) (rhs i) ≤ D.di i → ∃ j, j ≤ k ∧ Enters s D f rhs j i ∧ (∀ m, j ≤ m → m ≤ k → s.dist (f m i) (rhs i) ≤ D.di i) ∧
      (state s D f vel rhs (k + 1)).axsi i =
        some (-(xsiAt (D.ds i) (D.di i) (off i) (s.dist (f j i) (rhs i)) (s.rate (vel j i)) / (D.di i - D.ds i)))) := by
  have hz := h.zone i hi
  have hp : D.di i - D.ds i ≠ 0 := by intro e; linarith
  -- one step from a state that is not active
  have first : ∀ k, (state s D f vel rhs k).active i = false → Enters s D f rhs k i ∨ D.di i < s.dist (f k i) (rhs i) →
      ((state s D f vel rhs (k + 1)).active i = true ↔ s.dist (f k i) (rhs i) ≤ D.di i) ∧
      (s.dist (f k i) (rhs i) ≤ D.di i → (state s D f vel rhs (k + 1)).axsi i =
        some (-(xsiAt (D.ds i) (D.di i) (off i) (s.dist (f k i) (rhs i)) (s.rate (vel k i)) / (D.di i - D.ds i)))) := by
    intro k hk he
    obtain ⟨c1, -, -, c4, c5, c6, c7, -, c9⟩ := auto_consts s D off h f vel rhs k
    simp only [state]
    rw [upd s _ c9]
    simp only [c1, if_pos hi, autoStep, c4, c5, c6, c7, hk]
    by_cases hd : s.dist (f k i) (rhs i) ≤ D.di i
    · have hen : Enters s D f rhs k i := by
        rcases he with he | he
        · exact he
        · exact absurd hd (not_le.mpr he)
      have hn := hne k i hi hen
      have hn' : s.dist (f k i) (rhs i) - D.ds i ≠ 0 := sub_ne_zero.mpr hn
      rw [if_pos ⟨hd, trivial⟩]
      refine ⟨⟨fun _ => hd, fun _ => rfl⟩, fun _ => ?_⟩
      simp only [if_neg hn, h.slope i hi, h.offset i hi, xsiAt]
      congr 1
      field_simp
      ring
    · rw [if_neg (fun c => hd c.1), if_neg (by simp)]
      exact ⟨⟨fun c => by simp at c, fun c => absurd c hd⟩, fun c => absurd c hd⟩
  induction k with
  | zero =>
    have he : s.dist (f 0 i) (rhs i) ≤ D.di i → Enters s D f rhs 0 i := fun hd => ⟨hd, fun j e => by omega⟩
    obtain ⟨p, q⟩ := first 0 (hi0 i hi) (by
      by_cases hd : s.dist (f 0 i) (rhs i) ≤ D.di i
      · exact Or.inl (he hd)
      · exact Or.inr (not_le.mp hd))
    refine ⟨p, fun hd => ⟨0, le_rfl, he hd, fun m _ hm => ?_, q hd⟩⟩
    rw [show m = 0 by omega]; exact hd
  | succ k ih =>
    by_cases hact : s.dist (f k i) (rhs i) ≤ D.di i
    · -- active: the damping is kept, or the zone is left
      obtain ⟨j, hj, hen, hall, hax⟩ := ih.2 hact
      have hk : (state s D f vel rhs (k + 1)).active i = true := ih.1.mpr hact
      obtain ⟨c1, -, -, c4, c5, c6, c7, -, c9⟩ := auto_consts s D off h f vel rhs (k + 1)
      have e : state s D f vel rhs (k + 1 + 1) = (updateVD s.type (state s D f vel rhs (k + 1)) (f (k + 1)) (vel (k + 1)) rhs).1 := rfl
      rw [e, upd s _ c9]
      simp only [c1, if_pos hi, autoStep, c5, hk]
      by_cases hd : s.dist (f (k + 1) i) (rhs i) ≤ D.di i
      · rw [if_neg (by simp), if_neg (fun c => absurd hd (not_le.mpr c.1))]
        refine ⟨⟨fun _ => hd, fun _ => rfl⟩, fun _ => ⟨j, by omega, hen, fun m h1 h2 => ?_, hax⟩⟩
        by_cases hm : m = k + 1
        · rw [hm]; exact hd
        · exact hall m h1 (by omega)
      · rw [if_neg (by simp), if_pos ⟨not_le.mp hd, trivial⟩]
        exact ⟨⟨fun c => by simp at c, fun c => absurd c hd⟩, fun c => absurd c hd⟩
    · have hk : (state s D f vel rhs (k + 1)).active i = false := by
        rw [← Bool.not_eq_true]; exact fun c => hact (ih.1.mp c)
      have he : s.dist (f (k + 1) i) (rhs i) ≤ D.di i → Enters s D f rhs (k + 1) i := fun hd => ⟨hd, fun j e => by
        rw [show j = k by omega]; exact not_le.mp hact⟩
      obtain ⟨p, q⟩ := first (k + 1) hk (by
        by_cases hd : s.dist (f (k + 1) i) (rhs i) ≤ D.di i
        · exact Or.inl (he hd)
        · exact Or.inr (not_le.mp hd))
      refine ⟨p, fun hd => ⟨k + 1, le_rfl, he hd, fun m _ hm => ?_, q hd⟩⟩
      rw [show m = k + 1 by omega]; exact hd

/-- At a step that enters the zone, the velocity of the step before, reduced by the offset, is allowed, and would keep the safety distance. -/
def Gentle (s : Sense) (D : VD K) (off : Nat → K) (dt : K) (f vel : Nat → Nat → K) (rhs : Nat → K) : Prop :=
  ∀ k i, i < D.n → Enters s D f rhs k i →
    D.ds i < s.dist (f k i) (rhs i) ∧
    D.ds i ≤ s.dist (f k i) (rhs i) + dt * (s.rate (vel k i) - off i * ((s.dist (f k i) (rhs i) - D.ds i) / (D.di i - D.ds i)))

theorem xsi_bound (ds di off d r dt : K) (hz : ds < di) (hd : ds < d) (hg : ds ≤ d + dt * (r - off * ((d - ds) / (di - ds)))) :
    xsiAt ds di off d r * dt ≤ di - ds := by
  have hp : 0 < di - ds := by linarith
  have hq : 0 < d - ds := by linarith
  have h1 : 0 ≤ (d - ds + dt * (r - off * ((d - ds) / (di - ds)))) * ((di - ds) / (d - ds)) :=
    mul_nonneg (by linarith) (div_nonneg hp.le hq.le)
  have h2 : (d - ds + dt * (r - off * ((d - ds) / (di - ds)))) * ((di - ds) / (d - ds)) = (di - ds) - xsiAt ds di off d r * dt := by
    unfold xsiAt
    field_simp
    ring
  rw [h2] at h1
  linarith

/-- The velocity allowed in the zone, automatic damping -/
theorem auto_allowed (s : Sense) (D : VD K) (off : Nat → K) (h : Auto D off) (hi0 : ∀ i, i < D.n → D.active i = false)
    (f vel : Nat → Nat → K) (rhs : Nat → K) (dt : K) (hg : Gentle s D off dt f vel rhs) (k i : Nat) (hi : i < D.n)
    (hd : s.dist (f k i) (rhs i) ≤ D.di i) :
    ∃ xsi, xsi * dt ≤ D.di i - D.ds i ∧ value s D f vel rhs k i = some (s.rate (
      let v := -(xsi * ((s.dist (f k i) (rhs i) - D.ds i) / (D.di i - D.ds i)))
      if D.order = 2 then (v - s.rate (vel k i)) / D.dt else v)) := by
  obtain ⟨j, hj, hen, -, hax⟩ := (C45_auto_damping s D off h hi0 f vel rhs (fun k i hi he => (hg k i hi he).1.ne') k i hi).2 hd
  obtain ⟨g1, g2⟩ := hg j i hi hen
  refine ⟨_, xsi_bound _ _ (off i) _ (s.rate (vel j i)) dt (h.zone i hi) g1 g2, ?_⟩
  obtain ⟨c1, c2, c3, c4, c5, c6, c7, c8, c9⟩ := auto_consts s D off h f vel rhs k
  obtain ⟨-, -, -, e4, -, -, -, -, -⟩ := auto_consts s D off h f vel rhs (k + 1)
  have e : state s D f vel rhs (k + 1) = (updateVD s.type (state s D f vel rhs k) (f k) (vel k) rhs).1 := rfl
  unfold value
  rw [upd_value s _ (f k) (vel k) rhs i (by rw [c5]; exact not_lt.mpr hd), ← e, hax, e4, c2, c3]
  simp only [Option.map_some]
  have : ∀ y : K, (s.dist (f k i) (rhs i) - D.ds i) * -(y / (D.di i - D.ds i)) =
    -(y * ((s.dist (f k i) (rhs i) - D.ds i) / (D.di i - D.ds i))) := fun y => by ring
  rw [this]

/-- First order, automatic damping: the distance stays at least the safety distance along every trajectory that obeys the damper, cannot jump over
the zone, and enters the zone with a velocity that does not reach the safety distance in one step. -/
theorem C45_safe_auto_first (s : Sense) (D : VD K) (off : Nat → K) (h : Auto D off) (hi0 : ∀ i, i < D.n → D.active i = false)
    (ho : D.order ≠ 2) (dt : K) (hdt : 0 ≤ dt) (f vel : Nat → Nat → K) (rhs : Nat → K) (ht : First s D dt f vel rhs)
    (hg : Gentle s D off dt f vel rhs) (hj : NoJump s D f rhs) (h0 : ∀ i, i < D.n → Safe s D f rhs 0 i) :
    ∀ k i, i < D.n → Safe s D f rhs k i := by
  intro k
  induction k with
  | zero => exact h0
  | succ k ih =>
    intro i hi
    by_cases hd : D.di i < s.dist (f k i) (rhs i)
    · exact hj k i hi hd
    · obtain ⟨xsi, hx, hv⟩ := auto_allowed s D off h hi0 f vel rhs dt hg k i hi (not_lt.mp hd)
      obtain ⟨x, e, r⟩ := ht.obeys k i hi
      rw [hv, Option.some.injEq] at e
      simp only [if_neg ho] at e
      rw [← e, rel_rate] at r
      unfold Safe
      rw [ht.move k i hi, dist_add]
      refine zone_step _ (D.di i) (s.dist (f k i) (rhs i)) _ dt xsi (s.rate (vel (k + 1) i)) (h.zone i hi) hdt hx (ih i hi) ?_ r
      cases s <;> simp [Sense.rate]

/-- Second order, automatic damping -/
theorem C45_safe_auto_second (s : Sense) (D : VD K) (off : Nat → K) (h : Auto D off) (hi0 : ∀ i, i < D.n → D.active i = false)
    (ho : D.order = 2) (hdt : 0 < D.dt) (f vel acc : Nat → Nat → K) (rhs : Nat → K) (ht : Second s D f vel acc rhs)
    (hg : Gentle s D off D.dt f vel rhs) (hj : NoJump s D f rhs) (h0 : ∀ i, i < D.n → Safe s D f rhs 0 i) :
    ∀ k i, i < D.n → Safe s D f rhs k i := by
  intro k
  induction k with
  | zero => exact h0
  | succ k ih =>
    intro i hi
    by_cases hd : D.di i < s.dist (f k i) (rhs i)
    · exact hj k i hi hd
    · obtain ⟨xsi, hx, hv⟩ := auto_allowed s D off h hi0 f vel rhs D.dt hg k i hi (not_lt.mp hd)
      obtain ⟨x, e, r⟩ := ht.obeys k i hi
      rw [hv, Option.some.injEq] at e
      simp only [if_pos ho] at e
      rw [← e, rel_rate, div_le_iff₀ hdt] at r
      unfold Safe
      rw [ht.move k i hi, dist_add]
      refine zone_step _ (D.di i) (s.dist (f k i) (rhs i)) _ D.dt xsi (s.rate (vel (k + 1) i)) (h.zone i hi) hdt.le hx (ih i hi) ?_ ?_
      · cases s <;> simp [Sense.rate]
      · have : s.rate (vel (k + 1) i) = s.rate (vel k i) + s.rate (acc k i) * D.dt := by
          rw [ht.accel k i hi]; cases s <;> simp only [Sense.rate] <;> ring
        rw [this]; linarith

/-- At a step that enters the zone, the bound of the first order is the current velocity, reduced by the offset: the activation does not make a jump. -/
theorem C45_auto_continuous (s : Sense) (D : VD K) (off : Nat → K) (h : Auto D off) (ho : D.order ≠ 2) (f vel rhs : Nat → K) (i : Nat)
    (hi : i < D.n) (hin : D.active i = false) (hd : s.dist (f i) (rhs i) ≤ D.di i) (hne : s.dist (f i) (rhs i) ≠ D.ds i) :
    (updateVD s.type D f vel rhs).2 i =
      some (s.rate (s.rate (vel i) - off i * ((s.dist (f i) (rhs i) - D.ds i) / (D.di i - D.ds i)))) := by
  have hz := h.zone i hi
  have hp : D.di i - D.ds i ≠ 0 := by intro e; linarith
  have hn' : s.dist (f i) (rhs i) - D.ds i ≠ 0 := sub_ne_zero.mpr hne
  rw [upd_value s D f vel rhs i (not_lt.mpr hd), upd s D h.automatic]
  simp only [if_pos hi, autoStep, if_pos (⟨hd, hin⟩ : s.dist (f i) (rhs i) ≤ D.di i ∧ D.active i = false), if_neg hne, Option.map_some,
    if_neg ho, h.slope i hi, h.offset i hi]
  congr 2
  field_simp
  ring

/-- What the automatic mode does not give: a step that enters the zone while moving away (faster than the offset) makes the rest forbidden at a safe
distance, the distance has to increase. -/
theorem C45_auto_outward_false (s : Sense) (D : VD K) (off : Nat → K) (h : Auto D off) (ho : D.order ≠ 2) (f vel rhs : Nat → K) (i : Nat)
    (hi : i < D.n) (hin : D.active i = false) (hd : s.dist (f i) (rhs i) ≤ D.di i) (hs : D.ds i < s.dist (f i) (rhs i))
    (ho0 : 0 ≤ off i) (hv : off i < s.rate (vel i)) : ∃ x, (updateVD s.type D f vel rhs).2 i = some x ∧ ¬ s.Rel 0 x := by
  refine ⟨_, C45_auto_continuous s D off h ho f vel rhs i hi hin hd hs.ne', ?_⟩
  rw [rel_rate]
  have hz := h.zone i hi
  have hp : 0 < D.di i - D.ds i := by linarith
  have h1 : (s.dist (f i) (rhs i) - D.ds i) / (D.di i - D.ds i) ≤ 1 := (div_le_one hp).mpr (by linarith)
  have h2 : off i * ((s.dist (f i) (rhs i) - D.ds i) / (D.di i - D.ds i)) ≤ off i * 1 := mul_le_mul_of_nonneg_left h1 ho0
  have h3 : s.rate (0 : K) = 0 := by cases s <;> simp [Sense.rate]
  rw [h3]
  intro c
  linarith

/-- And a step that enters the zone exactly at the safety distance gives a value that is not a number. -/
theorem C45_auto_nan_false (s : Sense) (D : VD K) (off : Nat → K) (h : Auto D off) (f vel rhs : Nat → K) (i : Nat) (hi : i < D.n)
    (hin : D.active i = false) (hd : s.dist (f i) (rhs i) = D.ds i) : (updateVD s.type D f vel rhs).2 i = none := by
  have hz := h.zone i hi
  have hle : s.dist (f i) (rhs i) ≤ D.di i := by rw [hd]; exact hz.le
  rw [upd_value s D f vel rhs i (not_lt.mpr hle), upd s D h.automatic]
  simp only [if_pos hi, autoStep, if_pos (⟨hle, hin⟩ : s.dist (f i) (rhs i) ≤ D.di i ∧ D.active i = false), if_pos hd, Option.map_none]

/-! ## The constructors -/

theorem anyB_false (n : Nat) (p : Nat → Bool) : anyB n p = false ↔ ∀ i, i < n → p i = false := by
  unfold anyB
  simp [List.any_eq_false]

/-- The parameters that a configuration accepts -/
def Legal (di ds xsi off : Vec K) : Prop :=
  ds.n = di.n ∧ xsi.n = di.n ∧ off.n = di.n ∧ (∀ i, i < di.n → 0 ≤ ds.v i ∧ ds.v i < di.v i ∧ 0 ≤ xsi.v i ∧ 0 ≤ off.v i) ∧
  ((∀ i, i < di.n → xsi.v i = 0) ∨ ∀ i, i < di.n → 0 < xsi.v i)

theorem C45_config (di ds xsi off : K) : configAccepts di ds xsi off = true ↔ 0 ≤ ds ∧ ds < di ∧ 0 ≤ xsi ∧ 0 ≤ off := by
  unfold configAccepts
  by_cases h1 : di ≤ ds
  · rw [if_pos h1]; constructor
    · intro h; simp at h
    · intro h; exact absurd h.2.1 (not_lt.mpr h1)
  · rw [if_neg h1]
    by_cases h2 : ds < 0
    · rw [if_pos h2]; constructor
      · intro h; simp at h
      · intro h; exact absurd h.1 (not_le.mpr h2)
    · rw [if_neg h2]
      by_cases h3 : xsi < 0
      · rw [if_pos h3]; constructor
        · intro h; simp at h
        · intro h; exact absurd h.2.2.1 (not_le.mpr h3)
      · rw [if_neg h3]
        by_cases h4 : off < 0
        · rw [if_pos h4]; constructor
          · intro h; simp at h
          · intro h; exact absurd h.2.2.2 (not_le.mpr h4)
        · rw [if_neg h4]
          exact ⟨fun _ => ⟨not_lt.mp h2, not_le.mp h1, not_lt.mp h3, not_lt.mp h4⟩, fun _ => rfl⟩

/-- A configuration is accepted exactly when its parameters are legal. -/
theorem C45_aniso (di ds xsi off : Vec K) : anisoAccepts di ds xsi off = true ↔ Legal di ds xsi off := by
  unfold anisoAccepts Legal
  by_cases h0 : di.n ≠ ds.n ∨ di.n ≠ xsi.n ∨ di.n ≠ off.n
  · rw [if_pos h0]; constructor
    · intro h; simp at h
    · intro h; omega
  · rw [if_neg h0]
    simp only [not_or, not_not] at h0
    by_cases h1 : anyB di.n (fun i => decide (di.v i ≤ ds.v i)) = true
    · rw [if_pos h1]; constructor
      · intro h; simp at h
      · intro h
        exfalso
        revert h1
        rw [imp_false, Bool.not_eq_true, anyB_false]
        intro i hi; simpa using (h.2.2.2.1 i hi).2.1
    · rw [if_neg h1]
      rw [Bool.not_eq_true, anyB_false] at h1
      by_cases h2 : anyB di.n (fun i => decide (ds.v i < 0)) = true
      · rw [if_pos h2]; constructor
        · intro h; simp at h
        · intro h
          exfalso
          revert h2
          rw [imp_false, Bool.not_eq_true, anyB_false]
          intro i hi; simpa using (h.2.2.2.1 i hi).1
      · rw [if_neg h2]
        rw [Bool.not_eq_true, anyB_false] at h2
        by_cases h3 : anyB di.n (fun i => decide (xsi.v i < 0)) = true
        · rw [if_pos h3]; constructor
          · intro h; simp at h
          · intro h
            exfalso
            revert h3
            rw [imp_false, Bool.not_eq_true, anyB_false]
            intro i hi; simpa using (h.2.2.2.1 i hi).2.2.1
        · rw [if_neg h3]
          rw [Bool.not_eq_true, anyB_false] at h3
          have h3' : ∀ i, i < di.n → 0 ≤ xsi.v i := fun i hi => by simpa using h3 i hi
          by_cases h4 : (anyB di.n (fun i => decide (xsi.v i = 0)) && !(List.range di.n).all (fun i => decide (xsi.v i = 0))) = true
          · rw [if_pos h4]; constructor
            · intro h; simp at h
            · intro h
              exfalso
              rw [Bool.and_eq_true, Bool.not_eq_true'] at h4
              rcases h.2.2.2.2 with hc | hc
              · have : (List.range di.n).all (fun i => decide (xsi.v i = 0)) = true := by
                  rw [List.all_eq_true]; intro i hi; simpa using hc i (List.mem_range.mp hi)
                rw [this] at h4; simp at h4
              · have : anyB di.n (fun i => decide (xsi.v i = 0)) = false := by
                  rw [anyB_false]; intro i hi; simpa using (hc i hi).ne'
                rw [this] at h4; simp at h4
          · rw [if_neg h4]
            rw [Bool.not_eq_true, Bool.and_eq_false_iff] at h4
            have h4' : (∀ i, i < di.n → xsi.v i = 0) ∨ ∀ i, i < di.n → 0 < xsi.v i := by
              rcases h4 with h4 | h4
              · right
                rw [anyB_false] at h4
                intro i hi
                exact lt_of_le_of_ne (h3' i hi) (fun e => by have := h4 i hi; simp [← e] at this)
              · left
                rw [Bool.not_eq_false', List.all_eq_true] at h4
                intro i hi; simpa using h4 i (List.mem_range.mpr hi)
            by_cases h5 : anyB di.n (fun i => decide (off.v i < 0)) = true
            · rw [if_pos h5]; constructor
              · intro h; simp at h
              · intro h
                exfalso
                revert h5
                rw [imp_false, Bool.not_eq_true, anyB_false]
                intro i hi; simpa using (h.2.2.2.1 i hi).2.2.2
            · rw [if_neg h5]
              rw [Bool.not_eq_true, anyB_false] at h5
              refine ⟨fun _ => ⟨h0.1.symm, h0.2.1.symm, h0.2.2.symm, fun i hi => ⟨?_, ?_, h3' i hi, ?_⟩, h4'⟩, fun _ => rfl⟩
              · simpa using h2 i hi
              · simpa using h1 i hi
              · simpa using h5 i hi

/-- A parameter for all the components of a function of size `n`: one value counts for all of them. -/
def spread (x : Vec K) : Nat → K := fun i => if x.n = 1 then x.v 0 else x.v i

theorem resize_some (n : Nat) (x : Vec K) (v : Nat → K) (h : resizeParameter n x = some v) : v = spread x ∧ (x.n = 1 ∨ x.n = n) := by
  unfold resizeParameter at h
  by_cases h1 : x.n = 1
  · rw [if_pos h1, Option.some.injEq] at h
    exact ⟨by rw [← h]; funext i; simp [spread, h1], Or.inl h1⟩
  · rw [if_neg h1] at h
    by_cases h2 : x.n ≠ n
    · rw [if_pos h2] at h; simp at h
    · rw [if_neg h2, Option.some.injEq] at h
      exact ⟨by rw [← h]; funext i; simp [spread, h1], Or.inr (not_not.mp h2)⟩

/-- Every damper made from a legal configuration is one of the dampers of the theorems above: fixed damping when `ξ` is given (and then it is
positive), automatic damping otherwise; its order is 2 exactly when a time step is given, which is then positive. -/
theorem C45_made (n : Nat) (dt : Option K) (di ds xsi off : Vec K) (big : K) (D : VD K) (hl : Legal di ds xsi off)
    (hm : makeVD n dt di ds xsi off big = .ok () D) :
    D.n = n ∧ 0 < D.big ∧ D.big = big ∧ D.ds = spread ds ∧ D.di = spread di ∧ (∀ i, D.active i = false) ∧
    (dt = none → D.order = 1) ∧ (∀ t, dt = some t → D.order = 2 ∧ D.dt = t ∧ 0 < D.dt) ∧
    (xsi.v 0 ≠ 0 → Fixed D (spread xsi) ∧ ∀ i, i < n → 0 < spread xsi i) ∧ (xsi.v 0 = 0 → Auto D (spread off)) := by
  obtain ⟨l1, l2, l3, l4, l5⟩ := hl
  unfold makeVD at hm
  by_cases h0 : xsi.n = 0
  · rw [if_pos h0] at hm; simp at hm
  · rw [if_neg h0] at hm
    simp only at hm
    by_cases h1 : badStep dt = true
    · rw [if_pos h1] at hm; simp at hm
    · rw [if_neg h1] at hm
      by_cases h2 : big ≤ 0
      · rw [if_pos h2] at hm; simp at hm
      · rw [if_neg h2] at hm
        cases h3 : resizeParameter n ds with
        | none => simp [h3] at hm
        | some ds' =>
          cases h4 : resizeParameter n di with
          | none => simp [h3, h4] at hm
          | some di' =>
            cases h5 : resizeParameter n (if decide (xsi.v 0 = 0) = true then off else xsi) with
            | none => simp only [h3, h4, h5] at hm; exact absurd hm (by simp)
            | some x' =>
              simp only [h3, h4, h5] at hm
              obtain ⟨e3, s3⟩ := resize_some n ds ds' h3
              obtain ⟨e4, s4⟩ := resize_some n di di' h4
              obtain ⟨e5, s5⟩ := resize_some n _ x' h5
              have hz : ∀ i, i < n → ds' i < di' i := by
                intro i hi
                rw [e3, e4]
                unfold spread
                by_cases hd : di.n = 1
                · rw [if_pos (by omega), if_pos hd]; exact (l4 0 (by omega)).2.1
                · rw [if_neg (by omega), if_neg hd]; exact (l4 i (by omega)).2.1
              injection hm with _ hm
              subst hm
              refine ⟨rfl, not_le.mp h2, rfl, e3, e4, fun _ => rfl, fun e => by simp [e], fun t e => ?_, fun hx => ?_, fun hx => ?_⟩
              · subst e
                simp only [badStep, decide_eq_true_eq, not_le] at h1
                exact ⟨by simp, rfl, h1⟩
              · have hf : decide (xsi.v 0 = 0) = false := by simpa using hx
                simp only [hf] at e5 ⊢
                have hpos : ∀ i, i < di.n → 0 < xsi.v i := by
                  rcases l5 with l5 | l5
                  · exact absurd (l5 0 (by omega)) hx
                  · exact l5
                refine ⟨⟨rfl, hz, fun i hi => ?_⟩, fun i hi => ?_⟩
                · simp only [Bool.false_eq_true, if_false] at e5 ⊢
                  rw [e5]
                  congr 1
                  rw [div_eq_mul_inv]; ring
                · unfold spread
                  by_cases hd : xsi.n = 1
                  · rw [if_pos hd]; exact hpos 0 (by omega)
                  · rw [if_neg hd]; exact hpos i (by omega)
              · have hf : decide (xsi.v 0 = 0) = true := by simpa using hx
                simp only [hf, if_true] at e5 ⊢
                exact ⟨rfl, hz, fun _ _ => rfl, fun i _ => by rw [e5]⟩

/-! ## A concrete case -/

/-- Safety distance 1, interaction distance 3, damping 2 -/
def exD : VD ℚ :=
  ⟨1, 1, 0, fun _ => 1, fun _ => 3, fun _ => 0, fun _ => -1 / 2, 1000, false, fun _ => some (-1), fun _ => false⟩

theorem exD_fixed : Fixed exD (fun _ => 2) := ⟨rfl, fun _ _ => by norm_num [exD], fun _ _ => by norm_num [exD]⟩

example : makeVD 1 none ⟨1, fun _ => (3 : ℚ)⟩ ⟨1, fun _ => 1⟩ ⟨1, fun _ => 2⟩ ⟨1, fun _ => 0⟩ 1000 = .ok () exD := by
  simp [makeVD, resizeParameter, badStep, exD]; norm_num

/-- The trajectory that approaches the safety distance as fast as allowed with `dt = 1/2`: `2, 3/2, 5/4, ...` -/
def exF : Nat → Nat → ℚ := fun k _ => 1 + 1 / 2 ^ k
def exVel : Nat → Nat → ℚ := fun k _ => -(1 / 2 ^ (k - 1))

theorem ex_first : First .above exD (1 / 2) exF exVel (fun _ => 0) := by
  refine ⟨fun k i _ => ?_, fun k i hi => ⟨_, C45_value_first .above exD _ exD_fixed (by decide) _ _ _ k i hi, ?_⟩⟩
  · simp only [exF, exVel, Nat.add_sub_cancel, pow_succ]; field_simp; ring
  · have h1 : (1 : ℚ) / 2 ^ k ≤ 1 := by
      rw [div_le_one (by positivity)]; exact one_le_pow₀ (by norm_num)
    have h2 : ¬ exD.di i < Sense.above.dist (exF k i) 0 := by
      show ¬ (3 : ℚ) < 1 + 1 / 2 ^ k - 0
      linarith
    simp only [if_neg h2]
    show -((2 : ℚ) * ((1 + 1 / 2 ^ k - 0 - 1) / (3 - 1))) ≤ -(1 / 2 ^ (k + 1 - 1))
    rw [Nat.add_sub_cancel]
    apply le_of_eq
    ring

theorem ex_zone (k i : Nat) : Sense.above.dist (exF k i) (0 : ℚ) ≤ 3 := by
  have h1 : (1 : ℚ) / 2 ^ k ≤ 1 := by
    rw [div_le_one (by positivity)]; exact one_le_pow₀ (by norm_num)
  show (1 : ℚ) + 1 / 2 ^ k - 0 ≤ 3
  linarith

theorem ex_noJump (D : VD ℚ) (hD : ∀ i, D.di i = 3) : NoJump .above D exF (fun _ => 0) := by
  intro k i _ h
  rw [hD] at h
  exact absurd (ex_zone k i) (not_le.mpr h)

/-- The trajectory meets the hypotheses of the theorem and is in the zone of interaction. -/
example : (∀ k i, i < exD.n → Safe .above exD exF (fun _ => 0) k i) ∧ exF 3 0 = 9 / 8 :=
  ⟨C45_safe_first .above exD _ exD_fixed (by decide) (1 / 2) (by norm_num) (fun i _ => by norm_num [exD]) exF exVel _ ex_first
    (ex_noJump exD fun _ => rfl) (fun i _ => by show (1 : ℚ) ≤ 1 + 1 / 2 ^ 0 - 0; norm_num), by norm_num [exF]⟩

/-- The same with the second order and the time step 1/2 -/
def exS : VD ℚ :=
  ⟨1, 2, 1 / 2, fun _ => 1, fun _ => 3, fun _ => 0, fun _ => -1 / 2, 1000, false, fun _ => some (-1), fun _ => false⟩

theorem exS_fixed : Fixed exS (fun _ => 2) := ⟨rfl, fun _ _ => by norm_num [exS], fun _ _ => by norm_num [exS]⟩

/-- The accelerations of the same trajectory -/
def exAcc : Nat → Nat → ℚ := fun k i => (exVel (k + 1) i - exVel k i) * 2

example : Second .above exS exF exVel exAcc (fun _ => 0) ∧ ∀ k i, i < exS.n → Safe .above exS exF (fun _ => 0) k i := by
  have hs : Second .above exS exF exVel exAcc (fun _ => 0) := by
    refine ⟨fun k i hi => ex_first.move k i hi, fun k i _ => ?_, fun k i hi =>
      ⟨_, C45_value_second .above exS _ exS_fixed rfl _ _ _ k i hi, ?_⟩⟩
    · show exVel (k + 1) i = exVel k i + 1 / 2 * ((exVel (k + 1) i - exVel k i) * 2)
      ring
    · have h2 : ¬ exS.di i < Sense.above.dist (exF k i) 0 := not_lt.mpr (ex_zone k i)
      simp only [if_neg h2]
      show -((2 : ℚ) / (1 / 2) * ((1 + 1 / 2 ^ k - 0 - 1) / (3 - 1))) - exVel k i / (1 / 2) ≤
        (-(1 / 2 ^ (k + 1 - 1)) - exVel k i) * 2
      rw [Nat.add_sub_cancel]
      apply le_of_eq
      ring
  exact ⟨hs, C45_safe_second .above exS _ exS_fixed rfl (by norm_num [exS]) (fun i _ => by norm_num [exS]) exF exVel exAcc _ hs
    (ex_noJump exS fun _ => rfl) (fun i _ => by show (1 : ℚ) ≤ 1 + 1 / 2 ^ 0 - 0; norm_num)⟩

/-- The same trajectory with the automatic damping: it enters the zone at the distance 2 with the velocity -1. -/
def exA : VD ℚ :=
  ⟨1, 1, 0, fun _ => 1, fun _ => 3, fun _ => 0, fun _ => -(3 - 1)⁻¹, 1000, true, fun _ => some 1, fun _ => false⟩

theorem exA_auto : Auto exA (fun _ => 0) := ⟨rfl, fun _ _ => by norm_num [exA], fun _ _ => rfl, fun _ _ => rfl⟩

theorem exA_enters (k i : Nat) (h : Enters .above exA exF (fun _ => 0) k i) : k = 0 := by
  cases k with
  | zero => rfl
  | succ k => exact absurd (ex_zone k i) (not_le.mpr (h.2 k rfl))

theorem exA_gentle : Gentle .above exA (fun _ => 0) (1 / 2) exF exVel (fun _ => 0) := by
  intro k i _ h
  have := exA_enters k i h
  subst this
  constructor
  · show (1 : ℚ) < 1 + 1 / 2 ^ 0 - 0
    norm_num
  · show (1 : ℚ) ≤ 1 + 1 / 2 ^ 0 - 0 + 1 / 2 * (-(1 / 2 ^ (0 - 1)) - 0 * ((1 + 1 / 2 ^ 0 - 0 - 1) / (3 - 1)))
    norm_num

theorem exA_first : First .above exA (1 / 2) exF exVel (fun _ => 0) := by
  refine ⟨fun k i hi => ex_first.move k i hi, fun k i hi => ?_⟩
  obtain ⟨j, -, he, -, hax⟩ := (C45_auto_damping .above exA _ exA_auto (fun _ _ => rfl) exF exVel (fun _ => 0)
    (fun k i hi he => (exA_gentle k i hi he).1.ne') k i hi).2 (ex_zone k i)
  have := exA_enters j i he
  subst this
  refine ⟨_, ?_, le_refl _⟩
  have e : state .above exA exF exVel (fun _ => 0) (k + 1) =
    (updateVD Sense.above.type (state .above exA exF exVel (fun _ => 0) k) (exF k) (exVel k) (fun _ => 0)).1 := rfl
  obtain ⟨c1, c2, c3, c4, c5, c6, c7, c8, c9⟩ := auto_consts .above exA _ exA_auto exF exVel (fun _ => 0) k
  obtain ⟨-, -, -, e4, -⟩ := auto_consts .above exA _ exA_auto exF exVel (fun _ => 0) (k + 1)
  unfold value
  rw [upd_value .above _ (exF k) (exVel k) (fun _ => 0) i (by rw [c5]; exact not_lt.mpr (ex_zone k i)), ← e, hax, e4, c2]
  rw [Option.map_some]
  congr 1
  show (1 + 1 / 2 ^ k - 0 - 1) * -((-((3 - 1) / (1 + 1 / 2 ^ 0 - 0 - 1)) * -(1 / 2 ^ (0 - 1)) + 0) / (3 - 1)) = (-(1 / 2 ^ (k + 1 - 1)) : ℚ)
  rw [Nat.add_sub_cancel]
  norm_num

example : ∀ k i, i < exA.n → Safe .above exA exF (fun _ => 0) k i :=
  C45_safe_auto_first .above exA _ exA_auto (fun _ _ => rfl) (by decide) (1 / 2) (by norm_num) exF exVel _ exA_first exA_gentle
    (ex_noJump exA fun _ => rfl) (fun i _ => by show (1 : ℚ) ≤ 1 + 1 / 2 ^ 0 - 0; norm_num)

-- the other theorems applied to these dampers
example (k : Nat) := C45_value_first .above exD _ exD_fixed (by decide) exF exVel (fun _ => 0) k 0 (by decide)
-- with `big = 4` and `dt = 1/2`, a step cannot cross the zone
example : NoJump .above (⟨1, 1, 0, fun _ => 1, fun _ => 3, fun _ => 0, fun _ => -1 / 2, 4, false, fun _ => some (-1), fun _ => false⟩ : VD ℚ)
    exF (fun _ => 0) :=
  C45_noJump .above _ (fun _ => 2) ⟨rfl, fun _ _ => by norm_num, fun _ _ => by norm_num⟩ (by decide) (1 / 2) (by norm_num)
    (fun i _ => by norm_num) exF exVel _
    ⟨fun k i hi => ex_first.move k i hi, fun k i hi => by
      obtain ⟨x, h1, h2⟩ := ex_first.obeys k i hi
      refine ⟨_, C45_value_first .above _ (fun _ => 2) ⟨rfl, fun _ _ => by norm_num, fun _ _ => by norm_num⟩ (by decide) _ _ _ k i hi, ?_⟩
      have h3 : ¬ (3 : ℚ) < Sense.above.dist (exF k i) 0 := not_lt.mpr (ex_zone k i)
      have h4 := C45_value_first .above exD _ exD_fixed (by decide) exF exVel (fun _ => 0) k i hi
      rw [h4] at h1
      simp only [Option.some.injEq] at h1
      have h5 : ¬ exD.di i < Sense.above.dist (exF k i) 0 := h3
      simp only [if_neg h5] at h1
      simp only [if_neg h3]
      rw [← h1] at h2
      exact h2⟩
-- a time step that is too large for the damping
example : ∃ (f vel : Nat → Nat → ℚ), First .above exD 2 f vel (fun _ => 0) ∧ ¬ Safe .above exD f (fun _ => 0) 1 0 := by
  obtain ⟨f, vel, h1, _, _, h2⟩ := C45_sharp exD _ exD_fixed (by decide) rfl 2 (by norm_num [exD]) (by norm_num [exD])
  exact ⟨f, vel, h1, h2⟩
example := C45_rest .above exD _ exD_fixed (by decide) (by norm_num [exD]) exF exVel (fun _ => 0) 3 0 (by decide) (by norm_num)
example : (updateVD .lowerThan exD (fun _ => -5) (fun _ => 0) (fun _ => 0)).2 0 = some 1000 :=
  C45_outside .below exD (fun _ => -5) (fun _ => 0) (fun _ => 0) 0 (by show (3 : ℚ) < 0 - -5; norm_num)
example (k : Nat) := C45_auto_damping .above exA _ exA_auto (fun _ _ => rfl) exF exVel (fun _ => 0)
  (fun k i hi he => (exA_gentle k i hi he).1.ne') k 0 (by decide)
example : (updateVD .greaterThan exA (fun _ => 2) (fun _ => -1) (fun _ => 0)).2 0 = some (-1) := by
  have := C45_auto_continuous .above exA _ exA_auto (by decide) (fun _ => 2) (fun _ => -1) (fun _ => 0) 0 (by decide) rfl
    (by show (2 : ℚ) - 0 ≤ 3; norm_num) (by show (2 : ℚ) - 0 ≠ 1; norm_num)
  rw [show CType.greaterThan = Sense.above.type from rfl, this]
  norm_num [Sense.rate]
-- entering the zone while moving away from the bound
example : ∃ x, (updateVD Sense.above.type exA (fun _ => 2) (fun _ => 1) (fun _ => 0)).2 0 = some x ∧ ¬ Sense.above.Rel 0 x :=
  C45_auto_outward_false .above exA _ exA_auto (by decide) (fun _ => 2) (fun _ => 1) (fun _ => 0) 0 (by decide) rfl
    (by show (2 : ℚ) - 0 ≤ 3; norm_num) (by show (1 : ℚ) < 2 - 0; norm_num) (by norm_num) (by show (0 : ℚ) < 1; norm_num)
example : (updateVD Sense.above.type exA (fun _ => 1) (fun _ => -1) (fun _ => 0)).2 0 = none :=
  C45_auto_nan_false .above exA _ exA_auto (fun _ => 1) (fun _ => -1) (fun _ => 0) 0 (by decide) rfl (by show (1 : ℚ) - 0 = 1; norm_num)
/-- The automatic damping with the second order and the time step 1/2, on the same trajectory -/
def exAS : VD ℚ :=
  ⟨1, 2, 1 / 2, fun _ => 1, fun _ => 3, fun _ => 0, fun _ => -(3 - 1)⁻¹, 1000, true, fun _ => some 1, fun _ => false⟩

theorem exAS_auto : Auto exAS (fun _ => 0) := ⟨rfl, fun _ _ => by norm_num [exAS], fun _ _ => rfl, fun _ _ => rfl⟩

theorem exAS_second : Second .above exAS exF exVel exAcc (fun _ => 0) := by
  refine ⟨fun k i hi => ex_first.move k i hi, fun k i _ => ?_, fun k i hi => ?_⟩
  · show exVel (k + 1) i = exVel k i + 1 / 2 * ((exVel (k + 1) i - exVel k i) * 2)
    ring
  obtain ⟨j, -, he, -, hax⟩ := (C45_auto_damping .above exAS _ exAS_auto (fun _ _ => rfl) exF exVel (fun _ => 0)
    (fun k i hi he => (exA_gentle k i hi he).1.ne') k i hi).2 (ex_zone k i)
  have := exA_enters j i he
  subst this
  refine ⟨_, ?_, le_refl _⟩
  have e : state .above exAS exF exVel (fun _ => 0) (k + 1) =
    (updateVD Sense.above.type (state .above exAS exF exVel (fun _ => 0) k) (exF k) (exVel k) (fun _ => 0)).1 := rfl
  obtain ⟨c1, c2, c3, c4, c5, c6, c7, c8, c9⟩ := auto_consts .above exAS _ exAS_auto exF exVel (fun _ => 0) k
  obtain ⟨-, -, -, e4, -⟩ := auto_consts .above exAS _ exAS_auto exF exVel (fun _ => 0) (k + 1)
  unfold value
  rw [upd_value .above _ (exF k) (exVel k) (fun _ => 0) i (by rw [c5]; exact not_lt.mpr (ex_zone k i)), ← e, hax, e4, c2, c3]
  rw [Option.map_some]
  congr 1
  show ((1 + 1 / 2 ^ k - 0 - 1) * -((-((3 - 1) / (1 + 1 / 2 ^ 0 - 0 - 1)) * -(1 / 2 ^ (0 - 1)) + 0) / (3 - 1)) - exVel k i) / (1 / 2) =
    ((-(1 / 2 ^ (k + 1 - 1)) - exVel k i) * 2 : ℚ)
  rw [Nat.add_sub_cancel]
  norm_num
  ring

example : ∀ k i, i < exAS.n → Safe .above exAS exF (fun _ => 0) k i :=
  C45_safe_auto_second .above exAS _ exAS_auto (fun _ _ => rfl) rfl (by norm_num [exAS]) exF exVel exAcc _ exAS_second
    exA_gentle (ex_noJump exAS fun _ => rfl) (fun i _ => by show (1 : ℚ) ≤ 1 + 1 / 2 ^ 0 - 0; norm_num)

end Verif.C45
