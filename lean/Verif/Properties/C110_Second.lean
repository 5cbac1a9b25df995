import Verif.Properties.C45_VelocityDamper
/-!
# C110 The velocity damper of the second order, when the acceleration is kept during the step

`C45_safe_second` is about trajectories where the velocity is integrated first and the value next, with the new velocity. The tests and the examples integrate a constant acceleration (tests/SolverBasicTest.cpp, lines 229-230:
`x + dx dt + 0.5 d2x dt²`). With this integration, the safety distance is kept for smaller dampings only.
-/
set_option autoImplicit false
set_option linter.unusedSectionVars false

namespace Verif.C110
open Verif TD C45

variable {K : Type} [Field K] [LinearOrder K] [IsStrictOrderedRing K]

/-! ## Specification -/

/-- A trajectory with a constant acceleration during each step, that obeys the damper -/
structure Constant (s : Sense) (D : VD K) (f vel acc : Nat → Nat → K) (rhs : Nat → K) : Prop where
  move : ∀ k i, i < D.n → f (k + 1) i = f k i + D.dt * vel k i + D.dt * D.dt / 2 * acc k i
  accel : ∀ k i, i < D.n → vel (k + 1) i = vel k i + D.dt * acc k i
  obeys : ∀ k i, i < D.n → ∃ x, value s D f vel rhs k i = some x ∧ s.Rel (acc k i) x

/-- The velocity is not lower than twice the one that the damper of the first order accepts. -/
def Gentle (s : Sense) (D : VD K) (xsi : Nat → K) (f vel : Nat → Nat → K) (rhs : Nat → K) (k i : Nat) : Prop :=
  -(2 * (xsi i * ((s.dist (f k i) (rhs i) - D.ds i) / (D.di i - D.ds i)))) ≤ s.rate (vel k i)

/-! ## Proofs -/

/-- One step in the zone, for the distance `e` to the safety distance, with `c = xsi / (di - ds)` -/
theorem zone_second (c dt e v a : K) (hdt : 0 < dt) (hc : 0 ≤ c) (hk : 3 * (c * dt) ≤ 1) (he : 0 ≤ e) (hv : -(2 * (c * e)) ≤ v) (ha : -(c / dt * e) - v / dt ≤ a) :
    0 ≤ e + dt * v + dt * dt / 2 * a ∧ -(2 * (c * (e + dt * v + dt * dt / 2 * a))) ≤ v + dt * a := by
  have h1 : -(c * e) ≤ v + dt * a := by
    have := mul_le_mul_of_nonneg_left ha hdt.le
    have e1 : dt * (-(c / dt * e) - v / dt) = -(c * e) - v := by field_simp
    rw [e1] at this
    linarith
  generalize hw : v + dt * a = v' at h1 ⊢
  have e2 : e + dt * v + dt * dt / 2 * a = e + dt * (v + v') / 2 := by rw [← hw]; ring
  rw [e2]
  have hcd : 0 ≤ c * dt := mul_nonneg hc hdt.le
  have h2 := mul_le_mul_of_nonneg_left hv hdt.le
  have h3 := mul_le_mul_of_nonneg_left h1 hdt.le
  have hce : 0 ≤ c * e := mul_nonneg hc he
  have h4 : c * dt * e ≤ e / 3 := by nlinarith
  constructor
  · nlinarith
  · have h5 := mul_le_mul_of_nonneg_left hv hcd
    have h6 : -(c * e) * (1 + c * dt) ≤ v' * (1 + c * dt) := mul_le_mul_of_nonneg_right h1 (by linarith)
    have h7 : 0 ≤ c * e * (1 - 3 * (c * dt)) := mul_nonneg hce (by linarith)
    nlinarith

/-- **C110** Second order, with a constant acceleration during each step: the safety distance is kept if `3 xsi dt ≤ di - ds`, as long as the zone is entered with a velocity that is not lower than twice the one of the damper of
the first order. -/
theorem C110_second_partial (s : Sense) (D : VD K) (xsi : Nat → K) (h : Fixed D xsi) (ho : D.order = 2) (hdt : 0 < D.dt) (hx0 : ∀ i, i < D.n → 0 ≤ xsi i)
    (hx : ∀ i, i < D.n → 3 * (xsi i * D.dt) ≤ D.di i - D.ds i) (f vel acc : Nat → Nat → K) (rhs : Nat → K) (ht : Constant s D f vel acc rhs)
    (hin : ∀ k i, i < D.n → D.di i < s.dist (f k i) (rhs i) → Safe s D f rhs (k + 1) i ∧ Gentle s D xsi f vel rhs (k + 1) i) (h0 : ∀ i, i < D.n → Safe s D f rhs 0 i ∧ Gentle s D xsi f vel rhs 0 i) :
    ∀ k i, i < D.n → Safe s D f rhs k i := by
  have key : ∀ k i, i < D.n → Safe s D f rhs k i ∧ Gentle s D xsi f vel rhs k i := by
    intro k
    induction k with
    | zero => exact h0
    | succ k ih =>
      intro i hi
      by_cases hd : D.di i < s.dist (f k i) (rhs i)
      · exact hin k i hi hd
      · obtain ⟨x, e, r⟩ := ht.obeys k i hi
        rw [C45_value_second s D xsi h ho f vel rhs k i hi, Option.some.injEq] at e
        simp only [if_neg hd] at e
        have hm := ht.move k i hi
        have ha := ht.accel k i hi
        obtain ⟨hs, hg⟩ := ih i hi
        have hz := h.zone i hi
        have hp : 0 < D.di i - D.ds i := by linarith
        have hc : 0 ≤ xsi i / (D.di i - D.ds i) := div_nonneg (hx0 i hi) hp.le
        have hk : 3 * (xsi i / (D.di i - D.ds i) * D.dt) ≤ 1 := by
          have : 3 * (xsi i / (D.di i - D.ds i) * D.dt) = 3 * (xsi i * D.dt) / (D.di i - D.ds i) := by ring
          rw [this, div_le_one hp]
          exact hx i hi
        unfold Safe at hs ⊢
        unfold Gentle at hg ⊢
        cases s with
        | above =>
          simp only [Sense.dist, Sense.Rel, Sense.rate] at *
          obtain ⟨r1, r2⟩ := zone_second (xsi i / (D.di i - D.ds i)) D.dt (f k i - rhs i - D.ds i) (vel k i) (acc k i) hdt hc hk (by linarith)
            (by rw [show xsi i / (D.di i - D.ds i) * (f k i - rhs i - D.ds i) = xsi i * ((f k i - rhs i - D.ds i) / (D.di i - D.ds i)) by ring]; exact hg)
            (by
              have : xsi i / (D.di i - D.ds i) / D.dt * (f k i - rhs i - D.ds i) = xsi i / D.dt * ((f k i - rhs i - D.ds i) / (D.di i - D.ds i)) := by ring
              rw [this]; linarith)
          rw [hm, ha]
          refine ⟨by linarith, ?_⟩
          have e1 : xsi i / (D.di i - D.ds i) * (f k i - rhs i - D.ds i + D.dt * vel k i + D.dt * D.dt / 2 * acc k i) =
              xsi i * ((f k i + D.dt * vel k i + D.dt * D.dt / 2 * acc k i - rhs i - D.ds i) / (D.di i - D.ds i)) := by ring
          rw [e1] at r2
          exact r2
        | below =>
          simp only [Sense.dist, Sense.Rel, Sense.rate] at *
          obtain ⟨r1, r2⟩ := zone_second (xsi i / (D.di i - D.ds i)) D.dt (rhs i - f k i - D.ds i) (-vel k i) (-acc k i) hdt hc hk (by linarith)
            (by rw [show xsi i / (D.di i - D.ds i) * (rhs i - f k i - D.ds i) = xsi i * ((rhs i - f k i - D.ds i) / (D.di i - D.ds i)) by ring]; exact hg)
            (by
              have : xsi i / (D.di i - D.ds i) / D.dt * (rhs i - f k i - D.ds i) = xsi i / D.dt * ((rhs i - f k i - D.ds i) / (D.di i - D.ds i)) := by ring
              rw [this]; linarith)
          rw [hm, ha]
          refine ⟨by linarith, ?_⟩
          have e1 : xsi i / (D.di i - D.ds i) * (rhs i - f k i - D.ds i + D.dt * -vel k i + D.dt * D.dt / 2 * -acc k i) =
              xsi i * ((rhs i - (f k i + D.dt * vel k i + D.dt * D.dt / 2 * acc k i) - D.ds i) / (D.di i - D.ds i)) := by ring
          rw [e1] at r2
          linarith
  exact fun k i hi => (key k i hi).1

/-- The acceleration that the damper asks at the distance `d` -/
def lowest (D : VD K) (x d v : K) : K := if D.di 0 < d then 0 else -(x / D.dt * ((d - D.ds 0) / (D.di 0 - D.ds 0))) - v / D.dt

/-- The distance and the velocity of the trajectory with these accelerations, from the interaction distance, at rest -/
def falling (D : VD K) (x : K) : Nat → K × K
  | 0 => (D.di 0, 0)
  | k + 1 =>
    let p := falling D x k
    (p.1 + D.dt * p.2 + D.dt * D.dt / 2 * lowest D x p.1 p.2, p.2 + D.dt * lowest D x p.1 p.2)

theorem lowest_in (D : VD K) (x d v : K) (h : d ≤ D.di 0) : lowest D x d v = -(x / D.dt * ((d - D.ds 0) / (D.di 0 - D.ds 0))) - v / D.dt := if_neg (not_lt.mpr h)

theorem falling_in (D : VD K) (x : K) (k : Nat) (h : (falling D x k).1 ≤ D.di 0) :
    (falling D x (k + 1)).1 = (falling D x k).1 + D.dt * (falling D x k).2 + D.dt * D.dt / 2 * (-(x / D.dt * (((falling D x k).1 - D.ds 0) / (D.di 0 - D.ds 0))) - (falling D x k).2 / D.dt) ∧
    (falling D x (k + 1)).2 = (falling D x k).2 + D.dt * (-(x / D.dt * (((falling D x k).1 - D.ds 0) / (D.di 0 - D.ds 0))) - (falling D x k).2 / D.dt) := by
  rw [← lowest_in D x _ _ h]
  exact ⟨rfl, rfl⟩

/-- **C110** The condition of `C45_safe_second` is not enough: with `xsi dt = di - ds`, there is a trajectory that obeys the damper, starts at rest at the interaction distance and is closer than the safety distance after two steps. -/
theorem C110_second_false (D : VD K) (xsi : Nat → K) (h : Fixed D xsi) (ho : D.order = 2) (hn : D.n = 1) (hdt : 0 < D.dt) (hb : 0 < D.big) (hx : xsi 0 * D.dt = D.di 0 - D.ds 0) :
    ∃ (f vel acc : Nat → Nat → K), Constant .above D f vel acc (fun _ => 0) ∧ f 0 0 = D.di 0 ∧ vel 0 0 = 0 ∧ ¬ Safe .above D f (fun _ => 0) 2 0 := by
  have hz := h.zone 0 (by omega)
  have hp : 0 < D.di 0 - D.ds 0 := by linarith
  refine ⟨fun k _ => (falling D (xsi 0) k).1, fun k _ => (falling D (xsi 0) k).2, fun k _ => lowest D (xsi 0) (falling D (xsi 0) k).1 (falling D (xsi 0) k).2, ⟨fun k i _ => rfl, fun k i _ => rfl, fun k i hi => ?_⟩, rfl, rfl, ?_⟩
  · obtain rfl : i = 0 := by omega
    refine ⟨_, C45_value_second .above D xsi h ho _ _ _ k 0 hi, ?_⟩
    simp only [Sense.dist, Sense.Rel, sub_zero, lowest]
    split
    · linarith
    · exact le_rfl
  · have hx' : xsi 0 = (D.di 0 - D.ds 0) / D.dt := by rw [eq_div_iff hdt.ne']; exact hx
    obtain ⟨a1, a2⟩ := falling_in D (xsi 0) 0 le_rfl
    have b1 : (falling D (xsi 0) 1).1 = (D.di 0 + D.ds 0) / 2 := by
      rw [a1]
      simp only [falling, hx', div_self hp.ne']
      field_simp
      ring
    have b2 : (falling D (xsi 0) 1).2 = -((D.di 0 - D.ds 0) / D.dt) := by
      rw [a2]
      simp only [falling, hx', div_self hp.ne']
      field_simp
      ring
    obtain ⟨c1, -⟩ := falling_in D (xsi 0) 1 (by rw [b1]; linarith)
    have h2 : (falling D (xsi 0) 2).1 = D.ds 0 - (D.di 0 - D.ds 0) / 4 := by
      rw [c1, b1, b2, hx']
      field_simp
      ring
    unfold Safe
    simp only [Sense.dist, sub_zero, h2]
    linarith

/-! ## The hypotheses are met -/

/-- `di = 2`, `ds = 1`, `xsi = 1`, `big = 100`, for the time step `dt` -/
def exS (dt : ℚ) : VD ℚ := ⟨1, 2, dt, fun _ => 1, fun _ => 2, fun _ => 0, fun _ => -1, 100, false, fun _ => some (-1), fun _ => false⟩

theorem exS_fixed (dt : ℚ) : Fixed (exS dt) (fun _ => 1) := ⟨rfl, fun _ _ => by norm_num [exS], fun _ _ => by norm_num [exS]⟩

example : makeVD 1 (some (1 / 4 : ℚ)) ⟨1, fun _ => 2⟩ ⟨1, fun _ => 1⟩ ⟨1, fun _ => 1⟩ ⟨1, fun _ => 0⟩ 100 = .ok () (exS (1 / 4)) := by
  norm_num [makeVD, resizeParameter, badStep, exS]

example : ∃ (f vel acc : Nat → Nat → ℚ), Constant .above (exS 1) f vel acc (fun _ => 0) ∧ f 0 0 = 2 ∧ vel 0 0 = 0 ∧ ¬ Safe .above (exS 1) f (fun _ => 0) 2 0 :=
  C110_second_false (exS 1) _ (exS_fixed 1) rfl rfl (by norm_num [exS]) (by norm_num [exS]) (by norm_num [exS])

/-- The same trajectory with the time step `1/4` -/
example : ∀ k i, i < 1 → Safe .above (exS (1 / 4)) (fun k _ => (falling (exS (1 / 4)) 1 k).1) (fun _ => 0) k i := by
  refine C110_second_partial .above (exS (1 / 4)) (fun _ => 1) (exS_fixed _) rfl (by norm_num [exS]) (fun _ _ => by norm_num) (fun _ _ => by norm_num [exS]) _ (fun k _ => (falling (exS (1 / 4)) 1 k).2)
    (fun k _ => lowest (exS (1 / 4)) 1 (falling (exS (1 / 4)) 1 k).1 (falling (exS (1 / 4)) 1 k).2) _ ⟨fun k i _ => rfl, fun k i _ => rfl, fun k i hi => ?_⟩ ?_ ?_
  · obtain rfl : i = 0 := by simpa [exS] using hi
    refine ⟨_, C45_value_second .above _ _ (exS_fixed _) rfl _ _ _ k 0 hi, ?_⟩
    simp only [Sense.dist, Sense.Rel, sub_zero, lowest]
    split
    · norm_num [exS]
    · exact le_rfl
  · intro k i _ hd
    exfalso
    have key : ∀ k, (falling (exS (1 / 4)) 1 k).1 ≤ 2 ∧ (falling (exS (1 / 4)) 1 k).2 ≤ 0 ∧ 1 ≤ (falling (exS (1 / 4)) 1 k).1 ∧ -(2 * ((falling (exS (1 / 4)) 1 k).1 - 1)) ≤ (falling (exS (1 / 4)) 1 k).2 := by
      intro k
      induction k with
      | zero => norm_num [falling, exS]
      | succ k ih =>
        obtain ⟨h1, h2, h3, h4⟩ := ih
        obtain ⟨e1, e2⟩ := falling_in (exS (1 / 4)) 1 k h1
        simp only [exS] at e1 e2 h1 h2 h3 h4 ⊢
        rw [e1, e2]
        refine ⟨?_, ?_, ?_, ?_⟩ <;> linarith
    have hd : (2 : ℚ) < (falling (exS (1 / 4)) 1 k).1 - 0 := hd
    linarith [(key k).1]
  · intro i _
    constructor
    · norm_num [Safe, falling, exS, Sense.dist]
    · norm_num [Gentle, falling, exS, Sense.dist, Sense.rate]

end Verif.C110
