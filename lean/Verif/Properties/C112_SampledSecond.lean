import Verif.Properties.C97_Loops
import Mathlib.Analysis.SpecificLimits.Basic
/-!
# C112 Second order, with a resolution every `dt`

Between two resolutions the accelerations keep the values of the solver. The error of a task with a proportional derivative dynamics then follows a linear recurrence; it vanishes, with its velocity, exactly when
`0 < kp` and `kp dt / 2 < kv < 2 / dt`. With the default damping this is `sqrt kp * dt < 1`.
-/
set_option autoImplicit false
set_option linter.unusedSectionVars false

namespace Verif.C112
open Verif TD LTask TR RV C48 C96 SBS Set C97 C110 Filter Topology

/-! ## The recurrence -/

/-- An error and its velocity at the times `k h`, for the acceleration `- kv v - kp e` during each step -/
structure Orbit (kp kv h : ℝ) (e v : ℕ → ℝ) : Prop where
  pos : ∀ k, e (k + 1) = e k + h * v k + h ^ 2 / 2 * (-(kv * v k) - kp * e k)
  vel : ∀ k, v (k + 1) = v k + h * (-(kv * v k) - kp * e k)

/-- The gains for which the error vanishes -/
def Stable (kp kv h : ℝ) : Prop := 0 < kp ∧ kp * h / 2 < kv ∧ kv * h < 2

/-- A sequence with a decreasing factor and a vanishing input vanishes. -/
theorem vanish_input {x y : ℕ → ℝ} {a : ℝ} (ha : |a| < 1) (hy : Tendsto y atTop (𝓝 0)) (hx : ∀ k, x (k + 1) = a * x k + y k) : Tendsto x atTop (𝓝 0) := by
  rw [Metric.tendsto_atTop] at hy ⊢
  intro ε hε
  have h1 : 0 < 1 - |a| := by linarith
  obtain ⟨N, hN⟩ := hy (ε / 2 * (1 - |a|)) (by positivity)
  have hb : ∀ m, |x (N + m)| ≤ |a| ^ m * |x N| + ε / 2 := by
    intro m
    induction m with
    | zero => simp; linarith
    | succ m ih =>
      have h2 := hN (N + m) (by omega)
      rw [Real.dist_eq, sub_zero] at h2
      rw [← Nat.add_assoc, hx]
      calc |a * x (N + m) + y (N + m)| ≤ |a| * |x (N + m)| + |y (N + m)| := by rw [← abs_mul]; exact abs_add_le _ _
        _ ≤ |a| * (|a| ^ m * |x N| + ε / 2) + ε / 2 * (1 - |a|) := add_le_add (mul_le_mul_of_nonneg_left ih (abs_nonneg _)) h2.le
        _ = |a| ^ (m + 1) * |x N| + ε / 2 := by ring
  have h3 : Tendsto (fun m : ℕ => |a| ^ m * |x N|) atTop (𝓝 0) := by
    have := (tendsto_pow_atTop_nhds_zero_of_lt_one (abs_nonneg a) ha).mul_const |x N|
    rwa [zero_mul] at this
  obtain ⟨M, hM⟩ := (Metric.tendsto_atTop.1 h3) (ε / 2) (by positivity)
  refine ⟨N + M, fun n hn => ?_⟩
  obtain ⟨m, rfl⟩ : ∃ m, n = N + m := ⟨n - N, by omega⟩
  have h4 := hM m (by omega)
  rw [Real.dist_eq, sub_zero] at h4 ⊢
  have := hb m
  have := le_abs_self (|a| ^ m * |x N|)
  linarith

/-- A sequence of order two vanishes when `|D| < 1` and `|T| < 1 + D`. -/
theorem vanish_second {x : ℕ → ℝ} {T D : ℝ} (hx : ∀ k, x (k + 2) = T * x (k + 1) - D * x k) (hD : D < 1) (h1 : 0 < 1 - T + D) (h2 : 0 < 1 + T + D) : Tendsto x atTop (𝓝 0) := by
  have hD' : -1 < D := by linarith
  by_cases hd : 0 ≤ T ^ 2 - 4 * D
  · -- real roots
    obtain ⟨r, hr0, hr⟩ : ∃ r, 0 ≤ r ∧ r ^ 2 = T ^ 2 - 4 * D := ⟨Real.sqrt (T ^ 2 - 4 * D), Real.sqrt_nonneg _, Real.sq_sqrt hd⟩
    have hT : |T| < 2 := abs_lt.2 ⟨by linarith, by linarith⟩
    obtain ⟨hTl, hTu⟩ := abs_lt.1 hT
    have hb : r < 2 - T := by
      by_contra hc
      push Not at hc
      nlinarith
    have hc : r < 2 + T := by
      by_contra hc
      push Not at hc
      nlinarith
    have ha : |(T + r) / 2| < 1 := abs_lt.2 ⟨by linarith, by linarith⟩
    have hb' : |(T - r) / 2| < 1 := abs_lt.2 ⟨by linarith, by linarith⟩
    refine vanish_input ha (y := fun k => x (k + 1) - (T + r) / 2 * x k) ?_ (fun k => by ring)
    refine vanish_input hb' (y := fun _ => 0) tendsto_const_nhds (fun k => ?_)
    rw [hx]
    have : D = (T + r) / 2 * ((T - r) / 2) := by linear_combination (1 / 4 : ℝ) * hr
    rw [this]; ring
  · -- complex roots
    push Not at hd
    have hD0 : 0 < D := by nlinarith [sq_nonneg T]
    set W : ℕ → ℝ := fun k => x (k + 1) ^ 2 - T * x (k + 1) * x k + D * x k ^ 2 with hW
    have hs : ∀ k, W (k + 1) = D * W k := by
      intro k
      simp only [hW]
      rw [hx k]; ring
    have hWt : Tendsto W atTop (𝓝 0) := vanish_input (abs_lt.2 ⟨hD', hD⟩) (y := fun _ => 0) tendsto_const_nhds (fun k => by rw [hs, add_zero])
    have hq : 0 < D - T ^ 2 / 4 := by linarith
    have hle : ∀ k, x k ^ 2 ≤ W k / (D - T ^ 2 / 4) := by
      intro k
      rw [le_div_iff₀ hq]
      simp only [hW]
      nlinarith [sq_nonneg (x (k + 1) - T / 2 * x k)]
    have h3 : Tendsto (fun k => W k / (D - T ^ 2 / 4)) atTop (𝓝 0) := by
      have := hWt.div_const (D - T ^ 2 / 4)
      rwa [zero_div] at this
    have h4 : Tendsto (fun k => x k ^ 2) atTop (𝓝 0) := squeeze_zero (fun k => sq_nonneg _) hle h3
    have h5 : Tendsto (fun k => |x k|) atTop (𝓝 0) := by
      have := (Real.continuous_sqrt.tendsto 0).comp h4
      simp only [Real.sqrt_zero] at this
      refine this.congr fun k => ?_
      exact Real.sqrt_sq_eq_abs _
    exact (tendsto_zero_iff_abs_tendsto_zero x).2 h5

/-- The recurrence of order two of a combination of the error and its velocity -/
theorem Orbit.second {kp kv h : ℝ} {e v : ℕ → ℝ} (O : Orbit kp kv h e v) (k : ℕ) :
    e (k + 2) = (2 - kp * h ^ 2 / 2 - kv * h) * e (k + 1) - (1 - kv * h + kp * h ^ 2 / 2) * e k ∧
      v (k + 2) = (2 - kp * h ^ 2 / 2 - kv * h) * v (k + 1) - (1 - kv * h + kp * h ^ 2 / 2) * v k := by
  have h1 := O.pos k
  have h2 := O.vel k
  have h3 := O.pos (k + 1)
  have h4 := O.vel (k + 1)
  have e1 : k + 1 + 1 = k + 2 := rfl
  rw [e1] at h3 h4
  rw [h3, h4, h1, h2]
  constructor <;> ring

/-- The error and its velocity vanish for the gains of `Stable`. -/
theorem Orbit.vanish {kp kv h : ℝ} {e v : ℕ → ℝ} (O : Orbit kp kv h e v) (hh : 0 < h) (hS : Stable kp kv h) : Tendsto e atTop (𝓝 0) ∧ Tendsto v atTop (𝓝 0) := by
  obtain ⟨h1, h2, h3⟩ := hS
  have h4 : 0 < kp * h ^ 2 := by positivity
  have h5 : kp * h ^ 2 / 2 < kv * h := by nlinarith
  exact ⟨vanish_second (fun k => (O.second k).1) (by linarith) (by linarith) (by linarith), vanish_second (fun k => (O.second k).2) (by linarith) (by linarith) (by linarith)⟩

/-- The orbit from a state -/
noncomputable def orbit (kp kv h e0 v0 : ℝ) : ℕ → ℝ × ℝ
  | 0 => (e0, v0)
  | k + 1 =>
    let p := orbit kp kv h e0 v0 k
    (p.1 + h * p.2 + h ^ 2 / 2 * (-(kv * p.2) - kp * p.1), p.2 + h * (-(kv * p.2) - kp * p.1))

theorem orbit_orbit (kp kv h e0 v0 : ℝ) : Orbit kp kv h (fun k => (orbit kp kv h e0 v0 k).1) (fun k => (orbit kp kv h e0 v0 k).2) := ⟨fun _ => rfl, fun _ => rfl⟩

/-- An orbit along an eigenvector does not vanish if the eigenvalue is not lower than one in absolute value. -/
theorem eigen_stays {kp kv h a b l : ℝ} (h1 : a + h * b + h ^ 2 / 2 * (-(kv * b) - kp * a) = l * a) (h2 : b + h * (-(kv * b) - kp * a) = l * b) (hl : 1 ≤ |l|) (hab : a ≠ 0 ∨ b ≠ 0)
    (hv : Tendsto (fun k => (orbit kp kv h a b k).1) atTop (𝓝 0) ∧ Tendsto (fun k => (orbit kp kv h a b k).2) atTop (𝓝 0)) : False := by
  have hk : ∀ k, orbit kp kv h a b k = (l ^ k * a, l ^ k * b) := by
    intro k
    induction k with
    | zero => simp [orbit]
    | succ k ih =>
      simp only [orbit, ih, pow_succ]
      refine Prod.ext ?_ ?_
      · show _ = l ^ k * l * a
        rw [mul_assoc (l ^ k) l a, ← h1]; ring
      · show _ = l ^ k * l * b
        rw [mul_assoc (l ^ k) l b, ← h2]; ring
  have hno : ∀ c : ℝ, c ≠ 0 → ¬ Tendsto (fun k : ℕ => l ^ k * c) atTop (𝓝 0) := by
    intro c hc ht
    obtain ⟨N, hN⟩ := (Metric.tendsto_atTop.1 ht) |c| (abs_pos.2 hc)
    have := hN N le_rfl
    rw [Real.dist_eq, sub_zero, abs_mul, abs_pow] at this
    have h3 := one_le_pow₀ hl (n := N)
    have := abs_pos.2 hc
    nlinarith
  rcases hab with ha | hb
  · exact hno a ha (by simpa only [hk] using hv.1)
  · exact hno b hb (by simpa only [hk] using hv.2)

/-- **C112** The condition is exact: the errors and the velocities of all the motions vanish iff the gains are in `Stable`. -/
theorem C112_gains_iff (kp kv h : ℝ) (hh : 0 < h) : (∀ e v, Orbit kp kv h e v → Tendsto e atTop (𝓝 0) ∧ Tendsto v atTop (𝓝 0)) ↔ Stable kp kv h := by
  refine ⟨fun H => ?_, fun hS e v O => O.vanish hh hS⟩
  have H := fun a b => H _ _ (orbit_orbit kp kv h a b)
  have h2 : 0 < h ^ 2 := by positivity
  by_contra hS
  set T := 2 - kp * h ^ 2 / 2 - kv * h with hT
  set D := 1 - kv * h + kp * h ^ 2 / 2 with hD
  -- a root gives an eigenvector
  have root : ∀ l, l ^ 2 - T * l + D = 0 → 1 ≤ |l| → False := by
    intro l hl hl1
    by_cases hs : kv * h = 2
    · -- (h², ...) degenerates: the matrix is triangular
      by_cases hl' : l = -1
      · exact eigen_stays (a := 0) (b := 1) (l := -1) (by linear_combination (-h / 2) * hs) (by linear_combination (-1 : ℝ) * hs) (by simp) (Or.inr one_ne_zero) (H 0 1)
      · refine eigen_stays (a := l + 1) (b := -(h * kp)) (l := l) ?_ ?_ hl1 (Or.inl fun hz => hl' (by linarith)) (H _ _)
        · have e1 : l ^ 2 - (-kp * h ^ 2 / 2) * l + (-1 + kp * h ^ 2 / 2) = 0 := by
            rw [hT, hD] at hl
            linear_combination hl + (-l + 1) * hs
          linear_combination -e1 + (h ^ 2 * kp / 2) * hs
        · linear_combination (kp * h) * hs
    · refine eigen_stays (a := h - h ^ 2 / 2 * kv) (b := l - 1 + h ^ 2 / 2 * kp) (l := l) ?_ ?_ hl1 (Or.inl ?_) (H _ _)
      · ring
      · rw [hT, hD] at hl
        linear_combination -hl
      · intro hz
        have : h * (2 - kv * h) = 0 := by linear_combination 2 * hz
        rcases mul_eq_zero.1 this with h3 | h3
        · linarith
        · exact hs (by linarith)
  -- the real roots
  have roots : 0 ≤ T ^ 2 - 4 * D → ∀ s : ℝ, s ^ 2 = 1 → 1 ≤ |(T + s * Real.sqrt (T ^ 2 - 4 * D)) / 2| → False := by
    intro hd s hs hl
    refine root _ ?_ hl
    have := Real.sq_sqrt hd
    linear_combination (1 / 4 : ℝ) * this + (Real.sqrt (T ^ 2 - 4 * D)) ^ 2 / 4 * hs
  by_cases c1 : kp ≤ 0
  · -- a root at least one
    have h3 : 1 - T + D ≤ 0 := by
      have : 1 - T + D = kp * h ^ 2 := by rw [hT, hD]; ring
      rw [this]; exact mul_nonpos_of_nonpos_of_nonneg c1 h2.le
    have hd : (2 - T) ^ 2 ≤ T ^ 2 - 4 * D := by nlinarith
    have hr := Real.abs_le_sqrt hd
    refine roots (le_trans (sq_nonneg _) hd) 1 (by norm_num) (le_trans ?_ (le_abs_self _))
    have := le_abs_self (2 - T)
    linarith
  push Not at c1
  by_cases c3 : 2 ≤ kv * h
  · have h3 : 1 + T + D ≤ 0 := by
      have : 1 + T + D = 4 - 2 * (kv * h) := by rw [hT, hD]; ring
      rw [this]; linarith
    have hd : (2 + T) ^ 2 ≤ T ^ 2 - 4 * D := by nlinarith
    have hr := Real.abs_le_sqrt hd
    refine roots (le_trans (sq_nonneg _) hd) (-1) (by norm_num) (le_trans ?_ (neg_le_abs _))
    have := le_abs_self (2 + T)
    linarith
  push Not at c3
  have c2 : kv ≤ kp * h / 2 := by
    by_contra hc
    push Not at hc
    exact hS ⟨c1, hc, c3⟩
  have hD1 : 1 ≤ D := by
    rw [hD]; nlinarith
  -- a form that is multiplied by `D`
  obtain ⟨he, hv⟩ := H 1 0
  set x : ℕ → ℝ := fun k => (orbit kp kv h 1 0 k).1
  have hx : ∀ k, x (k + 2) = T * x (k + 1) - D * x k := fun k => ((orbit_orbit kp kv h 1 0).second k).1
  have hW : ∀ k, x (k + 1) ^ 2 - T * x (k + 1) * x k + D * x k ^ 2 = D ^ k * (x 1 ^ 2 - T * x 1 * x 0 + D * x 0 ^ 2) := by
    intro k
    induction k with
    | zero => simp
    | succ k ih =>
      have e1 : D ^ (k + 1) * (x 1 ^ 2 - T * x 1 * x 0 + D * x 0 ^ 2) = D * (D ^ k * (x 1 ^ 2 - T * x 1 * x 0 + D * x 0 ^ 2)) := by ring
      rw [e1, ← ih, hx k]; ring
  have h0 : x 1 ^ 2 - T * x 1 * x 0 + D * x 0 ^ 2 = kp * h ^ 2 * (2 - kv * h) / 2 := by
    show (1 + h * 0 + h ^ 2 / 2 * (-(kv * 0) - kp * 1)) ^ 2 - T * (1 + h * 0 + h ^ 2 / 2 * (-(kv * 0) - kp * 1)) * 1 + D * 1 ^ 2 = _
    rw [hT, hD]; ring
  have hp : 0 < kp * h ^ 2 * (2 - kv * h) / 2 := by
    have := mul_pos (mul_pos c1 h2) (sub_pos.2 c3)
    linarith
  have he1 : Tendsto (fun k => x (k + 1)) atTop (𝓝 0) := (tendsto_add_atTop_iff_nat 1).2 he
  have hlim : Tendsto (fun k => x (k + 1) ^ 2 - T * x (k + 1) * x k + D * x k ^ 2) atTop (𝓝 0) := by
    have := ((he1.pow 2).sub ((he1.const_mul T).mul he)).add ((he.pow 2).const_mul D)
    simpa using this
  obtain ⟨N, hN⟩ := (Metric.tendsto_atTop.1 hlim) _ hp
  have := hN N le_rfl
  rw [Real.dist_eq, sub_zero, hW, h0] at this
  have h3 := le_abs_self (D ^ N * (kp * h ^ 2 * (2 - kv * h) / 2))
  have h4 := one_le_pow₀ hD1 (n := N)
  nlinarith

/-- With the default damping, the condition is `sqrt kp * h < 1`. -/
theorem stable_critical (kp h : ℝ) (hk : 0 < kp) : Stable kp (2 * Real.sqrt kp) h ↔ Real.sqrt kp * h < 1 := by
  have hs := Real.sqrt_pos.2 hk
  have hq := Real.mul_self_sqrt hk.le
  constructor
  · rintro ⟨-, -, h3⟩
    linarith
  · intro h1
    refine ⟨hk, ?_, by linarith⟩
    have h2 : kp * h = Real.sqrt kp * (Real.sqrt kp * h) := by rw [← mul_assoc, hq]
    rw [h2]
    nlinarith

/-! ## The control loop -/

variable {w : World} {vn : VId → Nat} {un : Nat → VId}

/-- The control loop with a resolution at the times `k dt`: between two of them, the variables move with a constant acceleration. -/
structure Sampled2 (w : World) (vn : VId → Nat) (un : Nat → VId) (dt : ℝ) (f : Fn ℝ) (T : TaskObj ℝ) (F : Pt f → Nat → ℝ) (D : Nat → Pt f → Pt f →L[ℝ] ℝ) (o : ℝ → Outs ℝ) (e e2 : ℝ → Nat → ℝ)
    (usr : ℝ → UserCstr ℝ) (X : Path) (W : ℝ → Nat → Nat → ℝ) : Prop where
  posed : ∀ k : ℕ, Posed w vn un (Tk.at f T F D o e e2 (k * dt)) (usr (k * dt))
  ok : ∀ k : ℕ, (Tk.at f T F D o e e2 (k * dt)).Ok X (k * dt)
  decided : ∀ k : ℕ, Decided vn (Tk.at f T F D o e e2 (k * dt)) X (k * dt) (W (k * dt))
  sat : ∀ k : ℕ, Sat w (usr (k * dt)) (W (k * dt))
  value : ∀ k : ℕ, ∀ i < f.size, (o (k * dt)).value i = F (point f X 0 (k * dt)) i
  velocity : ∀ k : ℕ, ∀ i < f.size, (o (k * dt)).velocity i = D i (point f X 0 (k * dt)) (point f X 1 (k * dt))
  position : ∀ k : ℕ, ∀ s, k * dt ≤ s → s ≤ (k + 1) * dt → ∀ v ∈ f.vars, ∀ c < f.dim v.base,
    X (v.dot 0) c s = X (v.dot 0) c (k * dt) + (s - k * dt) * X (v.dot 1) c (k * dt) + (s - k * dt) ^ 2 / 2 * X (v.dot 2) c (k * dt)
  speed : ∀ k : ℕ, ∀ s, k * dt ≤ s → s ≤ (k + 1) * dt → ∀ v ∈ f.vars, ∀ c < f.dim v.base, X (v.dot 1) c s = X (v.dot 1) c (k * dt) + (s - k * dt) * X (v.dot 2) c (k * dt)

/-- The differential of an affine function is the same everywhere. -/
theorem affine_const {f : Fn ℝ} {F : Pt f → Nat → ℝ} {D : Nat → Pt f → Pt f →L[ℝ] ℝ} (ha : Affine F D) {i : Nat} (hi : i < f.size) (p q : Pt f) : D i q = D i p := by
  ext z
  have h1 := ha i hi q (q + z)
  have h2 := ha i hi p (q + z)
  have h3 := ha i hi p q
  rw [add_sub_cancel_left] at h1
  have h4 : q + z - p = (q - p) + z := by abel
  rw [h4, map_add] at h2
  linarith

/-- The function and its velocity between two resolutions, for an affine function and a task of order two: a constant acceleration, in the relation of the task -/
theorem step_second {f : Fn ℝ} {T : TaskObj ℝ} {F : Pt f → Nat → ℝ} {D : Nat → Pt f → Pt f →L[ℝ] ℝ} {o : ℝ → Outs ℝ} {e e2 : ℝ → Nat → ℝ} {usr : ℝ → UserCstr ℝ} {X : Path} {W : ℝ → Nat → Nat → ℝ} {dt : ℝ}
    (hu : ∀ v, un (vn v) = v) (h : Sampled2 w vn un dt f T F D o e e2 usr X W) (ha : Affine F D) (ho : T.td.dyn.order = .two) (k : ℕ) (i : Nat) (hi : i < f.size) :
    ∃ d, Related T.type d (e (k * dt) i) (e2 (k * dt) i) ∧ ∀ s, k * dt ≤ s → s ≤ (k + 1) * dt →
      F (point f X 0 s) i = F (point f X 0 (k * dt)) i + (s - k * dt) * D i (point f X 0 (k * dt)) (point f X 1 (k * dt)) + (s - k * dt) ^ 2 / 2 * d ∧
      D i (point f X 0 s) (point f X 1 s) = D i (point f X 0 (k * dt)) (point f X 1 (k * dt)) + (s - k * dt) * d := by
  obtain ⟨d, hd, hR⟩ := (C97_task hu (h.posed k) (h.ok k) (h.decided k)).1.mp (h.sat k) i hi
  have ho1 : (Tk.at f T F D o e e2 (k * dt)).order = 2 := by
    show T.td.dyn.order.num = 2
    rw [ho]; rfl
  have hm : Moves f X 2 (k * dt) := ho1 ▸ (h.ok k).moves
  rw [ho1] at hd
  obtain ⟨g, hg1, hg2⟩ := hd
  have hg2 : HasDerivWithinAt g d (Ici (k * dt)) (k * dt) := hg2
  have hgv : ∀ s, k * dt ≤ s → g s = D i (point f X 0 (k * dt)) (point f X 1 s) := by
    intro s hs
    have h1 : HasDerivWithinAt (fun r => F (point f X 0 r) i) (D i (point f X 0 s) (point f X 1 s)) (Ici s) s :=
      along_first (τ := Tk.at f T F D o e e2 (k * dt)) (h.ok k).diff hm (by omega) hi (Or.inr ⟨hs, by omega⟩)
    rw [affine_const ha hi (point f X 0 (k * dt))] at h1
    exact (uniqueDiffOn_Ici s s self_mem_Ici).eq_deriv _ (hg1 s hs) h1
  have hd2 : d = D i (point f X 0 (k * dt)) (point f X 2 (k * dt)) := by
    have h1 := point_deriv hm (j := 1) (by omega) (s := k * dt) (Or.inl rfl)
    have h2 := ((D i (point f X 0 (k * dt))).hasFDerivAt (x := point f X 1 (k * dt))).comp_hasDerivWithinAt (k * dt) h1
    have h3 : HasDerivWithinAt g (D i (point f X 0 (k * dt)) (point f X 2 (k * dt))) (Ici (k * dt)) (k * dt) :=
      h2.congr (fun y hy => hgv y hy) (hgv _ le_rfl)
    exact (uniqueDiffOn_Ici _ _ self_mem_Ici).eq_deriv _ hg2 h3
  refine ⟨d, hR, fun s hs hs' => ?_⟩
  have hp : point f X 0 s - point f X 0 (k * dt) = (s - k * dt) • point f X 1 (k * dt) + ((s - k * dt) ^ 2 / 2) • point f X 2 (k * dt) := by
    funext a b
    have := h.position k s hs hs' (f.vars.get a) (List.get_mem _ _) b b.2
    simp only [Pi.sub_apply, Pi.add_apply, Pi.smul_apply, smul_eq_mul, point, this]
    ring
  have hq : point f X 1 s = point f X 1 (k * dt) + (s - k * dt) • point f X 2 (k * dt) := by
    funext a b
    have := h.speed k s hs hs' (f.vars.get a) (List.get_mem _ _) b b.2
    simp only [Pi.add_apply, Pi.smul_apply, smul_eq_mul, point, this]
  constructor
  · rw [ha i hi (point f X 0 (k * dt)) (point f X 0 s), hp, map_add, map_smul, map_smul, ← hd2, smul_eq_mul, smul_eq_mul]
    ring
  · rw [affine_const ha hi (point f X 0 (k * dt)), hq, map_add, map_smul, ← hd2, smul_eq_mul]

/-- The gains of a proportional derivative dynamics that are scalar or diagonal -/
theorem pd_value_decoupled {kp kv : Gain ℝ} {n : Nat} (hp : C64.Decoupled n kp) (hv : C64.Decoupled n kv) (f vel rhs : Nat → ℝ) :
    pdValue kp kv n f vel rhs = .ok () ⟨n, fun i => -(C64.coef kv i * vel i) - C64.coef kp i * (f i - rhs i)⟩ := by
  cases kp with
  | matrix r c M => exact hp.elim
  | scalar k =>
    cases kv with
    | matrix r c M => exact hv.elim
    | scalar k' => simp [pdValue, Gain.mul, C64.coef]
    | diag m d => have : m = n := hv; subst this; simp [pdValue, Gain.mul, C64.coef]
  | diag m d =>
    have : m = n := hp
    subst this
    cases kv with
    | matrix r c M => exact hv.elim
    | scalar k' => simp [pdValue, Gain.mul, C64.coef]
    | diag m d => have : m = _ := hv; subst this; simp [pdValue, Gain.mul, C64.coef]

section
variable {f : Fn ℝ} {T : TaskObj ℝ} {F : Pt f → Nat → ℝ} {D : Nat → Pt f → Pt f →L[ℝ] ℝ} {o : ℝ → Outs ℝ} {e e2 : ℝ → Nat → ℝ} {usr : ℝ → UserCstr ℝ} {X : Path} {W : ℝ → Nat → Nat → ℝ} {dt : ℝ}

/-- The errors at the times of the resolutions are an orbit. -/
theorem sampled_orbit (hu : ∀ v, un (vn v) = v) {kp kv : Gain ℝ} {rhs : Vec ℝ} (hT : makeTask f .equal (.pd kp kv) rhs = some T) (hp : C64.Decoupled f.size kp) (hv : C64.Decoupled f.size kv)
    (h : Sampled2 w vn un dt f T F D o e e2 usr X W) (ha : Affine F D) (hdt : 0 ≤ dt) (i : Nat) (hi : i < f.size) :
    Orbit (C64.coef kp i) (C64.coef kv i) dt (fun k => F (point f X 0 (k * dt)) i - rhs.v i) (fun k => D i (point f X 0 (k * dt)) (point f X 1 (k * dt))) := by
  obtain ⟨-, rfl, -⟩ := task_fields _ _ _ _ _ hT
  have key : ∀ k : ℕ, ∃ d : ℝ, d = -(C64.coef kv i * D i (point f X 0 (k * dt)) (point f X 1 (k * dt))) - C64.coef kp i * (F (point f X 0 (k * dt)) i - rhs.v i) ∧
      F (point f X 0 ((k + 1 : ℕ) * dt)) i = F (point f X 0 (k * dt)) i + dt * D i (point f X 0 (k * dt)) (point f X 1 (k * dt)) + dt ^ 2 / 2 * d ∧
      D i (point f X 0 ((k + 1 : ℕ) * dt)) (point f X 1 ((k + 1 : ℕ) * dt)) = D i (point f X 0 (k * dt)) (point f X 1 (k * dt)) + dt * d := by
    intro k
    obtain ⟨d, hR, hs⟩ := step_second hu h ha rfl k i hi
    have hR : d = e (k * dt) i := hR
    have hs := hs ((k + 1) * dt) (by nlinarith) le_rfl
    have e1 : ((k : ℝ) + 1) * dt - k * dt = dt := by ring
    rw [e1] at hs
    have e2 : ((k + 1 : ℕ) : ℝ) * dt = (k + 1) * dt := by push_cast; ring
    rw [e2]
    refine ⟨d, ?_, hs⟩
    obtain ⟨x, hx, -, hxe⟩ := (h.ok k).wants.first
    have hx : pdValue kp kv f.size (o (k * dt)).value (o (k * dt)).velocity rhs.v = .ok () x := hx
    have hxe : x.v = e (k * dt) := hxe
    rw [pd_value_decoupled hp hv] at hx
    injection hx with _ hx
    rw [hR, ← hxe, ← hx]
    simp only [h.value k i hi, h.velocity k i hi]
  refine ⟨fun k => ?_, fun k => ?_⟩
  · obtain ⟨d, hd, h1, -⟩ := key k
    rw [h1, ← hd]; ring
  · obtain ⟨d, hd, -, h2⟩ := key k
    rw [h2, ← hd]

/-- **C112** With a resolution every `dt`, constant accelerations in between and an affine function, the error of an equality task with a proportional derivative dynamics vanishes if `0 < kp` and
`kp dt / 2 < kv < 2 / dt` (exactly then, see `C112_gains_iff`), and so does its velocity. -/
theorem C112_sampled_pd (hu : ∀ v, un (vn v) = v) {kp kv : Gain ℝ} {rhs : Vec ℝ} (hT : makeTask f .equal (.pd kp kv) rhs = some T) (hp : C64.Decoupled f.size kp) (hv : C64.Decoupled f.size kv)
    (h : Sampled2 w vn un dt f T F D o e e2 usr X W) (ha : Affine F D) (hdt : 0 < dt) (i : Nat) (hi : i < f.size) (hS : Stable (C64.coef kp i) (C64.coef kv i) dt) :
    Tendsto (fun k : ℕ => F (point f X 0 (k * dt)) i) atTop (𝓝 (rhs.v i)) ∧ Tendsto (fun k : ℕ => D i (point f X 0 (k * dt)) (point f X 1 (k * dt))) atTop (𝓝 0) := by
  obtain ⟨h1, h2⟩ := (sampled_orbit hu hT hp hv h ha hdt.le i hi).vanish hdt hS
  refine ⟨?_, h2⟩
  have := h1.add_const (rhs.v i)
  simpa using this

/-- **C112** With the default damping, the error vanishes if `sqrt kp * dt < 1`. -/
theorem C112_sampled_critical (hu : ∀ v, un (vn v) = v) {kp : Gain ℝ} {S : Schur ℝ} {rhs : Vec ℝ} (hT : makeTask f .equal (.pd (pdCritical Real.sqrt S kp).1 (pdCritical Real.sqrt S kp).2) rhs = some T)
    (hp : C64.Decoupled f.size kp) (h : Sampled2 w vn un dt f T F D o e e2 usr X W) (ha : Affine F D) (hdt : 0 < dt) (i : Nat) (hi : i < f.size) (hk : 0 < C64.coef kp i)
    (hS : Real.sqrt (C64.coef kp i) * dt < 1) :
    Tendsto (fun k : ℕ => F (point f X 0 (k * dt)) i) atTop (𝓝 (rhs.v i)) ∧ Tendsto (fun k : ℕ => D i (point f X 0 (k * dt)) (point f X 1 (k * dt))) atTop (𝓝 0) := by
  have hc : C64.Decoupled f.size (pdCritical Real.sqrt S kp).1 ∧ C64.Decoupled f.size (pdCritical Real.sqrt S kp).2 ∧ C64.coef (pdCritical Real.sqrt S kp).1 i = C64.coef kp i ∧
      C64.coef (pdCritical Real.sqrt S kp).2 i = 2 * Real.sqrt (C64.coef kp i) := by
    cases kp with
    | scalar k => exact ⟨trivial, trivial, rfl, rfl⟩
    | diag m d => exact ⟨hp, hp, rfl, rfl⟩
    | matrix r c M => exact hp.elim
  obtain ⟨c1, c2, c3, c4⟩ := hc
  exact C112_sampled_pd hu hT c1 c2 h ha hdt i hi (by rw [c3, c4]; exact (stable_critical _ _ hk).2 hS)

/-- **C112** `OneStepToZero` of the second order puts the function at the right-hand side at the end of each step, but the velocity only changes its sign from there on: in the middle of a step the function is at
`dt / 4` times the velocity from the right-hand side, for ever. -/
theorem C112_sampled_oneStep (hu : ∀ v, un (vn v) = v) {rhs : Vec ℝ} (hT : makeTask f .equal (.oneStep true dt) rhs = some T)
    (h : Sampled2 w vn un dt f T F D o e e2 usr X W) (ha : Affine F D) (hdt : 0 < dt) (i : Nat) (hi : i < f.size) (k : ℕ) :
    F (point f X 0 ((k + 1 : ℕ) * dt)) i = rhs.v i ∧
      D i (point f X 0 ((k + 1 : ℕ) * dt)) (point f X 1 ((k + 1 : ℕ) * dt)) = (-1) ^ k * D i (point f X 0 dt) (point f X 1 dt) ∧
      F (point f X 0 ((k + 1 : ℕ) * dt + dt / 2)) i = rhs.v i + (-1) ^ k * (dt / 4 * D i (point f X 0 dt) (point f X 1 dt)) := by
  obtain ⟨-, rfl, -⟩ := task_fields _ _ _ _ _ hT
  have step : ∀ k : ℕ, ∃ d : ℝ, d = ((rhs.v i - F (point f X 0 (k * dt)) i) / dt - D i (point f X 0 (k * dt)) (point f X 1 (k * dt))) * (2 / dt) ∧ ∀ s, k * dt ≤ s → s ≤ (k + 1) * dt →
      F (point f X 0 s) i = F (point f X 0 (k * dt)) i + (s - k * dt) * D i (point f X 0 (k * dt)) (point f X 1 (k * dt)) + (s - k * dt) ^ 2 / 2 * d ∧
      D i (point f X 0 s) (point f X 1 s) = D i (point f X 0 (k * dt)) (point f X 1 (k * dt)) + (s - k * dt) * d := by
    intro k
    obtain ⟨d, hR, hs⟩ := step_second hu h ha rfl k i hi
    have hR : d = e (k * dt) i := hR
    refine ⟨d, ?_, hs⟩
    obtain ⟨x, hx, -, hxe⟩ := (h.ok k).wants.first
    have hx : (.ok () ⟨rhs.n, oneStepValue 2 dt (o (k * dt)).value (o (k * dt)).velocity rhs.v⟩ : Outcome Unit (Vec ℝ)) = .ok () x := hx
    have hxe : x.v = e (k * dt) := hxe
    injection hx with _ hx
    rw [hR, ← hxe, ← hx]
    simp only [oneStepValue, h.value k i hi, h.velocity k i hi, if_true]
  have c : ∀ k : ℕ, ((k + 1 : ℕ) : ℝ) * dt = (k + 1) * dt := fun k => by push_cast; ring
  have e1 : ∀ k : ℕ, ((k : ℝ) + 1) * dt - k * dt = dt := fun k => by ring
  have hF : ∀ k : ℕ, F (point f X 0 ((k + 1 : ℕ) * dt)) i = rhs.v i := by
    intro k
    obtain ⟨d, hd, hs⟩ := step k
    have hs := (hs ((k + 1) * dt) (by nlinarith) le_rfl).1
    rw [e1, hd] at hs
    rw [c, hs]
    field_simp
    ring
  have hV : ∀ k : ℕ, D i (point f X 0 ((k + 1 : ℕ) * dt)) (point f X 1 ((k + 1 : ℕ) * dt)) = (-1) ^ k * D i (point f X 0 dt) (point f X 1 dt) := by
    intro k
    induction k with
    | zero => simp
    | succ k ih =>
      obtain ⟨d, hd, hs⟩ := step (k + 1)
      have hs := (hs (((k + 1 : ℕ) + 1) * dt) (by nlinarith) le_rfl).2
      rw [e1, hd, hF k, ih] at hs
      rw [c (k + 1), hs, pow_succ]
      field_simp
      ring
  refine ⟨hF k, hV k, ?_⟩
  obtain ⟨d, hd, hs⟩ := step (k + 1)
  have hs := (hs ((k + 1 : ℕ) * dt + dt / 2) (by linarith) (by linarith [e1 (k + 1)])).1
  rw [hd, hF k, hV k] at hs
  rw [hs]
  field_simp
  ring
end

/-! ## The hypotheses are met: tasks of the second order on the function `x`, with the period 1 -/

section
/-- The outputs of the function `x` for a value and a velocity -/
noncomputable def outs3 (x v : ℝ) : Outs ℝ := ⟨fun _ => x, fun _ => v, fun _ => 0, fun _ _ _ => 1⟩

/-- The motion with the accelerations `a` during the steps, from the states `x`, `v` -/
noncomputable def arcs (x v a : ℕ → ℝ) : Path := fun m _ s =>
  if m.order = 0 then x ⌊s⌋₊ + (s - ⌊s⌋₊) * v ⌊s⌋₊ + (s - ⌊s⌋₊) ^ 2 / 2 * a ⌊s⌋₊ else if m.order = 1 then v ⌊s⌋₊ + (s - ⌊s⌋₊) * a ⌊s⌋₊ else a ⌊s⌋₊

variable {x v a : ℕ → ℝ}

theorem arcs_at (k : ℕ) : arcs x v a ⟨0, 0⟩ 0 k = x k ∧ arcs x v a ⟨0, 1⟩ 0 k = v k ∧ arcs x v a ⟨0, 2⟩ 0 k = a k := by simp [arcs]

/-- During a step -/
theorem arcs_in {k : ℕ} {s : ℝ} (h1 : k ≤ s) (h2 : s < k + 1) : arcs x v a ⟨0, 0⟩ 0 s = x k + (s - k) * v k + (s - k) ^ 2 / 2 * a k ∧ arcs x v a ⟨0, 1⟩ 0 s = v k + (s - k) * a k := by
  have : ⌊s⌋₊ = k := (Nat.floor_eq_iff (le_trans (Nat.cast_nonneg k) h1)).2 ⟨h1, h2⟩
  simp [arcs, this]

theorem arcs_deriv {s : ℝ} (hs : 0 ≤ s) : HasDerivWithinAt (arcs x v a ⟨0, 0⟩ 0) (arcs x v a ⟨0, 1⟩ 0 s) (Ici s) s ∧ HasDerivWithinAt (arcs x v a ⟨0, 1⟩ 0) (arcs x v a ⟨0, 2⟩ 0 s) (Ici s) s := by
  obtain ⟨h1, h2⟩ := (Nat.floor_eq_iff hs).1 (rfl : ⌊s⌋₊ = ⌊s⌋₊)
  have hev : ∀ᶠ y in 𝓝[Ici s] s, (⌊s⌋₊ : ℝ) ≤ y ∧ y < ⌊s⌋₊ + 1 := by
    filter_upwards [self_mem_nhdsWithin, mem_nhdsWithin_of_mem_nhds (Iio_mem_nhds h2)] with y hy hy'
    exact ⟨le_trans h1 hy, hy'⟩
  generalize hk : ⌊s⌋₊ = k at *
  have hi : HasDerivAt (fun y : ℝ => y - k) 1 s := (hasDerivAt_id s).sub_const _
  constructor
  · have h3 : HasDerivAt (fun y : ℝ => x k + (y - k) * v k + (y - k) ^ 2 / 2 * a k) (v k + (s - k) * a k) s := by
      simp only [pow_two]
      have := ((hi.mul_const (v k)).const_add (x k)).add (((hi.fun_mul hi).div_const 2).mul_const (a k))
      refine this.congr_deriv ?_
      simp
    rw [(arcs_in h1 h2).2]
    exact h3.hasDerivWithinAt.congr_of_eventuallyEq (hev.mono fun y hy => (arcs_in hy.1 hy.2).1) (arcs_in h1 h2).1
  · have h3 : HasDerivAt (fun y : ℝ => v k + (y - k) * a k) (a k) s := by
      have := (hi.mul_const (a k)).const_add (v k)
      refine this.congr_deriv ?_
      ring
    have h4 : arcs x v a ⟨0, 2⟩ 0 s = a k := by simp [arcs, hk]
    rw [h4]
    exact h3.hasDerivWithinAt.congr_of_eventuallyEq (hev.mono fun y hy => (arcs_in hy.1 hy.2).2) (arcs_in h1 h2).2

/-- What the solvers see of the task, for the value `E` of the dynamics -/
noncomputable def twoC (ty : TD.CType) (E : ℝ) : UserCstr ℝ :=
  ⟨ctype ty, .asGiven, 1, [4], fun m _ _ => if un₀ m = ⟨0, 2⟩ then 1 else 0, fun _ => if ty = .equal then E else 0, fun _ => if ty = .greaterThan then E else 0, fun _ => if ty = .lowerThan then E else 0⟩

variable {ty : TD.CType} {d : Dyn ℝ} {r : ℝ}

theorem two_posed (hty : ty ≠ .doubleSided) (ho : d.order = .two) (y z E : ℝ) (hv : d.value ty (after square (outs3 y z)) ⟨1, fun _ => r⟩ = .ok () ⟨1, fun _ => E⟩) :
    Posed w₃ vn₀ un₀ ⟨after square (outs3 y z), oneT ty d r, linF, linD, fun _ => E, 0⟩ (twoC ty E) := by
  have h1 : (oneT ty d r).td.dyn.order.num = 2 := by
    show d.order.num = 2
    rw [ho]; rfl
  refine ⟨⟨⟨ty, (oneT ty d r).td, none, [⟨0, 2⟩]⟩, ?_, ?_⟩, fun _ _ => rfl⟩
  · show makeLTC (after square (outs3 y z)) (oneT ty d r) = _
    unfold makeLTC
    cases ty
    · simp [ho, oneT, after, square, LTask.addVar, VId.dot]
    · simp [ho, oneT, after, square, LTask.addVar, VId.dot]
    · simp [ho, oneT, after, square, LTask.addVar, VId.dot]
    · exact absurd rfl hty
  · have hside : LTC.side (oneT ty d r).td (after square (outs3 y z)) = .ok () ⟨1, fun _ => E⟩ := by
      have hv : (oneT ty d r).td.dyn.value (oneT ty d r).td.type (after square (outs3 y z)) (oneT ty d r).td.rhs = .ok () ⟨1, fun _ => E⟩ := hv
      have h2 : (oneT ty d r).td.dyn.order = .two := ho
      unfold LTC.side
      simp only [hv, h2]
      have h3 : ∀ i, (after square (outs3 y z)).normalAcc i = 0 := fun _ => rfl
      have h4 : (after square (outs3 y z)).size = 1 := rfl
      simp [h3, h4]
    have hup : LTC.update (⟨ty, (oneT ty d r).td, none, [⟨0, 2⟩]⟩ : LTC ℝ) (after square (outs3 y z)) = .ok () ⟨if ty = .greaterThan then some ⟨1, fun _ => E⟩ else none,
        if ty = .lowerThan then some ⟨1, fun _ => E⟩ else none, if ty = .equal then some ⟨1, fun _ => E⟩ else none⟩ := by
      unfold LTC.update
      cases ty
      · simp [hside]
      · simp [hside]
      · simp [hside]
      · exact absurd rfl hty
    have hv : [(⟨0, 2⟩ : VId)].map vn₀ = [4] := by decide
    show constraintOf vn₀ un₀ (after square (outs3 y z)) _ = _
    unfold constraintOf twoC
    rw [hup]
    simp only [hv]
    congr 1
    rw [UserCstr.mk.injEq]
    refine ⟨rfl, rfl, rfl, rfl, ?_, ?_, ?_, ?_⟩
    · funext m i r'
      generalize un₀ m = u
      obtain ⟨b, n⟩ := u
      unfold LTC.jacobian VId.primitive
      simp only [h1]
      have h2 : (after square (outs3 y z)).vars = [⟨0, 0⟩] := rfl
      by_cases hn : 2 ≤ n
      · simp only [hn, if_true, h2, List.mem_singleton, VId.mk.injEq]
        by_cases hb : b = 0 ∧ n = 2
        · obtain ⟨rfl, rfl⟩ := hb
          simp [after, outs3]
        · rw [if_neg (by omega), if_neg hb]
      · have : ¬ (b = 0 ∧ n = 2) := by omega
        simp [hn, this]
    · funext i; by_cases h : ty = .equal <;> simp [h, vec]
    · funext i; by_cases h : ty = .greaterThan <;> simp [h, vec]
    · funext i; by_cases h : ty = .lowerThan <;> simp [h, vec]

theorem two_ok (hty : ty ≠ .doubleSided) (ho : d.order = .two) (y z E : ℝ) (hv : d.value ty (after square (outs3 y z)) ⟨1, fun _ => r⟩ = .ok () ⟨1, fun _ => E⟩) (X : Path) (t : ℝ)
    (hX : ∀ s, t ≤ s → HasDerivWithinAt (X ⟨0, 0⟩ 0) (X ⟨0, 1⟩ 0 s) (Ici s) s ∧ HasDerivWithinAt (X ⟨0, 1⟩ 0) (X ⟨0, 2⟩ 0 s) (Ici s) s) :
    (⟨after square (outs3 y z), oneT ty d r, linF, linD, fun _ => E, 0⟩ : Tk).Ok X t := by
  have h1 : (⟨after square (outs3 y z), oneT ty d r, linF, linD, fun _ => E, 0⟩ : Tk).order = 2 := by
    show d.order.num = 2
    rw [ho]; rfl
  refine ⟨?_, ?_, ?_, fun i _ p => proj.hasFDerivAt, ?_, ?_, ?_⟩
  · show [(⟨0, 0⟩ : VId)].Nodup
    decide
  · show d.order ≠ .zero
    rw [ho]; decide
  · exact ⟨⟨_, hv, rfl, rfl⟩, fun h => absurd h hty⟩
  · intro j hj m hm c hc s hs
    rw [h1] at hj hs
    have hm : m ∈ [(⟨0, 0⟩ : VId)] := hm
    have hc : c < 1 := hc
    rw [List.mem_singleton] at hm
    obtain rfl : c = 0 := by omega
    subst hm
    have hs0 : t ≤ s := by
      rcases hs with rfl | ⟨hs, -⟩
      · exact le_rfl
      · exact hs
    obtain rfl | rfl : j = 0 ∨ j = 1 := by omega
    · exact (hX s hs0).1
    · exact (hX s hs0).2
  · intro i _ b c
    exact (C97.proj_unit b c).symm
  · intro _ i _
    refine ⟨fun _ _ => 0, fun b c => hasDerivWithinAt_const _ _ _, ?_⟩
    show (0 : ℝ) = _
    simp

theorem two_decided (ho : d.order = .two) (y z E : ℝ) (X : Path) (t : ℝ) : Decided vn₀ ⟨after square (outs3 y z), oneT ty d r, linF, linD, fun _ => E, 0⟩ X t (fun _ _ => X ⟨0, 2⟩ 0 t) := by
  intro m hm c hc
  have h1 : (⟨after square (outs3 y z), oneT ty d r, linF, linD, fun _ => E, 0⟩ : Tk).order = 2 := by
    show d.order.num = 2
    rw [ho]; rfl
  rw [h1]
  have hm : m ∈ [(⟨0, 0⟩ : VId)] := hm
  have hc : c < 1 := hc
  rw [List.mem_singleton] at hm
  obtain rfl : c = 0 := by omega
  subst hm
  rfl

theorem two_sat (hty : ty ≠ .doubleSided) (E y : ℝ) (h : Related ty y E 0) : Sat w₃ (twoC ty E) (fun _ _ => y) := by
  intro i _
  have h1 : un₀ 4 = ⟨0, 2⟩ := un_vn₀ ⟨0, 2⟩
  simp only [twoC, row, w₃, List.map_cons, List.map_nil, List.sum_cons, List.sum_nil, Finset.sum_range_one, meant, h1, if_true]
  cases ty
  · simpa [ctype, Related] using h
  · simpa [ctype, Related] using h
  · simpa [ctype, Related] using h
  · exact absurd rfl hty

/-- The loop along the states of a recurrence -/
theorem two_sampled (hty : ty ≠ .doubleSided) (ho : d.order = .two) (E : ℝ → ℝ → ℝ) (hv : ∀ y z, d.value ty (after square (outs3 y z)) ⟨1, fun _ => r⟩ = .ok () ⟨1, fun _ => E y z⟩)
    (hx : ∀ k, x (k + 1) = x k + v k + a k / 2) (hvv : ∀ k, v (k + 1) = v k + a k) (ha : ∀ k, Related ty (a k) (E (x k) (v k)) 0) :
    Sampled2 w₃ vn₀ un₀ 1 square (oneT ty d r) linF linD (fun t => outs3 (arcs x v a ⟨0, 0⟩ 0 t) (arcs x v a ⟨0, 1⟩ 0 t)) (fun t _ => E (arcs x v a ⟨0, 0⟩ 0 t) (arcs x v a ⟨0, 1⟩ 0 t)) (fun _ => 0)
      (fun t => twoC ty (E (arcs x v a ⟨0, 0⟩ 0 t) (arcs x v a ⟨0, 1⟩ 0 t))) (arcs x v a) (fun t _ _ => arcs x v a ⟨0, 2⟩ 0 t) := by
  have hst : ∀ (k : ℕ) (s : ℝ), k * 1 ≤ s → s ≤ (k + 1) * 1 → arcs x v a ⟨0, 0⟩ 0 s = x k + (s - k) * v k + (s - k) ^ 2 / 2 * a k ∧ arcs x v a ⟨0, 1⟩ 0 s = v k + (s - k) * a k := by
    intro k s h1 h2
    rw [mul_one] at h1 h2
    rcases lt_or_eq_of_le h2 with h2 | h2
    · exact arcs_in h1 h2
    · have e : s = ((k + 1 : ℕ) : ℝ) := by rw [h2]; push_cast; ring
      rw [e, (arcs_at (k + 1)).1, (arcs_at (k + 1)).2.1, hx, hvv]
      push_cast
      constructor <;> ring
  refine ⟨fun k => two_posed hty ho _ _ _ (hv _ _), fun k => two_ok hty ho _ _ _ (hv _ _) _ _ (fun s hs => arcs_deriv (le_trans (by positivity) hs)), fun k => two_decided ho _ _ _ _ _,
    fun k => two_sat hty _ _ ?_, fun k i _ => rfl, fun k i _ => rfl, ?_, ?_⟩
  · rw [mul_one, (arcs_at k).1, (arcs_at k).2.1, (arcs_at k).2.2]
    exact ha k
  · intro k s h1 h2 m hm c hc
    have hm : m ∈ [(⟨0, 0⟩ : VId)] := hm
    have hc : c < 1 := hc
    rw [List.mem_singleton] at hm
    obtain rfl : c = 0 := by omega
    subst hm
    show arcs x v a ⟨0, 0⟩ 0 s = arcs x v a ⟨0, 0⟩ 0 (k * 1) + (s - k * 1) * arcs x v a ⟨0, 1⟩ 0 (k * 1) + (s - k * 1) ^ 2 / 2 * arcs x v a ⟨0, 2⟩ 0 (k * 1)
    rw [(hst k s h1 h2).1, mul_one, (arcs_at k).1, (arcs_at k).2.1, (arcs_at k).2.2]
  · intro k s h1 h2 m hm c hc
    have hm : m ∈ [(⟨0, 0⟩ : VId)] := hm
    have hc : c < 1 := hc
    rw [List.mem_singleton] at hm
    obtain rfl : c = 0 := by omega
    subst hm
    show arcs x v a ⟨0, 1⟩ 0 s = arcs x v a ⟨0, 1⟩ 0 (k * 1) + (s - k * 1) * arcs x v a ⟨0, 2⟩ 0 (k * 1)
    rw [(hst k s h1 h2).2, mul_one, (arcs_at k).2.1, (arcs_at k).2.2]

/-- The task `x = 5` with the stiffness `1/4` and its default damping, from `x = 6` at rest -/
example (S : Schur ℝ) : ∃ X : Path, linF (point square X 0 0) 0 = 6 ∧ Tendsto (fun k : ℕ => linF (point square X 0 (k * 1)) 0) atTop (𝓝 5) := by
  have hs : Real.sqrt (1 / 4) = 1 / 2 := by
    rw [show (1 / 4 : ℝ) = (1 / 2) ^ 2 by norm_num]
    exact Real.sqrt_sq (by norm_num)
  let p := orbit (1 / 4) 1 1 1 0
  have hS := two_sampled (ty := .equal) (d := .pd (pdCritical Real.sqrt S (.scalar (1 / 4))).1 (pdCritical Real.sqrt S (.scalar (1 / 4))).2) (r := 5) (x := fun k => (p k).1 + 5) (v := fun k => (p k).2)
    (a := fun k => -(2 * Real.sqrt (1 / 4) * (p k).2) - 1 / 4 * ((p k).1 + 5 - 5)) (by decide) rfl (fun y z => -(2 * Real.sqrt (1 / 4) * z) - 1 / 4 * (y - 5))
    (fun y z => C64.pd_decoupled Real.sqrt S (.scalar (1 / 4)) 1 trivial (fun _ => y) (fun _ => z) (fun _ => 5))
    (fun k => by
      rw [hs]
      show (p k).1 + 1 * (p k).2 + 1 ^ 2 / 2 * (-(1 * (p k).2) - 1 / 4 * (p k).1) + 5 = _
      ring)
    (fun k => by
      rw [hs]
      show (p k).2 + 1 * (-(1 * (p k).2) - 1 / 4 * (p k).1) = _
      ring) (fun k => rfl)
  refine ⟨_, ?_, (C112_sampled_critical un_vn₀ (kp := .scalar (1 / 4)) (S := S) (rhs := ⟨1, fun _ => 5⟩)
    (by simp [makeTask, Dyn.impl, Dyn.accepts, implAccepts, gainFits, square, oneT, pdCritical]) trivial hS lin_affine one_pos 0 (by decide) (by simp [C64.coef]) (by
      show Real.sqrt (1 / 4) * 1 < 1
      rw [hs]; norm_num)).1⟩
  have := (arcs_at (x := fun k => (p k).1 + 5) (v := fun k => (p k).2) (a := fun k => -(2 * Real.sqrt (1 / 4) * (p k).2) - 1 / 4 * ((p k).1 + 5 - 5)) 0).1
  rw [Nat.cast_zero] at this
  refine this.trans ?_
  show (1 : ℝ) + 5 = 6
  norm_num

/-- The task `x = 0` in one step, from `x = 0` with the velocity 1: the function is at `1/4`, then `-1/4`, and so on, in the middle of the steps. -/
example (k : ℕ) : ∃ X : Path, linF (point square X 0 ((k + 1 : ℕ) * 1)) 0 = 0 ∧ linF (point square X 0 ((k + 1 : ℕ) * 1 + 1 / 2)) 0 = (-1) ^ k * (1 / 4 * -1) := by
  have hS := two_sampled (ty := .equal) (d := .oneStep true 1) (r := 0) (x := fun _ => 0) (v := fun k => (-1) ^ k) (a := fun k => -2 * (-1) ^ k) (by decide) rfl (fun y z => ((0 - y) / 1 - z) * (2 / 1)) (fun y z => rfl)
    (fun k => by ring) (fun k => by rw [pow_succ]; ring) (fun k => by show (_ : ℝ) = _; ring)
  obtain ⟨h1, -, h3⟩ := C112_sampled_oneStep un_vn₀ (rhs := ⟨1, fun _ => 0⟩) (by simp [makeTask, Dyn.impl, Dyn.accepts, implAccepts, square, oneT]) hS lin_affine one_pos 0 (by decide) k
  refine ⟨_, h1, h3.trans ?_⟩
  have := (arcs_at (x := fun _ => 0) (v := fun k => (-1) ^ k) (a := fun k => -2 * (-1) ^ k) 1).2.1
  rw [Nat.cast_one] at this
  have e : linD 0 (point square (arcs (fun _ => 0) (fun k => (-1) ^ k) fun k => -2 * (-1) ^ k) 0 1) (point square (arcs (fun _ => 0) (fun k => (-1) ^ k) fun k => -2 * (-1) ^ k) 1 1) = -1 := this.trans (by norm_num)
  rw [e]
  show (0 : ℝ) + _ = _
  ring
end

end Verif.C112
