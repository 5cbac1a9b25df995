import Verif.Properties.C45_VelocityDamper
import Verif.Properties.C47_Gains
import Mathlib.Analysis.Calculus.MeanValue
import Mathlib.Analysis.SpecialFunctions.ExpDeriv
import Mathlib.Analysis.SpecialFunctions.Exp
/-!
# C64 The feedback dynamics make the error vanish

The specification is about motions in continuous time: functions of the time that have at each instant the derivative required by the task dynamics (a right derivative, so that
the motion may have corners). The error is `f - rhs`.
-/
set_option autoImplicit false
set_option linter.unusedSectionVars false

namespace Verif.C64
open Verif TD Set Filter Topology

/-! ## Specification -/

/-- `f` is continuous from the time 0 on and has the right derivative `f'`. -/
def Moves (f f' : ℝ → ℝ) : Prop := ContinuousOn f (Ici 0) ∧ ∀ t, 0 ≤ t → HasDerivWithinAt f (f' t) (Ici t) t

/-- A motion that follows the proportional dynamics -/
structure FollowsP (kp : Gain ℝ) (n : Nat) (rhs : Nat → ℝ) (f vel : ℝ → Nat → ℝ) : Prop where
  moves : ∀ i, i < n → Moves (fun t => f t i) (fun t => vel t i)
  obeys : ∀ t, 0 ≤ t → ∃ x, propValue kp n (f t) rhs = .ok () x ∧ x.n = n ∧ ∀ i, i < n → vel t i = x.v i

/-- A motion that follows the proportional derivative dynamics -/
structure FollowsPD (kp kv : Gain ℝ) (n : Nat) (rhs : Nat → ℝ) (f vel acc : ℝ → Nat → ℝ) : Prop where
  moves : ∀ i, i < n → Moves (fun t => f t i) (fun t => vel t i)
  accelerates : ∀ i, i < n → Moves (fun t => vel t i) (fun t => acc t i)
  obeys : ∀ t, 0 ≤ t → ∃ x, pdValue kp kv n (f t) (vel t) rhs = .ok () x ∧ x.n = n ∧ ∀ i, i < n → acc t i = x.v i

/-- The coefficient of a scalar or diagonal gain -/
def coef : Gain ℝ → Nat → ℝ
  | .scalar k, _ => k
  | .diag _ d, i => d i
  | .matrix _ _ _, _ => 0

/-- Scalar and diagonal gains for a function of size `n` -/
def Decoupled (n : Nat) : Gain ℝ → Prop
  | .scalar _ => True
  | .diag m _ => m = n
  | .matrix _ _ _ => False

/-! ## Motions with a linear derivative -/

theorem moves_const (f : ℝ → ℝ) (h : Moves f (fun _ => 0)) (t : ℝ) (ht : 0 ≤ t) : f t = f 0 :=
  constant_of_has_deriv_right_zero (h.1.mono Icc_subset_Ici_self) (fun x hx => h.2 x hx.1) t ⟨ht, le_rfl⟩

theorem moves_congr (f f' g' : ℝ → ℝ) (h : Moves f f') (e : ∀ t, 0 ≤ t → f' t = g' t) : Moves f g' :=
  ⟨h.1, fun t ht => (e t ht) ▸ h.2 t ht⟩

theorem moves_exp (k : ℝ) : Moves (fun t => Real.exp (k * t)) (fun t => k * Real.exp (k * t)) := by
  refine ⟨by fun_prop, fun t _ => ?_⟩
  have : HasDerivAt (fun t => Real.exp (k * t)) (Real.exp (k * t) * (k * 1)) t := ((hasDerivAt_id t).const_mul k).exp
  rw [mul_one, mul_comm] at this
  exact this.hasDerivWithinAt

theorem moves_mul (f f' g g' : ℝ → ℝ) (hf : Moves f f') (hg : Moves g g') :
    Moves (fun t => f t * g t) (fun t => f' t * g t + f t * g' t) :=
  ⟨hf.1.mul hg.1, fun t ht => (hf.2 t ht).mul (hg.2 t ht)⟩

theorem moves_add (f f' g g' : ℝ → ℝ) (hf : Moves f f') (hg : Moves g g') : Moves (fun t => f t + g t) (fun t => f' t + g' t) :=
  ⟨hf.1.add hg.1, fun t ht => (hf.2 t ht).add (hg.2 t ht)⟩

theorem moves_cmul (c : ℝ) (f f' : ℝ → ℝ) (hf : Moves f f') : Moves (fun t => c * f t) (fun t => c * f' t) :=
  ⟨continuousOn_const.mul hf.1, fun t ht => (hf.2 t ht).const_mul c⟩

theorem moves_sub_const (c : ℝ) (f f' : ℝ → ℝ) (hf : Moves f f') : Moves (fun t => f t - c) f' :=
  ⟨hf.1.sub continuousOn_const, fun t ht => (hf.2 t ht).sub_const c⟩

theorem moves_lin (c : ℝ) : Moves (fun t => c * t) (fun _ => c) := by
  refine ⟨by fun_prop, fun t _ => ?_⟩
  have := ((hasDerivAt_id t).const_mul c).hasDerivWithinAt (s := Ici t)
  simpa using this

/-- `e' = -k e` has only the exponential. -/
theorem exp_decay (k : ℝ) (e e' : ℝ → ℝ) (h : Moves e e') (he : ∀ t, 0 ≤ t → e' t = -k * e t) (t : ℝ) (ht : 0 ≤ t) :
    e t = e 0 * Real.exp (-(k * t)) := by
  have h1 := moves_mul _ _ _ _ h (moves_exp k)
  have h2 : Moves (fun t => e t * Real.exp (k * t)) (fun _ => 0) :=
    moves_congr _ _ _ h1 (fun t ht => by rw [he t ht]; ring)
  have h3 := moves_const _ h2 t ht
  simp only [mul_zero, Real.exp_zero, mul_one] at h3
  rw [← h3, mul_assoc, ← Real.exp_add]
  simp

/-- A motion with a derivative that is not positive does not increase. -/
theorem not_increasing (f f' : ℝ → ℝ) (h : Moves f f') (hf : ∀ t, 0 ≤ t → f' t ≤ 0) (s t : ℝ) (hs : 0 ≤ s) (hst : s ≤ t) : f t ≤ f s := by
  refine image_le_of_deriv_right_le_deriv_boundary (f := f) (f' := f') (B := fun _ => f s) (B' := fun _ => 0) (a := s) (b := t)
    (h.1.mono (fun x hx => le_trans hs hx.1)) (fun x hx => h.2 x (le_trans hs hx.1)) le_rfl continuousOn_const
    (fun x _ => hasDerivWithinAt_const _ _ _) (fun x hx => hf x (le_trans hs hx.1)) ⟨hst, le_rfl⟩

/-! ## Proportional -/

/-- The value of the proportional dynamics, for a scalar or a diagonal gain -/
theorem prop_decoupled (kp : Gain ℝ) (n : Nat) (h : Decoupled n kp) (f rhs : Nat → ℝ) :
    propValue kp n f rhs = .ok () ⟨n, fun i => -(coef kp i * (f i - rhs i))⟩ := by
  cases kp with
  | scalar k => rfl
  | diag m d => have : m = n := h; subst this; simp [propValue, Gain.mul, coef]
  | matrix r c M => exact h.elim

/-- With a scalar or diagonal gain, every component of the error decreases exponentially at the rate of its gain. -/
theorem C64_proportional (kp : Gain ℝ) (n : Nat) (hd : Decoupled n kp) (rhs : Nat → ℝ) (f vel : ℝ → Nat → ℝ)
    (h : FollowsP kp n rhs f vel) (i : Nat) (hi : i < n) (t : ℝ) (ht : 0 ≤ t) :
    f t i - rhs i = (f 0 i - rhs i) * Real.exp (-(coef kp i * t)) := by
  refine exp_decay (coef kp i) (fun t => f t i - rhs i) (fun t => vel t i) (moves_sub_const _ _ _ (h.moves i hi)) (fun t ht => ?_) t ht
  obtain ⟨x, e, -, v⟩ := h.obeys t ht
  rw [prop_decoupled kp n hd] at e
  injection e with _ e
  rw [v i hi, ← e]
  simp

/-- With a positive gain the function tends to the right-hand side. -/
theorem C64_proportional_limit (kp : Gain ℝ) (n : Nat) (hd : Decoupled n kp) (rhs : Nat → ℝ) (f vel : ℝ → Nat → ℝ)
    (h : FollowsP kp n rhs f vel) (i : Nat) (hi : i < n) (hk : 0 < coef kp i) : Tendsto (fun t => f t i) atTop (𝓝 (rhs i)) := by
  have h1 : Tendsto (fun t : ℝ => Real.exp (-(coef kp i * t))) atTop (𝓝 0) :=
    Real.tendsto_exp_neg_atTop_nhds_zero.comp (tendsto_id.const_mul_atTop hk)
  have h2 : Tendsto (fun t : ℝ => rhs i + (f 0 i - rhs i) * Real.exp (-(coef kp i * t))) atTop (𝓝 (rhs i + (f 0 i - rhs i) * 0)) :=
    tendsto_const_nhds.add (tendsto_const_nhds.mul h1)
  rw [mul_zero, add_zero] at h2
  refine h2.congr' ?_
  filter_upwards [eventually_ge_atTop 0] with t ht
  have := C64_proportional kp n hd rhs f vel h i hi t ht
  linarith

/-- The square of the norm of the error -/
def err2 (n : Nat) (f rhs : Nat → ℝ) : ℝ := ∑ i ∈ Finset.range n, (f i - rhs i) * (f i - rhs i)

theorem moves_sum (n : Nat) (g g' : ℝ → Nat → ℝ) (h : ∀ i, i < n → Moves (fun t => g t i) (fun t => g' t i)) :
    Moves (fun t => ∑ i ∈ Finset.range n, g t i) (fun t => ∑ i ∈ Finset.range n, g' t i) := by
  induction n with
  | zero =>
    simp only [Finset.range_zero, Finset.sum_empty]
    exact ⟨continuousOn_const, fun t _ => hasDerivWithinAt_const _ _ _⟩
  | succ n ih =>
    simp only [Finset.sum_range_succ]
    exact moves_add _ _ _ _ (ih fun i hi => h i (by omega)) (h n (by omega))

/-- The matrix `M` of size `n` is at least `c I`: `xᵀ M x ≥ c xᵀ x`. -/
def AtLeast (n : Nat) (c : ℝ) (M : Nat → Nat → ℝ) : Prop :=
  ∀ x : Nat → ℝ, c * ∑ i ∈ Finset.range n, x i * x i ≤ ∑ i ∈ Finset.range n, x i * ∑ j ∈ Finset.range n, M i j * x j

/-- With a matrix gain at least `c I`, the norm of the error decreases exponentially at the rate `c` (also for matrices that are not symmetric). -/
theorem C64_proportional_matrix (n : Nat) (M : Nat → Nat → ℝ) (c : ℝ) (hM : AtLeast n c M) (rhs : Nat → ℝ) (f vel : ℝ → Nat → ℝ)
    (h : FollowsP (.matrix n n M) n rhs f vel) (t : ℝ) (ht : 0 ≤ t) :
    err2 n (f t) rhs ≤ err2 n (f 0) rhs * Real.exp (-(2 * c * t)) := by
  have h0 : ∀ i, i < n → Moves (fun t => (f t i - rhs i) * (f t i - rhs i)) (fun t => vel t i * (f t i - rhs i) + (f t i - rhs i) * vel t i) :=
    fun i hi => moves_mul _ _ _ _ (moves_sub_const _ _ _ (h.moves i hi)) (moves_sub_const _ _ _ (h.moves i hi))
  have h1 := moves_sum n (fun t i => (f t i - rhs i) * (f t i - rhs i)) _ h0
  have h2 := moves_mul _ _ _ _ h1 (moves_exp (2 * c))
  have h3 := not_increasing _ _ h2 (fun t ht => ?_) 0 t le_rfl ht
  · simp only [mul_zero, Real.exp_zero, mul_one] at h3
    unfold err2
    have h4 := mul_le_mul_of_nonneg_right h3 (Real.exp_nonneg (-(2 * c * t)))
    rwa [mul_assoc, ← Real.exp_add, add_neg_cancel, Real.exp_zero, mul_one] at h4
  · obtain ⟨x, e, -, v⟩ := h.obeys t ht
    have e' : x = ⟨n, fun i => -(∑ j ∈ Finset.range n, M i j * (f t j - rhs j))⟩ := by
      simp only [propValue, Gain.mul, if_true] at e
      injection e with _ e
      exact e.symm
    have hv : ∑ i ∈ Finset.range n, (vel t i * (f t i - rhs i) + (f t i - rhs i) * vel t i) =
        -2 * ∑ i ∈ Finset.range n, (f t i - rhs i) * ∑ j ∈ Finset.range n, M i j * (f t j - rhs j) := by
      rw [Finset.mul_sum]
      apply Finset.sum_congr rfl
      intro i hi
      rw [v i (Finset.mem_range.mp hi), e']
      simp only
      ring
    have hq := hM (fun i => f t i - rhs i)
    rw [hv]
    have hx := Real.exp_nonneg (2 * c * t)
    have : (-2 * ∑ i ∈ Finset.range n, (f t i - rhs i) * ∑ j ∈ Finset.range n, M i j * (f t j - rhs j)) * Real.exp (2 * c * t) +
        (∑ i ∈ Finset.range n, (f t i - rhs i) * (f t i - rhs i)) * (2 * c * Real.exp (2 * c * t)) =
        (2 * (c * ∑ i ∈ Finset.range n, (f t i - rhs i) * (f t i - rhs i) -
          ∑ i ∈ Finset.range n, (f t i - rhs i) * ∑ j ∈ Finset.range n, M i j * (f t j - rhs j))) * Real.exp (2 * c * t) := by ring
    rw [this]
    exact mul_nonpos_of_nonpos_of_nonneg (by linarith) hx

/-! ## Proportional derivative with the default damping -/

theorem pd_decoupled (sqrt : ℝ → ℝ) (S : Schur ℝ) (kp : Gain ℝ) (n : Nat) (h : Decoupled n kp) (f vel rhs : Nat → ℝ) :
    pdValue (pdCritical sqrt S kp).1 (pdCritical sqrt S kp).2 n f vel rhs =
      .ok () ⟨n, fun i => -(2 * sqrt (coef kp i) * vel i) - coef kp i * (f i - rhs i)⟩ := by
  cases kp with
  | scalar k => simp [pdCritical, pdValue, Gain.mul, coef]
  | diag m d => have : m = n := h; subst this; simp [pdValue, Gain.mul, coef, pdCritical]
  | matrix r c M => exact h.elim

/-- With the default damping of a scalar or diagonal gain, the error is `(e₀ + (v₀ + ω e₀) t) exp(-ω t)` with `ω² = kp`. -/
theorem C64_critical (kp : Gain ℝ) (n : Nat) (hd : Decoupled n kp) (S : Schur ℝ) (rhs : Nat → ℝ) (f vel acc : ℝ → Nat → ℝ)
    (h : FollowsPD (pdCritical Real.sqrt S kp).1 (pdCritical Real.sqrt S kp).2 n rhs f vel acc) (i : Nat) (hi : i < n)
    (hk : 0 ≤ coef kp i) (t : ℝ) (ht : 0 ≤ t) :
    f t i - rhs i = (f 0 i - rhs i + (vel 0 i + Real.sqrt (coef kp i) * (f 0 i - rhs i)) * t) * Real.exp (-(Real.sqrt (coef kp i) * t)) := by
  have hw : Real.sqrt (coef kp i) * Real.sqrt (coef kp i) = coef kp i := Real.mul_self_sqrt hk
  have ha : ∀ t, 0 ≤ t → acc t i = -(2 * Real.sqrt (coef kp i) * vel t i) - coef kp i * (f t i - rhs i) := by
    intro t ht
    obtain ⟨x, e, -, v⟩ := h.obeys t ht
    rw [pd_decoupled Real.sqrt S kp n hd] at e
    injection e with _ e
    rw [v i hi, ← e]
  generalize Real.sqrt (coef kp i) = w at *
  have he := moves_sub_const (rhs i) _ _ (h.moves i hi)
  -- u = v + w e is an exponential
  have hu : Moves (fun t => vel t i + w * (f t i - rhs i)) (fun t => acc t i + w * vel t i) :=
    moves_add _ _ _ _ (h.accelerates i hi) (moves_cmul w _ _ he)
  have hu' := exp_decay w _ _ hu (fun t ht => by rw [ha t ht, ← hw]; ring)
  -- e exp(w t) is linear
  have hg := moves_mul _ _ _ _ he (moves_exp w)
  have hl := moves_lin (-(vel 0 i + w * (f 0 i - rhs i)))
  have hs := moves_add _ _ _ _ hg hl
  have hz : Moves (fun t => (f t i - rhs i) * Real.exp (w * t) + -(vel 0 i + w * (f 0 i - rhs i)) * t) (fun _ => 0) := by
    refine moves_congr _ _ _ hs (fun t ht => ?_)
    have e1 := hu' t ht
    have e2 : vel t i * Real.exp (w * t) + (f t i - rhs i) * (w * Real.exp (w * t)) =
        (vel t i + w * (f t i - rhs i)) * Real.exp (w * t) := by ring
    rw [e2, e1, mul_assoc, ← Real.exp_add, neg_add_cancel, Real.exp_zero]
    ring
  have hc := moves_const _ hz t ht
  simp only [mul_zero, Real.exp_zero, mul_one, add_zero] at hc
  have h5 : (f t i - rhs i) * Real.exp (w * t) = f 0 i - rhs i + (vel 0 i + w * (f 0 i - rhs i)) * t := by linarith
  rw [← h5, mul_assoc, ← Real.exp_add, add_neg_cancel, Real.exp_zero, mul_one]

/-- The function tends to the right-hand side. -/
theorem C64_critical_limit (kp : Gain ℝ) (n : Nat) (hd : Decoupled n kp) (S : Schur ℝ) (rhs : Nat → ℝ) (f vel acc : ℝ → Nat → ℝ)
    (h : FollowsPD (pdCritical Real.sqrt S kp).1 (pdCritical Real.sqrt S kp).2 n rhs f vel acc) (i : Nat) (hi : i < n)
    (hk : 0 < coef kp i) : Tendsto (fun t => f t i) atTop (𝓝 (rhs i)) := by
  have hw : 0 < Real.sqrt (coef kp i) := Real.sqrt_pos.mpr hk
  have hx := C64_critical kp n hd S rhs f vel acc h i hi hk.le
  generalize Real.sqrt (coef kp i) = w at *
  have hm : Tendsto (fun t : ℝ => w * t) atTop atTop := tendsto_id.const_mul_atTop hw
  have h1 : Tendsto (fun t : ℝ => Real.exp (-(w * t))) atTop (𝓝 0) := Real.tendsto_exp_neg_atTop_nhds_zero.comp hm
  have h2 : Tendsto (fun t : ℝ => (w * t) ^ 1 * Real.exp (-(w * t))) atTop (𝓝 0) :=
    (Real.tendsto_pow_mul_exp_neg_atTop_nhds_zero 1).comp hm
  have h3 : Tendsto (fun t : ℝ => rhs i + ((f 0 i - rhs i) * Real.exp (-(w * t)) +
      (vel 0 i + w * (f 0 i - rhs i)) / w * ((w * t) ^ 1 * Real.exp (-(w * t))))) atTop
      (𝓝 (rhs i + ((f 0 i - rhs i) * 0 + (vel 0 i + w * (f 0 i - rhs i)) / w * 0))) :=
    tendsto_const_nhds.add ((tendsto_const_nhds.mul h1).add (tendsto_const_nhds.mul h2))
  simp only [mul_zero, add_zero] at h3
  refine h3.congr' ?_
  filter_upwards [eventually_ge_atTop 0] with t ht
  have e := hx t ht
  have : f t i = rhs i + (f t i - rhs i) := by ring
  rw [this, e]
  field_simp

/-- There is no overshoot: if the error is positive and the velocity is not less than `-ω e₀` (in particular from rest), the error stays
positive. -/
theorem C64_no_overshoot (kp : Gain ℝ) (n : Nat) (hd : Decoupled n kp) (S : Schur ℝ) (rhs : Nat → ℝ) (f vel acc : ℝ → Nat → ℝ)
    (h : FollowsPD (pdCritical Real.sqrt S kp).1 (pdCritical Real.sqrt S kp).2 n rhs f vel acc) (i : Nat) (hi : i < n)
    (hk : 0 ≤ coef kp i) (he : 0 < f 0 i - rhs i) (hv : -(Real.sqrt (coef kp i) * (f 0 i - rhs i)) ≤ vel 0 i) (t : ℝ) (ht : 0 ≤ t) :
    0 < f t i - rhs i := by
  rw [C64_critical kp n hd S rhs f vel acc h i hi hk t ht]
  have : 0 ≤ (vel 0 i + Real.sqrt (coef kp i) * (f 0 i - rhs i)) * t := mul_nonneg (by linarith) ht
  exact mul_pos (by linarith) (Real.exp_pos _)

/-! ## The velocity damper in continuous time -/

/-- In continuous time, a motion whose velocity obeys at every instant the first order damper with a fixed damping never gets closer than the safety
distance: no condition on the damping, on the interaction distance or on `big` is needed. -/
theorem C45_continuous (s : C45.Sense) (D : VD ℝ) (xsi : Nat → ℝ) (h : C45.Fixed D xsi) (ho : D.order ≠ 2) (rhs : Nat → ℝ)
    (f vel : ℝ → Nat → ℝ) (i : Nat) (hi : i < D.n) (hx : 0 ≤ xsi i) (hm : Moves (fun t => f t i) (fun t => vel t i))
    (hobey : ∀ t, 0 ≤ t → ∃ x, (updateVD s.type D (f t) (vel t) rhs).2 i = some x ∧ s.Rel (vel t i) x)
    (h0 : D.ds i ≤ s.dist (f 0 i) (rhs i)) (t : ℝ) (ht : 0 ≤ t) : D.ds i ≤ s.dist (f t i) (rhs i) := by
  have hz := h.zone i hi
  have hp : 0 < D.di i - D.ds i := by linarith
  have key : ∀ t, 0 ≤ t → s.dist (f t i) (rhs i) ≤ D.di i →
      -(xsi i * ((s.dist (f t i) (rhs i) - D.ds i) / (D.di i - D.ds i))) ≤ s.rate (vel t i) := by
    intro t ht hd
    obtain ⟨x, e, r⟩ := hobey t ht
    have hv := C45.C45_value_first s D xsi h ho (fun _ => f t) (fun _ => vel t) rhs 0 i hi
    have hv' : (updateVD s.type D (f t) (vel t) rhs).2 i = _ := hv
    rw [hv', Option.some.injEq] at e
    simp only [if_neg (not_lt.mpr hd)] at e
    cases s with
    | above =>
      have r' : x ≤ vel t i := r
      show _ ≤ vel t i
      linarith
    | below =>
      have r' : vel t i ≤ x := r
      show _ ≤ -vel t i
      linarith
  have hdist : Moves (fun t => D.ds i - s.dist (f t i) (rhs i)) (fun t => -s.rate (vel t i)) := by
    cases s with
    | above =>
      have h1 := moves_cmul (-1) _ _ (moves_sub_const (rhs i + D.ds i) _ _ hm)
      refine ⟨h1.1.congr fun t _ => ?_, fun t ht => ?_⟩
      · simp only [C45.Sense.dist]; ring
      · have h2 := h1.2 t ht
        simp only [C45.Sense.rate]
        have h3 : HasDerivWithinAt (fun t => -1 * (f t i - (rhs i + D.ds i))) (-vel t i) (Ici t) t := by
          rw [show -vel t i = -1 * vel t i by ring]; exact h2
        refine h3.congr (fun s _ => ?_) ?_ <;> simp only [C45.Sense.dist] <;> ring
    | below =>
      have h1 := moves_sub_const (rhs i - D.ds i) _ _ hm
      refine ⟨h1.1.congr fun t _ => ?_, fun t ht => ?_⟩
      · simp only [C45.Sense.dist]; ring
      · have h2 := h1.2 t ht
        simp only [C45.Sense.rate, neg_neg]
        refine h2.congr (fun s _ => ?_) ?_ <;> simp only [C45.Sense.dist] <;> ring
  have bar : ∀ ε : ℝ, 0 < ε → D.ds i - s.dist (f t i) (rhs i) ≤ ε * (1 + t) := by
    intro ε hε
    refine image_le_of_deriv_right_lt_deriv_boundary' (f := fun t => D.ds i - s.dist (f t i) (rhs i)) (f' := fun t => -s.rate (vel t i))
      (B := fun t => ε * (1 + t)) (B' := fun _ => ε) (a := 0) (b := t) (hdist.1.mono Icc_subset_Ici_self) (fun x hx => hdist.2 x hx.1)
      ?_ (by fun_prop) (fun x hx => ?_) (fun x hx he => ?_) ⟨ht, le_rfl⟩
    · simp only [add_zero, mul_one]; linarith
    · have := (((hasDerivAt_id x).const_add 1).const_mul ε).hasDerivWithinAt (s := Ici x)
      simpa using this
    · have hpos : 0 ≤ ε * (1 + x) := mul_nonneg hε.le (by linarith [hx.1])
      have hd : s.dist (f x i) (rhs i) ≤ D.ds i := by linarith
      have := key x hx.1 (by linarith)
      have h2 : (s.dist (f x i) (rhs i) - D.ds i) / (D.di i - D.ds i) ≤ 0 := div_nonpos_of_nonpos_of_nonneg (by linarith) hp.le
      have h3 := mul_nonpos_of_nonneg_of_nonpos ‹0 ≤ xsi i› h2
      linarith
  by_contra hc
  have hc := not_le.mp hc
  have hpos : 0 < D.ds i - s.dist (f t i) (rhs i) := by linarith
  have := bar ((D.ds i - s.dist (f t i) (rhs i)) / (2 * (1 + t))) (div_pos hpos (by linarith))
  have h1t : (1 + t) ≠ 0 := by linarith
  have e : (D.ds i - s.dist (f t i) (rhs i)) / (2 * (1 + t)) * (1 + t) = (D.ds i - s.dist (f t i) (rhs i)) / 2 := by
    field_simp
  rw [e] at this
  linarith

/-! ## Discrete time -/

variable {K : Type} [Field K] [LinearOrder K] [IsStrictOrderedRing K]

/-- Followed with the period `dt`, the proportional dynamics multiply the error by `1 - kp dt` at each step. -/
theorem C64_discrete (n : Nat) (k dt : K) (rhs : Nat → K) (f : Nat → Nat → K)
    (h : ∀ m, ∃ x, propValue (.scalar k) n (f m) rhs = .ok () x ∧ ∀ i, i < n → f (m + 1) i = f m i + dt * x.v i) (i : Nat) (hi : i < n)
    (m : Nat) : f m i - rhs i = (1 - k * dt) ^ m * (f 0 i - rhs i) := by
  induction m with
  | zero => simp
  | succ m ih =>
    obtain ⟨x, e, v⟩ := h m
    simp only [propValue, Gain.mul] at e
    injection e with _ e
    rw [v i hi, ← e, pow_succ]
    simp only
    rw [show f m i + dt * -(k * (f m i - rhs i)) - rhs i = (1 - k * dt) * (f m i - rhs i) by ring, ih]
    ring

/-- The motions of the theorems exist: the exponential for the proportional dynamics of gain 2, `(1 + t) exp(-t)` for the other one with the gain 1. -/
theorem ex_p : FollowsP (.scalar 2) 1 (fun _ => 3) (fun t _ => 3 + Real.exp (-2 * t)) (fun t _ => -2 * Real.exp (-2 * t)) := by
  refine ⟨fun i _ => ?_, fun t _ => ⟨_, rfl, rfl, fun i _ => ?_⟩⟩
  · exact moves_congr _ _ _ (moves_add _ _ _ _ ⟨continuousOn_const, fun t _ => hasDerivWithinAt_const t (Ici t) (3 : ℝ)⟩ (moves_exp (-2)))
      (fun t _ => by ring)
  · simp

theorem ex_pd : FollowsPD (pdCritical Real.sqrt ⟨fun _ _ => 0, fun _ _ => 0⟩ (.scalar 1)).1 (pdCritical Real.sqrt ⟨fun _ _ => 0, fun _ _ => 0⟩ (.scalar 1)).2 1
    (fun _ => 0) (fun t _ => (1 + 1 * t) * Real.exp (-1 * t)) (fun t _ => -t * Real.exp (-1 * t)) (fun t _ => (t - 1) * Real.exp (-1 * t)) := by
  have hc : Moves (fun _ : ℝ => (1 : ℝ)) (fun _ => 0) := ⟨continuousOn_const, fun t _ => hasDerivWithinAt_const t (Ici t) (1 : ℝ)⟩
  refine ⟨fun i _ => ?_, fun i _ => ?_, fun t _ => ⟨_, pd_decoupled Real.sqrt _ (.scalar 1) 1 trivial _ _ _, rfl, fun i _ => ?_⟩⟩
  · exact moves_congr _ _ _ (moves_mul _ _ _ _ (moves_add _ _ _ _ hc (moves_lin 1)) (moves_exp (-1))) (fun t _ => by ring)
  · have h1 := moves_mul _ _ _ _ (moves_lin (-1)) (moves_exp (-1))
    simp only [neg_mul, one_mul] at h1
    refine moves_congr (fun t => -t * Real.exp (-1 * t)) (fun t => -Real.exp (-t) + t * Real.exp (-t)) _ ⟨by fun_prop, fun t ht => ?_⟩
      (fun t _ => ?_)
    · have := h1.2 t ht
      simp only [neg_mul, one_mul, mul_neg, neg_neg] at this ⊢
      exact this
    · simp only [neg_mul, one_mul]; ring
  · simp only [coef, Real.sqrt_one]; ring

/-- The theorems for these two motions -/
example : Tendsto (fun t : ℝ => 3 + Real.exp (-2 * t)) atTop (𝓝 3) :=
  C64_proportional_limit (.scalar 2) 1 trivial (fun _ => 3) _ _ ex_p 0 (by decide) (by simp [coef])
example (t : ℝ) (ht : 0 ≤ t) : 3 + Real.exp (-2 * t) - 3 = (3 + Real.exp (-2 * 0) - 3) * Real.exp (-(2 * t)) :=
  C64_proportional (.scalar 2) 1 trivial (fun _ => 3) _ _ ex_p 0 (by decide) t ht
example : Tendsto (fun t : ℝ => (1 + 1 * t) * Real.exp (-1 * t)) atTop (𝓝 0) :=
  C64_critical_limit (.scalar 1) 1 trivial _ (fun _ => 0) _ _ _ ex_pd 0 (by decide) (by simp [coef])
example (t : ℝ) (ht : 0 ≤ t) : 0 < (1 + 1 * t) * Real.exp (-1 * t) - 0 :=
  C64_no_overshoot (.scalar 1) 1 trivial _ (fun _ => 0) _ _ _ ex_pd 0 (by decide) (by simp [coef]) (by simp) (by simp [coef]) t ht
example (m : Nat) : (1 / 2 : ℚ) ^ m * 4 - 0 = (1 - 1 * (1 / 2)) ^ m * ((1 / 2 : ℚ) ^ 0 * 4 - 0) :=
  C64_discrete 1 1 (1 / 2) (fun _ => 0) (fun m _ => (1 / 2 : ℚ) ^ m * 4)
    (fun m => ⟨_, rfl, fun i _ => by simp only [pow_succ]; ring⟩) 0 (by decide) m

end Verif.C64
