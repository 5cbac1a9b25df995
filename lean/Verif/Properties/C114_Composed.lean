import Verif.Properties.C97_Loops
import Verif.Properties.C44_Clamped
/-!
# C114 The composed task dynamics in the control loop: feed-forward and clamping

The feed-forward term of a task is the derivative of the reference that the function has to follow: with it the error vanishes as if the reference did not move. A clamped dynamics limits the velocity of the function; the
error still vanishes when the bounds are not zero, along a straight line for a scalar gain. With a bound that is zero the whole task can stop.
-/
set_option autoImplicit false
set_option linter.unusedSectionVars false

namespace Verif.C114
open Verif TD LTask TR RV C48 C96 SBS Set C97 C110 Filter Topology

variable {w : World} {vn : VId → Nat} {un : Nat → VId}

/-! ## Feed-forward -/

/-- The control loop of `C97.Loop` for a task whose feed-forward term changes with the time, and a function that gives the difference between `F` and a reference `r` that moves. -/
structure Tracking (w : World) (vn : VId → Nat) (un : Nat → VId) (f : Fn ℝ) (T : ℝ → TaskObj ℝ) (F : Pt f → Nat → ℝ) (D : Nat → Pt f → Pt f →L[ℝ] ℝ) (o : ℝ → Outs ℝ) (e e2 : ℝ → Nat → ℝ)
    (usr : ℝ → UserCstr ℝ) (X : Path) (W : ℝ → Nat → Nat → ℝ) (r : ℝ → Nat → ℝ) : Prop where
  posed : ∀ t, 0 ≤ t → Posed w vn un (Tk.at f (T t) F D o e e2 t) (usr t)
  ok : ∀ t, 0 ≤ t → (Tk.at f (T t) F D o e e2 t).Ok X t
  decided : ∀ t, 0 ≤ t → Decided vn (Tk.at f (T t) F D o e e2 t) X t (W t)
  sat : ∀ t, 0 ≤ t → Sat w (usr t) (W t)
  value : ∀ t, 0 ≤ t → ∀ i < f.size, (o t).value i = F (point f X 0 t) i - r t i
  cont : ∀ v ∈ f.vars, ∀ c < f.dim v.base, ContinuousOn (X v c) (Ici 0)

section
variable {f : Fn ℝ} {F : Pt f → Nat → ℝ} {D : Nat → Pt f → Pt f →L[ℝ] ℝ} {o : ℝ → Outs ℝ} {e e2 : ℝ → Nat → ℝ} {usr : ℝ → UserCstr ℝ} {X : Path} {W : ℝ → Nat → Nat → ℝ}

/-- The value of a proportional dynamics with a feed-forward term -/
theorem ff_value {kp : Gain ℝ} {ff rhs : Vec ℝ} (hd : C64.Decoupled f.size kp) (t : CType) (y : Outs ℝ) {x : Vec ℝ} (hx : (Dyn.feedForward (.proportional kp) ff).value t (after f y) rhs = .ok () x) (i : Nat) :
    x.v i = -(C64.coef kp i * (y.value i - rhs.v i)) + ff.v i := by
  have h1 : (Dyn.proportional kp).value t (after f y) rhs = .ok () ⟨f.size, fun i => -(C64.coef kp i * (y.value i - rhs.v i))⟩ := C64.prop_decoupled kp _ hd _ _
  unfold Dyn.value at hx
  rw [h1] at hx
  simp only at hx
  split at hx
  · injection hx with _ hx
    rw [← hx]
    rfl
  · cases hx

/-- **C114** In the control loop, a task with a proportional dynamics and the feed-forward term `r' + kp s` keeps the difference of its function with the reference `r` in the relation of the task with `rhs + s`, plus an
error that vanishes at the rate of the gain. With `s = 0` the moving reference is followed; a feed-forward term that is not the velocity of the reference moves the target by the excess divided by the gain. -/
theorem C114_feedForward (hu : ∀ v, un (vn v) = v) {ty : CType} {kp : Gain ℝ} {l u : Vec ℝ} {ff : ℝ → Vec ℝ} {T : ℝ → TaskObj ℝ} {r : ℝ → Nat → ℝ} {r' : ℝ → ℝ}
    (hT : ∀ t, 0 ≤ t → makeTask f ty (.feedForward (.proportional kp) (ff t)) l = some (T t) ∨ makeTask2 f ty (.feedForward (.proportional kp) (ff t)) l u = some (T t)) (hd : C64.Decoupled f.size kp)
    (h : Tracking w vn un f T F D o e e2 usr X W r) (i : Nat) (hi : i < f.size) (hr : C64.Moves (fun t => r t i) r') (s : ℝ) (hff : ∀ t, 0 ≤ t → (ff t).v i = r' t + C64.coef kp i * s) (t : ℝ) (ht : 0 ≤ t) :
    Related ty (F (point f X 0 t) i - r t i) (l.v i + s + (F (point f X 0 0) i - r 0 i - (l.v i + s)) * Real.exp (-(C64.coef kp i * t)))
      (u.v i + s + (F (point f X 0 0) i - r 0 i - (u.v i + s)) * Real.exp (-(C64.coef kp i * t))) := by
  have he : ∀ q, 0 ≤ q → e q i = r' q + -(C64.coef kp i * (F (point f X 0 q) i - r q i - (l.v i + s))) := by
    intro q hq
    obtain ⟨t1, t2, t3, -⟩ := made_fields (hT q hq)
    obtain ⟨x, hx, -, hxe⟩ := (h.ok q hq).wants.first
    have hx : (T q).td.dyn.value (T q).td.type (after f (o q)) (T q).td.rhs = .ok () x := hx
    have hxe : x.v = e q := hxe
    rw [t2, t3] at hx
    rw [← hxe, ff_value hd _ _ hx, h.value q hq i hi, hff q hq]
    ring
  have he2 : ty = .doubleSided → ∀ q, 0 ≤ q → e2 q i = r' q + -(C64.coef kp i * (F (point f X 0 q) i - r q i - (u.v i + s))) := by
    intro hty q hq
    obtain ⟨t1, -, -, t4⟩ := made_fields (hT q hq)
    obtain ⟨d, hd1, hd2, hd3⟩ := t4 hty
    obtain ⟨d', x, hd', hx, -, hxe⟩ := (h.ok q hq).wants.second (t1.trans hty)
    have hd' : (T q).td2 = some d' := hd'
    rw [hd1] at hd'
    injection hd' with hd'
    subst hd'
    have hx : d.dyn.value d.type (after f (o q)) d.rhs = .ok () x := hx
    have hxe : x.v = e2 q := hxe
    rw [hd2, hd3] at hx
    rw [← hxe, ff_value hd _ _ hx, h.value q hq i hi, hff q hq]
    ring
  have hA : ∀ q, 0 ≤ q → ∃ d, HasDerivWithinAt (fun s => F (point f X 0 s) i) d (Ici q) q ∧ Related ty d (e q i) (e2 q i) := by
    intro q hq
    obtain ⟨t1, t2, -, -⟩ := made_fields (hT q hq)
    obtain ⟨d, hd, hR⟩ := (C97_task hu (h.posed q hq) (h.ok q hq) (h.decided q hq)).1.mp (h.sat q hq) i hi
    have ho : (Tk.at f (T q) F D o e e2 q).order = 1 := by
      show (T q).td.dyn.order.num = 1
      rw [t2]; rfl
    rw [ho] at hd
    have hR : Related (T q).type d (e q i) (e2 q i) := hR
    rw [t1] at hR
    exact ⟨d, hd, hR⟩
  choose! y' hy' hR using hA
  have hp : ContinuousOn (point f X 0) (Ici 0) := by
    refine continuousOn_pi.2 fun a => continuousOn_pi.2 fun c => ?_
    exact h.cont _ (List.get_mem _ _) c c.2
  have hF : Continuous fun p => F p i := continuous_iff_continuousAt.2 fun p => ((h.ok 0 le_rfl).diff i hi p).continuousAt
  have hm : C64.Moves (fun s => F (point f X 0 s) i - r s i) (fun s => y' s - r' s) :=
    ⟨(hF.comp_continuousOn hp).sub hr.1, fun q hq => (hy' q hq).sub (hr.2 q hq)⟩
  cases ty with
  | equal =>
    exact le_antisymm (stays_below _ _ _ _ hm (fun q hq => by have := hR q hq; have : y' q = e q i := this; have := he q hq; linarith) t ht)
      (stays_above _ _ _ _ hm (fun q hq => by have := hR q hq; have : y' q = e q i := this; have := he q hq; linarith) t ht)
  | greaterThan => exact stays_above _ _ _ _ hm (fun q hq => by have := hR q hq; have : e q i ≤ y' q := this; have := he q hq; linarith) t ht
  | lowerThan => exact stays_below _ _ _ _ hm (fun q hq => by have := hR q hq; have : y' q ≤ e q i := this; have := he q hq; linarith) t ht
  | doubleSided =>
    exact ⟨stays_above _ _ _ _ hm (fun q hq => by have := (hR q hq).1; have := he q hq; linarith) t ht,
      stays_below _ _ _ _ hm (fun q hq => by have := (hR q hq).2; have := he2 rfl q hq; linarith) t ht⟩

/-! ## Clamping -/

variable {T : TaskObj ℝ}

/-- The motion of a function with a clamped proportional dynamics: all the components of its derivative are multiplied by one factor, the greatest of those that the bounds admit. -/
theorem clamped_motion (hu : ∀ v, un (vn v) = v) {kp : Gain ℝ} {lo hi rhs : Vec ℝ} (hT : makeTask f .equal (.clamped (.proportional kp) lo hi) rhs = some T) (hd : C64.Decoupled f.size kp)
    (h : Loop w vn un f T F D o e e2 usr X W) :
    C44.Around f.size lo.v hi.v ∧ ∃ a : ℝ → ℝ, ∀ t, 0 ≤ t → IsGreatest (C44.Factors f.size lo.v hi.v fun i => -(C64.coef kp i * ((o t).value i - rhs.v i))) (a t) ∧
      ∀ i < f.size, HasDerivWithinAt (fun s => F (point f X 0 s) i) (a t * -(C64.coef kp i * (F (point f X 0 t) i - rhs.v i))) (Ici t) t := by
  obtain ⟨-, rfl, hac⟩ := task_fields _ _ _ _ _ hT
  have hs := (accepts_iff _ _ _).1 hac
  have hb : C44.Around f.size lo.v hi.v := hs.2.2.2
  refine ⟨hb, fun t => clampFactor f.size lo.v hi.v fun i => -(C64.coef kp i * ((o t).value i - rhs.v i)), fun t ht => ⟨C44.C44_greatest _ _ _ _ hb, fun i hi' => ?_⟩⟩
  obtain ⟨d, hd', hR⟩ := h.achieved hu t ht i hi'
  have hR : d = e t i := hR
  have hd' : HasDerivWithinAt (fun s => F (point f X 0 s) i) d (Ici t) t := hd'
  obtain ⟨x, hx, -, hxe⟩ := (h.ok t ht).wants.first
  have hx : (Dyn.clamped (.proportional kp) lo hi).value .equal (after f (o t)) rhs = .ok () x := hx
  have hxe : x.v = e t := hxe
  have h1 : (Dyn.proportional kp).value .equal (after f (o t)) rhs = .ok () ⟨f.size, fun i => -(C64.coef kp i * ((o t).value i - rhs.v i))⟩ := C64.prop_decoupled kp _ hd _ _
  unfold Dyn.value at hx
  rw [h1] at hx
  have hz : (after f (o t)).size = f.size := rfl
  simp only [hz, le_refl, if_true] at hx
  injection hx with _ hx
  have : d = (clampFactor f.size lo.v hi.v fun i => -(C64.coef kp i * ((o t).value i - rhs.v i))) * -(C64.coef kp i * (F (point f X 0 t) i - rhs.v i)) := by
    rw [hR, ← hxe, ← hx]
    simp only [clampValue]
    rw [h.value t ht i hi', mul_comm]
  rw [← this]
  exact hd'

/-- A positive number below finitely many positive numbers -/
theorem below_all (n : Nat) (m : Nat → ℝ) (hm : ∀ i < n, 0 < m i) : ∃ c, 0 < c ∧ c ≤ 1 ∧ ∀ i < n, c ≤ m i := by
  induction n with
  | zero => exact ⟨1, one_pos, le_rfl, fun i hi => absurd hi (by omega)⟩
  | succ n ih =>
    obtain ⟨c, h1, h2, h3⟩ := ih fun i hi => hm i (by omega)
    refine ⟨min c (m n), lt_min h1 (hm n (by omega)), le_trans (min_le_left _ _) h2, fun i hi => ?_⟩
    rcases Nat.lt_succ_iff_lt_or_eq.1 hi with hi | rfl
    · exact le_trans (min_le_left _ _) (h3 i hi)
    · exact min_le_right _ _

/-- **C114** In the control loop, an equality task with a clamped proportional dynamics of positive gains keeps the velocity of its function within the bounds, and the absolute value of no component of the error ever
increases. If no bound is zero, the error vanishes. -/
theorem C114_clamped (hu : ∀ v, un (vn v) = v) {kp : Gain ℝ} {lo hi rhs : Vec ℝ} (hT : makeTask f .equal (.clamped (.proportional kp) lo hi) rhs = some T) (hd : C64.Decoupled f.size kp)
    (hk : ∀ i < f.size, 0 < C64.coef kp i) (h : Loop w vn un f T F D o e e2 usr X W) :
    (∀ t, 0 ≤ t → ∀ i < f.size, ∃ d, HasDerivWithinAt (fun s => F (point f X 0 s) i) d (Ici t) t ∧ lo.v i ≤ d ∧ d ≤ hi.v i) ∧
    (∀ i < f.size, ∀ s t, 0 ≤ s → s ≤ t → |F (point f X 0 t) i - rhs.v i| ≤ |F (point f X 0 s) i - rhs.v i|) ∧
    ((∀ i < f.size, lo.v i < 0 ∧ 0 < hi.v i) → ∀ i < f.size, Tendsto (fun t => F (point f X 0 t) i) atTop (𝓝 (rhs.v i))) := by
  obtain ⟨hb, a, ha⟩ := clamped_motion hu hT hd h
  have a0 : ∀ t, 0 ≤ t → 0 ≤ a t := fun t ht => (ha t ht).1.1.1
  have hmv : ∀ i < f.size, C64.Moves (fun t => F (point f X 0 t) i - rhs.v i) (fun t => a t * -(C64.coef kp i * (F (point f X 0 t) i - rhs.v i))) := fun i hi' =>
    C64.moves_sub_const _ _ _ ⟨h.continuous hi', fun t ht => (ha t ht).2 i hi'⟩
  have hsq : ∀ i < f.size, C64.Moves (fun t => (F (point f X 0 t) i - rhs.v i) * (F (point f X 0 t) i - rhs.v i)) (fun t => -(2 * C64.coef kp i * a t * ((F (point f X 0 t) i - rhs.v i) * (F (point f X 0 t) i - rhs.v i)))) :=
    fun i hi' => C64.moves_congr _ _ _ (C64.moves_mul _ _ _ _ (hmv i hi') (hmv i hi')) fun t _ => by ring
  have hmono : ∀ i < f.size, ∀ s t, 0 ≤ s → s ≤ t → |F (point f X 0 t) i - rhs.v i| ≤ |F (point f X 0 s) i - rhs.v i| := by
    intro i hi' s t hs hst
    have := C64.not_increasing _ _ (hsq i hi') (fun q hq => by
      have := mul_nonneg (mul_nonneg (mul_nonneg zero_le_two (hk i hi').le) (a0 q hq)) (mul_self_nonneg (F (point f X 0 q) i - rhs.v i))
      linarith) s t hs hst
    exact sq_le_sq.1 (by simpa only [pow_two] using this)
  refine ⟨fun t ht i hi' => ⟨_, (ha t ht).2 i hi', ?_⟩, hmono, fun hn i hi' => ?_⟩
  · have := (ha t ht).1.1.2.2 i hi'
    simp only [h.value t ht i hi'] at this
    exact this
  · obtain ⟨c, c0, c1, hc⟩ := below_all f.size (fun j => min (-lo.v j) (hi.v j) / (C64.coef kp j * |F (point f X 0 0) j - rhs.v j| + 1)) (fun j hj => by
      have := mul_nonneg (hk j hj).le (abs_nonneg (F (point f X 0 0) j - rhs.v j))
      exact div_pos (lt_min (by linarith [(hn j hj).1]) (hn j hj).2) (by linarith))
    have hac : ∀ t, 0 ≤ t → c ≤ a t := by
      intro t ht
      refine (ha t ht).1.2 ⟨c0.le, c1, fun j hj => ?_⟩
      have k0 := hk j hj
      have h1 := hc j hj
      have h2 := mul_nonneg k0.le (abs_nonneg (F (point f X 0 0) j - rhs.v j))
      rw [le_div_iff₀ (by linarith)] at h1
      have h3 := hmono j hj 0 t le_rfl ht
      have h4 : |c * -(C64.coef kp j * ((o t).value j - rhs.v j))| ≤ min (-lo.v j) (hi.v j) := by
        rw [h.value t ht j hj, abs_mul, abs_neg, abs_mul, abs_of_pos c0, abs_of_pos k0]
        have h5 := mul_le_mul_of_nonneg_left h3 k0.le
        have h6 := mul_le_mul_of_nonneg_left h5 c0.le
        nlinarith
      obtain ⟨h7, h8⟩ := abs_le.1 h4
      have := min_le_left (-lo.v j) (hi.v j)
      have := min_le_right (-lo.v j) (hi.v j)
      constructor <;> simp only <;> linarith
    have h1 := stays_below (2 * C64.coef kp i * c) 0 _ _ (hsq i hi') (fun t ht => by
      have h2 := mul_le_mul_of_nonneg_left (hac t ht) (by have := hk i hi'; positivity : 0 ≤ 2 * C64.coef kp i)
      have h3 := mul_le_mul_of_nonneg_right h2 (mul_self_nonneg (F (point f X 0 t) i - rhs.v i))
      linarith)
    simp only [zero_add, sub_zero] at h1
    have hlim : Tendsto (fun t => (F (point f X 0 0) i - rhs.v i) * (F (point f X 0 0) i - rhs.v i) * Real.exp (-(2 * C64.coef kp i * c * t))) atTop (𝓝 0) := by
      have h2 : 0 < 2 * C64.coef kp i * c := by have := hk i hi'; positivity
      have h3 := (Real.tendsto_exp_neg_atTop_nhds_zero.comp (tendsto_id.const_mul_atTop h2)).const_mul ((F (point f X 0 0) i - rhs.v i) * (F (point f X 0 0) i - rhs.v i))
      rw [mul_zero] at h3
      exact h3
    have h4 : Tendsto (fun t => (F (point f X 0 t) i - rhs.v i) * (F (point f X 0 t) i - rhs.v i)) atTop (𝓝 0) :=
      squeeze_zero' (Eventually.of_forall fun t => mul_self_nonneg _) ((eventually_ge_atTop 0).mono fun t ht => h1 t ht) hlim
    have h5 : Tendsto (fun t => |F (point f X 0 t) i - rhs.v i|) atTop (𝓝 0) := by
      have := (Real.continuous_sqrt.tendsto 0).comp h4
      rw [Real.sqrt_zero] at this
      refine this.congr fun t => ?_
      simp [Real.sqrt_mul_self_eq_abs]
    have h6 := (tendsto_zero_iff_abs_tendsto_zero _).2 h5
    simpa using h6.add_const (rhs.v i)

/-- **C114** With a scalar gain, the error of a clamped proportional dynamics moves along a straight line. -/
theorem C114_clamped_straight (hu : ∀ v, un (vn v) = v) {k : ℝ} {lo hi rhs : Vec ℝ} (hT : makeTask f .equal (.clamped (.proportional (.scalar k)) lo hi) rhs = some T) (hk : 0 ≤ k)
    (h : Loop w vn un f T F D o e e2 usr X W) (i j : Nat) (hi' : i < f.size) (hj : j < f.size) (t : ℝ) (ht : 0 ≤ t) :
    (F (point f X 0 t) i - rhs.v i) * (F (point f X 0 0) j - rhs.v j) = (F (point f X 0 t) j - rhs.v j) * (F (point f X 0 0) i - rhs.v i) := by
  obtain ⟨hb, a, ha⟩ := clamped_motion hu hT trivial h
  have hmv : ∀ i < f.size, C64.Moves (fun t => F (point f X 0 t) i - rhs.v i) (fun t => a t * -(k * (F (point f X 0 t) i - rhs.v i))) := fun i hi' =>
    C64.moves_sub_const _ _ _ ⟨h.continuous hi', fun t ht => (ha t ht).2 i hi'⟩
  set ci := F (point f X 0 0) i - rhs.v i with hci
  set cj := F (point f X 0 0) j - rhs.v j with hcj
  have hw : C64.Moves (fun t => cj * (F (point f X 0 t) i - rhs.v i) + -ci * (F (point f X 0 t) j - rhs.v j))
      (fun t => cj * (a t * -(k * (F (point f X 0 t) i - rhs.v i))) + -ci * (a t * -(k * (F (point f X 0 t) j - rhs.v j)))) :=
    C64.moves_add _ _ _ _ (C64.moves_cmul cj _ _ (hmv i hi')) (C64.moves_cmul (-ci) _ _ (hmv j hj))
  have h2 := C64.not_increasing _ _ (C64.moves_mul _ _ _ _ hw hw) (fun q hq => by
    have := mul_nonneg (mul_nonneg (ha q hq).1.1.1 hk) (mul_self_nonneg (cj * (F (point f X 0 q) i - rhs.v i) + -ci * (F (point f X 0 q) j - rhs.v j)))
    nlinarith) 0 t le_rfl ht
  have h3 : cj * ci + -ci * cj = 0 := by ring
  simp only [← hci, ← hcj, h3, mul_zero] at h2
  have h4 := mul_self_eq_zero.1 (le_antisymm h2 (mul_self_nonneg _))
  linarith

/-- **C114** A bound that is zero is accepted, and stops the whole task: when a component is on the side from which this bound forbids to come back, no component of the function moves. -/
theorem C114_clamped_frozen (hu : ∀ v, un (vn v) = v) {kp : Gain ℝ} {lo hi rhs : Vec ℝ} (hT : makeTask f .equal (.clamped (.proportional kp) lo hi) rhs = some T) (hd : C64.Decoupled f.size kp)
    (h : Loop w vn un f T F D o e e2 usr X W) (i : Nat) (hi' : i < f.size) (hk : 0 < C64.coef kp i)
    (h0 : lo.v i = 0 ∧ rhs.v i < F (point f X 0 0) i ∨ hi.v i = 0 ∧ F (point f X 0 0) i < rhs.v i) (t : ℝ) (ht : 0 ≤ t) (j : Nat) (hj : j < f.size) :
    F (point f X 0 t) j = F (point f X 0 0) j := by
  obtain ⟨hb, a, ha⟩ := clamped_motion hu hT hd h
  obtain ⟨σ, hσ, hs0, hz⟩ : ∃ σ : ℝ, σ * σ = 1 ∧ 0 < σ * (F (point f X 0 0) i - rhs.v i) ∧ ∀ t, 0 ≤ t → 0 < σ * (F (point f X 0 t) i - rhs.v i) → a t = 0 := by
    rcases h0 with ⟨hl, hF⟩ | ⟨hl, hF⟩
    · refine ⟨1, by norm_num, by linarith, fun t ht hp => ?_⟩
      have := ((ha t ht).1.1.2.2 i hi').1
      simp only [h.value t ht i hi', hl] at this
      have h1 := (ha t ht).1.1.1
      have h2 : 0 < C64.coef kp i * (F (point f X 0 t) i - rhs.v i) := mul_pos hk (by linarith)
      by_contra hne
      have : 0 < a t := lt_of_le_of_ne h1 (Ne.symm hne)
      nlinarith
    · refine ⟨-1, by norm_num, by linarith, fun t ht hp => ?_⟩
      have := ((ha t ht).1.1.2.2 i hi').2
      simp only [h.value t ht i hi', hl] at this
      have h1 := (ha t ht).1.1.1
      have h2 : 0 < C64.coef kp i * -(F (point f X 0 t) i - rhs.v i) := mul_pos hk (by linarith)
      by_contra hne
      have : 0 < a t := lt_of_le_of_ne h1 (Ne.symm hne)
      nlinarith
  have hmv : ∀ j < f.size, C64.Moves (fun t => F (point f X 0 t) j - rhs.v j) (fun t => a t * -(C64.coef kp j * (F (point f X 0 t) j - rhs.v j))) := fun j hj =>
    C64.moves_sub_const _ _ _ ⟨h.continuous hj, fun t ht => (ha t ht).2 j hj⟩
  have hpos : ∀ t, 0 ≤ t → 0 < σ * (F (point f X 0 t) i - rhs.v i) := by
    intro t ht
    have := C64.not_increasing _ _ (C64.moves_cmul (-σ) _ _ (hmv i hi')) (fun q hq => by
      by_cases hp : 0 < σ * (F (point f X 0 q) i - rhs.v i)
      · rw [hz q hq hp]; simp
      · have h1 := mul_nonneg (mul_nonneg (ha q hq).1.1.1 hk.le) (neg_nonneg.2 (not_lt.1 hp))
        linarith) 0 t le_rfl ht
    linarith
  have := C64.moves_const _ (C64.moves_congr _ _ _ (hmv j hj) fun q hq => by rw [hz q hq (hpos q hq), zero_mul]) t ht
  linarith
end

/-! ## The hypotheses are met: the function `x` -/

section
/-- The motion `t + exp (-t)` -/
noncomputable def pathT : Path := fun m _ t => if m = ⟨0, 0⟩ then t + Real.exp (-t) else 1 - Real.exp (-t)

theorem pathT_deriv (t : ℝ) : HasDerivAt (pathT ⟨0, 0⟩ 0) (pathT ⟨0, 1⟩ 0 t) t := by
  have h1 : pathT ⟨0, 0⟩ 0 = fun t => t + Real.exp (-t) := by funext t; simp [pathT]
  have h2 : pathT ⟨0, 1⟩ 0 t = 1 + Real.exp (-t) * -1 := by simp [pathT]; ring
  rw [h1, h2]
  exact (hasDerivAt_id t).add ((hasDerivAt_id t).neg).exp

/-- The reference `t`, with its velocity as feed-forward term, followed from the error 1: the error is `exp (-t)`. -/
example (t : ℝ) (ht : 0 ≤ t) : linF (point square pathT 0 t) 0 - t = Real.exp (-t) := by
  have hv : ∀ y : ℝ, (Dyn.feedForward (.proportional (.scalar 1)) ⟨1, fun _ => 1⟩ : Dyn ℝ).value .equal (after square (C110.outs y)) ⟨1, fun _ => 0⟩ = .ok () ⟨1, fun _ => -(1 * (y - 0)) + 1⟩ := fun y => rfl
  have hL : Tracking w₃ vn₀ un₀ square (fun _ => oneT .equal (.feedForward (.proportional (.scalar 1)) ⟨1, fun _ => 1⟩) 0) linF linD (fun t => C110.outs (pathT ⟨0, 0⟩ 0 t - t))
      (fun t _ => -(1 * (pathT ⟨0, 0⟩ 0 t - t - 0)) + 1) (fun _ => 0) (fun t => oneC .equal (-(1 * (pathT ⟨0, 0⟩ 0 t - t - 0)) + 1)) pathT (fun t _ _ => pathT ⟨0, 1⟩ 0 t) (fun t _ => t) := by
    refine ⟨fun t _ => one_posed (by decide) rfl _ _ (hv _), fun t _ => one_ok (by decide) rfl _ _ (hv _) pathT t (pathT_deriv t).hasDerivWithinAt, fun t _ => one_decided rfl _ _ pathT t,
      fun t ht => one_sat _ _ ?_ (by decide), fun t _ i _ => rfl, ?_⟩
    · show pathT ⟨0, 1⟩ 0 t = _
      simp [pathT]; ring
    · intro v hv c hc
      have hv : v ∈ [(⟨0, 0⟩ : VId)] := hv
      have hc : c < 1 := hc
      rw [List.mem_singleton] at hv
      obtain rfl : c = 0 := by omega
      subst hv
      exact fun t _ => (pathT_deriv t).continuousAt.continuousWithinAt
  have hr : C64.Moves (fun t : ℝ => t) (fun _ => 1) := by simpa using C64.moves_lin 1
  have := C114_feedForward un_vn₀ (ty := .equal) (kp := .scalar 1) (l := ⟨1, fun _ => 0⟩) (u := ⟨1, fun _ => 0⟩) (ff := fun _ => ⟨1, fun _ => 1⟩)
    (fun t _ => Or.inl (by simp [makeTask, Dyn.impl, Dyn.accepts, implAccepts, propAccepts, square, oneT])) trivial hL 0 (by decide) hr 0 (fun t _ => by simp) t ht
  have this : linF (point square pathT 0 t) 0 - t = 0 + 0 + (pathT ⟨0, 0⟩ 0 0 - 0 - (0 + 0)) * Real.exp (-(1 * t)) := this
  rw [this]
  simp [pathT]

/-- The motion from 3 at the velocity `-1` until 1, then exponentially to 0 -/
noncomputable def pathK : Path := fun m _ t => if m = ⟨0, 0⟩ then (if t < 2 then 3 - t else Real.exp (2 - t)) else if t < 2 then -1 else -Real.exp (2 - t)

theorem pathK_deriv (t : ℝ) : HasDerivWithinAt (pathK ⟨0, 0⟩ 0) (pathK ⟨0, 1⟩ 0 t) (Ici t) t := by
  have h1 : pathK ⟨0, 0⟩ 0 = fun t => if t < 2 then 3 - t else Real.exp (2 - t) := by funext t; simp [pathK]
  have h2 : pathK ⟨0, 1⟩ 0 t = if t < 2 then -1 else -Real.exp (2 - t) := by simp [pathK]
  rw [h1, h2]
  by_cases h : t < 2
  · rw [if_pos h]
    have h3 : HasDerivAt (fun t : ℝ => 3 - t) (-1) t := (hasDerivAt_id t).const_sub 3
    refine h3.hasDerivWithinAt.congr_of_eventuallyEq ?_ (if_pos h)
    filter_upwards [mem_nhdsWithin_of_mem_nhds (Iio_mem_nhds h)] with y hy
    exact if_pos hy
  · rw [if_neg h]
    have h3 : HasDerivAt (fun t : ℝ => Real.exp (2 - t)) (-Real.exp (2 - t)) t := by
      have := ((hasDerivAt_id t).const_sub 2).exp
      refine this.congr_deriv ?_
      simp
    refine h3.hasDerivWithinAt.congr (fun y hy => ?_) (if_neg h)
    have : t ≤ y := hy
    exact if_neg (by linarith)

theorem pathK_cont : ContinuousOn (pathK ⟨0, 0⟩ 0) (Ici 0) := by
  have h1 : pathK ⟨0, 0⟩ 0 = fun t => if t < 2 then 3 - t else Real.exp (2 - t) := by funext t; simp [pathK]
  rw [h1]
  refine Continuous.continuousOn ?_
  have h2 : (fun t : ℝ => if t < 2 then 3 - t else Real.exp (2 - t)) = fun t : ℝ => if 2 ≤ t then Real.exp (2 - t) else 3 - t := by
    funext t
    by_cases h : t < 2
    · rw [if_pos h, if_neg (not_le.2 h)]
    · rw [if_neg h, if_pos (not_lt.1 h)]
  rw [h2]
  refine Continuous.if_le (by fun_prop) (by fun_prop) continuous_const continuous_id fun t ht => ?_
  have ht : (2 : ℝ) = t := ht
  rw [← ht]; norm_num

/-- A loop of the task `x = 0` of gain 1, clamped -/
theorem clamped_loop (X : Path) (lo hi : ℝ) (hX : ∀ t, HasDerivWithinAt (X ⟨0, 0⟩ 0) (X ⟨0, 1⟩ 0 t) (Ici t) t) (hc : ContinuousOn (X ⟨0, 0⟩ 0) (Ici 0))
    (hf : ∀ t, 0 ≤ t → X ⟨0, 1⟩ 0 t = -(1 * (X ⟨0, 0⟩ 0 t - 0)) * clampFactor 1 (fun _ => lo) (fun _ => hi) fun _ => -(1 * (X ⟨0, 0⟩ 0 t - 0))) :
    Loop w₃ vn₀ un₀ square (oneT .equal (.clamped (.proportional (.scalar 1)) ⟨1, fun _ => lo⟩ ⟨1, fun _ => hi⟩) 0) linF linD (fun t => C110.outs (X ⟨0, 0⟩ 0 t))
      (fun t _ => -(1 * (X ⟨0, 0⟩ 0 t - 0)) * clampFactor 1 (fun _ => lo) (fun _ => hi) fun _ => -(1 * (X ⟨0, 0⟩ 0 t - 0))) (fun _ => 0)
      (fun t => oneC .equal (-(1 * (X ⟨0, 0⟩ 0 t - 0)) * clampFactor 1 (fun _ => lo) (fun _ => hi) fun _ => -(1 * (X ⟨0, 0⟩ 0 t - 0)))) X (fun t _ _ => X ⟨0, 1⟩ 0 t) := by
  have hv : ∀ y : ℝ, (Dyn.clamped (.proportional (.scalar 1)) ⟨1, fun _ => lo⟩ ⟨1, fun _ => hi⟩ : Dyn ℝ).value .equal (after square (C110.outs y)) ⟨1, fun _ => 0⟩ =
      .ok () ⟨1, fun _ => -(1 * (y - 0)) * clampFactor 1 (fun _ => lo) (fun _ => hi) fun _ => -(1 * (y - 0))⟩ := fun y => rfl
  refine ⟨fun t _ => one_posed (by decide) rfl _ _ (hv _), fun t _ => one_ok (by decide) rfl _ _ (hv _) X t (hX t), fun t _ => one_decided rfl _ _ X t,
    fun t ht => one_sat _ _ (hf t ht) (by decide), fun t _ i _ => rfl, ?_⟩
  intro v hv c hc'
  have hv : v ∈ [(⟨0, 0⟩ : VId)] := hv
  have hc' : c < 1 := hc'
  rw [List.mem_singleton] at hv
  obtain rfl : c = 0 := by omega
  subst hv
  exact hc

theorem clamped_made (lo hi : ℝ) (h1 : lo ≤ 0) (h2 : 0 ≤ hi) :
    makeTask square .equal (.clamped (.proportional (.scalar 1)) ⟨1, fun _ => lo⟩ ⟨1, fun _ => hi⟩) ⟨1, fun _ => 0⟩ = some (oneT .equal (.clamped (.proportional (.scalar 1)) ⟨1, fun _ => lo⟩ ⟨1, fun _ => hi⟩) 0) := by
  have ha : (Dyn.clamped (.proportional (.scalar 1)) ⟨1, fun _ => lo⟩ ⟨1, fun _ => hi⟩ : Dyn ℝ).accepts square ⟨1, fun _ => 0⟩ = true := (accepts_iff _ _ _).2 ⟨⟨⟨rfl, rfl⟩, trivial⟩, rfl, rfl, fun i _ => ⟨h1, h2⟩⟩
  unfold makeTask Dyn.impl
  rw [if_pos ha]
  simp [oneT, square]

/-- With the bounds `-1` and `1`, the function goes from 3 to 0. -/
example : Tendsto (fun t => linF (point square pathK 0 t) 0) atTop (𝓝 0) := by
  refine (C114_clamped un_vn₀ (clamped_made (-1) 1 (by norm_num) (by norm_num)) trivial (fun i _ => by simp [C64.coef]) (clamped_loop pathK (-1) 1 pathK_deriv pathK_cont fun t ht => ?_)).2.2
    (fun i _ => ⟨by norm_num, by norm_num⟩) 0 (by decide)
  by_cases h : t < 2
  · have h1 : pathK ⟨0, 0⟩ 0 t = 3 - t := by simp [pathK, h]
    have h2 : pathK ⟨0, 1⟩ 0 t = -1 := by simp [pathK, h]
    rw [h1, h2]
    have h3 : -(1 * (3 - t - 0)) < -1 := by linarith
    have h4 : ¬ (1 : ℝ) < -(1 * (3 - t - 0)) := by linarith
    have h5 : (-1 : ℝ) / -(1 * (3 - t - 0)) < 1 := by rw [div_lt_one_of_neg (by linarith)]; exact h3
    simp only [clampFactor, List.range_one, List.foldl_cons, List.foldl_nil, clampStep, stdMin, if_neg h4, if_pos h3, if_pos h5]
    rw [mul_div_cancel₀]
    linarith
  · have h1 : pathK ⟨0, 0⟩ 0 t = Real.exp (2 - t) := by simp [pathK, h]
    have h2 : pathK ⟨0, 1⟩ 0 t = -Real.exp (2 - t) := by simp [pathK, h]
    rw [h1, h2]
    have h6 : Real.exp (2 - t) ≤ 1 := Real.exp_le_one_iff.2 (by linarith)
    have h7 := Real.exp_pos (2 - t)
    have h3 : ¬ -(1 * (Real.exp (2 - t) - 0)) < -1 := by linarith
    have h4 : ¬ (1 : ℝ) < -(1 * (Real.exp (2 - t) - 0)) := by linarith
    simp only [clampFactor, List.range_one, List.foldl_cons, List.foldl_nil, clampStep, if_neg h4, if_neg h3]
    ring

/-- With the bounds 0 and 1, the function stays at 3. -/
example (t : ℝ) (ht : 0 ≤ t) : ∃ X : Path, linF (point square X 0 0) 0 = 3 ∧ linF (point square X 0 t) 0 = 3 := by
  have hL := clamped_loop (fun m _ _ => if m = ⟨0, 0⟩ then 3 else 0) 0 1 (fun t => by simpa using hasDerivWithinAt_const t (Ici t) (3 : ℝ)) (by simpa using continuousOn_const) (fun t _ => by
    have h3 : -(1 * ((3 : ℝ) - 0)) < 0 := by norm_num
    have h4 : ¬ (1 : ℝ) < -(1 * (3 - 0)) := by norm_num
    simp [clampFactor, clampStep, stdMin]
    norm_num)
  refine ⟨fun m _ _ => if m = ⟨0, 0⟩ then 3 else 0, rfl, ?_⟩
  exact C114_clamped_frozen un_vn₀ (clamped_made 0 1 le_rfl (by norm_num)) trivial hL 0 (by decide) (by simp [C64.coef]) (Or.inl ⟨rfl, by show (0 : ℝ) < 3; norm_num⟩) t ht 0 (by decide)

/-- The function `x` for a variable of size 2, with its value `y` -/
noncomputable def plane : Fn ℝ := ⟨2, true, [⟨0, 0⟩], fun _ => 2, fun _ => false, fun _ => 0, fun _ => 0, fun _ => 0, fun _ i r => if i = r then 1 else 0, none⟩

@[inherit_doc plane]
noncomputable def outsP (y : Nat → ℝ) : Outs ℝ := ⟨y, fun _ => 0, fun _ => 0, fun _ i r => if i = r then 1 else 0⟩

/-- Variables of size 2 -/
def w₄ : World := ⟨fun _ => 2, fun _ => ⟨0, [], .asGiven⟩, fun _ => true⟩

/-- The components of a point -/
noncomputable def comp (i : Nat) : Pt plane →L[ℝ] ℝ :=
  if h : i < 2 then (ContinuousLinearMap.proj (R := ℝ) (φ := fun _ : Fin (plane.dim (plane.vars.get ⟨0, by simp [plane]⟩).base) => ℝ) ⟨i, h⟩).comp
    (ContinuousLinearMap.proj (R := ℝ) (φ := fun a : Fin plane.vars.length => Fin (plane.dim (plane.vars.get a).base) → ℝ) ⟨0, by simp [plane]⟩) else 0

/-- The task `x = 0` of gain 1, clamped between `-1` and 1 -/
noncomputable def planeT : TaskObj ℝ := ⟨.equal, ⟨.clamped (.proportional (.scalar 1)) ⟨2, fun _ => -1⟩ ⟨2, fun _ => 1⟩, .equal, ⟨2, fun _ => 0⟩⟩, none⟩

/-- The value of its dynamics -/
noncomputable def planeE (y : Nat → ℝ) : Nat → ℝ := clampValue 2 (fun _ => -1) (fun _ => 1) fun i => -(1 * (y i - 0))

theorem plane_value (y : Nat → ℝ) : (Dyn.clamped (.proportional (.scalar 1)) ⟨2, fun _ => -1⟩ ⟨2, fun _ => 1⟩ : Dyn ℝ).value .equal (after plane (outsP y)) ⟨2, fun _ => 0⟩ = .ok () ⟨2, planeE y⟩ := rfl

theorem plane_made : makeTask plane .equal (.clamped (.proportional (.scalar 1)) ⟨2, fun _ => -1⟩ ⟨2, fun _ => 1⟩) ⟨2, fun _ => 0⟩ = some planeT := by
  have ha : (Dyn.clamped (.proportional (.scalar 1)) ⟨2, fun _ => -1⟩ ⟨2, fun _ => 1⟩ : Dyn ℝ).accepts plane ⟨2, fun _ => 0⟩ = true :=
    (accepts_iff _ _ _).2 ⟨⟨⟨rfl, rfl⟩, trivial⟩, rfl, rfl, fun i _ => ⟨by norm_num, by norm_num⟩⟩
  unfold makeTask Dyn.impl
  rw [if_pos ha]
  simp [planeT, plane]

/-- What the solvers see of the task -/
noncomputable def planeC (y : Nat → ℝ) : UserCstr ℝ := ⟨.equal, .asGiven, 2, [1], fun m i r => if un₀ m = ⟨0, 1⟩ then if i = r then 1 else 0 else 0, planeE y, fun _ => 0, fun _ => 0⟩

theorem plane_posed (y : Nat → ℝ) : Posed w₄ vn₀ un₀ ⟨after plane (outsP y), planeT, fun p i => comp i p, fun i _ => comp i, planeE y, 0⟩ (planeC y) := by
  refine ⟨⟨⟨.equal, planeT.td, none, [⟨0, 1⟩]⟩, ?_, ?_⟩, fun _ _ => rfl⟩
  · show makeLTC (after plane (outsP y)) planeT = _
    unfold makeLTC
    simp [planeT, after, plane, LTask.addVar, VId.dot, Dyn.order]
  · have hup : LTC.update (⟨.equal, planeT.td, none, [⟨0, 1⟩]⟩ : LTC ℝ) (after plane (outsP y)) = .ok () ⟨none, none, some ⟨2, planeE y⟩⟩ := by
      have hv : planeT.td.dyn.value planeT.td.type (after plane (outsP y)) planeT.td.rhs = .ok () ⟨2, planeE y⟩ := plane_value y
      have h2 : planeT.td.dyn.order = .one := rfl
      unfold LTC.update LTC.side
      simp [hv, h2]
    have hv : [(⟨0, 1⟩ : VId)].map vn₀ = [1] := by decide
    show constraintOf vn₀ un₀ (after plane (outsP y)) _ = _
    unfold constraintOf planeC
    rw [hup]
    simp only [hv]
    congr 1
    rw [UserCstr.mk.injEq]
    refine ⟨rfl, rfl, rfl, rfl, ?_, rfl, rfl, rfl⟩
    funext m i r'
    generalize un₀ m = u
    obtain ⟨b, n⟩ := u
    have h1 : planeT.td.dyn.order.num = 1 := rfl
    unfold LTC.jacobian VId.primitive
    simp only [h1]
    have h2 : (after plane (outsP y)).vars = [⟨0, 0⟩] := rfl
    by_cases hn : 1 ≤ n
    · simp only [hn, if_true, h2, List.mem_singleton, VId.mk.injEq]
      by_cases hb : b = 0 ∧ n = 1
      · obtain ⟨rfl, rfl⟩ := hb
        simp [after, outsP]
      · rw [if_neg (by omega), if_neg hb]
    · have : ¬ (b = 0 ∧ n = 1) := by omega
      simp [hn, this]

/-- The motion of `pathK` and half of it -/
noncomputable def pathP : Path := fun m c t => if c = 0 then pathK m 0 t else pathK m 0 t / 2

theorem pathP_deriv (c : Nat) (t : ℝ) : HasDerivWithinAt (pathP ⟨0, 0⟩ c) (pathP ⟨0, 1⟩ c t) (Ici t) t := by
  by_cases h : c = 0
  · have h1 : ∀ m, pathP m c = pathK m 0 := fun m => by funext t; simp [pathP, h]
    rw [h1, h1]
    exact pathK_deriv t
  · have h1 : ∀ m, pathP m c = fun t => pathK m 0 t / 2 := fun m => by funext t; simp [pathP, h]
    rw [h1, h1]
    exact (pathK_deriv t).div_const 2

theorem comp_unit (i : Nat) (hi : i < 2) (a : Fin plane.vars.length) (c : Fin (plane.dim (plane.vars.get a).base)) : comp i (unit plane a c) = if i = c.1 then 1 else 0 := by
  have ha : a = ⟨0, by simp [plane]⟩ := Fin.ext (by have : a.1 < 1 := a.2; simp only; omega)
  subst ha
  unfold comp unit
  rw [dif_pos hi]
  show (Pi.single (M := fun a : Fin plane.vars.length => Fin (plane.dim (plane.vars.get a).base) → ℝ) ⟨0, by simp [plane]⟩ (Pi.single c (1 : ℝ))) ⟨0, by simp [plane]⟩ ⟨i, hi⟩ = _
  rw [Pi.single_eq_same]
  by_cases h : i = c.1
  · have : (⟨i, hi⟩ : Fin 2) = c := Fin.ext h
    rw [if_pos h]
    subst this
    exact Pi.single_eq_same _ _
  · rw [if_neg h]
    exact Pi.single_eq_of_ne (fun hc => h (congrArg Fin.val hc)) _

theorem comp_point (i : Nat) (hi : i < 2) (t : ℝ) : comp i (point plane pathP 0 t) = pathP ⟨0, 0⟩ i t := by
  unfold comp
  rw [dif_pos hi]
  rfl

theorem plane_speed (t : ℝ) (i : Nat) : pathP ⟨0, 1⟩ i t = planeE (fun i => pathP ⟨0, 0⟩ i t) i := by
  have hr : List.range 2 = [0, 1] := rfl
  have p0 : ∀ m, pathP m 0 t = pathK m 0 t := fun m => by simp [pathP]
  have p1 : ∀ m, pathP m 1 t = pathK m 0 t / 2 := fun m => by simp [pathP]
  have hf : ∀ s : ℝ, (clampFactor 2 (fun _ => (-1 : ℝ)) (fun _ => 1) fun i => -(1 * (pathP ⟨0, 0⟩ i t - 0))) = s → pathK ⟨0, 1⟩ 0 t = -(pathK ⟨0, 0⟩ 0 t) * s →
      pathP ⟨0, 1⟩ i t = planeE (fun i => pathP ⟨0, 0⟩ i t) i := by
    intro s hs h1
    unfold planeE clampValue
    rw [hs]
    simp only
    by_cases h : i = 0
    · subst h; rw [p0, p0, h1]; ring
    · have p2 : ∀ m, pathP m i t = pathK m 0 t / 2 := fun m => by simp [pathP, h]
      rw [p2, p2, h1]; ring
  by_cases h : t < 2
  · have h1 : pathK ⟨0, 0⟩ 0 t = 3 - t := by simp [pathK, h]
    have h2 : pathK ⟨0, 1⟩ 0 t = -1 := by simp [pathK, h]
    refine hf (-1 / -(1 * (3 - t - 0))) ?_ ?_
    · have h3 : -(1 * (3 - t - 0)) < -1 := by linarith
      have h4 : ¬ (1 : ℝ) < -(1 * (3 - t - 0)) := by linarith
      have h5 : (-1 : ℝ) / -(1 * (3 - t - 0)) < 1 := by rw [div_lt_one_of_neg (by linarith)]; exact h3
      have h6 : ¬ (1 : ℝ) < -(1 * ((3 - t) / 2 - 0)) := by linarith
      have h8 : ¬ (-1 / -(1 * ((3 - t) / 2 - 0))) < -1 / -(1 * (3 - t - 0)) := by
        rw [not_lt, show (-1 : ℝ) / -(1 * (3 - t - 0)) = 1 / (3 - t) by rw [div_eq_div_iff] <;> linarith, show (-1 : ℝ) / -(1 * ((3 - t) / 2 - 0)) = 2 / (3 - t) by rw [div_eq_div_iff] <;> linarith]
        exact div_le_div_of_nonneg_right (by norm_num) (by linarith)
      unfold clampFactor
      rw [hr]
      simp only [List.foldl_cons, List.foldl_nil, clampStep, stdMin, p0, p1, h1, if_neg h4, if_pos h3, if_pos h5, if_neg h6, if_neg h8, ite_self]
    · rw [h1, h2, mul_div_assoc']
      rw [eq_div_iff (by linarith)]; ring
  · have h1 : pathK ⟨0, 0⟩ 0 t = Real.exp (2 - t) := by simp [pathK, h]
    have h2 : pathK ⟨0, 1⟩ 0 t = -Real.exp (2 - t) := by simp [pathK, h]
    have h6 : Real.exp (2 - t) ≤ 1 := Real.exp_le_one_iff.2 (by linarith)
    have h7 := Real.exp_pos (2 - t)
    refine hf 1 ?_ (by rw [h1, h2]; ring)
    refine (C44.C44_unchanged _ _ _ _ fun i _ => ⟨by norm_num, by norm_num⟩).1.2 fun i _ => ?_
    by_cases hi : i = 0
    · subst hi
      simp only [p0, h1]
      constructor <;> linarith
    · have p2 : ∀ m, pathP m i t = pathK m 0 t / 2 := fun m => by simp [pathP, hi]
      simp only [p2, h1]
      constructor <;> linarith

theorem plane_loop : Loop w₄ vn₀ un₀ plane planeT (fun p i => comp i p) (fun i _ => comp i) (fun t => outsP fun i => pathP ⟨0, 0⟩ i t) (fun t => planeE fun i => pathP ⟨0, 0⟩ i t) (fun _ => 0)
    (fun t => planeC fun i => pathP ⟨0, 0⟩ i t) pathP (fun t _ c => pathP ⟨0, 1⟩ c t) := by
  refine ⟨fun t _ => plane_posed _, fun t _ => ⟨?_, ?_, ?_, fun i _ p => (comp i).hasFDerivAt, ?_, ?_, ?_⟩, fun t _ v hv c hc => ?_, fun t _ i hi => ?_, fun t _ i hi => (comp_point i hi t).symm, fun v hv c hc => ?_⟩
  · show [(⟨0, 0⟩ : VId)].Nodup
    decide
  · show Order.one ≠ .zero
    decide
  · exact ⟨⟨_, plane_value _, rfl, rfl⟩, fun h => by cases h⟩
  · intro j hj v hv c hc s hs
    have hj : j < 1 := hj
    have hv : v ∈ [(⟨0, 0⟩ : VId)] := hv
    rw [List.mem_singleton] at hv
    obtain rfl : j = 0 := by omega
    subst hv
    exact pathP_deriv c s
  · intro i hi a c
    have hi : i < 2 := hi
    exact (comp_unit i hi a c).symm
  · intro h
    cases h
  · have hv : v ∈ [(⟨0, 0⟩ : VId)] := hv
    rw [List.mem_singleton] at hv
    subst hv
    rfl
  · have h1 : un₀ 1 = ⟨0, 1⟩ := un_vn₀ ⟨0, 1⟩
    have hi : i < 2 := hi
    simp only [planeC, row, w₄, List.map_cons, List.map_nil, List.sum_cons, List.sum_nil, meant, h1, if_true, Finset.sum_range_succ, Finset.sum_range_zero]
    rw [← plane_speed]
    obtain rfl | rfl : i = 0 ∨ i = 1 := by omega
    · simp
    · simp
  · have hv : v ∈ [(⟨0, 0⟩ : VId)] := hv
    rw [List.mem_singleton] at hv
    subst hv
    by_cases h : c = 0
    · have h1 : pathP ⟨0, 0⟩ c = pathK ⟨0, 0⟩ 0 := by funext t; simp [pathP, h]
      rw [h1]; exact pathK_cont
    · have h1 : pathP ⟨0, 0⟩ c = fun t => pathK ⟨0, 0⟩ 0 t / 2 := by funext t; simp [pathP, h]
      rw [h1]; exact pathK_cont.div_const 2

/-- The function goes from `(3, 3/2)` to 0 with the second component equal to half of the first. -/
example (t : ℝ) (ht : 0 ≤ t) : comp 1 (point plane pathP 0 t) = comp 0 (point plane pathP 0 t) / 2 := by
  have := C114_clamped_straight un_vn₀ plane_made zero_le_one plane_loop 0 1 (by decide) (by decide) t ht
  simp only [sub_zero] at this
  have h0 : comp 0 (point plane pathP 0 0) = 3 := by rw [comp_point 0 (by decide)]; simp [pathP, pathK]
  have h1 : comp 1 (point plane pathP 0 0) = 3 / 2 := by rw [comp_point 1 (by decide)]; simp [pathP, pathK]
  rw [h0, h1] at this
  linarith
end

end Verif.C114
