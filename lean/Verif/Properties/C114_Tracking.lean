import Verif.Properties.C114_Composed
import Verif.Properties.C113_SecondInequality
/-!
# C114 Tasks of the second order that follow a reference

With the acceleration of the reference as feed-forward term of a proportional derivative dynamics, the difference with the reference behaves as if the reference did not move.
-/
set_option autoImplicit false
set_option linter.unusedSectionVars false

namespace Verif.C114
open Verif TD LTask TR RV C48 C96 SBS Set C97 C110 C112 Filter Topology

section
variable {w : World} {vn : VId → Nat} {un : Nat → VId}
variable {f : Fn ℝ} {F : Pt f → Nat → ℝ} {D : Nat → Pt f → Pt f →L[ℝ] ℝ} {o : ℝ → Outs ℝ} {e e2 : ℝ → Nat → ℝ} {usr : ℝ → UserCstr ℝ} {X : Path} {W : ℝ → Nat → Nat → ℝ}

/-- The value of a proportional derivative dynamics with a feed-forward term -/
theorem ff_pd_value {kp kv : Gain ℝ} {ff rhs : Vec ℝ} (hp : C64.Decoupled f.size kp) (hv : C64.Decoupled f.size kv) (t : CType) (y : Outs ℝ) {x : Vec ℝ}
    (hx : (Dyn.feedForward (.pd kp kv) ff).value t (after f y) rhs = .ok () x) (i : Nat) :
    x.v i = -(C64.coef kv i * y.velocity i) - C64.coef kp i * (y.value i - rhs.v i) + ff.v i := by
  have h1 : (Dyn.pd kp kv).value t (after f y) rhs = .ok () ⟨f.size, fun i => -(C64.coef kv i * y.velocity i) - C64.coef kp i * (y.value i - rhs.v i)⟩ := pd_value_decoupled hp hv _ _ _
  unfold Dyn.value at hx
  rw [h1] at hx
  simp only at hx
  split at hx
  · injection hx with _ hx
    rw [← hx]
    rfl
  · cases hx

variable {ty : CType} {kp kv : Gain ℝ} {l u : Vec ℝ} {ff : ℝ → Vec ℝ} {T : ℝ → TaskObj ℝ} {r : ℝ → Nat → ℝ} {r' r'' : ℝ → ℝ}

/-- The difference with the reference, its velocity and its acceleration -/
theorem tracked (hu : ∀ v, un (vn v) = v)
    (hT : ∀ t, 0 ≤ t → makeTask f ty (.feedForward (.pd kp kv) (ff t)) l = some (T t) ∨ makeTask2 f ty (.feedForward (.pd kp kv) (ff t)) l u = some (T t))
    (hp : C64.Decoupled f.size kp) (hv : C64.Decoupled f.size kv) (h : Tracking w vn un f T F D o e e2 usr X W r) (i : Nat) (hi : i < f.size)
    (hvel : ∀ t, 0 ≤ t → (o t).velocity i = D i (point f X 0 t) (point f X 1 t) - r' t) (hvc : ContinuousOn (fun t => D i (point f X 0 t) (point f X 1 t)) (Ici 0))
    (hr : C64.Moves (fun t => r t i) r') (hr' : C64.Moves r' r'') (hff : ∀ t, 0 ≤ t → (ff t).v i = r'' t) :
    ∃ a : ℝ → ℝ, C64.Moves (fun t => F (point f X 0 t) i - r t i) (fun t => D i (point f X 0 t) (point f X 1 t) - r' t) ∧ C64.Moves (fun t => D i (point f X 0 t) (point f X 1 t) - r' t) a ∧
      ∀ t, 0 ≤ t → Related ty (a t) (-(C64.coef kv i * (D i (point f X 0 t) (point f X 1 t) - r' t)) - C64.coef kp i * (F (point f X 0 t) i - r t i - l.v i))
        (-(C64.coef kv i * (D i (point f X 0 t) (point f X 1 t) - r' t)) - C64.coef kp i * (F (point f X 0 t) i - r t i - u.v i)) := by
  have he : ∀ q, 0 ≤ q → e q i = r'' q + (-(C64.coef kv i * (D i (point f X 0 q) (point f X 1 q) - r' q)) - C64.coef kp i * (F (point f X 0 q) i - r q i - l.v i)) := by
    intro q hq
    obtain ⟨t1, t2, t3, -⟩ := made_fields (hT q hq)
    obtain ⟨x, hx, -, hxe⟩ := (h.ok q hq).wants.first
    have hx : (T q).td.dyn.value (T q).td.type (after f (o q)) (T q).td.rhs = .ok () x := hx
    have hxe : x.v = e q := hxe
    rw [t2, t3] at hx
    rw [← hxe, ff_pd_value hp hv _ _ hx, h.value q hq i hi, hvel q hq, hff q hq]
    ring
  have he2 : ty = .doubleSided → ∀ q, 0 ≤ q → e2 q i = r'' q + (-(C64.coef kv i * (D i (point f X 0 q) (point f X 1 q) - r' q)) - C64.coef kp i * (F (point f X 0 q) i - r q i - u.v i)) := by
    intro hty q hq
    obtain ⟨t1, -, -, t4⟩ := made_fields (hT q hq)
    obtain ⟨d, hd1, hd2, hd3⟩ := t4 hty
    obtain ⟨d', x, hd', hx, -, hxe⟩ := (h.ok q hq).wants.second (t1.trans hty)
    have hd' : (T q).td2 = some d' := hd'
    rw [hd1] at hd'
    injection hd' with hd'
    subst hd'
    have hx : d.dyn.value d.type (after f (o q)) d.rhs = .ok () x := hx
    have hxe : x.v = e2 q := hxe
    rw [hd2, hd3] at hx
    rw [← hxe, ff_pd_value hp hv _ _ hx, h.value q hq i hi, hvel q hq, hff q hq]
    ring
  have ho : ∀ q, 0 ≤ q → (Tk.at f (T q) F D o e e2 q).order = 2 := fun q hq => by
    obtain ⟨-, t2, -, -⟩ := made_fields (hT q hq)
    show (T q).td.dyn.order.num = 2
    rw [t2]; rfl
  have h1 : ∀ q, 0 ≤ q → HasDerivWithinAt (fun s => F (point f X 0 s) i) (D i (point f X 0 q) (point f X 1 q)) (Ici q) q := fun q hq =>
    along_first (τ := Tk.at f (T q) F D o e e2 q) (h.ok q hq).diff (h.ok q hq).moves (by rw [ho q hq]; omega) hi (Or.inl rfl)
  have h2 : ∀ q, 0 ≤ q → ∃ d, HasDerivWithinAt (fun s => D i (point f X 0 s) (point f X 1 s)) d (Ici q) q ∧ Related ty d (e q i) (e2 q i) := by
    intro q hq
    obtain ⟨t1, -, -, -⟩ := made_fields (hT q hq)
    obtain ⟨d, hd, hR⟩ := (C97_task hu (h.posed q hq) (h.ok q hq) (h.decided q hq)).1.mp (h.sat q hq) i hi
    rw [ho q hq] at hd
    obtain ⟨g, hg1, hg2⟩ := hd
    have hg2 : HasDerivWithinAt g d (Ici q) q := hg2
    have hR : Related (T q).type d (e q i) (e2 q i) := hR
    rw [t1] at hR
    have hg : ∀ s, q ≤ s → D i (point f X 0 s) (point f X 1 s) = g s := fun s hs => (uniqueDiffOn_Ici s s self_mem_Ici).eq_deriv _ (h1 s (le_trans hq hs)) (hg1 s hs)
    exact ⟨d, hg2.congr (fun s hs => hg s hs) (hg q le_rfl), hR⟩
  choose! a ha hR using h2
  have hpt : ContinuousOn (point f X 0) (Ici 0) := by
    refine continuousOn_pi.2 fun a => continuousOn_pi.2 fun c => ?_
    exact h.cont _ (List.get_mem _ _) c c.2
  have hF : Continuous fun p => F p i := continuous_iff_continuousAt.2 fun p => ((h.ok 0 le_rfl).diff i hi p).continuousAt
  refine ⟨fun s => a s - r'' s, ⟨(hF.comp_continuousOn hpt).sub hr.1, fun q hq => (h1 q hq).sub (hr.2 q hq)⟩, ⟨hvc.sub hr'.1, fun q hq => (ha q hq).sub (hr'.2 q hq)⟩, fun q hq => ?_⟩
  have k := hR q hq
  have k1 := he q hq
  cases ty with
  | equal =>
    have k : a q = e q i := k
    show a q - r'' q = _
    linarith
  | greaterThan =>
    have k : e q i ≤ a q := k
    show _ ≤ a q - r'' q
    linarith
  | lowerThan =>
    have k : a q ≤ e q i := k
    show a q - r'' q ≤ _
    linarith
  | doubleSided =>
    have k2 := he2 rfl q hq
    exact ⟨by have := k.1; linarith, by have := k.2; linarith⟩

/-- **C114** In the control loop, a task with a proportional derivative dynamics of gains `kp = a b` and `kv = a + b`, and the acceleration of a reference as feed-forward term, keeps the difference of its function with the reference in the relation of the
task with the right-hand side plus an error that decreases at the rate `a`, if at the beginning the relative velocity is in this relation with the velocity of this error. -/
theorem C114_tracking_second (hu : ∀ v, un (vn v) = v)
    (hT : ∀ t, 0 ≤ t → makeTask f ty (.feedForward (.pd kp kv) (ff t)) l = some (T t) ∨ makeTask2 f ty (.feedForward (.pd kp kv) (ff t)) l u = some (T t))
    (hp : C64.Decoupled f.size kp) (hv : C64.Decoupled f.size kv) (h : Tracking w vn un f T F D o e e2 usr X W r) (i : Nat) (hi : i < f.size)
    (hvel : ∀ t, 0 ≤ t → (o t).velocity i = D i (point f X 0 t) (point f X 1 t) - r' t) (hvc : ContinuousOn (fun t => D i (point f X 0 t) (point f X 1 t)) (Ici 0))
    (hr : C64.Moves (fun t => r t i) r') (hr' : C64.Moves r' r'') (hff : ∀ t, 0 ≤ t → (ff t).v i = r'' t) (a b : ℝ) (hkv : C64.coef kv i = a + b) (hkp : C64.coef kp i = a * b)
    (h0 : Related ty (D i (point f X 0 0) (point f X 1 0) - r' 0) (-(a * (F (point f X 0 0) i - r 0 i - l.v i))) (-(a * (F (point f X 0 0) i - r 0 i - u.v i)))) (t : ℝ) (ht : 0 ≤ t) :
    Related ty (F (point f X 0 t) i - r t i) (l.v i + (F (point f X 0 0) i - r 0 i - l.v i) * Real.exp (-(a * t))) (u.v i + (F (point f X 0 0) i - r 0 i - u.v i) * Real.exp (-(a * t))) := by
  obtain ⟨v', my, mv, hR⟩ := tracked hu hT hp hv h i hi hvel hvc hr hr' hff
  rw [hkv, hkp] at hR
  cases ty with
  | equal =>
    have h0 : D i (point f X 0 0) (point f X 1 0) - r' 0 = _ := h0
    exact le_antisymm (C113.second_below a b _ _ _ v' my mv (fun s hs => (hR s hs : v' s = _).le) h0.le t ht) (C113.second_above a b _ _ _ v' my mv (fun s hs => (hR s hs : v' s = _).ge) h0.ge t ht)
  | greaterThan => exact C113.second_above a b _ _ _ v' my mv (fun s hs => hR s hs) h0 t ht
  | lowerThan => exact C113.second_below a b _ _ _ v' my mv (fun s hs => hR s hs) h0 t ht
  | doubleSided => exact ⟨C113.second_above a b _ _ _ v' my mv (fun s hs => (hR s hs).1) h0.1 t ht, C113.second_below a b _ _ _ v' my mv (fun s hs => (hR s hs).2) h0.2 t ht⟩

/-- **C114** From any initial state, an equality task with these dynamics follows the reference: the difference, whose values are combinations of `exp (-a t)` and `exp (-b t)`, tends to the right-hand side. -/
theorem C114_tracking_limit (hu : ∀ v, un (vn v) = v) (hT : ∀ t, 0 ≤ t → makeTask f .equal (.feedForward (.pd kp kv) (ff t)) l = some (T t))
    (hp : C64.Decoupled f.size kp) (hv : C64.Decoupled f.size kv) (h : Tracking w vn un f T F D o e e2 usr X W r) (i : Nat) (hi : i < f.size)
    (hvel : ∀ t, 0 ≤ t → (o t).velocity i = D i (point f X 0 t) (point f X 1 t) - r' t) (hvc : ContinuousOn (fun t => D i (point f X 0 t) (point f X 1 t)) (Ici 0))
    (hr : C64.Moves (fun t => r t i) r') (hr' : C64.Moves r' r'') (hff : ∀ t, 0 ≤ t → (ff t).v i = r'' t) (a b : ℝ) (hkv : C64.coef kv i = a + b) (hkp : C64.coef kp i = a * b) (hab : a ≠ b) :
    (∀ t, 0 ≤ t → (b - a) * (F (point f X 0 t) i - r t i - l.v i) = (D i (point f X 0 0) (point f X 1 0) - r' 0 + b * (F (point f X 0 0) i - r 0 i - l.v i)) * Real.exp (-(a * t)) -
      (D i (point f X 0 0) (point f X 1 0) - r' 0 + a * (F (point f X 0 0) i - r 0 i - l.v i)) * Real.exp (-(b * t))) ∧
    (0 < a → 0 < b → Tendsto (fun t => F (point f X 0 t) i - r t i) atTop (𝓝 (l.v i))) := by
  obtain ⟨v', my, mv, hR⟩ := tracked (u := l) hu (fun t ht => Or.inl (hT t ht)) hp hv h i hi hvel hvc hr hr' hff
  rw [hkv, hkp] at hR
  have key : ∀ p q : ℝ, p + q = a + b → p * q = a * b → ∀ t, 0 ≤ t → D i (point f X 0 t) (point f X 1 t) - r' t + p * (F (point f X 0 t) i - r t i - l.v i) =
      (D i (point f X 0 0) (point f X 1 0) - r' 0 + p * (F (point f X 0 0) i - r 0 i - l.v i)) * Real.exp (-(q * t)) := by
    intro p q h1 h2 t ht
    have hm := C64.moves_add _ _ _ _ mv (C64.moves_cmul p _ _ (C64.moves_sub_const (l.v i) _ _ my))
    have hd : ∀ s, 0 ≤ s → v' s + p * (D i (point f X 0 s) (point f X 1 s) - r' s) = -(q * (D i (point f X 0 s) (point f X 1 s) - r' s + p * (F (point f X 0 s) i - r s i - l.v i) - 0)) := by
      intro s hs
      have k : v' s = _ := hR s hs
      rw [k, ← h1, ← h2]
      ring
    have u1 := stays_above q 0 _ _ hm (fun s hs => (hd s hs).ge) t ht
    have u2 := stays_below q 0 _ _ hm (fun s hs => (hd s hs).le) t ht
    linarith
  have main : ∀ t, 0 ≤ t → (b - a) * (F (point f X 0 t) i - r t i - l.v i) = (D i (point f X 0 0) (point f X 1 0) - r' 0 + b * (F (point f X 0 0) i - r 0 i - l.v i)) * Real.exp (-(a * t)) -
      (D i (point f X 0 0) (point f X 1 0) - r' 0 + a * (F (point f X 0 0) i - r 0 i - l.v i)) * Real.exp (-(b * t)) := fun t ht => by
    rw [← key b a (by ring) (by ring) t ht, ← key a b rfl rfl t ht]
    ring
  refine ⟨main, fun ha hb => ?_⟩
  have hE : ∀ k : ℝ, 0 < k → Tendsto (fun t : ℝ => Real.exp (-(k * t))) atTop (𝓝 0) := fun k hk => Real.tendsto_exp_neg_atTop_nhds_zero.comp (tendsto_id.const_mul_atTop hk)
  have hba : b - a ≠ 0 := sub_ne_zero.2 (Ne.symm hab)
  have hlim := ((((hE a ha).const_mul (D i (point f X 0 0) (point f X 1 0) - r' 0 + b * (F (point f X 0 0) i - r 0 i - l.v i))).sub
    ((hE b hb).const_mul (D i (point f X 0 0) (point f X 1 0) - r' 0 + a * (F (point f X 0 0) i - r 0 i - l.v i)))).div_const (b - a)).add_const (l.v i)
  simp only [mul_zero, sub_zero, zero_div, zero_add] at hlim
  refine hlim.congr' ?_
  filter_upwards [eventually_ge_atTop 0] with t ht
  rw [← main t ht]
  field_simp
  ring

/-- **C114** With `kp = a²` and `kv = 2 a`, the default damping, the difference is the one of C64 for a target that does not move, and tends to the right-hand side. -/
theorem C114_tracking_critical (hu : ∀ v, un (vn v) = v) (hT : ∀ t, 0 ≤ t → makeTask f .equal (.feedForward (.pd kp kv) (ff t)) l = some (T t))
    (hp : C64.Decoupled f.size kp) (hv : C64.Decoupled f.size kv) (h : Tracking w vn un f T F D o e e2 usr X W r) (i : Nat) (hi : i < f.size)
    (hvel : ∀ t, 0 ≤ t → (o t).velocity i = D i (point f X 0 t) (point f X 1 t) - r' t) (hvc : ContinuousOn (fun t => D i (point f X 0 t) (point f X 1 t)) (Ici 0))
    (hr : C64.Moves (fun t => r t i) r') (hr' : C64.Moves r' r'') (hff : ∀ t, 0 ≤ t → (ff t).v i = r'' t) (a : ℝ) (ha : 0 < a) (hkv : C64.coef kv i = 2 * a) (hkp : C64.coef kp i = a ^ 2) :
    (∀ t, 0 ≤ t → F (point f X 0 t) i - r t i - l.v i = (F (point f X 0 0) i - r 0 i - l.v i + (D i (point f X 0 0) (point f X 1 0) - r' 0 + a * (F (point f X 0 0) i - r 0 i - l.v i)) * t) * Real.exp (-(a * t))) ∧
    Tendsto (fun t => F (point f X 0 t) i - r t i) atTop (𝓝 (l.v i)) := by
  obtain ⟨v', my, mv, hR⟩ := tracked (u := l) hu (fun t ht => Or.inl (hT t ht)) hp hv h i hi hvel hvc hr hr' hff
  have hs : Real.sqrt (a ^ 2) = a := Real.sqrt_sq ha.le
  let S : Schur ℝ := ⟨fun _ _ => 0, fun _ _ => 0⟩
  have hF : C64.FollowsPD (pdCritical Real.sqrt S (.scalar (a ^ 2))).1 (pdCritical Real.sqrt S (.scalar (a ^ 2))).2 1 l.v (fun t j => F (point f X 0 t) i - r t i - l.v i + l.v j)
      (fun t _ => D i (point f X 0 t) (point f X 1 t) - r' t) (fun t _ => v' t) := by
    refine ⟨fun j _ => ?_, fun j _ => mv, fun t ht => ⟨_, C64.pd_decoupled Real.sqrt S (.scalar (a ^ 2)) 1 trivial _ _ _, rfl, fun j _ => ?_⟩⟩
    · have := C64.moves_sub_const (l.v i - l.v j) _ _ my
      refine ⟨this.1.congr fun t _ => by ring, fun t ht => (this.2 t ht).congr (fun t _ => by ring) (by ring)⟩
    · have k : v' t = _ := hR t ht
      show v' t = -(2 * Real.sqrt (a ^ 2) * _) - a ^ 2 * _
      rw [k, hkv, hkp, hs]
      ring
  constructor
  · intro t ht
    have := C64.C64_critical (.scalar (a ^ 2)) 1 trivial S _ _ _ _ hF 0 one_pos (by show (0 : ℝ) ≤ a ^ 2; positivity) t ht
    simp only [C64.coef, hs, add_sub_cancel_right] at this
    exact this
  · have := (C64.C64_critical_limit (.scalar (a ^ 2)) 1 trivial S _ _ _ _ hF 0 one_pos (by show (0 : ℝ) < a ^ 2; positivity)).add_const (l.v i - l.v 0)
    have e1 : (fun t => F (point f X 0 t) i - r t i - l.v i + l.v 0 + (l.v i - l.v 0)) = fun t => F (point f X 0 t) i - r t i := by funext t; ring
    have e2 : l.v 0 + (l.v i - l.v 0) = l.v i := by ring
    rwa [e1, e2] at this

end

/-! ## The hypotheses are met: `x` follows the reference `t² / 2` with the gains `k` and `k + 1`, from `x = 1` at the velocity `-1` -/

section
noncomputable def path₇ : Path := fun m _ t => if m.order = 0 then t ^ 2 / 2 + Real.exp (-t) else if m.order = 1 then t - Real.exp (-t) else 1 + Real.exp (-t)

theorem half_sq (t : ℝ) : HasDerivAt (fun t : ℝ => t ^ 2 / 2) t t := by
  have h : HasDerivAt (fun t : ℝ => t * t / 2) ((1 * t + t * 1) / 2) t := ((hasDerivAt_id' t).fun_mul (hasDerivAt_id' t)).div_const 2
  have e : (fun t : ℝ => t ^ 2 / 2) = fun t => t * t / 2 := by funext t; ring
  rw [e]
  exact h.congr_deriv (by ring)

theorem path₇_deriv (t : ℝ) : HasDerivAt (path₇ ⟨0, 0⟩ 0) (path₇ ⟨0, 1⟩ 0 t) t ∧ HasDerivAt (path₇ ⟨0, 1⟩ 0) (path₇ ⟨0, 2⟩ 0 t) t := by
  have hE : HasDerivAt (fun t : ℝ => Real.exp (-t)) (-Real.exp (-t)) t := by
    refine ((hasDerivAt_id t).neg).exp.congr_deriv ?_
    simp
  have h2 := half_sq t
  constructor
  · refine (h2.add hE).congr_deriv ?_
    simp [path₇]; ring
  · refine ((hasDerivAt_id t).sub hE).congr_deriv ?_
    simp [path₇]

noncomputable def dyn₇ (k : ℝ) : Dyn ℝ := .feedForward (.pd (.scalar k) (.scalar (k + 1))) ⟨1, fun _ => 1⟩

theorem value₇ (k y z : ℝ) : (dyn₇ k).value .equal (after square (outs3 y z)) ⟨1, fun _ => 0⟩ = .ok () ⟨1, fun _ => -((k + 1) * z) - k * (y - 0) + 1⟩ := by
  have h1 : (Dyn.pd (.scalar k) (.scalar (k + 1)) : Dyn ℝ).value .equal (after square (outs3 y z)) ⟨1, fun _ => 0⟩ = .ok () ⟨1, fun _ => -((k + 1) * z) - k * (y - 0)⟩ :=
    pd_value_decoupled (kp := .scalar k) (kv := .scalar (k + 1)) (n := 1) trivial trivial (fun _ => y) (fun _ => z) (fun _ => 0)
  unfold dyn₇ Dyn.value
  rw [h1]
  rfl

theorem tracking₇ (k : ℝ) : Tracking w₃ vn₀ un₀ square (fun _ => oneT .equal (dyn₇ k) 0) linF linD (fun t => outs3 (Real.exp (-t)) (-Real.exp (-t))) (fun t _ => -((k + 1) * -Real.exp (-t)) - k * (Real.exp (-t) - 0) + 1) (fun _ => 0)
    (fun t => twoC .equal (-((k + 1) * -Real.exp (-t)) - k * (Real.exp (-t) - 0) + 1)) path₇ (fun t _ _ => path₇ ⟨0, 2⟩ 0 t) (fun t _ => t ^ 2 / 2) := by
  refine ⟨fun t _ => two_posed (by decide) rfl _ _ _ (value₇ k _ _), fun t _ => two_ok (by decide) rfl _ _ _ (value₇ k _ _) _ _ fun s _ => ⟨(path₇_deriv s).1.hasDerivWithinAt, (path₇_deriv s).2.hasDerivWithinAt⟩,
    fun t _ => two_decided rfl _ _ _ _ _, fun t _ => two_sat (by decide) _ _ ?_, fun t _ i _ => ?_, ?_⟩
  · show path₇ ⟨0, 2⟩ 0 t = _
    simp [path₇]; ring
  · show Real.exp (-t) = path₇ ⟨0, 0⟩ 0 t - t ^ 2 / 2
    simp [path₇]
  · intro v hv c' hc
    have hv : v ∈ [(⟨0, 0⟩ : VId)] := hv
    have hc : c' < 1 := hc
    rw [List.mem_singleton] at hv
    obtain rfl : c' = 0 := by omega
    subst hv
    exact fun t _ => (path₇_deriv t).1.continuousAt.continuousWithinAt

theorem made₇ (k : ℝ) : makeTask square .equal (.feedForward (.pd (.scalar k) (.scalar (k + 1))) ⟨1, fun _ => 1⟩) ⟨1, fun _ => 0⟩ = some (oneT .equal (dyn₇ k) 0) := by
  simp [makeTask, Dyn.impl, Dyn.accepts, implAccepts, gainFits, square, oneT, dyn₇]

theorem ref₇ : C64.Moves (fun t : ℝ => t ^ 2 / 2) (fun t => t) ∧ C64.Moves (fun t : ℝ => t) (fun _ => 1) :=
  ⟨⟨fun t _ => (half_sq t).continuousAt.continuousWithinAt, fun t _ => (half_sq t).hasDerivWithinAt⟩, ⟨continuousOn_id, fun t _ => (hasDerivAt_id t).hasDerivWithinAt⟩⟩

/-- The theorems apply: `x` is above the reference by `exp (-t)`, and tends to it. -/
example (t : ℝ) (ht : 0 ≤ t) : linF (point square path₇ 0 t) 0 - t ^ 2 / 2 = Real.exp (-t) ∧ Tendsto (fun t : ℝ => linF (point square path₇ 0 t) 0 - t ^ 2 / 2) atTop (𝓝 0) := by
  have hvel : ∀ t : ℝ, 0 ≤ t → -Real.exp (-t) = linD 0 (point square path₇ 0 t) (point square path₇ 1 t) - t := fun t _ => by
    show -Real.exp (-t) = path₇ ⟨0, 1⟩ 0 t - t
    simp [path₇]
  have hc : ContinuousOn (fun t => linD 0 (point square path₇ 0 t) (point square path₇ 1 t)) (Ici 0) := fun t _ => (path₇_deriv t).2.continuousAt.continuousWithinAt
  have hx : linF (point square path₇ 0 0) 0 = 1 := by
    show path₇ ⟨0, 0⟩ 0 0 = 1
    simp [path₇]
  constructor
  · have := C114_tracking_second un_vn₀ (u := ⟨1, fun _ => 0⟩) (fun _ _ => Or.inl (made₇ 2)) trivial trivial (tracking₇ 2) 0 (by decide) hvel hc ref₇.1 ref₇.2 (fun _ _ => rfl) 1 2 (by simp [C64.coef]; norm_num) (by simp [C64.coef]) (by
      show linD 0 (point square path₇ 0 0) (point square path₇ 1 0) - 0 = _
      rw [← hvel 0 le_rfl, hx]
      norm_num) t ht
    have this : _ = _ := this
    rw [this, hx]
    norm_num
  · exact (C114_tracking_limit un_vn₀ (fun _ _ => made₇ 2) trivial trivial (tracking₇ 2) 0 (by decide) hvel hc ref₇.1 ref₇.2 (fun _ _ => rfl) 1 2 (by simp [C64.coef]; norm_num) (by simp [C64.coef]) (by norm_num)).2 one_pos two_pos

/-- With the gains 1 and 2 -/
example (t : ℝ) (ht : 0 ≤ t) : linF (point square path₇ 0 t) 0 - t ^ 2 / 2 - 0 = (1 - 0 - 0 + (-1 - 0 + 1 * (1 - 0 - 0)) * t) * Real.exp (-(1 * t)) := by
  have hvel : ∀ t : ℝ, 0 ≤ t → -Real.exp (-t) = linD 0 (point square path₇ 0 t) (point square path₇ 1 t) - t := fun t _ => by
    show -Real.exp (-t) = path₇ ⟨0, 1⟩ 0 t - t
    simp [path₇]
  have hx : linF (point square path₇ 0 0) 0 = 1 := by
    show path₇ ⟨0, 0⟩ 0 0 = 1
    simp [path₇]
  have hy : linD 0 (point square path₇ 0 0) (point square path₇ 1 0) = -1 := by
    show path₇ ⟨0, 1⟩ 0 0 = -1
    simp [path₇]
  have := (C114_tracking_critical un_vn₀ (fun _ _ => made₇ 1) trivial trivial (tracking₇ 1) 0 (by decide) hvel (fun t _ => (path₇_deriv t).2.continuousAt.continuousWithinAt) ref₇.1 ref₇.2 (fun _ _ => rfl) 1 one_pos
    (by simp [C64.coef]; norm_num) (by simp [C64.coef])).1 t ht
  rw [hx, hy] at this
  simpa using this
end

end Verif.C114
