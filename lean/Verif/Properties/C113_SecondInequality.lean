import Verif.Properties.C112_SampledSecond
/-!
# C113 Inequality tasks of the second order

The proportional derivative dynamics of an inequality task bounds the acceleration of the function. When the damping is at least the critical one, that is `kv = a + b` and `kp = a b`, an inequality that holds at the
beginning is never violated if the velocity at the beginning is not beyond `- a` times the distance to the limit; it may be violated otherwise.
-/
set_option autoImplicit false
set_option linter.unusedSectionVars false

namespace Verif.C113
open Verif TD LTask TR RV C48 C96 SBS Set C97 C110 C112 Filter Topology

variable {w : World} {vn : VId → Nat} {un : Nat → VId}

section
variable {f : Fn ℝ} {T : TaskObj ℝ} {F : Pt f → Nat → ℝ} {D : Nat → Pt f → Pt f →L[ℝ] ℝ} {o : ℝ → Outs ℝ} {e e2 : ℝ → Nat → ℝ} {usr : ℝ → UserCstr ℝ} {X : Path} {W : ℝ → Nat → Nat → ℝ}

/-- The values of the dynamics of the two sides of a task -/
theorem pd_sides {ty : TD.CType} {kp kv : Gain ℝ} {l u : Vec ℝ} (hT : makeTask f ty (.pd kp kv) l = some T ∨ makeTask2 f ty (.pd kp kv) l u = some T) (hp : C64.Decoupled f.size kp) (hv : C64.Decoupled f.size kv)
    {t : ℝ} (hw : Wants (after f (o t)) T (e t) (e2 t)) (i : Nat) :
    e t i = -(C64.coef kv i * (o t).velocity i) - C64.coef kp i * ((o t).value i - l.v i) ∧
      (ty = .doubleSided → e2 t i = -(C64.coef kv i * (o t).velocity i) - C64.coef kp i * ((o t).value i - u.v i)) := by
  obtain ⟨t1, t2, t3, t4⟩ := made_fields hT
  constructor
  · obtain ⟨x, hx, -, hxe⟩ := hw.first
    rw [t2, t3] at hx
    have hx : pdValue kp kv f.size (o t).value (o t).velocity l.v = .ok () x := hx
    rw [pd_value_decoupled hp hv] at hx
    injection hx with _ hx
    rw [← hxe, ← hx]
  · intro hty
    obtain ⟨d, hd1, hd2, hd3⟩ := t4 hty
    obtain ⟨d', x, hd', hx, -, hxe⟩ := hw.second (t1.trans hty)
    rw [hd1] at hd'
    injection hd' with hd'
    subst hd'
    rw [hd2, hd3] at hx
    have hx : pdValue kp kv f.size (o t).value (o t).velocity u.v = .ok () x := hx
    rw [pd_value_decoupled hp hv] at hx
    injection hx with _ hx
    rw [← hxe, ← hx]

/-- A motion whose acceleration is at least `- (a + b) v - a b (y - r)` -/
theorem second_above (a b r : ℝ) (y v v' : ℝ → ℝ) (hy : C64.Moves y v) (hv : C64.Moves v v') (h : ∀ t, 0 ≤ t → -((a + b) * v t) - a * b * (y t - r) ≤ v' t) (h0 : -(a * (y 0 - r)) ≤ v 0) (t : ℝ) (ht : 0 ≤ t) :
    r + (y 0 - r) * Real.exp (-(a * t)) ≤ y t := by
  refine stays_above a r y v hy (fun s hs => ?_) t ht
  have h1 : C64.Moves (fun t => v t + a * (y t - r)) (fun t => v' t + a * v t) := C64.moves_add _ _ _ _ hv (C64.moves_cmul a _ _ (C64.moves_sub_const r _ _ hy))
  have h2 := stays_above b 0 _ _ h1 (fun t ht => by
    have := h t ht
    nlinarith) s hs
  have h3 : 0 ≤ (v 0 + a * (y 0 - r) - 0) * Real.exp (-(b * s)) := mul_nonneg (by linarith) (Real.exp_nonneg _)
  linarith

theorem second_below (a b r : ℝ) (y v v' : ℝ → ℝ) (hy : C64.Moves y v) (hv : C64.Moves v v') (h : ∀ t, 0 ≤ t → v' t ≤ -((a + b) * v t) - a * b * (y t - r)) (h0 : v 0 ≤ -(a * (y 0 - r))) (t : ℝ) (ht : 0 ≤ t) :
    y t ≤ r + (y 0 - r) * Real.exp (-(a * t)) := by
  refine stays_below a r y v hy (fun s hs => ?_) t ht
  have h1 : C64.Moves (fun t => v t + a * (y t - r)) (fun t => v' t + a * v t) := C64.moves_add _ _ _ _ hv (C64.moves_cmul a _ _ (C64.moves_sub_const r _ _ hy))
  have h2 := stays_below b 0 _ _ h1 (fun t ht => by
    have := h t ht
    nlinarith) s hs
  have h3 : (v 0 + a * (y 0 - r) - 0) * Real.exp (-(b * s)) ≤ 0 := mul_nonpos_of_nonpos_of_nonneg (by linarith) (Real.exp_nonneg _)
  linarith

/-- **C113** In the control loop, a task with a proportional derivative dynamics of gains `kp = a b` and `kv = a + b` keeps its function in the relation of the task with the right-hand side plus an error that decreases
at the rate `a`, if at the beginning the velocity is in this relation with the velocity of this error. In particular an inequality that holds then is never violated. -/
theorem C113_pd (hu : ∀ v, un (vn v) = v) {ty : TD.CType} {kp kv : Gain ℝ} {l u : Vec ℝ} (hT : makeTask f ty (.pd kp kv) l = some T ∨ makeTask2 f ty (.pd kp kv) l u = some T)
    (hp : C64.Decoupled f.size kp) (hv : C64.Decoupled f.size kv) (h : Loop w vn un f T F D o e e2 usr X W) (hvel : ∀ t, 0 ≤ t → ∀ i < f.size, (o t).velocity i = D i (point f X 0 t) (point f X 1 t))
    (hvc : ∀ i < f.size, ContinuousOn (fun t => (o t).velocity i) (Ici 0)) (i : Nat) (hi : i < f.size) (a b : ℝ) (hkv : C64.coef kv i = a + b) (hkp : C64.coef kp i = a * b)
    (h0 : Related ty (D i (point f X 0 0) (point f X 1 0)) (-(a * (F (point f X 0 0) i - l.v i))) (-(a * (F (point f X 0 0) i - u.v i)))) (t : ℝ) (ht : 0 ≤ t) :
    Related ty (F (point f X 0 t) i) (l.v i + (F (point f X 0 0) i - l.v i) * Real.exp (-(a * t))) (u.v i + (F (point f X 0 0) i - u.v i) * Real.exp (-(a * t))) := by
  obtain ⟨t1, t2, t3, t4⟩ := made_fields hT
  have ho : ∀ s, (Tk.at f T F D o e e2 s).order = 2 := fun s => by
    show T.td.dyn.order.num = 2
    rw [t2]; rfl
  have h1 : ∀ s, 0 ≤ s → HasDerivWithinAt (fun s => F (point f X 0 s) i) ((o s).velocity i) (Ici s) s := by
    intro s hs
    rw [hvel s hs i hi]
    exact along_first (τ := Tk.at f T F D o e e2 s) (h.ok s hs).diff (h.ok s hs).moves (by rw [ho]; omega) hi (Or.inl rfl)
  have h2 : ∀ s, 0 ≤ s → ∃ d, HasDerivWithinAt (fun s => (o s).velocity i) d (Ici s) s ∧ Related ty d (e s i) (e2 s i) := by
    intro s hs
    obtain ⟨d, hd, hR⟩ := h.achieved hu s hs i hi
    rw [ho] at hd
    obtain ⟨g, hg1, hg2⟩ := hd
    have hg2 : HasDerivWithinAt g d (Ici s) s := hg2
    have hR : Related T.type d (e s i) (e2 s i) := hR
    rw [t1] at hR
    have hg : ∀ r, s ≤ r → (o r).velocity i = g r := fun r hr =>
      (uniqueDiffOn_Ici r r self_mem_Ici).eq_deriv _ (h1 r (le_trans hs hr)) (hg1 r hr)
    exact ⟨d, hg2.congr (fun r hr => hg r hr) (hg s le_rfl), hR⟩
  choose! v' hv' hR using h2
  have hs := fun s (hs : 0 ≤ s) => pd_sides hT hp hv (h.ok s hs).wants i
  simp only [hkv, hkp] at hs
  have my : C64.Moves (fun s => F (point f X 0 s) i) (fun s => (o s).velocity i) := ⟨h.continuous hi, h1⟩
  have mv : C64.Moves (fun s => (o s).velocity i) v' := ⟨hvc i hi, hv'⟩
  rw [← hvel 0 le_rfl i hi] at h0
  have el : ∀ s, 0 ≤ s → e s i = -((a + b) * (o s).velocity i) - a * b * (F (point f X 0 s) i - l.v i) := fun s hs0 => by rw [(hs s hs0).1, h.value s hs0 i hi]
  have eu : ty = .doubleSided → ∀ s, 0 ≤ s → e2 s i = -((a + b) * (o s).velocity i) - a * b * (F (point f X 0 s) i - u.v i) := fun hty s hs0 => by rw [(hs s hs0).2 hty, h.value s hs0 i hi]
  cases ty with
  | equal =>
    have h0 : (o 0).velocity i = _ := h0
    exact le_antisymm (second_below a b _ _ _ v' my mv (fun s hs => (el s hs ▸ hR s hs : v' s = _).le) h0.le t ht) (second_above a b _ _ _ v' my mv (fun s hs => (el s hs ▸ hR s hs : v' s = _).ge) h0.ge t ht)
  | greaterThan => exact second_above a b _ _ _ v' my mv (fun s hs => el s hs ▸ hR s hs) h0 t ht
  | lowerThan => exact second_below a b _ _ _ v' my mv (fun s hs => el s hs ▸ hR s hs) h0 t ht
  | doubleSided =>
    exact ⟨second_above a b _ _ _ v' my mv (fun s hs => el s hs ▸ (hR s hs).1) h0.1 t ht, second_below a b _ _ _ v' my mv (fun s hs => eu rfl s hs ▸ (hR s hs).2) h0.2 t ht⟩

/-! ## With a resolution every `dt` -/

/-- `be` and `ga` are the roots of the recurrence of the error (C112), both real and not negative; the slope `al` is the one of the eigenvector of `ga`. -/
structure Roots (kp kv h be ga al : ℝ) : Prop where
  sum : be + ga = 2 - kp * h ^ 2 / 2 - kv * h
  prod : be * ga = 1 - kv * h + kp * h ^ 2 / 2
  be0 : 0 ≤ be
  ga0 : 0 ≤ ga
  slope : al * (h - h ^ 2 / 2 * kv) = 1 - h ^ 2 / 2 * kp - ga

theorem Roots.facts {kp kv h be ga al : ℝ} (R : Roots kp kv h be ga al) (hh : 0 < h) (hS : Stable kp kv h) :
    0 < h - h ^ 2 / 2 * kv ∧ 0 < al ∧ ga < 1 ∧ al * (1 - h ^ 2 / 2 * kp) - h * kp = be * al ∧ al * (1 - ga) = h * (al * kv - kp) := by
  obtain ⟨s1, s2, s3⟩ := hS
  have hc : 0 < h - h ^ 2 / 2 * kv := by nlinarith
  have hP : (1 - h ^ 2 / 2 * kp - ga) * (1 - h ^ 2 / 2 * kp - be) = h * kp * (h - h ^ 2 / 2 * kv) := by
    have h1 := R.sum
    have h2 := R.prod
    linear_combination h2 - (1 - h ^ 2 / 2 * kp) * h1
  have hPs : 0 < (1 - h ^ 2 / 2 * kp - ga) + (1 - h ^ 2 / 2 * kp - be) := by
    have h1 := R.sum
    have : kp * h ^ 2 / 2 < kv * h := by nlinarith
    linarith
  have hPp : 0 < (1 - h ^ 2 / 2 * kp - ga) * (1 - h ^ 2 / 2 * kp - be) := by rw [hP]; positivity
  have hq : 0 < 1 - h ^ 2 / 2 * kp - ga := by
    by_contra hn
    push Not at hn
    nlinarith
  have hal : 0 < al := by
    by_contra hn
    push Not at hn
    have := mul_nonpos_of_nonpos_of_nonneg hn hc.le
    rw [R.slope] at this
    linarith
  have hga : ga < 1 := by
    have : 0 < h ^ 2 / 2 * kp := by positivity
    linarith
  have h1 : al * (1 - h ^ 2 / 2 * kp) - h * kp = be * al := by
    apply mul_right_cancel₀ hc.ne'
    have := R.slope
    linear_combination (1 - h ^ 2 / 2 * kp - be) * this + hP
  refine ⟨hc, hal, hga, h1, ?_⟩
  have := R.slope
  have h3 := R.sum
  -- the slope of the worst motion at the end of a step
  have h4 : al * be = al * (al * (h - h ^ 2 / 2 * kv) + 1 - h * kv) := by
    rw [this]
    linear_combination al * h3
  nlinarith [this, h1, h4]

/-- An error whose acceleration is at least the one of the dynamics, kept during each step: the error is not negative, at all times. -/
theorem orbit_above {kp kv h be ga al : ℝ} (R : Roots kp kv h be ga al) (hh : 0 < h) (hS : Stable kp kv h) {e v d : ℕ → ℝ} (hp : ∀ k, e (k + 1) = e k + h * v k + h ^ 2 / 2 * d k) (hv : ∀ k, v (k + 1) = v k + h * d k)
    (hd : ∀ k, -(kv * v k) - kp * e k ≤ d k) (he0 : 0 ≤ e 0) (hv0 : -(al * e 0) ≤ v 0) (k : ℕ) :
    ga ^ k * e 0 ≤ e k ∧ -(al * e k) ≤ v k ∧ ∀ s, 0 ≤ s → s ≤ h → 0 ≤ e k + s * v k + s ^ 2 / 2 * d k := by
  obtain ⟨hc, hal, hga, r1, r2⟩ := R.facts hh hS
  have key : ∀ k, ga ^ k * e 0 ≤ e k ∧ -(al * e k) ≤ v k := by
    intro k
    induction k with
    | zero => exact ⟨by simp, hv0⟩
    | succ k ih =>
      obtain ⟨i1, i2⟩ := ih
      have hek : 0 ≤ e k := le_trans (mul_nonneg (pow_nonneg R.ga0 k) he0) i1
      have h1 := mul_nonneg hc.le (by linarith : 0 ≤ v k + al * e k)
      have h2 := mul_nonneg (by positivity : 0 ≤ h ^ 2 / 2) (by linarith [hd k] : 0 ≤ d k + kv * v k + kp * e k)
      have hl := R.slope
      constructor
      · rw [hp, pow_succ]
        have h3 := mul_le_mul_of_nonneg_left i1 R.ga0
        have h4 : e k + h * v k + h ^ 2 / 2 * d k = ga * e k + (h - h ^ 2 / 2 * kv) * (v k + al * e k) + h ^ 2 / 2 * (d k + kv * v k + kp * e k) := by
          linear_combination (-e k) * hl
        rw [h4]
        nlinarith
      · rw [hp, hv]
        have h3 := mul_nonneg R.be0 (by linarith : 0 ≤ v k + al * e k)
        have h4 := mul_nonneg (by positivity : 0 ≤ h + al * (h ^ 2 / 2)) (by linarith [hd k] : 0 ≤ d k + kv * v k + kp * e k)
        have h5 : v k + h * d k + al * (e k + h * v k + h ^ 2 / 2 * d k) = be * (v k + al * e k) + (h + al * (h ^ 2 / 2)) * (d k + kv * v k + kp * e k) := by
          have hs := R.sum
          linear_combination (v k) * hl - (v k) * hs + (e k) * r1
        linarith
  refine ⟨(key k).1, (key k).2, fun s hs hs' => ?_⟩
  have hek : 0 ≤ e k := le_trans (mul_nonneg (pow_nonneg R.ga0 k) he0) (key k).1
  have h2 := mul_nonneg (by positivity : 0 ≤ s ^ 2 / 2) (by linarith [hd k] : 0 ≤ d k + kv * v k + kp * e k)
  have hcs : 0 ≤ s - s ^ 2 / 2 * kv := by
    obtain ⟨s1, s2, s3⟩ := hS
    have s4 : 0 < kv := by
      have : 0 < kp * h / 2 := by positivity
      linarith
    have : kv * s ≤ kv * h := mul_le_mul_of_nonneg_left hs' s4.le
    nlinarith
  have h1 := mul_nonneg hcs (by linarith [(key k).2] : 0 ≤ v k + al * e k)
  have h3 : 0 ≤ 1 - s ^ 2 / 2 * kp - al * (s - s ^ 2 / 2 * kv) := by
    have h4 : h * (1 - s ^ 2 / 2 * kp - al * (s - s ^ 2 / 2 * kv)) = h * ga + h * (al * ga * (h - s)) + (h - s) ^ 2 / 2 * (al * (1 - ga)) := by
      have hl := R.slope
      linear_combination (-h) * hl + (h ^ 2 / 2 - s ^ 2 / 2) * r2
    have h5 : 0 ≤ h * (1 - s ^ 2 / 2 * kp - al * (s - s ^ 2 / 2 * kv)) := by
      rw [h4]
      have := R.ga0
      have a1 : 0 ≤ h * ga := by positivity
      have a2 : 0 ≤ h * (al * ga * (h - s)) := mul_nonneg hh.le (mul_nonneg (mul_nonneg hal.le this) (by linarith))
      have a3 : 0 ≤ (h - s) ^ 2 / 2 * (al * (1 - ga)) := mul_nonneg (by positivity) (mul_nonneg hal.le (by linarith))
      linarith
    exact nonneg_of_mul_nonneg_right h5 hh
  have h6 := mul_nonneg h3 hek
  have h7 : e k + s * v k + s ^ 2 / 2 * d k = (1 - s ^ 2 / 2 * kp - al * (s - s ^ 2 / 2 * kv)) * e k + (s - s ^ 2 / 2 * kv) * (v k + al * e k) + s ^ 2 / 2 * (d k + kv * v k + kp * e k) := by ring
  linarith

/-- With the default damping and `sqrt kp * h ≤ 2 - sqrt 2`, the roots are real and not negative, and the slope is at least `sqrt kp`. -/
theorem roots_critical (kp h : ℝ) (hk : 0 < kp) (hh : 0 < h) (hS : Real.sqrt kp * h ≤ 2 - Real.sqrt 2) : ∃ be ga al, Roots kp (2 * Real.sqrt kp) h be ga al ∧ Real.sqrt kp ≤ al := by
  set q := Real.sqrt kp with hq
  have q0 : 0 < q := Real.sqrt_pos.2 hk
  have qq : q * q = kp := Real.mul_self_sqrt hk.le
  set c := q * h with hc
  have c0 : 0 < c := mul_pos q0 hh
  have r2 : Real.sqrt 2 * Real.sqrt 2 = 2 := Real.mul_self_sqrt (by norm_num)
  have r20 : 0 ≤ Real.sqrt 2 := Real.sqrt_nonneg 2
  have r21 : 1 < Real.sqrt 2 := by
    by_contra hn
    push Not at hn
    nlinarith
  have c1 : c < 1 := by linarith
  have kh : kp * h ^ 2 = c ^ 2 := by rw [← qq, hc]; ring
  have kvh : 2 * q * h = 2 * c := by rw [hc]; ring
  set Dl := c ^ 3 * (2 + c / 4) with hDl
  have D0 : 0 ≤ Dl := by positivity
  set sq := Real.sqrt Dl with hsq
  have s0 : 0 ≤ sq := Real.sqrt_nonneg _
  have ss : sq * sq = Dl := Real.mul_self_sqrt D0
  -- the product of the roots
  have hprod : 0 ≤ 1 - 2 * c + c ^ 2 / 2 := by
    have h1 : 0 ≤ (2 - Real.sqrt 2 - c) * (2 + Real.sqrt 2 - c) := mul_nonneg (by linarith) (by linarith)
    nlinarith
  have hsum : 0 ≤ 2 - c ^ 2 / 2 - 2 * c := by nlinarith
  have hTD : (2 - c ^ 2 / 2 - 2 * c) ^ 2 - 4 * (1 - 2 * c + c ^ 2 / 2) = Dl := by rw [hDl]; ring
  have hle : sq ≤ 2 - c ^ 2 / 2 - 2 * c := by
    by_contra hn
    push Not at hn
    nlinarith
  have hden : 0 < h - h ^ 2 / 2 * (2 * q) := by
    have : h - h ^ 2 / 2 * (2 * q) = h * (1 - c) := by rw [hc]; ring
    rw [this]
    exact mul_pos hh (by linarith)
  refine ⟨((2 - c ^ 2 / 2 - 2 * c) + sq) / 2, ((2 - c ^ 2 / 2 - 2 * c) - sq) / 2, (1 - h ^ 2 / 2 * kp - ((2 - c ^ 2 / 2 - 2 * c) - sq) / 2) / (h - h ^ 2 / 2 * (2 * q)), ⟨?_, ?_, by linarith, by linarith, ?_⟩, ?_⟩
  · rw [kh, kvh]; ring
  · rw [kvh, kh]
    linear_combination (1 / 4 : ℝ) * hTD - (1 / 4 : ℝ) * ss
  · exact div_mul_cancel₀ _ hden.ne'
  · rw [le_div_iff₀ hden]
    have h1 : q * (h - h ^ 2 / 2 * (2 * q)) = c - c ^ 2 := by rw [hc]; ring
    have h2 : h ^ 2 / 2 * kp = c ^ 2 / 2 := by linear_combination (1 / 2 : ℝ) * kh
    rw [h1, h2]
    nlinarith [sq_nonneg c]

/-- The function and the velocity at the times of the resolutions, and in between -/
theorem sampled_sides (hu : ∀ v, un (vn v) = v) {dt : ℝ} {ty : TD.CType} {kp kv : Gain ℝ} {l u : Vec ℝ} (hT : makeTask f ty (.pd kp kv) l = some T ∨ makeTask2 f ty (.pd kp kv) l u = some T)
    (hp : C64.Decoupled f.size kp) (hv : C64.Decoupled f.size kv) (h : Sampled2 w vn un dt f T F D o e e2 usr X W) (ha : Affine F D) (i : Nat) (hi : i < f.size) :
    ∃ d : ℕ → ℝ, (∀ k : ℕ, Related ty (d k) (-(C64.coef kv i * D i (point f X 0 (k * dt)) (point f X 1 (k * dt))) - C64.coef kp i * (F (point f X 0 (k * dt)) i - l.v i))
        (-(C64.coef kv i * D i (point f X 0 (k * dt)) (point f X 1 (k * dt))) - C64.coef kp i * (F (point f X 0 (k * dt)) i - u.v i))) ∧
      ∀ k : ℕ, ∀ s, 0 ≤ s → s ≤ dt → F (point f X 0 (k * dt + s)) i = F (point f X 0 (k * dt)) i + s * D i (point f X 0 (k * dt)) (point f X 1 (k * dt)) + s ^ 2 / 2 * d k ∧
        D i (point f X 0 (k * dt + s)) (point f X 1 (k * dt + s)) = D i (point f X 0 (k * dt)) (point f X 1 (k * dt)) + s * d k := by
  obtain ⟨t1, t2, -, -⟩ := made_fields hT
  choose d hR hs using fun k => step_second hu h ha (by rw [t2]; rfl) k i hi
  refine ⟨d, fun k => ?_, fun k s h1 h2 => ?_⟩
  · obtain ⟨e1, e2'⟩ := pd_sides hT hp hv (h.ok k).wants i
    have hR := hR k
    rw [t1, e1, h.value k i hi, h.velocity k i hi] at hR
    cases ty with
    | equal => exact hR
    | greaterThan => exact hR
    | lowerThan => exact hR
    | doubleSided =>
      rw [e2' rfl, h.value k i hi, h.velocity k i hi] at hR
      exact hR
  · have := hs k (k * dt + s) (by linarith) (by nlinarith)
    rwa [add_sub_cancel_left] at this

/-- **C113** With a resolution every `dt`, constant accelerations in between and an affine function, a task that holds at the beginning with a velocity not beyond `- al` times the distance to the limits holds at all
times, when the roots of the recurrence of the errors are real and not negative. -/
theorem C113_sampled (hu : ∀ v, un (vn v) = v) {dt : ℝ} {ty : TD.CType} {kp kv : Gain ℝ} {l u : Vec ℝ} (hT : makeTask f ty (.pd kp kv) l = some T ∨ makeTask2 f ty (.pd kp kv) l u = some T)
    (hp : C64.Decoupled f.size kp) (hv : C64.Decoupled f.size kv) (h : Sampled2 w vn un dt f T F D o e e2 usr X W) (ha : Affine F D) (hdt : 0 < dt) (i : Nat) (hi : i < f.size)
    (hS : Stable (C64.coef kp i) (C64.coef kv i) dt) {be ga al : ℝ} (R : Roots (C64.coef kp i) (C64.coef kv i) dt be ga al) (h0 : Related ty (F (point f X 0 0) i) (l.v i) (u.v i))
    (hv0 : Related ty (D i (point f X 0 0) (point f X 1 0)) (-(al * (F (point f X 0 0) i - l.v i))) (-(al * (F (point f X 0 0) i - u.v i)))) (t : ℝ) (ht : 0 ≤ t) :
    Related ty (F (point f X 0 t) i) (l.v i) (u.v i) := by
  obtain ⟨d, hR, hs⟩ := sampled_sides hu hT hp hv h ha i hi
  have c : ∀ k : ℕ, ((k + 1 : ℕ) : ℝ) * dt = k * dt + dt := fun k => by push_cast; ring
  have c0 : ((0 : ℕ) : ℝ) * dt = 0 := by simp
  -- the step of the time `t`
  obtain ⟨k, s, s0, s1, rfl⟩ : ∃ k : ℕ, ∃ s, 0 ≤ s ∧ s ≤ dt ∧ t = k * dt + s := by
    refine ⟨⌊t / dt⌋₊, t - ⌊t / dt⌋₊ * dt, ?_, ?_, by ring⟩
    · have := Nat.floor_le (div_nonneg ht hdt.le)
      rw [le_div_iff₀ hdt] at this
      linarith
    · have := (Nat.lt_floor_add_one (t / dt)).le
      rw [div_le_iff₀ hdt] at this
      linarith
  have above : ∀ r : ℝ, r ≤ F (point f X 0 0) i → -(al * (F (point f X 0 0) i - r)) ≤ D i (point f X 0 0) (point f X 1 0) →
      (∀ k : ℕ, -(C64.coef kv i * D i (point f X 0 (k * dt)) (point f X 1 (k * dt))) - C64.coef kp i * (F (point f X 0 (k * dt)) i - r) ≤ d k) → r ≤ F (point f X 0 (k * dt + s)) i := by
    intro r hr hvr hd
    have := (orbit_above R hdt hS (e := fun k => F (point f X 0 (k * dt)) i - r) (v := fun k => D i (point f X 0 (k * dt)) (point f X 1 (k * dt))) (d := d)
      (fun k => by simp only [c, (hs k dt hdt.le le_rfl).1]; ring) (fun k => by simp only [c, (hs k dt hdt.le le_rfl).2]) hd (by simp only [c0]; linarith) (by simp only [c0]; exact hvr) k).2.2 s s0 s1
    rw [(hs k s s0 s1).1]
    linarith
  have below : ∀ r : ℝ, F (point f X 0 0) i ≤ r → D i (point f X 0 0) (point f X 1 0) ≤ -(al * (F (point f X 0 0) i - r)) →
      (∀ k : ℕ, d k ≤ -(C64.coef kv i * D i (point f X 0 (k * dt)) (point f X 1 (k * dt))) - C64.coef kp i * (F (point f X 0 (k * dt)) i - r)) → F (point f X 0 (k * dt + s)) i ≤ r := by
    intro r hr hvr hd
    have := (orbit_above R hdt hS (e := fun k => r - F (point f X 0 (k * dt)) i) (v := fun k => -D i (point f X 0 (k * dt)) (point f X 1 (k * dt))) (d := fun k => -d k)
      (fun k => by simp only [c, (hs k dt hdt.le le_rfl).1]; ring) (fun k => by simp only [c, (hs k dt hdt.le le_rfl).2]; ring) (fun k => by have := hd k; linarith) (by simp only [c0]; linarith) (by simp only [c0]; linarith) k).2.2 s s0 s1
    rw [(hs k s s0 s1).1]
    linarith
  cases ty with
  | equal =>
    have h0 : F (point f X 0 0) i = l.v i := h0
    have hv0 : D i (point f X 0 0) (point f X 1 0) = _ := hv0
    exact le_antisymm (below _ h0.le hv0.le fun k => (hR k : d k = _).le) (above _ h0.ge hv0.ge fun k => (hR k : d k = _).ge)
  | greaterThan => exact above _ h0 hv0 hR
  | lowerThan => exact below _ h0 hv0 hR
  | doubleSided => exact ⟨above _ h0.1 hv0.1 fun k => (hR k).1, below _ h0.2 hv0.2 fun k => (hR k).2⟩

/-- **C113** With the default damping and `sqrt kp * dt ≤ 2 - sqrt 2`, a task that holds at the beginning with a velocity not beyond `- sqrt kp` times the distance to the limits holds at all times. -/
theorem C113_sampled_critical (hu : ∀ v, un (vn v) = v) {dt : ℝ} {ty : TD.CType} {kp : Gain ℝ} {S : Schur ℝ} {l u : Vec ℝ}
    (hT : makeTask f ty (.pd (pdCritical Real.sqrt S kp).1 (pdCritical Real.sqrt S kp).2) l = some T ∨ makeTask2 f ty (.pd (pdCritical Real.sqrt S kp).1 (pdCritical Real.sqrt S kp).2) l u = some T)
    (hp : C64.Decoupled f.size kp) (h : Sampled2 w vn un dt f T F D o e e2 usr X W) (ha : Affine F D) (hdt : 0 < dt) (i : Nat) (hi : i < f.size) (hk : 0 < C64.coef kp i)
    (hS : Real.sqrt (C64.coef kp i) * dt ≤ 2 - Real.sqrt 2) (h0 : Related ty (F (point f X 0 0) i) (l.v i) (u.v i))
    (hv0 : Related ty (D i (point f X 0 0) (point f X 1 0)) (-(Real.sqrt (C64.coef kp i) * (F (point f X 0 0) i - l.v i))) (-(Real.sqrt (C64.coef kp i) * (F (point f X 0 0) i - u.v i)))) (t : ℝ) (ht : 0 ≤ t) :
    Related ty (F (point f X 0 t) i) (l.v i) (u.v i) := by
  have hc : C64.Decoupled f.size (pdCritical Real.sqrt S kp).1 ∧ C64.Decoupled f.size (pdCritical Real.sqrt S kp).2 ∧ C64.coef (pdCritical Real.sqrt S kp).1 i = C64.coef kp i ∧
      C64.coef (pdCritical Real.sqrt S kp).2 i = 2 * Real.sqrt (C64.coef kp i) := by
    cases kp with
    | scalar k => exact ⟨trivial, trivial, rfl, rfl⟩
    | diag m d => exact ⟨hp, hp, rfl, rfl⟩
    | matrix r c M => exact hp.elim
  obtain ⟨c1, c2, c3, c4⟩ := hc
  obtain ⟨be, ga, al, R, hal⟩ := roots_critical _ dt hk hdt hS
  have hlt : Real.sqrt (C64.coef kp i) * dt < 1 := by
    have r2 : Real.sqrt 2 * Real.sqrt 2 = 2 := Real.mul_self_sqrt (by norm_num)
    have : 1 < Real.sqrt 2 := by
      by_contra hn
      push Not at hn
      nlinarith [Real.sqrt_nonneg 2]
    linarith
  refine C113_sampled hu hT c1 c2 h ha hdt i hi (be := be) (ga := ga) (al := al) (by rw [c3, c4]; exact (stable_critical _ _ hk).2 hlt) (by rw [c3, c4]; exact R) h0 ?_ t ht
  cases ty with
  | equal =>
    have h0 : F (point f X 0 0) i = l.v i := h0
    have hv0 : D i (point f X 0 0) (point f X 1 0) = _ := hv0
    show D i (point f X 0 0) (point f X 1 0) = _
    rw [hv0, h0]; ring
  | greaterThan =>
    have h0 : l.v i ≤ F (point f X 0 0) i := h0
    have hv0 : _ ≤ D i (point f X 0 0) (point f X 1 0) := hv0
    show _ ≤ D i (point f X 0 0) (point f X 1 0)
    nlinarith
  | lowerThan =>
    have h0 : F (point f X 0 0) i ≤ l.v i := h0
    have hv0 : D i (point f X 0 0) (point f X 1 0) ≤ _ := hv0
    show D i (point f X 0 0) (point f X 1 0) ≤ _
    nlinarith
  | doubleSided =>
    obtain ⟨a1, a2⟩ := h0
    obtain ⟨b1, b2⟩ := hv0
    constructor <;> nlinarith
end

/-! ## The hypotheses are met, and the one on the velocity is needed: the task `x ≥ 0` with the stiffness 1 and the damping 2 -/

section
/-- The motion `(1 + c t) exp (-t)` -/
noncomputable def pathC (c : ℝ) : Path := fun m _ t =>
  if m.order = 0 then (1 + c * t) * Real.exp (-t) else if m.order = 1 then (c - 1 - c * t) * Real.exp (-t) else (1 - 2 * c + c * t) * Real.exp (-t)

theorem pathC_deriv (c t : ℝ) : HasDerivAt (pathC c ⟨0, 0⟩ 0) (pathC c ⟨0, 1⟩ 0 t) t ∧ HasDerivAt (pathC c ⟨0, 1⟩ 0) (pathC c ⟨0, 2⟩ 0 t) t := by
  have hE : HasDerivAt (fun t : ℝ => Real.exp (-t)) (-Real.exp (-t)) t := by
    have := ((hasDerivAt_id t).neg).exp
    refine this.congr_deriv ?_
    simp
  have hl : HasDerivAt (fun t : ℝ => c * t) c t := by simpa using (hasDerivAt_id t).const_mul c
  constructor
  · have := (hl.const_add 1).fun_mul hE
    refine this.congr_deriv ?_
    simp [pathC]; ring
  · have := (hl.const_sub (c - 1)).fun_mul hE
    refine this.congr_deriv ?_
    simp [pathC]; ring

theorem loopC (c : ℝ) : Loop w₃ vn₀ un₀ square (oneT .greaterThan (.pd (.scalar 1) (.scalar 2)) 0) linF linD (fun t => outs3 (pathC c ⟨0, 0⟩ 0 t) (pathC c ⟨0, 1⟩ 0 t))
    (fun t _ => -(2 * pathC c ⟨0, 1⟩ 0 t) - 1 * (pathC c ⟨0, 0⟩ 0 t - 0)) (fun _ => 0) (fun t => twoC .greaterThan (-(2 * pathC c ⟨0, 1⟩ 0 t) - 1 * (pathC c ⟨0, 0⟩ 0 t - 0))) (pathC c)
    (fun t _ _ => pathC c ⟨0, 2⟩ 0 t) := by
  have hv : ∀ y z : ℝ, (Dyn.pd (.scalar 1) (.scalar 2) : Dyn ℝ).value .greaterThan (after square (outs3 y z)) ⟨1, fun _ => 0⟩ = .ok () ⟨1, fun _ => -(2 * z) - 1 * (y - 0)⟩ := fun y z =>
    pd_value_decoupled (kp := .scalar 1) (kv := .scalar 2) (n := 1) trivial trivial (fun _ => y) (fun _ => z) (fun _ => 0)
  refine ⟨fun t _ => two_posed (by decide) rfl _ _ _ (hv _ _), fun t _ => two_ok (by decide) rfl _ _ _ (hv _ _) _ _ fun s _ => ⟨(pathC_deriv c s).1.hasDerivWithinAt, (pathC_deriv c s).2.hasDerivWithinAt⟩,
    fun t _ => two_decided rfl _ _ _ _ _, fun t _ => two_sat (by decide) _ _ ?_, fun t _ i _ => rfl, ?_⟩
  · show _ ≤ pathC c ⟨0, 2⟩ 0 t
    have : pathC c ⟨0, 2⟩ 0 t = -(2 * pathC c ⟨0, 1⟩ 0 t) - 1 * (pathC c ⟨0, 0⟩ 0 t - 0) := by
      simp [pathC]; ring
    rw [this]
  · intro v hv c' hc
    have hv : v ∈ [(⟨0, 0⟩ : VId)] := hv
    have hc : c' < 1 := hc
    rw [List.mem_singleton] at hv
    obtain rfl : c' = 0 := by omega
    subst hv
    exact fun t _ => (pathC_deriv c t).1.continuousAt.continuousWithinAt

theorem taskC_made : makeTask square .greaterThan (.pd (.scalar 1) (.scalar 2)) ⟨1, fun _ => 0⟩ = some (oneT .greaterThan (.pd (.scalar 1) (.scalar 2)) 0) := by
  simp [makeTask, Dyn.impl, Dyn.accepts, implAccepts, gainFits, square, oneT]

/-- From `x = 1` with the velocity `-1/2`: the function stays above `exp (-t)`. -/
example (t : ℝ) (ht : 0 ≤ t) : Real.exp (-t) ≤ linF (point square (pathC (1 / 2)) 0 t) 0 := by
  have := C113_pd un_vn₀ (l := ⟨1, fun _ => 0⟩) (u := ⟨1, fun _ => 0⟩) (Or.inl taskC_made) trivial trivial (loopC (1 / 2)) (fun t _ i _ => rfl)
    (fun i _ t _ => (pathC_deriv (1 / 2) t).2.continuousAt.continuousWithinAt) 0 (by decide) 1 1 (by simp [C64.coef]; norm_num) (by simp [C64.coef]) (by
      show -(1 * (pathC (1 / 2) ⟨0, 0⟩ 0 0 - 0)) ≤ pathC (1 / 2) ⟨0, 1⟩ 0 0
      simp [pathC]) t ht
  have this : (0 : ℝ) + (pathC (1 / 2) ⟨0, 0⟩ 0 0 - 0) * Real.exp (-(1 * t)) ≤ linF (point square (pathC (1 / 2)) 0 t) 0 := this
  simpa [pathC] using this

/-- **C113** The hypothesis on the velocity is needed: from `x = 1` with the velocity `-3`, the task `x ≥ 0` is done at all times and the function is negative at the time 1. -/
theorem C113_not_kept : ∃ (T : TaskObj ℝ) (X : Path) (o : ℝ → Outs ℝ) (e e2 : ℝ → Nat → ℝ) (usr : ℝ → UserCstr ℝ) (W : ℝ → Nat → Nat → ℝ),
    makeTask square .greaterThan (.pd (.scalar 1) (.scalar 2)) ⟨1, fun _ => 0⟩ = some T ∧ Loop w₃ vn₀ un₀ square T linF linD o e e2 usr X W ∧
    (∀ t, (o t).velocity 0 = linD 0 (point square X 0 t) (point square X 1 t)) ∧ linF (point square X 0 0) 0 = 1 ∧ linF (point square X 0 1) 0 < 0 := by
  refine ⟨_, pathC (-2), _, _, _, _, _, taskC_made, loopC (-2), fun t => rfl, ?_, ?_⟩
  · show pathC (-2) ⟨0, 0⟩ 0 0 = 1
    simp [pathC]
  · show pathC (-2) ⟨0, 0⟩ 0 1 < 0
    have := Real.exp_pos (-1)
    simp [pathC]
    nlinarith

/-- The loop of period 1 along an orbit of the task `x ≥ 0` -/
theorem sampledC (S : Schur ℝ) (q : ℝ) (hq : 0 < q) (x0 v0 : ℝ) : ∃ (T : TaskObj ℝ) (X : Path) (o : ℝ → Outs ℝ) (e e2 : ℝ → Nat → ℝ) (usr : ℝ → UserCstr ℝ) (W : ℝ → Nat → Nat → ℝ),
    makeTask square .greaterThan (.pd (pdCritical Real.sqrt S (.scalar (q ^ 2))).1 (pdCritical Real.sqrt S (.scalar (q ^ 2))).2) ⟨1, fun _ => 0⟩ = some T ∧
    Sampled2 w₃ vn₀ un₀ 1 square T linF linD o e e2 usr X W ∧
    ∀ k : ℕ, linF (point square X 0 k) 0 = (orbit (q ^ 2) (2 * q) 1 x0 v0 k).1 ∧ linD 0 (point square X 0 k) (point square X 1 k) = (orbit (q ^ 2) (2 * q) 1 x0 v0 k).2 := by
  have hs : Real.sqrt (q ^ 2) = q := Real.sqrt_sq hq.le
  let p := orbit (q ^ 2) (2 * q) 1 x0 v0
  have hS := two_sampled (ty := .greaterThan) (d := .pd (pdCritical Real.sqrt S (.scalar (q ^ 2))).1 (pdCritical Real.sqrt S (.scalar (q ^ 2))).2) (r := 0) (x := fun k => (p k).1) (v := fun k => (p k).2)
    (a := fun k => -(2 * Real.sqrt (q ^ 2) * (p k).2) - q ^ 2 * ((p k).1 - 0)) (by decide) rfl (fun y z => -(2 * Real.sqrt (q ^ 2) * z) - q ^ 2 * (y - 0))
    (fun y z => C64.pd_decoupled Real.sqrt S (.scalar (q ^ 2)) 1 trivial (fun _ => y) (fun _ => z) (fun _ => 0))
    (fun k => by
      rw [hs]
      show (p k).1 + 1 * (p k).2 + 1 ^ 2 / 2 * (-(2 * q * (p k).2) - q ^ 2 * (p k).1) = _
      ring)
    (fun k => by
      rw [hs]
      show (p k).2 + 1 * (-(2 * q * (p k).2) - q ^ 2 * (p k).1) = _
      ring) (fun k => le_rfl)
  refine ⟨_, _, _, _, _, _, _, ?_, hS, fun k => ?_⟩
  · simp [makeTask, Dyn.impl, Dyn.accepts, implAccepts, gainFits, square, oneT, pdCritical]
  · have h0 := arcs_at (x := fun k => (p k).1) (v := fun k => (p k).2) (a := fun k => -(2 * Real.sqrt (q ^ 2) * (p k).2) - q ^ 2 * ((p k).1 - 0)) k
    exact ⟨h0.1, h0.2.1⟩

/-- With the period 1 and the stiffness `1/4` with its default damping: from `x = 1` at the velocity `-1/2`, the function is never negative. -/
example (S : Schur ℝ) (t : ℝ) (ht : 0 ≤ t) : ∃ X : Path, linF (point square X 0 0) 0 = 1 ∧ linD 0 (point square X 0 0) (point square X 1 0) = -1 / 2 ∧ 0 ≤ linF (point square X 0 t) 0 := by
  obtain ⟨T, X, o, e, e2, usr, W, hT, hS, hk⟩ := sampledC S (1 / 2) (by norm_num) 1 (-1 / 2)
  obtain ⟨hx, hv⟩ := hk 0
  rw [Nat.cast_zero] at hx hv
  have hx : _ = (1 : ℝ) := hx
  have hv : _ = (-1 / 2 : ℝ) := hv
  have hs : Real.sqrt ((1 / 2) ^ 2) = 1 / 2 := Real.sqrt_sq (by norm_num)
  refine ⟨X, hx, hv, ?_⟩
  refine C113_sampled_critical un_vn₀ (ty := .greaterThan) (l := ⟨1, fun _ => 0⟩) (u := ⟨1, fun _ => 0⟩) (Or.inl hT) trivial hS lin_affine one_pos 0 (by decide) ?_ ?_ ?_ ?_ t ht
  · show (0 : ℝ) < (1 / 2) ^ 2
    norm_num
  · show Real.sqrt ((1 / 2) ^ 2) * 1 ≤ _
    have : Real.sqrt 2 ≤ 3 / 2 := by
      rw [Real.sqrt_le_left (by norm_num)]; norm_num
    rw [hs]; linarith
  · show (0 : ℝ) ≤ _
    rw [hx]; norm_num
  · show -(Real.sqrt ((1 / 2) ^ 2) * (_ - 0)) ≤ _
    rw [hx, hv, hs]; norm_num

/-- **C113** The bound on the period is needed: with the default damping of the stiffness `(9/10)²` and the period 1, for which the errors vanish (C112), the task `x ≥ 0` is violated at the tenth resolution, from
`x = 1` at rest. -/
theorem C113_sampled_not_kept (S : Schur ℝ) : ∃ (T : TaskObj ℝ) (X : Path) (o : ℝ → Outs ℝ) (e e2 : ℝ → Nat → ℝ) (usr : ℝ → UserCstr ℝ) (W : ℝ → Nat → Nat → ℝ),
    makeTask square .greaterThan (.pd (pdCritical Real.sqrt S (.scalar ((9 / 10) ^ 2))).1 (pdCritical Real.sqrt S (.scalar ((9 / 10) ^ 2))).2) ⟨1, fun _ => 0⟩ = some T ∧
    Sampled2 w₃ vn₀ un₀ 1 square T linF linD o e e2 usr X W ∧ Stable ((9 / 10) ^ 2) (2 * Real.sqrt ((9 / 10) ^ 2)) 1 ∧
    linF (point square X 0 0) 0 = 1 ∧ linD 0 (point square X 0 0) (point square X 1 0) = 0 ∧ linF (point square X 0 10) 0 < 0 := by
  obtain ⟨T, X, o, e, e2, usr, W, hT, hS, hk⟩ := sampledC S (9 / 10) (by norm_num) 1 0
  obtain ⟨hx, hv⟩ := hk 0
  rw [Nat.cast_zero] at hx hv
  refine ⟨T, X, o, e, e2, usr, W, hT, hS, ?_, hx, hv, ?_⟩
  · rw [stable_critical _ _ (by norm_num), Real.sqrt_sq (by norm_num)]; norm_num
  · have := (hk 10).1
    rw [show ((10 : ℕ) : ℝ) = 10 by norm_num] at this
    rw [this]
    norm_num [orbit]
end

end Verif.C113
