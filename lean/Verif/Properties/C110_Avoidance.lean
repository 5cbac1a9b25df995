import Verif.Model.DamperTask
import Verif.Properties.C97_Tasks
/-!
# C110 In the control loop, a task with a velocity damper keeps the safety distance

The specification is about the motion of the variables in continuous time, as for C97. Two loops are considered: the resolution at each time (`C97.Loop`), and the resolution at the times `k dt` with derivatives that are kept
between two of them (`Sampled`).
-/
set_option autoImplicit false
set_option linter.unusedSectionVars false

namespace Verif.C110
open Verif TD LTask TR RV C48 C96 SBS Set C97

/-! ## Specification -/

/-- The sides on which a task keeps a distance -/
def sides : TD.CType → List C45.Sense
  | .lowerThan => [.below]
  | .doubleSided => [.above, .below]
  | _ => [.above]

/-- The limit of a side: `l` and `u` are the bounds of a double-sided task, `l` is the right-hand side of the others. -/
def limit (ty : TD.CType) (l u : Nat → ℝ) (s : C45.Sense) : Nat → ℝ :=
  match ty, s with
  | .doubleSided, .below => u
  | _, _ => l

/-- The control loop with a resolution at the times `k dt`: between two of them, the variables move along straight lines. -/
structure Sampled (w : World) (vn : VId → Nat) (un : Nat → VId) (dt : ℝ) (f : Fn ℝ) (T : TaskObj ℝ) (F : Pt f → Nat → ℝ) (D : Nat → Pt f → Pt f →L[ℝ] ℝ) (o : ℝ → Outs ℝ) (e e2 : ℝ → Nat → ℝ)
    (usr : ℝ → UserCstr ℝ) (X : Path) (W : ℝ → Nat → Nat → ℝ) : Prop where
  posed : ∀ k : ℕ, Posed w vn un (Tk.at f T F D o e e2 (k * dt)) (usr (k * dt))
  ok : ∀ k : ℕ, (Tk.at f T F D o e e2 (k * dt)).Ok X (k * dt)
  decided : ∀ k : ℕ, Decided vn (Tk.at f T F D o e e2 (k * dt)) X (k * dt) (W (k * dt))
  sat : ∀ k : ℕ, Sat w (usr (k * dt)) (W (k * dt))
  value : ∀ k : ℕ, ∀ i < f.size, (o (k * dt)).value i = F (point f X 0 (k * dt)) i
  straight : ∀ k : ℕ, ∀ s, k * dt ≤ s → s ≤ (k + 1) * dt → ∀ v ∈ f.vars, ∀ c < f.dim v.base, X (v.dot 0) c s = X (v.dot 0) c (k * dt) + (s - k * dt) * X (v.dot 1) c (k * dt)

/-- The differential of the function is exact: the function is affine. -/
def Affine {f : Fn ℝ} (F : Pt f → Nat → ℝ) (D : Nat → Pt f → Pt f →L[ℝ] ℝ) : Prop := ∀ i < f.size, ∀ p q, F q i = F p i + D i p (q - p)

/-! ## The dynamics of a damper -/

theorem dyn_value {D : VD ℝ} {t : TD.CType} {f : Fn ℝ} {rhs x : Vec ℝ} (h : D.dyn.value t f rhs = .ok () x) {i : Nat} (hi : i < f.size) :
    (updateVD t D f.value f.velocity rhs.v).2 i = some (x.v i) := by
  have h : (if (List.range f.size).all fun i => ((updateVD t D f.value f.velocity rhs.v).2 i).isSome then
    (.ok () ⟨f.size, fun i => ((updateVD t D f.value f.velocity rhs.v).2 i).getD 0⟩ : Outcome Unit (Vec ℝ)) else .ub) = .ok () x := h
  split at h
  · rename_i ha
    injection h with _ h
    subst h
    have := List.all_eq_true.mp ha i (List.mem_range.mpr hi)
    obtain ⟨y, hy⟩ := Option.isSome_iff_exists.mp this
    simp [hy]
  · cases h

/-- The type given to the object of a side makes the damper compute as for this side (`updateValue` has two branches only). -/
theorem update_equal (D : VD ℝ) (f vel rhs : Nat → ℝ) : updateVD .equal D f vel rhs = updateVD .greaterThan D f vel rhs := by
  simp only [updateVD, reduceCtorEq, if_false]

/-- The value of the damper at the first order, whatever the velocity -/
theorem damper_first (s : C45.Sense) (D : VD ℝ) (xsi : Nat → ℝ) (h : C45.Fixed D xsi) (ho : D.order ≠ 2) (f vel rhs : Nat → ℝ) (i : Nat) (hi : i < D.n) :
    (updateVD s.type D f vel rhs).2 i = some (
      let d := s.dist (f i) (rhs i)
      let v := if D.di i < d then -D.big else -(xsi i * ((d - D.ds i) / (D.di i - D.ds i)))
      match s with | .above => v | .below => -v) :=
  C45.C45_value_first s D xsi h ho (fun _ => f) (fun _ => vel) rhs 0 i hi

variable {w : World} {vn : VId → Nat} {un : Nat → VId}

/-- What the task asks on each side, at a time at which it is achieved -/
theorem asks {f : Fn ℝ} {ty : TD.CType} {Dm : VD ℝ} {l u : Vec ℝ} {T : TaskObj ℝ} (hT : makeTask f ty Dm.dyn l = some T ∨ makeTask2 f ty Dm.dyn l u = some T) {o : Outs ℝ} {e e2 : Nat → ℝ}
    (hw : Wants (after f o) T e e2) {i : Nat} (hi : i < f.size) {d : ℝ} (hR : Related T.type d (e i) (e2 i)) {s : C45.Sense} (hs : s ∈ sides ty) :
    ∃ x, (updateVD s.type Dm o.value o.velocity (limit ty l.v u.v s)).2 i = some x ∧ s.Rel d x := by
  have hi' : i < (after f o).size := hi
  rcases hT with hT | hT
  · obtain ⟨h1, rfl, -⟩ := task_fields _ _ _ _ _ hT
    obtain ⟨x, hx, -, rfl⟩ := hw.first
    have hv := dyn_value hx hi'
    cases ty with
    | equal =>
      obtain rfl : s = .above := by simpa [sides] using hs
      have hv : (updateVD .equal Dm o.value o.velocity l.v).2 i = some (x.v i) := hv
      rw [update_equal] at hv
      exact ⟨_, hv, (hR : d = x.v i).ge⟩
    | greaterThan =>
      obtain rfl : s = .above := by simpa [sides] using hs
      exact ⟨_, hv, hR⟩
    | lowerThan =>
      obtain rfl : s = .below := by simpa [sides] using hs
      exact ⟨_, hv, hR⟩
    | doubleSided => exact absurd rfl h1
  · obtain ⟨rfl, rfl, -, -⟩ := task2_fields _ _ _ _ _ _ hT
    obtain ⟨x, hx, -, rfl⟩ := hw.first
    obtain ⟨d', y, hd', hy, -, rfl⟩ := hw.second rfl
    have hd' : some (⟨Dm.dyn, .lowerThan, u⟩ : Impl ℝ) = some d' := hd'
    injection hd' with hd'
    subst hd'
    have hR : x.v i ≤ d ∧ d ≤ y.v i := hR
    cases s with
    | above => exact ⟨_, dyn_value hx hi', hR.1⟩
    | below => exact ⟨_, dyn_value hy hi', hR.2⟩

/-! ## Motions -/

/-- A motion that does not increase when it is not negative does not become positive. -/
theorem stays_nonpos (g g' : ℝ → ℝ) (h : C64.Moves g g') (h0 : g 0 ≤ 0) (hg : ∀ t, 0 ≤ t → 0 ≤ g t → g' t ≤ 0) (t : ℝ) (ht : 0 ≤ t) : g t ≤ 0 := by
  have bar : ∀ ε : ℝ, 0 < ε → g t ≤ ε * (1 + t) := by
    intro ε hε
    refine image_le_of_deriv_right_lt_deriv_boundary' (f := g) (f' := g') (B := fun t => ε * (1 + t)) (B' := fun _ => ε) (a := 0) (b := t) (h.1.mono Icc_subset_Ici_self) (fun x hx => h.2 x hx.1)
      ?_ (by fun_prop) (fun x hx => ?_) (fun x hx he => ?_) ⟨ht, le_rfl⟩
    · simp only [add_zero, mul_one]; linarith
    · have := (((hasDerivAt_id x).const_add 1).const_mul ε).hasDerivWithinAt (s := Ici x)
      simpa using this
    · have hpos : 0 ≤ ε * (1 + x) := mul_nonneg hε.le (by linarith [hx.1])
      have he : g x = ε * (1 + x) := he
      have := hg x hx.1 (by linarith)
      linarith
  by_contra hc
  have hc := not_le.mp hc
  have := bar (g t / (2 * (1 + t))) (div_pos hc (by linarith))
  have h1t : (1 + t) ≠ 0 := by linarith
  have e : g t / (2 * (1 + t)) * (1 + t) = g t / 2 := by field_simp
  rw [e] at this
  linarith

/-- A distance whose rate is at least `-k (d - ds)` in the zone -/
theorem distance_kept (k ds di : ℝ) (hz : ds < di) (d d' : ℝ → ℝ) (hm : C64.Moves d d') (h : ∀ t, 0 ≤ t → d t ≤ di → -(k * (d t - ds)) ≤ d' t) (t : ℝ) (ht : 0 ≤ t) :
    ds + min 0 (d 0 - ds) * Real.exp (-(k * t)) ≤ d t := by
  have h1 := C64.moves_sub_const (max 0 (ds - d 0)) _ _ (C64.moves_cmul (-1) _ _ (C64.moves_mul _ _ _ _ (C64.moves_sub_const ds _ _ hm) (C64.moves_exp k)))
  have h2 := stays_nonpos _ _ h1 (by simp) (fun s hs hp => by
    have he := Real.exp_pos (k * s)
    have hmx : 0 ≤ max 0 (ds - d 0) := le_max_left _ _
    have hp' : (d s - ds) * Real.exp (k * s) ≤ 0 := by linarith
    have hd : d s - ds ≤ 0 := by
      by_contra hc
      have := mul_pos (not_le.mp hc) he
      linarith
    have h3 := h s hs (by linarith)
    have h4 : 0 ≤ (d' s + k * (d s - ds)) * Real.exp (k * s) := mul_nonneg (by linarith) he.le
    nlinarith [h4]) t ht
  have he : Real.exp (k * t) * Real.exp (-(k * t)) = 1 := by rw [← Real.exp_add, add_neg_cancel, Real.exp_zero]
  have h5 : -(max 0 (ds - d 0)) ≤ (d t - ds) * Real.exp (k * t) := by linarith
  have h6 := mul_le_mul_of_nonneg_right h5 (Real.exp_nonneg (-(k * t)))
  rw [mul_assoc, he, mul_one] at h6
  have h7 : min 0 (d 0 - ds) = -(max 0 (ds - d 0)) := by
    rcases le_total (ds - d 0) 0 with h | h
    · rw [max_eq_left h, min_eq_left (by linarith)]; simp
    · rw [max_eq_right h, min_eq_right (by linarith)]; ring
  rw [h7]
  linarith

theorem moves_dist (s : C45.Sense) (r : ℝ) (y y' : ℝ → ℝ) (h : C64.Moves y y') : C64.Moves (fun t => s.dist (y t) r) (fun t => s.rate (y' t)) := by
  cases s with
  | above => exact C64.moves_sub_const r _ _ h
  | below =>
    have h1 := C64.moves_cmul (-1) _ _ (C64.moves_sub_const r _ _ h)
    have e1 : (fun t => C45.Sense.below.dist (y t) r) = fun t => -1 * (y t - r) := by funext t; simp only [C45.Sense.dist]; ring
    have e2 : (fun t => C45.Sense.below.rate (y' t)) = fun t => -1 * y' t := by funext t; simp only [C45.Sense.rate]; ring
    rw [e1, e2]
    exact h1

/-- The bound of the damper, as a bound on the rate of the distance -/
theorem rate_bound (s : C45.Sense) (D : VD ℝ) (xsi : Nat → ℝ) (h : C45.Fixed D xsi) (ho : D.order ≠ 2) (f vel rhs : Nat → ℝ) (i : Nat) (hi : i < D.n) {d : ℝ}
    (hx : ∃ x, (updateVD s.type D f vel rhs).2 i = some x ∧ s.Rel d x) (hz : s.dist (f i) (rhs i) ≤ D.di i) :
    -(xsi i / (D.di i - D.ds i) * (s.dist (f i) (rhs i) - D.ds i)) ≤ s.rate d := by
  obtain ⟨x, hx, hr⟩ := hx
  rw [damper_first s D xsi h ho f vel rhs i hi, Option.some.injEq] at hx
  simp only [if_neg (not_lt.mpr hz)] at hx
  have e : xsi i / (D.di i - D.ds i) * (s.dist (f i) (rhs i) - D.ds i) = xsi i * ((s.dist (f i) (rhs i) - D.ds i) / (D.di i - D.ds i)) := by ring
  rw [e]
  cases s with
  | above =>
    have hr : x ≤ d := hr
    show _ ≤ d
    linarith
  | below =>
    have hr : d ≤ x := hr
    show _ ≤ -d
    linarith

/-! ## The theorems -/

/-- **C110** In the control loop, a task with a velocity damper (first order, fixed damping, as the constructors make it) keeps the function at the safety distance from its limits, if it is at this distance at the beginning. If
it is not, the distance that is missing decreases exponentially at the rate `xsi / (di - ds)`. -/
theorem C110_avoidance (hu : ∀ v, un (vn v) = v) {f : Fn ℝ} {ty : TD.CType} {di ds xsi off : Vec ℝ} {big : ℝ} {Dm : VD ℝ} (hl : C45.Legal di ds xsi off) (hx : xsi.v 0 ≠ 0)
    (hm : makeVD f.size none di ds xsi off big = .ok () Dm) {l u : Vec ℝ} {T : TaskObj ℝ} (hT : makeTask f ty Dm.dyn l = some T ∨ makeTask2 f ty Dm.dyn l u = some T) {F : Pt f → Nat → ℝ}
    {D : Nat → Pt f → Pt f →L[ℝ] ℝ} {o : ℝ → Outs ℝ} {e e2 : ℝ → Nat → ℝ} {usr : ℝ → UserCstr ℝ} {X : Path} {W : ℝ → Nat → Nat → ℝ} (h : Loop w vn un f T F D o e e2 usr X W)
    (s : C45.Sense) (hs : s ∈ sides ty) (i : Nat) (hi : i < f.size) (t : ℝ) (ht : 0 ≤ t) :
    let dist := fun t => s.dist (F (point f X 0 t) i) (limit ty l.v u.v s i)
    let safety := C45.spread ds i
    safety + min 0 (dist 0 - safety) * Real.exp (-(C45.spread xsi i / (C45.spread di i - safety) * t)) ≤ dist t := by
  obtain ⟨hn, -, -, hds, hdi, -, ho, -, hF, -⟩ := C45.C45_made _ _ _ _ _ _ _ _ hl hm
  obtain ⟨hF, -⟩ := hF hx
  have ho := ho rfl
  have hiD : i < Dm.n := by omega
  have hord : Dm.dyn.order = .one := by
    show (if Dm.order = 2 then Order.two else Order.one) = .one
    rw [if_neg (by omega)]
  have hTd : T.td.dyn = Dm.dyn := by
    rcases hT with hT | hT
    · obtain ⟨-, rfl, -⟩ := task_fields _ _ _ _ _ hT; rfl
    · obtain ⟨-, rfl, -, -⟩ := task2_fields _ _ _ _ _ _ hT; rfl
  have hA : ∀ r, 0 ≤ r → ∃ d, HasDerivWithinAt (fun r => F (point f X 0 r) i) d (Ici r) r ∧
      ∃ x, (updateVD s.type Dm (fun j => (o r).value j) (o r).velocity (limit ty l.v u.v s)).2 i = some x ∧ s.Rel d x := by
    intro r hr
    obtain ⟨d, hd, hR⟩ := h.achieved hu r hr i hi
    have ho : (Tk.at f T F D o e e2 r).order = 1 := by
      show T.td.dyn.order.num = 1
      rw [hTd, hord]; rfl
    rw [ho] at hd
    exact ⟨d, hd, asks hT (h.ok r hr).wants hi hR hs⟩
  choose! y' hy' hR using hA
  have hmv : C64.Moves (fun r => F (point f X 0 r) i) y' := ⟨h.continuous hi, hy'⟩
  have hkey := distance_kept (C45.spread xsi i / (Dm.di i - Dm.ds i)) (Dm.ds i) (Dm.di i) (hF.zone i hiD) _ _ (moves_dist s (limit ty l.v u.v s i) _ _ hmv) (fun r hr hz => by
    have hv : (o r).value i = F (point f X 0 r) i := h.value r hr i hi
    have := rate_bound s Dm _ hF (by omega) (o r).value (o r).velocity (limit ty l.v u.v s) i hiD (hR r hr) (by rw [hv]; exact hz)
    rw [hv] at this
    exact this) t ht
  rw [hds, hdi] at hkey
  exact hkey

/-- **C110** With a resolution every `dt` and an affine function, the safety distance is kept at all times, if the parameters are small enough for the period: `xsi dt ≤ di - ds`, and `big dt ≤ di - ds` or no step of the function is
longer than the zone `di - ds`. -/
theorem C110_sampled (hu : ∀ v, un (vn v) = v) {f : Fn ℝ} {ty : TD.CType} {di ds xsi off : Vec ℝ} {big dt : ℝ} {Dm : VD ℝ} (hl : C45.Legal di ds xsi off) (hx : xsi.v 0 ≠ 0)
    (hm : makeVD f.size none di ds xsi off big = .ok () Dm) {l u : Vec ℝ} {T : TaskObj ℝ} (hT : makeTask f ty Dm.dyn l = some T ∨ makeTask2 f ty Dm.dyn l u = some T) {F : Pt f → Nat → ℝ}
    {D : Nat → Pt f → Pt f →L[ℝ] ℝ} {o : ℝ → Outs ℝ} {e e2 : ℝ → Nat → ℝ} {usr : ℝ → UserCstr ℝ} {X : Path} {W : ℝ → Nat → Nat → ℝ} (h : Sampled w vn un dt f T F D o e e2 usr X W)
    (ha : Affine F D) (hdt : 0 < dt) (hxdt : ∀ i < f.size, C45.spread xsi i * dt ≤ C45.spread di i - C45.spread ds i) (hstep : ∀ i < f.size, big * dt ≤ C45.spread di i - C45.spread ds i ∨
      ∀ k : ℕ, |F (point f X 0 ((k + 1) * dt)) i - F (point f X 0 (k * dt)) i| ≤ C45.spread di i - C45.spread ds i)
    (s : C45.Sense) (hs : s ∈ sides ty) (h0 : ∀ i < f.size, C45.spread ds i ≤ s.dist (F (point f X 0 0) i) (limit ty l.v u.v s i)) (i : Nat) (hi : i < f.size) (t : ℝ) (ht : 0 ≤ t) :
    C45.spread ds i ≤ s.dist (F (point f X 0 t) i) (limit ty l.v u.v s i) := by
  obtain ⟨hn, -, hbig, hds, hdi, -, ho, -, hF, -⟩ := C45.C45_made _ _ _ _ _ _ _ _ hl hm
  obtain ⟨hF, -⟩ := hF hx
  have ho := ho rfl
  have hord : Dm.dyn.order = .one := by
    show (if Dm.order = 2 then Order.two else Order.one) = .one
    rw [if_neg (by omega)]
  have hTd : T.td.dyn = Dm.dyn := by
    rcases hT with hT | hT
    · obtain ⟨-, rfl, -⟩ := task_fields _ _ _ _ _ hT; rfl
    · obtain ⟨-, rfl, -, -⟩ := task2_fields _ _ _ _ _ _ hT; rfl
  let y : Nat → Nat → ℝ := fun k i => F (point f X 0 (k * dt)) i
  let c : Nat → Nat → ℝ := fun k i => D i (point f X 0 (k * dt)) (point f X 1 (k * dt))
  have hline : ∀ k : ℕ, ∀ r, k * dt ≤ r → r ≤ (k + 1) * dt → ∀ i < f.size, F (point f X 0 r) i = y k i + (r - k * dt) * c k i := by
    intro k r h1 h2 i hi
    have : point f X 0 r - point f X 0 (k * dt) = (r - k * dt) • point f X 1 (k * dt) := by
      funext a b
      have := h.straight k r h1 h2 (f.vars.get a) (List.get_mem _ _) b b.2
      simp only [Pi.sub_apply, Pi.smul_apply, smul_eq_mul, point, this]
      ring
    rw [ha i hi (point f X 0 (k * dt)) (point f X 0 r), this, map_smul, smul_eq_mul]
  have hobey : ∀ k : ℕ, ∀ i < f.size, ∃ x, (updateVD s.type Dm (y k) (o (k * dt)).velocity (limit ty l.v u.v s)).2 i = some x ∧ s.Rel (c k i) x := by
    intro k i hi
    have hk0 : (0 : ℝ) ≤ k * dt := mul_nonneg (Nat.cast_nonneg k) hdt.le
    obtain ⟨d, hd, hR⟩ := (C97_task hu (h.posed k) (h.ok k) (h.decided k)).1.mp (h.sat k) i hi
    have ho1 : (Tk.at f T F D o e e2 (k * dt)).order = 1 := by
      show T.td.dyn.order.num = 1
      rw [hTd, hord]; rfl
    rw [ho1] at hd
    have hd : HasDerivWithinAt (fun r => F (point f X 0 r) i) d (Ici (k * dt)) (k * dt) := hd
    have hc : HasDerivWithinAt (fun r => F (point f X 0 r) i) (c k i) (Ici (k * dt)) (k * dt) :=
      along_first (τ := Tk.at f T F D o e e2 (k * dt)) (h.ok k).diff (h.ok k).moves (by rw [ho1]; omega) hi (Or.inl rfl)
    have hdc : d = c k i := (uniqueDiffOn_Ici _ _ self_mem_Ici).eq_deriv _ hd hc
    subst hdc
    obtain ⟨x, hx, hr⟩ := asks hT (h.ok k).wants hi hR hs
    refine ⟨x, ?_, hr⟩
    rw [damper_first s Dm _ hF (by omega) _ _ _ i (by omega)] at hx ⊢
    rw [h.value k i hi] at hx
    exact hx
  have hfirst : C45.First s Dm dt y (fun k => match k with | 0 => fun _ => 0 | k + 1 => c k) (limit ty l.v u.v s) := by
    refine ⟨fun k i hi => ?_, fun k i hi => ?_⟩
    · have := hline k ((k + 1) * dt) (by nlinarith) le_rfl i (by omega)
      have e : ((k + 1 : ℕ) : ℝ) * dt = (k + 1) * dt := by push_cast; ring
      show F (point f X 0 ((k + 1 : ℕ) * dt)) i = y k i + dt * c k i
      rw [e, this]
      ring
    · obtain ⟨x, hx, hr⟩ := hobey k i (by omega)
      refine ⟨x, ?_, hr⟩
      rw [C45.C45_value_first s Dm _ hF (by omega) _ _ _ k i hi, ← hx, damper_first s Dm _ hF (by omega) _ _ _ i hi]
      cases s <;> rfl
  have hjump : C45.NoJump s Dm y (limit ty l.v u.v s) := by
    intro k i hi hout
    have hmv := hfirst.move k i hi
    rw [hdi] at hout
    rw [hds]
    rcases hstep i (by omega) with hb | hb
    · obtain ⟨x, hx, hr⟩ := hobey k i (by omega)
      rw [damper_first s Dm _ hF (by omega) _ _ _ i hi, Option.some.injEq] at hx
      simp only [hdi, if_pos hout, hbig] at hx
      cases s with
      | above =>
        have hr : x ≤ c k i := hr
        have hmv : y (k + 1) i = y k i + dt * c k i := hmv
        simp only [C45.Sense.dist] at hout ⊢
        nlinarith [mul_nonneg hdt.le (by linarith : 0 ≤ c k i + big)]
      | below =>
        have hr : c k i ≤ x := hr
        have hmv : y (k + 1) i = y k i + dt * c k i := hmv
        simp only [C45.Sense.dist] at hout ⊢
        nlinarith [mul_nonneg hdt.le (by linarith : 0 ≤ big - c k i)]
    · have h2 := hb k
      have e : y (k + 1) i = F (point f X 0 ((k + 1) * dt)) i := by
        show F (point f X 0 ((k + 1 : ℕ) * dt)) i = _
        push_cast; rfl
      rw [← e] at h2
      obtain ⟨h3, h4⟩ := abs_le.mp h2
      cases s with
      | above =>
        simp only [C45.Sense.dist] at hout ⊢
        show _ ≤ y (k + 1) i - _
        have : F (point f X 0 (k * dt)) i = y k i := rfl
        linarith
      | below =>
        simp only [C45.Sense.dist] at hout ⊢
        show _ ≤ _ - y (k + 1) i
        have : F (point f X 0 (k * dt)) i = y k i := rfl
        linarith
  have hsafe := C45.C45_safe_first s Dm _ hF (by omega) dt hdt.le (fun i hi => by rw [hdi, hds]; exact hxdt i (by omega)) _ _ _ hfirst hjump (fun i hi => by
    show Dm.ds i ≤ s.dist (F (point f X 0 ((0 : ℕ) * dt)) i) _
    rw [hds, Nat.cast_zero, zero_mul]
    exact h0 i (by omega))
  obtain ⟨k, hk1, hk2⟩ : ∃ k : ℕ, (k : ℝ) * dt ≤ t ∧ t ≤ (k + 1) * dt := by
    refine ⟨⌊t / dt⌋₊, ?_, ?_⟩
    · have := Nat.floor_le (div_nonneg ht hdt.le)
      calc (⌊t / dt⌋₊ : ℝ) * dt ≤ t / dt * dt := mul_le_mul_of_nonneg_right this hdt.le
        _ = t := by field_simp
    · have := (Nat.lt_floor_add_one (t / dt)).le
      calc t = t / dt * dt := by field_simp
        _ ≤ (⌊t / dt⌋₊ + 1) * dt := mul_le_mul_of_nonneg_right this hdt.le
  have hA : C45.spread ds i ≤ s.dist (y k i) (limit ty l.v u.v s i) := by have := hsafe k i (by omega); rw [← hds]; exact this
  have hB : C45.spread ds i ≤ s.dist (y (k + 1) i) (limit ty l.v u.v s i) := by have := hsafe (k + 1) i (by omega); rw [← hds]; exact this
  have hB' : y (k + 1) i = y k i + dt * c k i := hfirst.move k i (by omega)
  rw [hB'] at hB
  rw [hline k t hk1 hk2 i hi]
  have hθ : 0 ≤ t - k * dt := by linarith
  have hθ' : t - k * dt ≤ dt := by linarith
  cases s with
  | above =>
    simp only [C45.Sense.dist] at hA hB ⊢
    by_cases hc : 0 ≤ c k i
    · nlinarith [mul_nonneg hθ hc]
    · nlinarith [mul_nonneg (by linarith : 0 ≤ dt - (t - k * dt)) (by linarith : 0 ≤ -c k i)]
  | below =>
    simp only [C45.Sense.dist] at hA hB ⊢
    by_cases hc : 0 ≤ c k i
    · nlinarith [mul_nonneg (by linarith : 0 ≤ dt - (t - k * dt)) hc]
    · nlinarith [mul_nonneg hθ (by linarith : 0 ≤ -c k i)]

/-! ## The hypotheses are met: the function `x` and the task `x ≥ 0`, with the safety distance 1 -/

section
/-- The outputs of the function `x` for the value `x` -/
noncomputable def outs (x : ℝ) : Outs ℝ := ⟨fun _ => x, fun _ => 0, fun _ => 0, fun _ _ _ => 1⟩

noncomputable def linF : Pt square → Nat → ℝ := fun p _ => proj p

noncomputable def linD : Nat → Pt square → Pt square →L[ℝ] ℝ := fun _ _ => proj

/-- The damper: `di = 3`, `ds = 1`, `xsi = 2` and `big = 10` -/
noncomputable def exD : VD ℝ := ⟨1, 1, 0, fun _ => 1, fun _ => 3, fun _ => 0, fun _ => -(3 - 1)⁻¹, 10, false, fun _ => some (-(3 - 1)⁻¹ * 2), fun _ => false⟩

theorem exD_made : makeVD square.size none ⟨1, fun _ => 3⟩ ⟨1, fun _ => 1⟩ ⟨1, fun _ => 2⟩ ⟨1, fun _ => 0⟩ 10 = .ok () exD := by
  simp [makeVD, resizeParameter, badStep, exD, square]

theorem exLegal : C45.Legal (⟨1, fun _ => 3⟩ : Vec ℝ) ⟨1, fun _ => 1⟩ ⟨1, fun _ => 2⟩ ⟨1, fun _ => 0⟩ :=
  ⟨rfl, rfl, rfl, fun _ _ => ⟨by norm_num, by norm_num, by norm_num, le_refl _⟩, Or.inr fun _ _ => by norm_num⟩

noncomputable def linT : TaskObj ℝ := ⟨.greaterThan, ⟨exD.dyn, .greaterThan, ⟨1, fun _ => 0⟩⟩, none⟩

theorem linT_made : makeTask square .greaterThan exD.dyn ⟨1, fun _ => 0⟩ = some linT := by
  simp [makeTask, Dyn.impl, VD.dyn, Dyn.accepts, implAccepts, square, linT]

/-- The value of the damper -/
noncomputable def linE (x : ℝ) : ℝ := if 3 < x then -10 else -(x - 1)

theorem lin_value (x : ℝ) : exD.dyn.value .greaterThan (after square (outs x)) ⟨1, fun _ => 0⟩ = .ok () ⟨1, fun _ => linE x⟩ := by
  have h : ∀ i, (updateVD .greaterThan exD (outs x).value (outs x).velocity fun _ => 0).2 i = some (linE x) := by
    intro i
    simp only [updateVD, updateVD_, exD, outs, linE, reduceCtorEq, if_false, sub_zero]
    by_cases hx : (3 : ℝ) < x
    · simp [hx]
    · simp [hx]; norm_num
  show (if (List.range 1).all fun i => ((updateVD .greaterThan exD (outs x).value (outs x).velocity fun _ => 0).2 i).isSome then
    (.ok () ⟨1, fun i => ((updateVD .greaterThan exD (outs x).value (outs x).velocity fun _ => 0).2 i).getD 0⟩ : Outcome Unit (Vec ℝ)) else .ub) = _
  simp [h]

theorem lin_ok (x : ℝ) (X : Path) (t : ℝ) (hX : HasDerivWithinAt (X ⟨0, 0⟩ 0) (X ⟨0, 1⟩ 0 t) (Ici t) t) :
    (⟨after square (outs x), linT, linF, linD, fun _ => linE x, 0⟩ : Tk).Ok X t := by
  refine ⟨?_, ?_, ?_, fun i _ p => proj.hasFDerivAt, ?_, ?_, ?_⟩
  · show [(⟨0, 0⟩ : VId)].Nodup
    decide
  · intro h; cases h
  · exact ⟨⟨_, lin_value x, rfl, rfl⟩, fun h => by cases h⟩
  · intro j hj v hv c hc s hs
    have hj : j < 1 := hj
    have hv : v ∈ [(⟨0, 0⟩ : VId)] := hv
    have hc : c < 1 := hc
    rw [List.mem_singleton] at hv
    obtain rfl : j = 0 := by omega
    obtain rfl : c = 0 := by omega
    subst hv
    obtain rfl : s = t := by
      rcases hs with hs | ⟨-, hs⟩
      · exact hs
      · have hs : 0 + 1 < 1 := hs
        omega
    exact hX
  · intro i _ a c
    exact (C97.proj_unit a c).symm
  · intro h; cases h

/-- What the solvers see of the task -/
noncomputable def linC (x : ℝ) : UserCstr ℝ := ⟨.greaterThan, .asGiven, 1, [1], fun m _ _ => if un₀ m = ⟨0, 1⟩ then 1 else 0, fun _ => 0, fun _ => linE x, fun _ => 0⟩

theorem lin_posed (x : ℝ) : Posed w₃ vn₀ un₀ ⟨after square (outs x), linT, linF, linD, fun _ => linE x, 0⟩ (linC x) := by
  refine ⟨⟨⟨.greaterThan, linT.td, none, [⟨0, 1⟩]⟩, rfl, ?_⟩, fun _ _ => rfl⟩
  have hj : (fun (m i r : Nat) => match LTC.jacobian (⟨.greaterThan, linT.td, none, [⟨0, 1⟩]⟩ : LTC ℝ) (after square (outs x)) (un₀ m) with
      | .ok _ J => J i r
      | _ => 0) = fun m _ _ => if un₀ m = ⟨0, 1⟩ then 1 else 0 := by
    funext m i r
    generalize un₀ m = v
    obtain ⟨b, n⟩ := v
    unfold LTC.jacobian VId.primitive
    have h1 : (⟨.greaterThan, linT.td, none, [⟨0, 1⟩]⟩ : LTC ℝ).td.dyn.order.num = 1 := rfl
    rw [h1]
    have h2 : (after square (outs x)).vars = [⟨0, 0⟩] := rfl
    by_cases hn : 1 ≤ n
    · simp only [hn, if_true, h2, List.mem_singleton, VId.mk.injEq]
      by_cases hb : b = 0 ∧ n = 1
      · obtain ⟨rfl, rfl⟩ := hb
        simp [after, outs]
      · rw [if_neg (by omega), if_neg hb]
    · have : ¬ (b = 0 ∧ n = 1) := by omega
      simp [hn, this]
  have hup : LTC.update (⟨.greaterThan, linT.td, none, [⟨0, 1⟩]⟩ : LTC ℝ) (after square (outs x)) = .ok () ⟨some ⟨1, fun _ => linE x⟩, none, none⟩ := by
    have hv : linT.td.dyn.value linT.td.type (after square (outs x)) linT.td.rhs = .ok () ⟨1, fun _ => linE x⟩ := lin_value x
    unfold LTC.update LTC.side
    simp only [hv]
    rfl
  have hv : [(⟨0, 1⟩ : VId)].map vn₀ = [1] := by decide
  show constraintOf vn₀ un₀ (after square (outs x)) _ = _
  unfold constraintOf linC
  rw [hup]
  simp only [hv]
  congr 1
  rw [UserCstr.mk.injEq]
  refine ⟨rfl, rfl, rfl, rfl, ?_, ?_, ?_, ?_⟩
  · refine Eq.trans ?_ hj
    funext m i r
    cases LTC.jacobian (⟨.greaterThan, linT.td, none, [⟨0, 1⟩]⟩ : LTC ℝ) (after square (outs x)) (un₀ m) <;> rfl
  · funext i; simp [vec]
  · funext i; simp [vec]
  · funext i; simp [vec]

theorem lin_decided (x : ℝ) (X : Path) (t : ℝ) : Decided vn₀ ⟨after square (outs x), linT, linF, linD, fun _ => linE x, 0⟩ X t (fun _ _ => X ⟨0, 1⟩ 0 t) := by
  intro v hv k hk
  have hv : v ∈ [(⟨0, 0⟩ : VId)] := hv
  have hk : k < 1 := hk
  rw [List.mem_singleton] at hv
  obtain rfl : k = 0 := by omega
  subst hv
  rfl

theorem lin_sat (x y : ℝ) (h : linE x ≤ y) : Sat w₃ (linC x) (fun _ _ => y) := by
  intro i _
  have h1 : un₀ 1 = ⟨0, 1⟩ := un_vn₀ ⟨0, 1⟩
  simp only [linC, row, w₃, List.map_cons, List.map_nil, List.sum_cons, List.sum_nil, Finset.sum_range_one, meant, h1, if_true]
  simpa using h

/-- The motion `x = 1 + exp (-t)`, that approaches the limit as fast as the damper allows it -/
noncomputable def pathA : Path := fun v _ s => if v = ⟨0, 0⟩ then 1 + Real.exp (-s) else -Real.exp (-s)

theorem pathA_deriv (t : ℝ) : HasDerivAt (pathA ⟨0, 0⟩ 0) (pathA ⟨0, 1⟩ 0 t) t := by
  have h1 : pathA ⟨0, 0⟩ 0 = fun s => 1 + Real.exp (-s) := by funext s; simp [pathA]
  have h2 : pathA ⟨0, 1⟩ 0 t = Real.exp (-t) * -1 := by simp [pathA]
  rw [h1, h2]
  exact (((hasDerivAt_id t).neg).exp).const_add 1

theorem loopA : Loop w₃ vn₀ un₀ square linT linF linD (fun t => outs (pathA ⟨0, 0⟩ 0 t)) (fun t _ => linE (pathA ⟨0, 0⟩ 0 t)) (fun _ => 0) (fun t => linC (pathA ⟨0, 0⟩ 0 t)) pathA
    (fun t _ _ => pathA ⟨0, 1⟩ 0 t) := by
  refine ⟨fun t _ => lin_posed _, fun t _ => lin_ok _ pathA t (pathA_deriv t).hasDerivWithinAt, fun t _ => lin_decided _ pathA t, fun t ht => lin_sat _ _ ?_, fun t _ i _ => rfl, ?_⟩
  · have h1 : Real.exp (-t) ≤ 1 := Real.exp_le_one_iff.mpr (by linarith)
    have h2 : ¬ (3 : ℝ) < pathA ⟨0, 0⟩ 0 t := by simp [pathA]; linarith
    simp only [linE, if_neg h2]
    simp [pathA]
  · intro v hv c hc
    have hv : v ∈ [(⟨0, 0⟩ : VId)] := hv
    have hc : c < 1 := hc
    rw [List.mem_singleton] at hv
    obtain rfl : c = 0 := by omega
    subst hv
    exact fun t _ => (pathA_deriv t).continuousAt.continuousWithinAt

/-- The theorem gives `1 ≤ x`. -/
example (t : ℝ) (ht : 0 ≤ t) : 1 ≤ linF (point square pathA 0 t) 0 := by
  have := C110_avoidance un_vn₀ (u := ⟨1, fun _ => 0⟩) exLegal (by norm_num) exD_made (Or.inl linT_made) loopA .above (by simp [sides]) 0 (by decide) t ht
  have h0 : linF (point square pathA 0 0) 0 = 2 := by
    show pathA ⟨0, 0⟩ 0 0 = 2
    simp [pathA]; norm_num
  simp only [C45.Sense.dist, limit, C45.spread, h0, sub_zero, if_true] at this
  norm_num at this
  exact this

/-- The motion with a resolution every `1/2`: the speed is `-1` until the time `1/2`, then 0. -/
noncomputable def pathB : Path := fun v _ s => if v = ⟨0, 0⟩ then max (2 - s) (3 / 2) else if s < 1 / 2 then -1 else 0

theorem pathB_low {s : ℝ} (h : s ≤ 1 / 2) : pathB ⟨0, 0⟩ 0 s = 2 - s := by simp only [pathB, if_true]; exact max_eq_left (by linarith)

theorem pathB_high {s : ℝ} (h : 1 / 2 ≤ s) : pathB ⟨0, 0⟩ 0 s = 3 / 2 := by simp only [pathB, if_true]; exact max_eq_right (by linarith)

theorem pathB_deriv (t : ℝ) : HasDerivWithinAt (pathB ⟨0, 0⟩ 0) (pathB ⟨0, 1⟩ 0 t) (Ici t) t := by
  by_cases h : t < 1 / 2
  · have h2 : pathB ⟨0, 1⟩ 0 t = -1 := by simp [pathB]; linarith
    rw [h2]
    have h3 : HasDerivAt (fun s : ℝ => 2 - s) (-1) t := (hasDerivAt_id t).const_sub 2
    refine (h3.congr_of_eventuallyEq ?_).hasDerivWithinAt
    filter_upwards [gt_mem_nhds h] with s hs
    exact pathB_low hs.le
  · have h := not_lt.mp h
    have h2 : pathB ⟨0, 1⟩ 0 t = 0 := by simp [pathB]; linarith
    rw [h2]
    exact (hasDerivWithinAt_const t (Ici t) (3 / 2 : ℝ)).congr (fun s hs => pathB_high (le_trans h hs)) (pathB_high h)

theorem sampledB : Sampled w₃ vn₀ un₀ (1 / 2) square linT linF linD (fun t => outs (pathB ⟨0, 0⟩ 0 t)) (fun t _ => linE (pathB ⟨0, 0⟩ 0 t)) (fun _ => 0) (fun t => linC (pathB ⟨0, 0⟩ 0 t)) pathB
    (fun t _ _ => pathB ⟨0, 1⟩ 0 t) := by
  refine ⟨fun k => lin_posed _, fun k => lin_ok _ pathB _ (pathB_deriv _), fun k => lin_decided _ pathB _, fun k => lin_sat _ _ ?_, fun t i _ => rfl, ?_⟩
  · cases k with
    | zero =>
      rw [pathB_low (by norm_num)]
      simp [linE, pathB]; norm_num
    | succ k =>
      have : (1 : ℝ) / 2 ≤ ((k + 1 : ℕ) : ℝ) * (1 / 2) := by
        have : (0 : ℝ) ≤ k := Nat.cast_nonneg k
        push_cast; linarith
      rw [pathB_high this]
      have h2 : pathB ⟨0, 1⟩ 0 (((k + 1 : ℕ) : ℝ) * (1 / 2)) = 0 := by
        simp only [pathB]
        rw [if_neg (by decide), if_neg (not_lt.mpr this)]
      rw [h2]
      simp [linE]; norm_num
  · intro k s h1 h2 v hv c hc
    have hv : v ∈ [(⟨0, 0⟩ : VId)] := hv
    have hc : c < 1 := hc
    rw [List.mem_singleton] at hv
    obtain rfl : c = 0 := by omega
    subst hv
    show pathB ⟨0, 0⟩ 0 s = pathB ⟨0, 0⟩ 0 _ + (s - _) * pathB ⟨0, 1⟩ 0 _
    cases k with
    | zero =>
      simp only [Nat.cast_zero, zero_mul, zero_add, one_mul] at h1 h2 ⊢
      rw [pathB_low h2, pathB_low (by norm_num)]
      have h3 : pathB ⟨0, 1⟩ 0 0 = -1 := by simp [pathB]
      rw [h3]; ring
    | succ k =>
      have h : (1 : ℝ) / 2 ≤ ((k + 1 : ℕ) : ℝ) * (1 / 2) := by
        have : (0 : ℝ) ≤ k := Nat.cast_nonneg k
        push_cast; linarith
      have h3 : pathB ⟨0, 1⟩ 0 (((k + 1 : ℕ) : ℝ) * (1 / 2)) = 0 := by
        simp only [pathB]
        rw [if_neg (by decide), if_neg (not_lt.mpr h)]
      rw [pathB_high h, pathB_high (le_trans h h1), h3]; ring

theorem lin_affine : Affine linF linD := fun i _ p q => by show proj q = proj p + proj (q - p); rw [map_sub]; ring

/-- The theorem gives `1 ≤ x` (`big` is too large for the period, but the steps are short). -/
example (t : ℝ) (ht : 0 ≤ t) : 1 ≤ linF (point square pathB 0 t) 0 := by
  have := C110_sampled un_vn₀ (u := ⟨1, fun _ => 0⟩) exLegal (by norm_num) exD_made (Or.inl linT_made) sampledB lin_affine (by norm_num) (fun i _ => by simp [C45.spread]; norm_num)
    (fun i _ => Or.inr fun k => by
      show |pathB ⟨0, 0⟩ 0 _ - pathB ⟨0, 0⟩ 0 _| ≤ _
      have hb : ∀ s, 0 ≤ s → 3 / 2 ≤ pathB ⟨0, 0⟩ 0 s ∧ pathB ⟨0, 0⟩ 0 s ≤ 2 := fun s hs => by
        simp only [pathB, if_true]
        exact ⟨le_max_right _ _, max_le (by linarith) (by norm_num)⟩
      have hk : (0 : ℝ) ≤ k := Nat.cast_nonneg k
      have h1 := hb (((k : ℝ) + 1) * (1 / 2)) (by positivity)
      have h2 := hb ((k : ℝ) * (1 / 2)) (by positivity)
      rw [abs_le]
      simp only [C45.spread, if_true]
      constructor <;> linarith [h1.1, h1.2, h2.1, h2.2])
    .above (by simp [sides]) (fun i _ => by
      show C45.spread _ i ≤ pathB ⟨0, 0⟩ 0 0 - 0
      rw [pathB_low (by norm_num)]
      simp [C45.spread]) 0 (by decide) t ht
  simpa [C45.Sense.dist, limit, C45.spread] using this
end

end Verif.C110
