import Verif.Properties.C110_Avoidance
/-!
# C97 Other control loops: a matrix gain, and resolutions at the times `k dt`

The loop with a resolution every `dt` is `C110.Sampled`: between two resolutions the variables move along straight lines.
-/
set_option autoImplicit false
set_option linter.unusedSectionVars false

namespace Verif.C97
open Verif TD LTask TR RV C48 C96 SBS Set C110

variable {w : World} {vn : VId → Nat} {un : Nat → VId}

/-- What makes the fields of a task, for one or two right-hand sides -/
theorem made_fields {f : Fn ℝ} {ty : TD.CType} {d : Dyn ℝ} {l u : Vec ℝ} {T : TaskObj ℝ} (hT : makeTask f ty d l = some T ∨ makeTask2 f ty d l u = some T) :
    T.type = ty ∧ T.td.dyn = d ∧ T.td.rhs = l ∧ (ty = .doubleSided → ∃ d2, T.td2 = some d2 ∧ d2.dyn = d ∧ d2.rhs = u) := by
  rcases hT with hT | hT
  · obtain ⟨h1, rfl, -⟩ := task_fields _ _ _ _ _ hT
    exact ⟨rfl, rfl, rfl, fun hh => absurd hh h1⟩
  · obtain ⟨rfl, rfl, -, -⟩ := task2_fields _ _ _ _ _ _ hT
    exact ⟨rfl, rfl, rfl, fun _ => ⟨_, rfl, rfl, rfl⟩⟩

/-- **C97** In the control loop, an equality task with a proportional dynamics whose gain is a matrix, at least `c I`, makes the norm of the error vanish exponentially at the rate `c`. -/
theorem C97_matrix (hu : ∀ v, un (vn v) = v) {f : Fn ℝ} {M : Nat → Nat → ℝ} {c : ℝ} (hM : C64.AtLeast f.size c M) {rhs : Vec ℝ} {T : TaskObj ℝ}
    (hT : makeTask f .equal (.proportional (.matrix f.size f.size M)) rhs = some T) {F : Pt f → Nat → ℝ} {D : Nat → Pt f → Pt f →L[ℝ] ℝ} {o : ℝ → Outs ℝ} {e e2 : ℝ → Nat → ℝ} {usr : ℝ → UserCstr ℝ} {X : Path}
    {W : ℝ → Nat → Nat → ℝ} (h : Loop w vn un f T F D o e e2 usr X W) (t : ℝ) (ht : 0 ≤ t) :
    ∑ i ∈ Finset.range f.size, (F (point f X 0 t) i - rhs.v i) ^ 2 ≤ (∑ i ∈ Finset.range f.size, (F (point f X 0 0) i - rhs.v i) ^ 2) * Real.exp (-(2 * c * t)) := by
  obtain ⟨-, rfl, -⟩ := task_fields _ _ _ _ _ hT
  have hF : C64.FollowsP (.matrix f.size f.size M) f.size rhs.v (fun t => F (point f X 0 t)) e := by
    refine ⟨fun i hi => ⟨h.continuous hi, fun s hs => ?_⟩, fun s hs => ?_⟩
    · obtain ⟨d, hd, hR⟩ := h.achieved hu s hs i hi
      have hR : d = e s i := hR
      have hd : HasDerivWithinAt (fun s => F (point f X 0 s) i) d (Ici s) s := hd
      rw [hR] at hd
      exact hd
    · obtain ⟨x, hx, hn, hxe⟩ := (h.ok s hs).wants.first
      have hx : propValue (.matrix f.size f.size M) f.size (o s).value rhs.v = .ok () x := hx
      have hxe : x.v = e s := hxe
      refine ⟨x, ?_, hn, fun i _ => by rw [hxe]⟩
      rw [← hx]
      simp only [propValue, Gain.mul, if_true]
      congr 2
      funext i
      congr 1
      refine Finset.sum_congr rfl fun j hj => ?_
      rw [h.value s hs j (Finset.mem_range.mp hj)]
  have := C64.C64_proportional_matrix f.size M c hM rhs.v _ _ hF t ht
  simpa only [C64.err2, ← pow_two] using this

/-! ## Resolutions at the times `k dt` -/

/-- One step of the loop, for an affine function and a task of order one -/
theorem step_made {f : Fn ℝ} {T : TaskObj ℝ} {F : Pt f → Nat → ℝ} {D : Nat → Pt f → Pt f →L[ℝ] ℝ} {o : ℝ → Outs ℝ} {e e2 : ℝ → Nat → ℝ} {usr : ℝ → UserCstr ℝ} {X : Path} {W : ℝ → Nat → Nat → ℝ} {dt : ℝ}
    (hu : ∀ v, un (vn v) = v) (h : Sampled w vn un dt f T F D o e e2 usr X W) (ha : Affine F D) (hdt : 0 ≤ dt) (ho : T.td.dyn.order = .one) (k : ℕ) (i : Nat) (hi : i < f.size) :
    ∃ d, F (point f X 0 ((k + 1) * dt)) i = F (point f X 0 (k * dt)) i + dt * d ∧ Related T.type d (e (k * dt) i) (e2 (k * dt) i) := by
  obtain ⟨d, hd, hR⟩ := (C97_task hu (h.posed k) (h.ok k) (h.decided k)).1.mp (h.sat k) i hi
  have ho1 : (Tk.at f T F D o e e2 (k * dt)).order = 1 := by
    show T.td.dyn.order.num = 1
    rw [ho]; rfl
  rw [ho1] at hd
  have hd : HasDerivWithinAt (fun r => F (point f X 0 r) i) d (Ici (k * dt)) (k * dt) := hd
  have hc : HasDerivWithinAt (fun r => F (point f X 0 r) i) (D i (point f X 0 (k * dt)) (point f X 1 (k * dt))) (Ici (k * dt)) (k * dt) :=
    along_first (τ := Tk.at f T F D o e e2 (k * dt)) (h.ok k).diff (h.ok k).moves (by rw [ho1]; omega) hi (Or.inl rfl)
  have hdc := (uniqueDiffOn_Ici _ _ self_mem_Ici).eq_deriv _ hd hc
  refine ⟨d, ?_, hR⟩
  have : point f X 0 ((k + 1) * dt) - point f X 0 (k * dt) = dt • point f X 1 (k * dt) := by
    funext a b
    have := h.straight k ((k + 1) * dt) (by nlinarith) le_rfl (f.vars.get a) (List.get_mem _ _) b b.2
    simp only [Pi.sub_apply, Pi.smul_apply, smul_eq_mul, point, this]
    ring
  rw [ha i hi (point f X 0 (k * dt)) (point f X 0 ((k + 1) * dt)), this, map_smul, smul_eq_mul, hdc]

/-- **C97** With a resolution every `dt` and an affine function, a proportional dynamics multiplies the error by `1 - kp dt` at each step: exactly for an equality; for an inequality the function is in the relation of the task
with this motion if `kp dt ≤ 1`. -/
theorem C97_sampled_proportional (hu : ∀ v, un (vn v) = v) {f : Fn ℝ} {ty : TD.CType} {kp : Gain ℝ} {l u : Vec ℝ} {T : TaskObj ℝ} {dt : ℝ}
    (hT : makeTask f ty (.proportional kp) l = some T ∨ makeTask2 f ty (.proportional kp) l u = some T) (hd : C64.Decoupled f.size kp) {F : Pt f → Nat → ℝ} {D : Nat → Pt f → Pt f →L[ℝ] ℝ}
    {o : ℝ → Outs ℝ} {e e2 : ℝ → Nat → ℝ} {usr : ℝ → UserCstr ℝ} {X : Path} {W : ℝ → Nat → Nat → ℝ} (h : Sampled w vn un dt f T F D o e e2 usr X W) (ha : Affine F D) (hdt : 0 ≤ dt) (i : Nat) (hi : i < f.size)
    (hk : ty = .equal ∨ C64.coef kp i * dt ≤ 1) (k : ℕ) :
    Related ty (F (point f X 0 (k * dt)) i) (l.v i + (1 - C64.coef kp i * dt) ^ k * (F (point f X 0 0) i - l.v i)) (u.v i + (1 - C64.coef kp i * dt) ^ k * (F (point f X 0 0) i - u.v i)) := by
  obtain ⟨t1, t2, t3, t4⟩ := made_fields hT
  have he : ∀ m : ℕ, e (m * dt) i = -(C64.coef kp i * (F (point f X 0 (m * dt)) i - l.v i)) := by
    intro m
    obtain ⟨x, hx, -, hxe⟩ := (h.ok m).wants.first
    have hx : T.td.dyn.value T.td.type (after f (o (m * dt))) T.td.rhs = .ok () x := hx
    have hxe : x.v = e (m * dt) := hxe
    rw [t2, t3] at hx
    have hx : propValue kp f.size (o (m * dt)).value l.v = .ok () x := hx
    rw [C64.prop_decoupled kp _ hd] at hx
    injection hx with _ hx
    rw [← hxe, ← hx]
    simp only [h.value m i hi]
  have he2 : ty = .doubleSided → ∀ m : ℕ, e2 (m * dt) i = -(C64.coef kp i * (F (point f X 0 (m * dt)) i - u.v i)) := by
    intro hty m
    obtain ⟨d, hd1, hd2, hd3⟩ := t4 hty
    obtain ⟨d', x, hd', hx, -, hxe⟩ := (h.ok m).wants.second (t1.trans hty)
    have hd' : T.td2 = some d' := hd'
    rw [hd1] at hd'
    injection hd' with hd'
    subst hd'
    have hx : d.dyn.value d.type (after f (o (m * dt))) d.rhs = .ok () x := hx
    have hxe : x.v = e2 (m * dt) := hxe
    rw [hd2, hd3] at hx
    have hx : propValue kp f.size (o (m * dt)).value u.v = .ok () x := hx
    rw [C64.prop_decoupled kp _ hd] at hx
    injection hx with _ hx
    rw [← hxe, ← hx]
    simp only [h.value m i hi]
  generalize C64.coef kp i = c at hk he he2 ⊢
  induction k with
  | zero =>
    simp only [Nat.cast_zero, zero_mul, pow_zero, one_mul]
    cases ty with
    | equal => show _ = _; ring
    | greaterThan => show _ ≤ _; linarith
    | lowerThan => show _ ≤ _; linarith
    | doubleSided => constructor <;> linarith
  | succ k ih =>
    obtain ⟨d, hs, hR⟩ := step_made hu h ha hdt (by rw [t2]; rfl) k i hi
    rw [t1] at hR
    have e1 : ((k + 1 : ℕ) : ℝ) * dt = (k + 1) * dt := by push_cast; ring
    rw [e1, hs, pow_succ]
    have up : ∀ r y0 : ℝ, c * dt ≤ 1 → r + (1 - c * dt) ^ k * (y0 - r) ≤ F (point f X 0 (k * dt)) i → -(c * (F (point f X 0 (k * dt)) i - r)) ≤ d →
        r + (1 - c * dt) ^ k * (1 - c * dt) * (y0 - r) ≤ F (point f X 0 (k * dt)) i + dt * d := by
      intro r y0 hc h1 h2
      have h3 := mul_le_mul_of_nonneg_left h2 hdt
      have h4 := mul_le_mul_of_nonneg_left h1 (by linarith : 0 ≤ 1 - c * dt)
      nlinarith [h3, h4]
    have dn : ∀ r y0 : ℝ, c * dt ≤ 1 → F (point f X 0 (k * dt)) i ≤ r + (1 - c * dt) ^ k * (y0 - r) → d ≤ -(c * (F (point f X 0 (k * dt)) i - r)) →
        F (point f X 0 (k * dt)) i + dt * d ≤ r + (1 - c * dt) ^ k * (1 - c * dt) * (y0 - r) := by
      intro r y0 hc h1 h2
      have h3 := mul_le_mul_of_nonneg_left h2 hdt
      have h4 := mul_le_mul_of_nonneg_left h1 (by linarith : 0 ≤ 1 - c * dt)
      nlinarith [h3, h4]
    cases ty with
    | equal =>
      have hR : d = e (k * dt) i := hR
      have ih : F (point f X 0 (k * dt)) i = l.v i + (1 - c * dt) ^ k * (F (point f X 0 0) i - l.v i) := ih
      show F (point f X 0 (k * dt)) i + dt * d = _
      rw [hR, he k, ih]
      ring
    | greaterThan =>
      have hc : c * dt ≤ 1 := hk.resolve_left (by decide)
      have hR : e (k * dt) i ≤ d := hR
      exact up _ _ hc ih (he k ▸ hR)
    | lowerThan =>
      have hc : c * dt ≤ 1 := hk.resolve_left (by decide)
      have hR : d ≤ e (k * dt) i := hR
      exact dn _ _ hc ih (he k ▸ hR)
    | doubleSided =>
      have hc : c * dt ≤ 1 := hk.resolve_left (by decide)
      exact ⟨up _ _ hc ih.1 (he k ▸ hR.1), dn _ _ hc ih.2 (he2 rfl k ▸ hR.2)⟩

/-- **C97** With a resolution every `dt` and an affine function, the dynamics `OneStepToZero` of the first order, for the same `dt`, puts the function in the relation of the task with its right-hand side after one step and for ever. -/
theorem C97_sampled_oneStep (hu : ∀ v, un (vn v) = v) {f : Fn ℝ} {ty : TD.CType} {l u : Vec ℝ} {T : TaskObj ℝ} {dt : ℝ}
    (hT : makeTask f ty (.oneStep false dt) l = some T ∨ makeTask2 f ty (.oneStep false dt) l u = some T) {F : Pt f → Nat → ℝ} {D : Nat → Pt f → Pt f →L[ℝ] ℝ}
    {o : ℝ → Outs ℝ} {e e2 : ℝ → Nat → ℝ} {usr : ℝ → UserCstr ℝ} {X : Path} {W : ℝ → Nat → Nat → ℝ} (h : Sampled w vn un dt f T F D o e e2 usr X W) (ha : Affine F D) (hdt : 0 < dt) (i : Nat) (hi : i < f.size)
    (k : ℕ) : Related ty (F (point f X 0 ((k + 1) * dt)) i) (l.v i) (u.v i) := by
  obtain ⟨t1, t2, t3, t4⟩ := made_fields hT
  have he : dt * e (k * dt) i = l.v i - F (point f X 0 (k * dt)) i := by
    obtain ⟨x, hx, -, hxe⟩ := (h.ok k).wants.first
    have hx : T.td.dyn.value T.td.type (after f (o (k * dt))) T.td.rhs = .ok () x := hx
    have hxe : x.v = e (k * dt) := hxe
    rw [t2, t3] at hx
    have hx : (.ok () ⟨l.n, oneStepValue 1 dt (o (k * dt)).value (o (k * dt)).velocity l.v⟩ : Outcome Unit (Vec ℝ)) = .ok () x := hx
    injection hx with _ hx
    rw [← hxe, ← hx]
    simp only [oneStepValue, h.value k i hi]
    rw [if_neg (by decide)]
    field_simp
  have he2 : ty = .doubleSided → dt * e2 (k * dt) i = u.v i - F (point f X 0 (k * dt)) i := by
    intro hty
    obtain ⟨d, hd1, hd2, hd3⟩ := t4 hty
    obtain ⟨d', x, hd', hx, -, hxe⟩ := (h.ok k).wants.second (t1.trans hty)
    have hd' : T.td2 = some d' := hd'
    rw [hd1] at hd'
    injection hd' with hd'
    subst hd'
    have hx : d.dyn.value d.type (after f (o (k * dt))) d.rhs = .ok () x := hx
    have hxe : x.v = e2 (k * dt) := hxe
    rw [hd2, hd3] at hx
    have hx : (.ok () ⟨u.n, oneStepValue 1 dt (o (k * dt)).value (o (k * dt)).velocity u.v⟩ : Outcome Unit (Vec ℝ)) = .ok () x := hx
    injection hx with _ hx
    rw [← hxe, ← hx]
    simp only [oneStepValue, h.value k i hi]
    rw [if_neg (by decide)]
    field_simp
  obtain ⟨d, hs, hR⟩ := step_made hu h ha hdt.le (by rw [t2]; rfl) k i hi
  rw [t1] at hR
  rw [hs]
  cases ty with
  | equal =>
    have hR : d = e (k * dt) i := hR
    show _ = _
    rw [hR, he]; ring
  | greaterThan =>
    have hR : e (k * dt) i ≤ d := hR
    have := mul_le_mul_of_nonneg_left hR hdt.le
    show _ ≤ _
    linarith
  | lowerThan =>
    have hR : d ≤ e (k * dt) i := hR
    have := mul_le_mul_of_nonneg_left hR hdt.le
    show _ ≤ _
    linarith
  | doubleSided =>
    have h1 := mul_le_mul_of_nonneg_left hR.1 hdt.le
    have h2 := mul_le_mul_of_nonneg_left hR.2 hdt.le
    have := he2 rfl
    constructor <;> linarith

/-! ## The hypotheses are met: tasks of the first order on the function `x` -/

section
/-- A task on `x`, with one right-hand side -/
noncomputable def oneT (ty : TD.CType) (d : Dyn ℝ) (r : ℝ) : TaskObj ℝ := ⟨ty, ⟨d, ty, ⟨1, fun _ => r⟩⟩, none⟩

/-- What the solvers see of the task, for the value `E` of the dynamics -/
noncomputable def oneC (ty : TD.CType) (E : ℝ) : UserCstr ℝ :=
  ⟨ctype ty, .asGiven, 1, [1], fun m _ _ => if un₀ m = ⟨0, 1⟩ then 1 else 0, fun _ => if ty = .equal then E else 0, fun _ => if ty = .greaterThan then E else 0, fun _ => if ty = .lowerThan then E else 0⟩

variable {ty : TD.CType} {d : Dyn ℝ} {r : ℝ}

theorem one_ok (hty : ty ≠ .doubleSided) (ho : d.order = .one) (x E : ℝ) (hv : d.value ty (after square (C110.outs x)) ⟨1, fun _ => r⟩ = .ok () ⟨1, fun _ => E⟩) (X : Path) (t : ℝ)
    (hX : HasDerivWithinAt (X ⟨0, 0⟩ 0) (X ⟨0, 1⟩ 0 t) (Ici t) t) : (⟨after square (C110.outs x), oneT ty d r, linF, linD, fun _ => E, 0⟩ : Tk).Ok X t := by
  refine ⟨?_, ?_, ?_, fun i _ p => proj.hasFDerivAt, ?_, ?_, ?_⟩
  · show [(⟨0, 0⟩ : VId)].Nodup
    decide
  · show d.order ≠ .zero
    rw [ho]; decide
  · exact ⟨⟨_, hv, rfl, rfl⟩, fun h => absurd h hty⟩
  · intro j hj v hv c hc s hs
    have h1 : (⟨after square (C110.outs x), oneT ty d r, linF, linD, fun _ => E, 0⟩ : Tk).order = 1 := by
      show d.order.num = 1
      rw [ho]; rfl
    rw [h1] at hj hs
    have hv : v ∈ [(⟨0, 0⟩ : VId)] := hv
    have hc : c < 1 := hc
    rw [List.mem_singleton] at hv
    obtain rfl : j = 0 := by omega
    obtain rfl : c = 0 := by omega
    subst hv
    obtain rfl : s = t := by
      rcases hs with hs | ⟨-, hs⟩
      · exact hs
      · omega
    exact hX
  · intro i _ a c
    exact (proj_unit a c).symm
  · intro h
    have h : d.order = .two := h
    rw [ho] at h; cases h

theorem one_posed (hty : ty ≠ .doubleSided) (ho : d.order = .one) (x E : ℝ) (hv : d.value ty (after square (C110.outs x)) ⟨1, fun _ => r⟩ = .ok () ⟨1, fun _ => E⟩) :
    Posed w₃ vn₀ un₀ ⟨after square (C110.outs x), oneT ty d r, linF, linD, fun _ => E, 0⟩ (oneC ty E) := by
  have h1 : (oneT ty d r).td.dyn.order.num = 1 := by
    show d.order.num = 1
    rw [ho]; rfl
  refine ⟨⟨⟨ty, (oneT ty d r).td, none, [⟨0, 1⟩]⟩, ?_, ?_⟩, fun _ _ => rfl⟩
  · show makeLTC (after square (C110.outs x)) (oneT ty d r) = _
    unfold makeLTC
    cases ty
    · simp [ho, oneT, after, square, LTask.addVar, VId.dot]
    · simp [ho, oneT, after, square, LTask.addVar, VId.dot]
    · simp [ho, oneT, after, square, LTask.addVar, VId.dot]
    · exact absurd rfl hty
  · have hj : (fun (m i r' : Nat) => match LTC.jacobian (⟨ty, (oneT ty d r).td, none, [⟨0, 1⟩]⟩ : LTC ℝ) (after square (C110.outs x)) (un₀ m) with
        | .ok _ J => J i r'
        | _ => 0) = fun m _ _ => if un₀ m = ⟨0, 1⟩ then 1 else 0 := by
      funext m i r'
      generalize un₀ m = v
      obtain ⟨b, n⟩ := v
      unfold LTC.jacobian VId.primitive
      simp only [h1]
      have h2 : (after square (C110.outs x)).vars = [⟨0, 0⟩] := rfl
      by_cases hn : 1 ≤ n
      · simp only [hn, if_true, h2, List.mem_singleton, VId.mk.injEq]
        by_cases hb : b = 0 ∧ n = 1
        · obtain ⟨rfl, rfl⟩ := hb
          simp [after, C110.outs]
        · rw [if_neg (by omega), if_neg hb]
      · have : ¬ (b = 0 ∧ n = 1) := by omega
        simp [hn, this]
    have hside : LTC.side (oneT ty d r).td (after square (C110.outs x)) = .ok () ⟨1, fun _ => E⟩ := by
      have hv : (oneT ty d r).td.dyn.value (oneT ty d r).td.type (after square (C110.outs x)) (oneT ty d r).td.rhs = .ok () ⟨1, fun _ => E⟩ := hv
      have h2 : (oneT ty d r).td.dyn.order = .one := ho
      unfold LTC.side
      simp [hv, h2]
    have hup : LTC.update (⟨ty, (oneT ty d r).td, none, [⟨0, 1⟩]⟩ : LTC ℝ) (after square (C110.outs x)) = .ok () ⟨if ty = .greaterThan then some ⟨1, fun _ => E⟩ else none,
        if ty = .lowerThan then some ⟨1, fun _ => E⟩ else none, if ty = .equal then some ⟨1, fun _ => E⟩ else none⟩ := by
      unfold LTC.update
      cases ty
      · simp [hside]
      · simp [hside]
      · simp [hside]
      · exact absurd rfl hty
    have hv : [(⟨0, 1⟩ : VId)].map vn₀ = [1] := by decide
    show constraintOf vn₀ un₀ (after square (C110.outs x)) _ = _
    unfold constraintOf oneC
    rw [hup]
    simp only [hv]
    congr 1
    rw [UserCstr.mk.injEq]
    refine ⟨rfl, rfl, rfl, rfl, ?_, ?_, ?_, ?_⟩
    · refine Eq.trans ?_ hj
      funext m i r'
      cases LTC.jacobian (⟨ty, (oneT ty d r).td, none, [⟨0, 1⟩]⟩ : LTC ℝ) (after square (C110.outs x)) (un₀ m) <;> rfl
    · funext i; by_cases h : ty = .equal <;> simp [h, vec]
    · funext i; by_cases h : ty = .greaterThan <;> simp [h, vec]
    · funext i; by_cases h : ty = .lowerThan <;> simp [h, vec]

theorem one_decided (ho : d.order = .one) (x E : ℝ) (X : Path) (t : ℝ) : Decided vn₀ ⟨after square (C110.outs x), oneT ty d r, linF, linD, fun _ => E, 0⟩ X t (fun _ _ => X ⟨0, 1⟩ 0 t) := by
  intro v hv k hk
  have h1 : (⟨after square (C110.outs x), oneT ty d r, linF, linD, fun _ => E, 0⟩ : Tk).order = 1 := by
    show d.order.num = 1
    rw [ho]; rfl
  rw [h1]
  have hv : v ∈ [(⟨0, 0⟩ : VId)] := hv
  have hk : k < 1 := hk
  rw [List.mem_singleton] at hv
  obtain rfl : k = 0 := by omega
  subst hv
  rfl

theorem one_sat (E y : ℝ) (h : Related ty y E 0) (hty : ty ≠ .doubleSided) : Sat w₃ (oneC ty E) (fun _ _ => y) := by
  intro i _
  have h1 : un₀ 1 = ⟨0, 1⟩ := un_vn₀ ⟨0, 1⟩
  simp only [oneC, row, w₃, List.map_cons, List.map_nil, List.sum_cons, List.sum_nil, Finset.sum_range_one, meant, h1, if_true]
  cases ty
  · simpa [ctype, Related] using h
  · simpa [ctype, Related] using h
  · simpa [ctype, Related] using h
  · exact absurd rfl hty

/-- The loop with a resolution every `1/2` along `pathB`, for a task that this motion achieves -/
theorem one_sampled (hty : ty ≠ .doubleSided) (ho : d.order = .one) (E : ℝ → ℝ) (hv : ∀ x, d.value ty (after square (C110.outs x)) ⟨1, fun _ => r⟩ = .ok () ⟨1, fun _ => E x⟩)
    (h0 : Related ty (-1) (E 2) 0) (h1 : Related ty 0 (E (3 / 2)) 0) :
    Sampled w₃ vn₀ un₀ (1 / 2) square (oneT ty d r) linF linD (fun t => C110.outs (pathB ⟨0, 0⟩ 0 t)) (fun t _ => E (pathB ⟨0, 0⟩ 0 t)) (fun _ => 0) (fun t => oneC ty (E (pathB ⟨0, 0⟩ 0 t))) pathB
      (fun t _ _ => pathB ⟨0, 1⟩ 0 t) := by
  refine ⟨fun k => one_posed hty ho _ _ (hv _), fun k => one_ok hty ho _ _ (hv _) pathB _ (pathB_deriv _), fun k => one_decided ho _ _ pathB _, fun k => one_sat _ _ ?_ hty, fun t i _ => rfl, sampledB.straight⟩
  cases k with
  | zero =>
    rw [pathB_low (by norm_num)]
    have h3 : pathB ⟨0, 1⟩ 0 (((0 : ℕ) : ℝ) * (1 / 2)) = -1 := by simp [pathB]
    rw [h3]
    simpa using h0
  | succ k =>
    have : (1 : ℝ) / 2 ≤ ((k + 1 : ℕ) : ℝ) * (1 / 2) := by
      have : (0 : ℝ) ≤ k := Nat.cast_nonneg k
      push_cast; linarith
    have h3 : pathB ⟨0, 1⟩ 0 (((k + 1 : ℕ) : ℝ) * (1 / 2)) = 0 := by
      simp only [pathB]
      rw [if_neg (by decide), if_neg (not_lt.mpr this)]
    rw [pathB_high this, h3]
    exact h1

/-- The task `x ≥ 1`, of gain 1: `x ≥ 1 + (1/2)^k` -/
example (k : ℕ) : 1 + (1 / 2 : ℝ) ^ k ≤ linF (point square pathB 0 (k * (1 / 2))) 0 := by
  have hS := one_sampled (ty := .greaterThan) (d := .proportional (.scalar 1)) (r := 1) (by decide) rfl (fun x => -(1 * (x - 1))) (fun x => rfl) (by show _ ≤ _; norm_num) (by show _ ≤ _; norm_num)
  have := C97_sampled_proportional un_vn₀ (ty := .greaterThan) (l := ⟨1, fun _ => 1⟩) (u := ⟨1, fun _ => 0⟩) (kp := .scalar 1) (Or.inl (by simp [makeTask, Dyn.impl, Dyn.accepts, implAccepts, propAccepts, square, oneT])) (by trivial) hS lin_affine
    (by norm_num) 0 (by decide) (Or.inr (by simp [C64.coef]; norm_num)) k
  have h0 : linF (point square pathB 0 0) 0 = 2 := by
    show pathB ⟨0, 0⟩ 0 0 = 2
    rw [pathB_low (by norm_num)]; norm_num
  have this : (1 : ℝ) + (1 - 1 * (1 / 2)) ^ k * (linF (point square pathB 0 0) 0 - 1) ≤ linF (point square pathB 0 (k * (1 / 2))) 0 := this
  rw [h0] at this
  norm_num at this ⊢
  exact this

/-- The task `x = 3/2`, in one step -/
example (k : ℕ) : linF (point square pathB 0 ((k + 1) * (1 / 2))) 0 = 3 / 2 := by
  have hS := one_sampled (ty := .equal) (d := .oneStep false (1 / 2)) (r := 3 / 2) (by decide) rfl (fun x => (3 / 2 - x) / (1 / 2)) (fun x => rfl) (by show _ = _; norm_num) (by show _ = _; norm_num)
  exact C97_sampled_oneStep un_vn₀ (ty := .equal) (l := ⟨1, fun _ => 3 / 2⟩) (u := ⟨1, fun _ => 0⟩) (Or.inl (by simp [makeTask, Dyn.impl, Dyn.accepts, implAccepts, square, oneT])) hS lin_affine (by norm_num) 0 (by decide) k

/-- The task `x = 1` along `pathA`, with the gain 1 as a matrix -/
example (t : ℝ) (ht : 0 ≤ t) : (linF (point square pathA 0 t) 0 - 1) ^ 2 ≤ Real.exp (-(2 * 1 * t)) := by
  have hv : ∀ x, (Dyn.proportional (.matrix square.size square.size fun _ _ => (1 : ℝ))).value .equal (after square (C110.outs x)) ⟨1, fun _ => 1⟩ = .ok () ⟨1, fun _ => -(x - 1)⟩ := by
    intro x
    show propValue (.matrix 1 1 fun _ _ => (1 : ℝ)) 1 (fun _ => x) (fun _ => 1) = _
    simp [propValue, Gain.mul]
  have hL : Loop w₃ vn₀ un₀ square (oneT .equal (.proportional (.matrix square.size square.size fun _ _ => (1 : ℝ))) 1) linF linD (fun t => C110.outs (pathA ⟨0, 0⟩ 0 t)) (fun t _ => -(pathA ⟨0, 0⟩ 0 t - 1))
      (fun _ => 0) (fun t => oneC .equal (-(pathA ⟨0, 0⟩ 0 t - 1))) pathA (fun t _ _ => pathA ⟨0, 1⟩ 0 t) := by
    refine ⟨fun t _ => one_posed (by decide) rfl _ _ (hv _), fun t _ => one_ok (by decide) rfl _ _ (hv _) pathA t (pathA_deriv t).hasDerivWithinAt, fun t _ => one_decided rfl _ _ pathA t,
      fun t ht => one_sat _ _ ?_ (by decide), fun t _ i _ => rfl, loopA.cont⟩
    show pathA ⟨0, 1⟩ 0 t = _
    simp [pathA]
  have := C97_matrix un_vn₀ (M := fun _ _ => 1) (c := 1) (rhs := ⟨1, fun _ => 1⟩) (fun x => by simp [square]) (by simp [makeTask, Dyn.impl, Dyn.accepts, implAccepts, propAccepts, square, oneT]) hL t ht
  have h0 : linF (point square pathA 0 0) 0 = 2 := by
    show pathA ⟨0, 0⟩ 0 0 = 2
    simp [pathA]; norm_num
  have e : Finset.range square.size = Finset.range 1 := rfl
  rw [e, Finset.sum_range_one, Finset.sum_range_one, h0] at this
  norm_num at this ⊢
  exact this
end

end Verif.C97
