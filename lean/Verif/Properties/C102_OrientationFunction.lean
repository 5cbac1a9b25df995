import Verif.Model.OrientationFunction
import Verif.Properties.C79_Frame
import Mathlib.Analysis.SpecialFunctions.Trigonometric.Sinc
import Mathlib.Analysis.SpecialFunctions.Trigonometric.Deriv
import Mathlib.Analysis.SpecialFunctions.Sqrt
import Mathlib.Tactic.Linarith
import Mathlib.Tactic.FieldSimp
/-!
# C102 - value, velocity and jacobian of the orientation of a frame
-/
set_option autoImplicit false
set_option linter.unusedSectionVars false

namespace Verif.C102
open Verif Verif.Sva Verif.OF Filter Topology

/-! ## Specification -/

/-- The length of a vector -/
noncomputable def len (v : V3 ℝ) : ℝ := Real.sqrt (v.dot v)

/-- The vector `p` turned around the axis `v` by the angle `len v` (formula of Rodrigues) -/
noncomputable def turn (v p : V3 ℝ) : V3 ℝ := p + Real.sinc (len v) • v.cross p + (Real.sinc (len v / 2) ^ 2 / 2) • v.cross (v.cross p)

/-- An orientation (the axes of the frame are the rows) turned as a whole -/
noncomputable def turned (v : V3 ℝ) (E : M3 ℝ) : M3 ℝ := ⟨turn v E.a, turn v E.b, turn v E.c⟩

/-- What `sva::rotationError(E_0_t, E_0_f)` is documented to be: the rotation from the first orientation to the second, in the coordinates of
the world, as an axis times an angle. The angle is unique below half a turn. -/
def IsError (err : M3 ℝ → M3 ℝ → V3 ℝ) : Prop := ∀ T : M3 ℝ, T.Ortho → ∀ v : V3 ℝ, len v < Real.pi → err T (turned v T) = v

/-- The angle of the frame to the target is less than half a turn -/
def Near (T E : M3 ℝ) : Prop := ∃ v : V3 ℝ, len v < Real.pi ∧ E = turned v T

/-- Product of the jacobian by velocities of the joints -/
def times {K : Type} [CommRing K] (n : Nat) (J : Nat → V3 K) (a : Nat → K) : V3 K :=
  ⟨∑ c ∈ Finset.range n, (J c).x * a c, ∑ c ∈ Finset.range n, (J c).y * a c, ∑ c ∈ Finset.range n, (J c).z * a c⟩

/-! ## The derivative of a rotation -/

theorem dot_nonneg (v : V3 ℝ) : 0 ≤ v.dot v := by unfold V3.dot; nlinarith [sq_nonneg v.x, sq_nonneg v.y, sq_nonneg v.z]

theorem dot_pos {v : V3 ℝ} (h : v ≠ 0) : 0 < v.dot v := by
  rcases lt_or_eq_of_le (dot_nonneg v) with k | k
  · exact k
  · exfalso
    apply h
    unfold V3.dot at k
    have hx := mul_self_nonneg v.x
    have hy := mul_self_nonneg v.y
    have hz := mul_self_nonneg v.z
    ext
    · exact mul_self_eq_zero.1 (by linarith)
    · exact mul_self_eq_zero.1 (by linarith)
    · exact mul_self_eq_zero.1 (by linarith)

theorem len_pos {v : V3 ℝ} (h : v ≠ 0) : 0 < len v := Real.sqrt_pos.2 (dot_pos h)
theorem len_sq (v : V3 ℝ) : len v * len v = v.dot v := Real.mul_self_sqrt (dot_nonneg v)
theorem len_zero : len 0 = 0 := by simp [len, V3.dot]

/-- The coefficients of the formula at an angle that is not zero -/
theorem coef (k : ℝ) (hk : k ≠ 0) : Real.sinc k = Real.sin k / k ∧ Real.sinc (k / 2) ^ 2 / 2 = (1 - Real.cos k) / (k * k) := by
  refine ⟨Real.sinc_of_ne_zero hk, ?_⟩
  rw [Real.sinc_of_ne_zero (div_ne_zero hk two_ne_zero)]
  have h : Real.cos k = 1 - 2 * Real.sin (k / 2) ^ 2 := by
    have := Real.cos_two_mul (k / 2)
    rw [show 2 * (k / 2) = k by ring] at this
    have h2 := Real.sin_sq_add_cos_sq (k / 2)
    linarith
  rw [h]
  field_simp
  ring

/-- The angular velocity of a rotation `v` that changes with `d` -/
noncomputable def spin (v d : V3 ℝ) : V3 ℝ :=
  Real.sinc (len v) • d + (Real.sinc (len v / 2) ^ 2 / 2) • v.cross d + ((v.dot d / v.dot v) * (1 - Real.sinc (len v))) • v

theorem spin_zero (d : V3 ℝ) : spin 0 d = d := by
  unfold spin
  rw [len_zero, Real.sinc_zero]
  ext <;> simp [V3.cross]

/-- A product whose second factor vanishes -/
theorem mul_zero_deriv (f g : ℝ → ℝ) (g' t : ℝ) (hf : ContinuousAt f t) (hg : HasDerivAt g g' t) (h0 : g t = 0) : HasDerivAt (fun s => f s * g s) (f t * g') t := by
  rw [hasDerivAt_iff_tendsto_slope] at hg ⊢
  have e : slope (fun s => f s * g s) t = fun s => f s * slope g t s := by
    funext s
    simp only [slope_def_field, h0]
    ring
  rw [e]
  exact (hf.tendsto.mono_left nhdsWithin_le_nhds).mul hg

theorem len_cont {v : ℝ → V3 ℝ} {d : V3 ℝ} {t : ℝ} (h : HasD v d t) : ContinuousAt (fun s => len (v s)) t :=
  Real.continuous_sqrt.continuousAt.comp (h.dot h).continuousAt

theorem turn_deriv_zero {v : ℝ → V3 ℝ} {d : V3 ℝ} {t : ℝ} (h : HasD v d t) (h0 : v t = 0) (p : V3 ℝ) : HasD (fun s => turn (v s) p) (d.cross p) t := by
  have cA : ContinuousAt (fun s => Real.sinc (len (v s))) t := Real.continuous_sinc.continuousAt.comp (len_cont h)
  have cB : ContinuousAt (fun s => Real.sinc (len (v s) / 2) ^ 2 / 2) t :=
    ((Real.continuous_sinc.continuousAt.comp ((len_cont h).div_const 2)).pow 2).div_const 2
  have eA : Real.sinc (len (v t)) = 1 := by rw [h0, len_zero, Real.sinc_zero]
  obtain ⟨h1, h2, h3⟩ := h
  have z1 : (v t).x = 0 := by rw [h0]; rfl
  have z2 : (v t).y = 0 := by rw [h0]; rfl
  have z3 : (v t).z = 0 := by rw [h0]; rfl
  have c1 : HasDerivAt (fun s => (v s).y * p.z - (v s).z * p.y) (d.y * p.z - d.z * p.y) t := (h2.mul_const _).sub (h3.mul_const _)
  have c2 : HasDerivAt (fun s => (v s).z * p.x - (v s).x * p.z) (d.z * p.x - d.x * p.z) t := (h3.mul_const _).sub (h1.mul_const _)
  have c3 : HasDerivAt (fun s => (v s).x * p.y - (v s).y * p.x) (d.x * p.y - d.y * p.x) t := (h1.mul_const _).sub (h2.mul_const _)
  have fin : ∀ (q : ℝ) (f g : ℝ → ℝ) (f' g' : ℝ), HasDerivAt f f' t → f t = 0 → HasDerivAt g g' t → g t = 0 → g' = 0 →
      HasDerivAt (fun s => q + Real.sinc (len (v s)) * f s + Real.sinc (len (v s) / 2) ^ 2 / 2 * g s) f' t := by
    intro q f g f' g' hf f0 hg g0 g'0
    refine (((mul_zero_deriv _ f f' t cA hf f0).const_add q).add (mul_zero_deriv _ g g' t cB hg g0)).congr_deriv ?_
    rw [g'0, eA]; ring
  refine ⟨?_, ?_, ?_⟩
  · exact fin p.x _ _ _ _ c1 (by simp [V3.cross, z1, z2, z3]) ((h2.mul c3).sub (h3.mul c2)) (by simp [V3.cross, z1, z2, z3]) (by simp [V3.cross, z1, z2, z3])
  · exact fin p.y _ _ _ _ c2 (by simp [V3.cross, z1, z2, z3]) ((h3.mul c1).sub (h1.mul c3)) (by simp [V3.cross, z1, z2, z3]) (by simp [V3.cross, z1, z2, z3])
  · exact fin p.z _ _ _ _ c3 (by simp [V3.cross, z1, z2, z3]) ((h1.mul c2).sub (h2.mul c1)) (by simp [V3.cross, z1, z2, z3]) (by simp [V3.cross, z1, z2, z3])

theorem turn_deriv_ne {v : ℝ → V3 ℝ} {d : V3 ℝ} {t : ℝ} (h : HasD v d t) (h0 : v t ≠ 0) (p : V3 ℝ) : HasD (fun s => turn (v s) p) ((spin (v t) d).cross (turn (v t) p)) t := by
  have hn : (v t).dot (v t) ≠ 0 := (dot_pos h0).ne'
  have hk : len (v t) ≠ 0 := (len_pos h0).ne'
  have hks : len (v t) * len (v t) = (v t).dot (v t) := len_sq _
  -- the derivative of the length
  have dlen : HasDerivAt (fun s => len (v s)) ((v t).dot d / len (v t)) t := by
    refine ((h.dot h).sqrt hn).congr_deriv ?_
    show _ / (2 * len (v t)) = _
    rw [show d.dot (v t) = (v t).dot d by simp only [V3.dot]; ring]
    field_simp
    ring
  -- the two coefficients
  have near : ∀ᶠ s in 𝓝 t, len (v s) ≠ 0 := (len_cont h).eventually_ne hk
  have dA : HasDerivAt (fun s => Real.sinc (len (v s))) ((1 - Real.sinc (len (v t) / 2) ^ 2 / 2 * (v t).dot (v t) - Real.sinc (len (v t))) * ((v t).dot d / (v t).dot (v t))) t := by
    have := dlen.sin.div dlen hk
    refine (this.congr_of_eventuallyEq (near.mono fun s hs => (coef _ hs).1)).congr_deriv ?_
    rw [(coef _ hk).1, (coef _ hk).2, ← hks]
    field_simp
    ring
  have dB : HasDerivAt (fun s => Real.sinc (len (v s) / 2) ^ 2 / 2) ((Real.sinc (len (v t)) - 2 * (Real.sinc (len (v t) / 2) ^ 2 / 2)) * ((v t).dot d / (v t).dot (v t))) t := by
    have := (dlen.cos.const_sub 1).div (dlen.mul dlen) (mul_ne_zero hk hk)
    refine (this.congr_of_eventuallyEq (near.mono fun s hs => (coef _ hs).2)).congr_deriv ?_
    rw [(coef _ hk).1, (coef _ hk).2, ← hks]
    simp only [Pi.mul_apply]
    field_simp
    ring
  have hA2 : Real.sinc (len (v t)) * Real.sinc (len (v t)) =
      2 * (Real.sinc (len (v t) / 2) ^ 2 / 2) - (Real.sinc (len (v t) / 2) ^ 2 / 2) * (Real.sinc (len (v t) / 2) ^ 2 / 2) * (v t).dot (v t) := by
    rw [(coef _ hk).1, (coef _ hk).2, ← hks]
    have := Real.sin_sq_add_cos_sq (len (v t))
    field_simp
    linear_combination this
  have hσ : (v t).dot d / (v t).dot (v t) * (v t).dot (v t) = (v t).dot d := div_mul_cancel₀ _ hn
  unfold turn spin
  generalize (v t).dot d / (v t).dot (v t) = σ at *
  generalize eA : Real.sinc (len (v t)) = A at *
  generalize eB : Real.sinc (len (v t) / 2) ^ 2 / 2 = B at *
  obtain ⟨h1, h2, h3⟩ := h
  have c1 : HasDerivAt (fun s => (v s).y * p.z - (v s).z * p.y) (d.y * p.z - d.z * p.y) t := (h2.mul_const _).sub (h3.mul_const _)
  have c2 : HasDerivAt (fun s => (v s).z * p.x - (v s).x * p.z) (d.z * p.x - d.x * p.z) t := (h3.mul_const _).sub (h1.mul_const _)
  have c3 : HasDerivAt (fun s => (v s).x * p.y - (v s).y * p.x) (d.x * p.y - d.y * p.x) t := (h1.mul_const _).sub (h2.mul_const _)
  unfold V3.dot at *
  refine ⟨?_, ?_, ?_⟩
  · refine (((dA.mul c1).const_add p.x).add (dB.mul ((h2.mul c3).sub (h3.mul c2)))).congr_deriv ?_
    simp only [V3.cross, add_x, add_y, add_z, smul_x, smul_y, smul_z, Pi.mul_apply, Pi.sub_apply, eA, eB]
    generalize (v t).x = a1 at *
    generalize (v t).y = a2 at *
    generalize (v t).z = a3 at *
    clear dA dB c1 c2 c3 h1 h2 h3 eA eB near dlen hks hk
    grind
  · refine (((dA.mul c2).const_add p.y).add (dB.mul ((h3.mul c1).sub (h1.mul c3)))).congr_deriv ?_
    simp only [V3.cross, add_x, add_y, add_z, smul_x, smul_y, smul_z, Pi.mul_apply, Pi.sub_apply, eA, eB]
    generalize (v t).x = a1 at *
    generalize (v t).y = a2 at *
    generalize (v t).z = a3 at *
    clear dA dB c1 c2 c3 h1 h2 h3 eA eB near dlen hks hk
    grind
  · refine (((dA.mul c3).const_add p.z).add (dB.mul ((h1.mul c2).sub (h2.mul c1)))).congr_deriv ?_
    simp only [V3.cross, add_x, add_y, add_z, smul_x, smul_y, smul_z, Pi.mul_apply, Pi.sub_apply, eA, eB]
    generalize (v t).x = a1 at *
    generalize (v t).y = a2 at *
    generalize (v t).z = a3 at *
    clear dA dB c1 c2 c3 h1 h2 h3 eA eB near dlen hks hk
    grind

theorem turn_zero (p : V3 ℝ) : turn 0 p = p := by
  unfold turn
  ext <;> simp [V3.cross]

theorem turn_deriv {v : ℝ → V3 ℝ} {d : V3 ℝ} {t : ℝ} (h : HasD v d t) (p : V3 ℝ) : HasD (fun s => turn (v s) p) ((spin (v t) d).cross (turn (v t) p)) t := by
  by_cases h0 : v t = 0
  · have := turn_deriv_zero h h0 p
    rw [h0, spin_zero, turn_zero]
    exact this
  · exact turn_deriv_ne h h0 p

/-! ## Rotations -/

theorem coef_sq (v : V3 ℝ) : Real.sinc (len v) * Real.sinc (len v) =
    2 * (Real.sinc (len v / 2) ^ 2 / 2) - (Real.sinc (len v / 2) ^ 2 / 2) * (Real.sinc (len v / 2) ^ 2 / 2) * v.dot v := by
  by_cases h0 : v = 0
  · subst h0; simp [len_zero, V3.dot]
  · have hk := (len_pos h0).ne'
    rw [(coef _ hk).1, (coef _ hk).2, ← len_sq]
    have := Real.sin_sq_add_cos_sq (len v)
    field_simp
    linear_combination this

theorem turn_dot (v p q : V3 ℝ) : (turn v p).dot (turn v q) = p.dot q := by
  have h := coef_sq v
  unfold turn
  generalize Real.sinc (len v) = A at *
  generalize Real.sinc (len v / 2) ^ 2 / 2 = B at *
  obtain ⟨v1, v2, v3⟩ := v
  obtain ⟨p1, p2, p3⟩ := p
  obtain ⟨q1, q2, q3⟩ := q
  simp only [V3.dot, V3.cross, add_x, add_y, add_z, smul_x, smul_y, smul_z] at *
  grind

theorem len_neg (v : V3 ℝ) : len (-v) = len v := by
  unfold len V3.dot
  simp

theorem one_ortho : (M3.one : M3 ℝ).Ortho := by
  constructor <;> ext <;> simp [M3.mul, M3.tr, M3.one, V3.dot]

theorem turned_tr (v : V3 ℝ) : (turned v M3.one).tr = turned (-v) M3.one := by
  unfold turned turn
  rw [len_neg]
  ext <;> simp only [M3.tr, M3.one, V3.cross, add_x, add_y, add_z, smul_x, smul_y, smul_z, neg_x, neg_y, neg_z] <;> ring

theorem turned_one_mul (v : V3 ℝ) : (turned v M3.one).mul (turned v M3.one).tr = M3.one := by
  have h := turn_dot v
  ext <;> simp only [M3.mul, M3.tr, turned, M3.one] <;> refine Eq.trans (h _ _) ?_ <;> simp [V3.dot]

theorem tr_tr (M : M3 ℝ) : M.tr.tr = M := rfl

theorem turned_one (v : V3 ℝ) : (turned v M3.one).Ortho := by
  refine ⟨turned_one_mul v, ?_⟩
  have := turned_one_mul (-v)
  rw [← turned_tr, tr_tr] at this
  exact this

theorem turned_mul (v : V3 ℝ) (T : M3 ℝ) : turned v T = T.mul (turned v M3.one) := by
  unfold turned turn
  generalize Real.sinc (len v) = A
  generalize Real.sinc (len v / 2) ^ 2 / 2 = B
  ext <;> simp [M3.mul, M3.tr, M3.one, V3.dot, V3.cross] <;> ring

theorem mul_assoc' (L M N : M3 ℝ) : (L.mul M).mul N = L.mul (M.mul N) := by
  ext <;> simp only [M3.mul, M3.tr, V3.dot] <;> ring

theorem tr_mul (M N : M3 ℝ) : (M.mul N).tr = N.tr.mul M.tr := by
  ext <;> simp only [M3.mul, M3.tr, V3.dot] <;> ring

theorem mul_one' (M : M3 ℝ) : M.mul M3.one = M := by
  ext <;> simp [M3.mul, M3.tr, M3.one, V3.dot]

theorem one_mul' (M : M3 ℝ) : M3.one.mul M = M := by
  ext <;> simp [M3.mul, M3.tr, M3.one, V3.dot]

/-- A turned rotation is a rotation -/
theorem turned_ortho (v : V3 ℝ) (T : M3 ℝ) (hT : T.Ortho) : (turned v T).Ortho := by
  obtain ⟨r1, r2⟩ := turned_one v
  obtain ⟨t1, t2⟩ := hT
  rw [turned_mul]
  constructor
  · rw [tr_mul, mul_assoc', ← mul_assoc' _ _ T.tr, r1, one_mul', t1]
  · rw [tr_mul, mul_assoc', ← mul_assoc' T.tr, t2, one_mul', r2]

/-- Two rotations by less than half a turn that have the same effect are the same -/
theorem turned_inj (T : M3 ℝ) (hT : T.Ortho) (v w : V3 ℝ) (hv : len v < Real.pi) (hw : len w < Real.pi) (h : turned v T = turned w T) : v = w := by
  have h1 : turned v M3.one = turned w M3.one := by
    rw [turned_mul v T, turned_mul w T] at h
    have := congrArg (fun M => T.tr.mul M) h
    simp only [← mul_assoc', hT.2, one_mul'] at this
    exact this
  have cosq : ∀ u : V3 ℝ, (turned u M3.one).a.x + (turned u M3.one).b.y + (turned u M3.one).c.z = 1 + 2 * Real.cos (len u) := by
    intro u
    have e : (turned u M3.one).a.x + (turned u M3.one).b.y + (turned u M3.one).c.z = 3 - 2 * (Real.sinc (len u / 2) ^ 2 / 2) * u.dot u := by
      simp [turned, turn, M3.one, V3.cross, V3.dot]; ring
    rw [e]
    by_cases h0 : u = 0
    · subst h0; simp [len_zero, V3.dot]; norm_num
    · have hk := (len_pos h0).ne'
      rw [(coef _ hk).2, ← len_sq]
      field_simp
      ring
  have hc : Real.cos (len v) = Real.cos (len w) := by
    have a := cosq v
    have b := cosq w
    rw [h1] at a
    linarith
  have hl : len v = len w := Real.injOn_cos ⟨Real.sqrt_nonneg _, hv.le⟩ ⟨Real.sqrt_nonneg _, hw.le⟩ hc
  have hA : Real.sinc (len v) ≠ 0 := by
    by_cases h0 : v = 0
    · subst h0; simp [len_zero]
    · rw [(coef _ (len_pos h0).ne').1]
      exact div_ne_zero (Real.sin_pos_of_pos_of_lt_pi (len_pos h0) hv).ne' (len_pos h0).ne'
  have k1 := congrArg (fun M : M3 ℝ => M.b.z - M.c.y) h1
  have k2 := congrArg (fun M : M3 ℝ => M.c.x - M.a.z) h1
  have k3 := congrArg (fun M : M3 ℝ => M.a.y - M.b.x) h1
  simp only [turned, turn, M3.one, V3.cross, add_x, add_y, add_z, smul_x, smul_y, smul_z, ← hl] at k1 k2 k3
  ext
  · apply mul_left_cancel₀ hA; linarith
  · apply mul_left_cancel₀ hA; linarith
  · apply mul_left_cancel₀ hA; linarith

/-- There is an error function as specified. -/
theorem exists_error : ∃ err, IsError err := by
  classical
  refine ⟨fun T E => if h : ∃ v : V3 ℝ, len v < Real.pi ∧ E = turned v T then h.choose else 0, ?_⟩
  intro T hT v hv
  have h : ∃ w : V3 ℝ, len w < Real.pi ∧ turned v T = turned w T := ⟨v, hv, rfl⟩
  show (if h : ∃ w : V3 ℝ, len w < Real.pi ∧ turned v T = turned w T then h.choose else 0) = v
  rw [dif_pos h]
  exact (turned_inj T hT v _ hv h.choose_spec.1 h.choose_spec.2).symm

/-! ## The angular velocity and the derivative of the error -/

theorem spin_dot (v d : V3 ℝ) : v.dot (spin v d) = v.dot d := by
  by_cases h0 : v = 0
  · subst h0; rw [spin_zero]
  have hn := (dot_pos h0).ne'
  have e : v.dot (spin v d) = Real.sinc (len v) * v.dot d + v.dot d / v.dot v * (1 - Real.sinc (len v)) * v.dot v := by
    unfold spin
    simp only [V3.dot, V3.cross, add_x, add_y, add_z, smul_x, smul_y, smul_z]; ring
  rw [e]
  field_simp
  ring

theorem spin_iff (v d : V3 ℝ) (hv : len v < Real.pi) : spin v d = d ↔ v.cross d = 0 := by
  by_cases h0 : v = 0
  · subst h0
    rw [spin_zero]
    exact ⟨fun _ => by ext <;> simp [V3.cross], fun _ => rfl⟩
  have hn := (dot_pos h0).ne'
  have hσ : v.dot d / v.dot v * v.dot v = v.dot d := div_mul_cancel₀ _ hn
  have hB : 0 < Real.sinc (len v / 2) ^ 2 / 2 := by
    have hp := len_pos h0
    have : 0 < Real.sinc (len v / 2) := by
      rw [Real.sinc_of_ne_zero (by positivity)]
      exact div_pos (Real.sin_pos_of_pos_of_lt_pi (by positivity) (by linarith)) (by positivity)
    positivity
  unfold spin
  generalize v.dot d / v.dot v = σ at *
  generalize Real.sinc (len v) = A at *
  generalize Real.sinc (len v / 2) ^ 2 / 2 = B at *
  constructor
  · intro h
    by_contra hc
    have hcc := dot_pos hc
    have k : (v.cross d).dot (A • d + B • v.cross d + (σ * (1 - A)) • v) = (v.cross d).dot d := by rw [h]
    have k2 : B * (v.cross d).dot (v.cross d) = 0 := by
      have e : (v.cross d).dot (A • d + B • v.cross d + (σ * (1 - A)) • v) = B * (v.cross d).dot (v.cross d) := by
        simp only [V3.dot, V3.cross, add_x, add_y, add_z, smul_x, smul_y, smul_z]; ring
      have e' : (v.cross d).dot d = 0 := by simp only [V3.dot, V3.cross]; ring
      rw [← e, k, e']
    rcases mul_eq_zero.1 k2 with k3 | k3
    · exact hB.ne' k3
    · exact hcc.ne' k3
  · intro h
    have c1 : v.y * d.z - v.z * d.y = 0 := congrArg V3.x h
    have c2 : v.z * d.x - v.x * d.z = 0 := congrArg V3.y h
    have c3 : v.x * d.y - v.y * d.x = 0 := congrArg V3.z h
    have s1 : σ * v.x = d.x := by
      apply mul_right_cancel₀ hn
      simp only [V3.dot] at *
      linear_combination v.x * hσ + v.y * c3 - v.z * c2
    have s2 : σ * v.y = d.y := by
      apply mul_right_cancel₀ hn
      simp only [V3.dot] at *
      linear_combination v.y * hσ + v.z * c1 - v.x * c3
    have s3 : σ * v.z = d.z := by
      apply mul_right_cancel₀ hn
      simp only [V3.dot] at *
      linear_combination v.z * hσ + v.x * c2 - v.y * c1
    rw [h]
    ext <;> simp only [add_x, add_y, add_z, smul_x, smul_y, smul_z, zero_x, zero_y, zero_z]
    · linear_combination (1 - A) * s1
    · linear_combination (1 - A) * s2
    · linear_combination (1 - A) * s3

/-- A motion that does not move the three axes is null -/
theorem still (E : M3 ℝ) (hE : E.Ortho) (u : V3 ℝ) (ha : u.cross E.a = 0) (hb : u.cross E.b = 0) (hc : u.cross E.c = 0) : u = 0 := by
  have h := hE.2
  obtain ⟨⟨a1, a2, a3⟩, ⟨b1, b2, b3⟩, ⟨c1, c2, c3⟩⟩ := E
  obtain ⟨u1, u2, u3⟩ := u
  simp only [M3.mul, M3.tr, M3.one, V3.dot, M3.mk.injEq, V3.mk.injEq] at h
  obtain ⟨⟨h11, h12, h13⟩, ⟨h21, h22, h23⟩, ⟨h31, h32, h33⟩⟩ := h
  have x : ∀ (p q : V3 ℝ), p = q → p.x = q.x ∧ p.y = q.y ∧ p.z = q.z := fun p q h => by subst h; exact ⟨rfl, rfl, rfl⟩
  obtain ⟨p1, p2, p3⟩ := x _ _ ha
  obtain ⟨q1, q2, q3⟩ := x _ _ hb
  obtain ⟨r1, r2, r3⟩ := x _ _ hc
  simp only [V3.cross, zero_x, zero_y, zero_z] at *
  ext <;> simp only [zero_x, zero_y, zero_z] <;> grind

theorem HasD.unique' {v : ℝ → V3 ℝ} {d e : V3 ℝ} {t : ℝ} (h : HasD v d t) (k : HasD v e t) : d = e := by
  ext
  · exact h.1.unique k.1
  · exact h.2.1.unique k.2.1
  · exact h.2.2.unique k.2.2

theorem HasD.congr' {v w : ℝ → V3 ℝ} {d : V3 ℝ} {t : ℝ} (h : HasD v d t) (e : ∀ᶠ s in 𝓝 t, w s = v s) : HasD w d t :=
  ⟨h.1.congr_of_eventuallyEq (e.mono fun s hs => by show (w s).x = _; rw [hs]), h.2.1.congr_of_eventuallyEq (e.mono fun s hs => by show (w s).y = _; rw [hs]),
   h.2.2.congr_of_eventuallyEq (e.mono fun s hs => by show (w s).z = _; rw [hs])⟩

/-- The angular velocity of a frame that is near the target, from the derivative of the error -/
theorem spin_of_moves (T : M3 ℝ) (hT : T.Ortho) (X : ℝ → PT ℝ) (m : MV ℝ) (v : ℝ → V3 ℝ) (d : V3 ℝ) (t : ℝ) (hm : C79.Moves X m t) (hv : HasD v d t)
    (h : ∀ᶠ s in 𝓝 t, (X s).E = turned (v s) T) : m.w = spin (v t) d := by
  have ht := h.self_of_nhds
  have hE : (X t).E.Ortho := by rw [ht]; exact turned_ortho _ _ hT
  have ea : m.w.cross (X t).E.a = (spin (v t) d).cross (X t).E.a := by
    rw [HasD.unique' hm.xaxis (HasD.congr' (turn_deriv hv T.a) (h.mono fun s hs => by rw [hs]; rfl)), ht]; rfl
  have eb : m.w.cross (X t).E.b = (spin (v t) d).cross (X t).E.b := by
    rw [HasD.unique' hm.yaxis (HasD.congr' (turn_deriv hv T.b) (h.mono fun s hs => by rw [hs]; rfl)), ht]; rfl
  have ec : m.w.cross (X t).E.c = (spin (v t) d).cross (X t).E.c := by
    rw [HasD.unique' hm.zaxis (HasD.congr' (turn_deriv hv T.c) (h.mono fun s hs => by rw [hs]; rfl)), ht]; rfl
  have sub : ∀ p q r : V3 ℝ, p.cross r = q.cross r → (p - q).cross r = 0 := by
    intro p q r h
    have h1 := congrArg V3.x h
    have h2 := congrArg V3.y h
    have h3 := congrArg V3.z h
    simp only [V3.cross] at h1 h2 h3
    ext <;> simp only [V3.cross, sub_x, sub_y, sub_z, zero_x, zero_y, zero_z] <;> linarith
  have := still _ hE _ (sub _ _ _ ea) (sub _ _ _ eb) (sub _ _ _ ec)
  have h1 := congrArg V3.x this
  have h2 := congrArg V3.y this
  have h3 := congrArg V3.z this
  simp only [sub_x, sub_y, sub_z, zero_x, zero_y, zero_z] at h1 h2 h3
  ext <;> linarith

/-! ## The function -/

/-- The value is null after `reset`, and at the construction. -/
theorem C102_reset (err : M3 ℝ → M3 ℝ → V3 ℝ) (he : IsError err) (s : State ℝ) (xbf : PT ℝ) (b : Fr.Body ℝ) (h : (Fr.position xbf b).E.Ortho) :
    (s.reset xbf b).value err xbf b = 0 ∧ (make xbf b).value err xbf b = 0 := by
  have e : turned 0 (Fr.position xbf b).E = (Fr.position xbf b).E := by simp only [turned, turn_zero]
  have := he _ h 0 (by rw [len_zero]; exact Real.pi_pos)
  rw [e] at this
  exact ⟨this, this⟩

/-- The value is null only at the target: turning the target by the value gives the frame. -/
theorem C102_value (err : M3 ℝ → M3 ℝ → V3 ℝ) (he : IsError err) (s : State ℝ) (T : M3 ℝ) (hT : T.Ortho) (xbf : PT ℝ) (b : Fr.Body ℝ)
    (hn : Near T (Fr.position xbf b).E) :
    turned ((s.set T).value err xbf b) T = (Fr.position xbf b).E ∧ ((s.set T).value err xbf b = 0 ↔ (Fr.position xbf b).E = T) := by
  obtain ⟨v, hv, e⟩ := hn
  have k : (s.set T).value err xbf b = v := by
    show err T (Fr.position xbf b).E = v
    rw [e]; exact he T hT v hv
  have e0 : turned 0 T = T := by simp only [turned, turn_zero]
  rw [k, e]
  refine ⟨rfl, fun h => by rw [h, e0], fun h => ?_⟩
  exact turned_inj T hT v 0 hv (by rw [len_zero]; exact Real.pi_pos) (by rw [h, e0])

/-- The velocity is the jacobian times the velocities of the joints iff the transformation from the body to the frame leaves the angular velocity unchanged; it is so for
the frames that have the orientation of the body. -/
theorem C102_jacobian_partial {K : Type} [CommRing K] (n : Nat) (xbf : PT K) (b : Fr.Body K) (a : Nat → K) (hb : b.vel = C79.times n b.jac a) :
    (velocity xbf b = times n (jacobian xbf b) a ↔ xbf.E.mulVec b.vel.w = b.vel.w) ∧ (xbf.E = M3.one → velocity xbf b = times n (jacobian xbf b) a) := by
  have e : times n (jacobian xbf b) a = b.vel.w := by rw [hb]; rfl
  rw [e]
  refine ⟨Iff.rfl, fun h => ?_⟩
  show xbf.E.mulVec b.vel.w = b.vel.w
  rw [h]
  ext <;> simp [M3.one, M3.mulVec, V3.dot]

/-- For a frame turned from its body the velocity is not the jacobian times the velocities of the joints. -/
theorem C102_jacobian_false : ∃ (xbf : PT ℤ) (b : Fr.Body ℤ), xbf.E.Ortho ∧ b.pos.E.Ortho ∧ b.vel = C79.times 1 b.jac (fun _ => 1) ∧
    velocity xbf b ≠ times 1 (jacobian xbf b) (fun _ => 1) := by
  refine ⟨⟨⟨⟨0, 1, 0⟩, ⟨-1, 0, 0⟩, ⟨0, 0, 1⟩⟩, 0⟩, ⟨PT.one, ⟨⟨1, 0, 0⟩, 0⟩, fun _ => ⟨⟨1, 0, 0⟩, 0⟩⟩, ⟨rfl, rfl⟩, ⟨rfl, rfl⟩, ?_, ?_⟩
  · ext <;> simp [C79.times]
  · intro h
    have := congrArg V3.x h
    simp [velocity, jacobian, Fr.velocity, Fr.jacobian, times, PT.mulMV, M3.mulVec, V3.dot] at this

section
variable (err : M3 ℝ → M3 ℝ → V3 ℝ) (he : IsError err) (s : State ℝ) (T : M3 ℝ) (hT : T.Ortho) (xbf : PT ℝ) (hx : xbf.E = M3.one) (b : ℝ → Fr.Body ℝ) (t : ℝ)
  (hm : C79.Moves (fun r => (b r).pos) (b t).vel t) (hn : ∀ᶠ r in 𝓝 t, Near T (Fr.position xbf (b r)).E) (d : V3 ℝ)
  (hd : HasD (fun r => (s.set T).value err xbf (b r)) d t)
include he hT hx hm hn hd

theorem velocity_eq : velocity xbf (b t) = spin ((s.set T).value err xbf (b t)) d ∧ len ((s.set T).value err xbf (b t)) < Real.pi := by
  have hpos : ∀ r, (Fr.position xbf (b r)).E = (b r).pos.E := by
    intro r
    show xbf.E.mul (b r).pos.E = _
    rw [hx, one_mul']
  have key : ∀ᶠ r in 𝓝 t, (b r).pos.E = turned ((s.set T).value err xbf (b r)) T ∧ len ((s.set T).value err xbf (b r)) < Real.pi := by
    refine hn.mono fun r hr => ?_
    have h1 := (C102_value err he s T hT xbf (b r) hr).1
    obtain ⟨v, hv, e⟩ := hr
    have k : (s.set T).value err xbf (b r) = v := by
      show err T (Fr.position xbf (b r)).E = v
      rw [e]; exact he T hT v hv
    exact ⟨by rw [h1, hpos], by rw [k]; exact hv⟩
  refine ⟨?_, key.self_of_nhds.2⟩
  have hw := spin_of_moves T hT _ _ _ d t hm hd (key.mono fun r h => h.1)
  rw [← hw]
  show xbf.E.mulVec (b t).vel.w = _
  rw [hx]
  ext <;> simp [M3.one, M3.mulVec, V3.dot]

/-- For the frames that have the orientation of the body, near the target: the velocity is the derivative `d` of the value iff the two are parallel to each other, that is
iff the axis of the error does not turn. It is so at the target. -/
theorem C102_velocity_partial : (velocity xbf (b t) = d ↔ ((s.set T).value err xbf (b t)).cross d = 0) ∧
    ((s.set T).value err xbf (b t) = 0 → velocity xbf (b t) = d) := by
  obtain ⟨h, hl⟩ := velocity_eq err he s T hT xbf hx b t hm hn d hd
  rw [h]
  refine ⟨spin_iff _ _ hl, fun h0 => ?_⟩
  rw [h0, spin_zero]

/-- The velocity gives nevertheless the right derivative for the norm of the value: a dynamics that asks the velocity to be `- k` times the value makes the square of the
norm decrease at the rate `2 k`. -/
theorem C102_norm : HasDerivAt (fun r => ((s.set T).value err xbf (b r)).dot ((s.set T).value err xbf (b r))) (2 * ((s.set T).value err xbf (b t)).dot (velocity xbf (b t))) t ∧
    ∀ k : ℝ, velocity xbf (b t) = (-k) • (s.set T).value err xbf (b t) →
      HasDerivAt (fun r => ((s.set T).value err xbf (b r)).dot ((s.set T).value err xbf (b r))) (-(2 * k) * ((s.set T).value err xbf (b t)).dot ((s.set T).value err xbf (b t))) t := by
  obtain ⟨h, -⟩ := velocity_eq err he s T hT xbf hx b t hm hn d hd
  have e : HasDerivAt (fun r => ((s.set T).value err xbf (b r)).dot ((s.set T).value err xbf (b r))) (2 * ((s.set T).value err xbf (b t)).dot (velocity xbf (b t))) t := by
    refine (hd.dot hd).congr_deriv ?_
    rw [h, spin_dot]
    simp only [V3.dot]; ring
  refine ⟨e, fun k hk => e.congr_deriv ?_⟩
  rw [hk]
  simp only [V3.dot, smul_x, smul_y, smul_z]; ring

end

/-- The velocity is not the derivative of the value, for a frame that is its body and whatever the computation of the error: the target is the identity, the frame is at
one radian around `x` and the error goes towards `y`. -/
theorem C102_velocity_false : ∃ (b : ℝ → Fr.Body ℝ) (d : V3 ℝ), (∀ r, (b r).pos.E.Ortho) ∧ C79.Moves (fun r => (b r).pos) (b 0).vel 0 ∧
    (∀ᶠ r in 𝓝 (0 : ℝ), Near M3.one (Fr.position PT.one (b r)).E) ∧
    ∀ (err : M3 ℝ → M3 ℝ → V3 ℝ), IsError err → ∀ s : State ℝ, HasD (fun r => (s.set M3.one).value err PT.one (b r)) d 0 ∧ velocity PT.one (b 0) ≠ d := by
  let v : ℝ → V3 ℝ := fun r => ⟨1, r, 0⟩
  have hv : HasD v ⟨0, 1, 0⟩ 0 := ⟨hasDerivAt_const _ _, hasDerivAt_id _, hasDerivAt_const _ _⟩
  have l0 : len (v 0) < Real.pi := by
    have : len (v 0) = 1 := by simp [v, len, V3.dot]
    rw [this]; linarith [Real.two_le_pi]
  let b : ℝ → Fr.Body ℝ := fun r => ⟨⟨turned (v r) M3.one, 0⟩, ⟨spin (v 0) ⟨0, 1, 0⟩, 0⟩, fun _ => ⟨0, 0⟩⟩
  have hpos : ∀ r, (Fr.position PT.one (b r)).E = turned (v r) M3.one := fun r => one_mul' _
  have near : ∀ᶠ r in 𝓝 (0 : ℝ), len (v r) < Real.pi := (len_cont hv).eventually_lt continuousAt_const l0
  have hN : ∀ᶠ r in 𝓝 (0 : ℝ), Near M3.one (Fr.position PT.one (b r)).E := near.mono fun r h => ⟨v r, h, hpos r⟩
  have hM : C79.Moves (fun r => (b r).pos) (b 0).vel 0 := ⟨HasD.const 0 0, turn_deriv hv _, turn_deriv hv _, turn_deriv hv _⟩
  refine ⟨b, ⟨0, 1, 0⟩, fun r => turned_ortho _ _ one_ortho, hM, hN, fun err he s => ?_⟩
  have hD : HasD (fun r => (s.set M3.one).value err PT.one (b r)) ⟨0, 1, 0⟩ 0 := by
    refine HasD.congr' hv (near.mono fun r h => ?_)
    show err M3.one (Fr.position PT.one (b r)).E = v r
    rw [hpos]; exact he _ one_ortho _ h
  refine ⟨hD, fun hh => ?_⟩
  have := (C102_velocity_partial err he s M3.one one_ortho PT.one rfl b 0 hM hN _ hD).1.1 hh
  have e : (s.set M3.one).value err PT.one (b 0) = v 0 := by
    show err M3.one (Fr.position PT.one (b 0)).E = v 0
    rw [hpos]; exact he _ one_ortho _ l0
  rw [e] at this
  have h3 := congrArg V3.z this
  simp [v, V3.cross] at h3

/-- The derivative of the velocity is the jacobian times the accelerations of the joints plus the normal acceleration, for the frames that have the orientation of the
body, when it is so for the body. -/
theorem C102_acceleration_partial (n : Nat) (xbf : PT ℝ) (hx : xbf.E = M3.one) (b : ℝ → Fr.Body ℝ) (t : ℝ) (na : MV ℝ) (ddq : Nat → ℝ)
    (h : HasD (fun r => (b r).vel.w) ((C79.times n (b t).jac ddq).w + na.w) t) :
    HasD (fun r => velocity xbf (b r)) (times n (jacobian xbf (b t)) ddq + normalAcceleration xbf na) t := by
  have e : ∀ u : V3 ℝ, xbf.E.mulVec u = u := by
    intro u
    rw [hx]
    ext <;> simp [M3.one, M3.mulVec, V3.dot]
  have e1 : (fun r => velocity xbf (b r)) = fun r => (b r).vel.w := by funext r; exact e _
  have e2 : times n (jacobian xbf (b t)) ddq + normalAcceleration xbf na = (C79.times n (b t).jac ddq).w + na.w := by
    show times n (jacobian xbf (b t)) ddq + xbf.E.mulVec na.w = _
    rw [e]; rfl
  rw [e1, e2]
  exact h

/-! ## Concrete cases -/

example : ∃ err, IsError err := exists_error

/-- A frame at half a radian from the target -/
example : Near M3.one (turned ⟨1/2, 0, 0⟩ M3.one) := by
  refine ⟨_, ?_, rfl⟩
  have : len ⟨1/2, 0, 0⟩ = 1/2 := by
    unfold len V3.dot
    rw [show (1/2 : ℝ) * (1/2) + 0 * 0 + 0 * 0 = (1/2) * (1/2) by ring]
    exact Real.sqrt_mul_self (by norm_num)
  rw [this]; linarith [Real.two_le_pi]

/-- The hypotheses of `C102_velocity_partial` and of `C102_norm` with a velocity that is the derivative -/
example : ∃ (err : M3 ℝ → M3 ℝ → V3 ℝ) (b : ℝ → Fr.Body ℝ) (d : V3 ℝ), IsError err ∧ C79.Moves (fun r => (b r).pos) (b 0).vel 0 ∧
    (∀ᶠ r in 𝓝 (0 : ℝ), Near M3.one (Fr.position PT.one (b r)).E) ∧ (∀ s : State ℝ, HasD (fun r => (s.set M3.one).value err PT.one (b r)) d 0) ∧ d ≠ 0 := by
  obtain ⟨err, he⟩ := exists_error
  obtain ⟨b, d, -, h1, h2, h3⟩ := C102_velocity_false
  refine ⟨err, b, d, he, h1, h2, fun s => (h3 err he s).1, fun h => ?_⟩
  have h4 := h3 err he ⟨M3.one⟩
  have h5 := (C102_velocity_partial err he ⟨M3.one⟩ M3.one one_ortho PT.one rfl b 0 h1 h2 d h4.1).1
  exact h4.2 (h5.2 (by rw [h]; ext <;> simp [V3.cross]))

end Verif.C102
