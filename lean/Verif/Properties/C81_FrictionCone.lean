import Verif.Model.FrictionCone
import Mathlib.RingTheory.RootsOfUnity.Complex
import Mathlib.Analysis.SpecialFunctions.Complex.Arg
import Mathlib.Tactic.Ring
import Mathlib.Tactic.NormNum
import Mathlib.Tactic.Linarith
import Mathlib.Tactic.LinearCombination
/-!
# C81 - the linearized friction cone is between two friction cones
-/
set_option autoImplicit false
set_option linter.unusedSectionVars false

namespace Verif.C81
open Verif Verif.Sva Verif.Fric Finset

/-! ## Specification -/

/-- The part of a force orthogonal to the normal -/
def tangential (n f : V3 ℝ) : V3 ℝ := f - f.dot n • n

/-- The friction cone of coefficient `mu` about `n`: `‖f_t‖ ≤ mu f_n` -/
def InCone (mu : ℝ) (n f : V3 ℝ) : Prop := 0 ≤ f.dot n ∧ (tangential n f).dot (tangential n f) ≤ mu * mu * (f.dot n * f.dot n)

/-- The force given by coefficients of the generators -/
def combine (g : List (V3 ℝ)) (lam : Nat → ℝ) : V3 ℝ :=
  ⟨∑ i ∈ range g.length, lam i * (g.getD i 0).x, ∑ i ∈ range g.length, lam i * (g.getD i 0).y, ∑ i ∈ range g.length, lam i * (g.getD i 0).z⟩

/-! ## Frames -/

theorem dot_comm (u v : V3 ℝ) : u.dot v = v.dot u := by simp only [V3.dot]; ring

/-- The rows of an orthogonal matrix -/
structure Rows (M : M3 ℝ) : Prop where
  aa : M.a.dot M.a = 1
  bb : M.b.dot M.b = 1
  cc : M.c.dot M.c = 1
  ab : M.a.dot M.b = 0
  ac : M.a.dot M.c = 0
  bc : M.b.dot M.c = 0
  full : ∀ f : V3 ℝ, f = f.dot M.a • M.a + f.dot M.b • M.b + f.dot M.c • M.c

theorem rows (M : M3 ℝ) (h : M.Ortho) : Rows M := by
  obtain ⟨h1, h2⟩ := h
  have e := fun (p : M3 ℝ → ℝ) => congrArg p h1
  have e' := fun (p : M3 ℝ → ℝ) => congrArg p h2
  simp only [M3.mul, M3.tr, M3.one] at e e'
  refine ⟨e (fun m => m.a.x), e (fun m => m.b.y), e (fun m => m.c.z), e (fun m => m.a.y), e (fun m => m.a.z), e (fun m => m.b.z), ?_⟩
  intro f
  have c1 := e' (fun m => m.a.x)
  have c2 := e' (fun m => m.a.y)
  have c3 := e' (fun m => m.a.z)
  have c4 := e' (fun m => m.b.y)
  have c5 := e' (fun m => m.b.z)
  have c6 := e' (fun m => m.c.z)
  simp only [V3.dot] at c1 c2 c3 c4 c5 c6
  ext <;> simp only [V3.dot, add_x, add_y, add_z, smul_x, smul_y, smul_z]
  · linear_combination -f.x * c1 - f.y * c2 - f.z * c3
  · linear_combination -f.x * c2 - f.y * c4 - f.z * c5
  · linear_combination -f.x * c3 - f.y * c5 - f.z * c6

/-- The third row turned about the first is along the second, up to the orientation of the frame -/
theorem cross_rows (M : M3 ℝ) (h : Rows M) : ∃ s : ℝ, s * s = 1 ∧ M.c.cross M.a = s • M.b := by
  refine ⟨(M.c.cross M.a).dot M.b, ?_, ?_⟩
  · have e := h.full (M.c.cross M.a)
    have e1 : (M.c.cross M.a).dot M.a = 0 := by simp only [V3.dot, V3.cross]; ring
    have e2 : (M.c.cross M.a).dot M.c = 0 := by simp only [V3.dot, V3.cross]; ring
    rw [e1, e2] at e
    have l : (M.c.cross M.a).dot (M.c.cross M.a) = M.c.dot M.c * M.a.dot M.a - M.a.dot M.c * M.a.dot M.c := by simp only [V3.dot, V3.cross]; ring
    rw [h.cc, h.aa, h.ac] at l
    have l2 : (M.c.cross M.a).dot (M.c.cross M.a) = ((M.c.cross M.a).dot M.b) * ((M.c.cross M.a).dot M.b) := by
      conv_lhs => rw [e]
      have bb := h.bb
      generalize (M.c.cross M.a).dot M.b = k
      simp only [V3.dot, add_x, add_y, add_z, smul_x, smul_y, smul_z] at bb ⊢
      linear_combination k * k * bb
    linarith
  · have e := h.full (M.c.cross M.a)
    have e1 : (M.c.cross M.a).dot M.a = 0 := by simp only [V3.dot, V3.cross]; ring
    have e2 : (M.c.cross M.a).dot M.c = 0 := by simp only [V3.dot, V3.cross]; ring
    rw [e1, e2] at e
    generalize (M.c.cross M.a).dot M.b = k at e
    rw [e]
    ext <;> simp

/-- The generators in the frame -/
theorem gen_eq (M : M3 ℝ) (h : M.Ortho) (N : Nat) (mu d : ℝ) (hd : d = 1 ∨ d = -1) : ∃ e : ℝ, e * e = 1 ∧ ∀ i : Nat,
    rotate (d * step N * i) (normal M) (gen M mu d) =
      Real.cos (Real.arctan mu) • M.c + (Real.sin (Real.arctan mu) * Real.sin (step N * i)) • M.a + (Real.sin (Real.arctan mu) * Real.cos (step N * i) * e) • M.b := by
  have hr := rows M h
  obtain ⟨s, hs, hc⟩ := cross_rows M hr
  refine ⟨-(d * s), by rcases hd with rfl | rfl <;> linarith, fun i => ?_⟩
  have hcos : Real.cos (d * step N * i) = Real.cos (step N * i) := by
    rcases hd with rfl | rfl
    · rw [one_mul]
    · rw [show (-1 : ℝ) * step N * i = -(step N * i) by ring, Real.cos_neg]
  have hsin : Real.sin (d * step N * i) = d * Real.sin (step N * i) := by
    rcases hd with rfl | rfl
    · rw [one_mul, one_mul]
    · rw [show (-1 : ℝ) * step N * i = -(step N * i) by ring, Real.sin_neg]; ring
  have hdd : d * d = 1 := by rcases hd with rfl | rfl <;> norm_num
  unfold rotate gen normal rotate
  rw [hcos, hsin]
  generalize Real.cos (Real.arctan mu) = ca
  generalize Real.sin (Real.arctan mu) = sa
  generalize Real.cos (step N * i) = cp
  generalize Real.sin (step N * i) = sp
  -- the three products of the rows
  have p1 : M.a.cross M.c = (-s) • M.b := by
    ext
    · have := congrArg V3.x hc; simp only [V3.cross, smul_x] at this ⊢; linarith
    · have := congrArg V3.y hc; simp only [V3.cross, smul_y] at this ⊢; linarith
    · have := congrArg V3.z hc; simp only [V3.cross, smul_z] at this ⊢; linarith
  have cc := hr.cc; have ac := hr.ac
  have p2 : M.c.cross (M.c.cross M.a) = (-1 : ℝ) • M.a := by
    simp only [V3.dot] at cc ac
    ext <;> simp only [V3.cross, smul_x, smul_y, smul_z]
    · linear_combination M.c.x * ac - M.a.x * cc
    · linear_combination M.c.y * ac - M.a.y * cc
    · linear_combination M.c.z * ac - M.a.z * cc
  rw [hc] at p2
  have p0 : (d • M.a).cross M.c = (-(d * s)) • M.b := by
    ext
    · have := congrArg V3.x p1; simp only [V3.cross, smul_x, smul_y, smul_z] at this ⊢; linear_combination d * this
    · have := congrArg V3.y p1; simp only [V3.cross, smul_x, smul_y, smul_z] at this ⊢; linear_combination d * this
    · have := congrArg V3.z p1; simp only [V3.cross, smul_x, smul_y, smul_z] at this ⊢; linear_combination d * this
  have q0 : (d • M.a).dot M.c = 0 := by simp only [V3.dot, smul_x, smul_y, smul_z] at ac ⊢; linear_combination d * ac
  rw [p0, q0]
  have bc := hr.bc
  have g0 : ca • M.c + sa • (-(d * s)) • M.b + ((1 - ca) * 0) • d • M.a = ca • M.c + (-(sa * d * s)) • M.b := by
    ext <;> simp only [add_x, add_y, add_z, smul_x, smul_y, smul_z] <;> ring
  rw [g0]
  have g1 : M.c.cross (ca • M.c + (-(sa * d * s)) • M.b) = (sa * d) • M.a := by
    ext
    · have := congrArg V3.x p2; simp only [V3.cross, add_x, add_y, add_z, smul_x, smul_y, smul_z] at this ⊢; linear_combination -(sa * d) * this
    · have := congrArg V3.y p2; simp only [V3.cross, add_x, add_y, add_z, smul_x, smul_y, smul_z] at this ⊢; linear_combination -(sa * d) * this
    · have := congrArg V3.z p2; simp only [V3.cross, add_x, add_y, add_z, smul_x, smul_y, smul_z] at this ⊢; linear_combination -(sa * d) * this
  have g2 : M.c.dot (ca • M.c + (-(sa * d * s)) • M.b) = ca := by
    simp only [V3.dot, add_x, add_y, add_z, smul_x, smul_y, smul_z] at cc bc ⊢
    linear_combination ca * cc - sa * d * s * bc
  rw [g1, g2]
  ext <;> simp only [add_x, add_y, add_z, smul_x, smul_y, smul_z]
  · linear_combination sa * sp * M.a.x * hdd
  · linear_combination sa * sp * M.a.y * hdd
  · linear_combination sa * sp * M.a.z * hdd

/-! ## The generators -/

/-- There are as many generators as asked. -/
theorem C81_count (M : M3 ℝ) (N : Nat) (mu d : ℝ) : (generators M N mu d).length = N := by simp [generators]

/-- Each generator has norm 1 and is on the boundary of the friction cone about the third row of the frame. -/
theorem C81_generators (M : M3 ℝ) (h : M.Ortho) (N : Nat) (mu d : ℝ) (hd : d = 1 ∨ d = -1) (g : V3 ℝ) (hg : g ∈ generators M N mu d) :
    g.dot g = 1 ∧ 0 < g.dot M.c ∧ (tangential M.c g).dot (tangential M.c g) = mu * mu * (g.dot M.c * g.dot M.c) := by
  obtain ⟨e, he, hgen⟩ := gen_eq M h N mu d hd
  have hr := rows M h
  obtain ⟨i, _, rfl⟩ := List.mem_map.1 hg
  rw [hgen i]
  have h1 := Real.sin_sq_add_cos_sq (Real.arctan mu)
  have h2 := Real.sin_sq_add_cos_sq (step N * i)
  have h3 := Real.cos_arctan_pos mu
  have h4 : Real.sin (Real.arctan mu) = mu * Real.cos (Real.arctan mu) := by
    have := Real.tan_arctan mu
    rw [Real.tan_eq_sin_div_cos] at this
    rw [div_eq_iff h3.ne'] at this
    exact this
  revert h1 h2 h3 h4
  generalize Real.cos (Real.arctan mu) = ca
  generalize Real.sin (Real.arctan mu) = sa
  generalize Real.cos (step N * i) = cp
  generalize Real.sin (step N * i) = sp
  intro h1 h2 h3 h4
  obtain ⟨aa, bb, cc, ab, ac, bc, _⟩ := hr
  have eq1 : (ca • M.c + (sa * sp) • M.a + (sa * cp * e) • M.b).dot M.c = ca := by
    simp only [V3.dot, add_x, add_y, add_z, smul_x, smul_y, smul_z] at cc ac bc ⊢
    linear_combination ca * cc + sa * sp * ac + sa * cp * e * bc
  have eq2 : (ca • M.c + (sa * sp) • M.a + (sa * cp * e) • M.b).dot (ca • M.c + (sa * sp) • M.a + (sa * cp * e) • M.b) = ca * ca + sa * sa := by
    simp only [V3.dot, add_x, add_y, add_z, smul_x, smul_y, smul_z] at aa bb cc ab ac bc ⊢
    linear_combination ca ^ 2 * cc + (sa * sp) ^ 2 * aa + (sa * cp * e) ^ 2 * bb + 2 * ca * (sa * sp) * ac + 2 * ca * (sa * cp * e) * bc + 2 * (sa * sp) * (sa * cp * e) * ab +
      sa ^ 2 * cp ^ 2 * he + sa ^ 2 * h2
  have eq3 : ∀ f : V3 ℝ, (tangential M.c f).dot (tangential M.c f) = f.dot f - f.dot M.c * f.dot M.c := by
    intro f
    unfold tangential
    generalize hk : f.dot M.c = k
    simp only [V3.dot, sub_x, sub_y, sub_z, smul_x, smul_y, smul_z] at cc hk ⊢
    linear_combination k * k * cc - 2 * k * hk
  refine ⟨by rw [eq2]; linarith, by rw [eq1]; exact h3, ?_⟩
  rw [eq3, eq1, eq2]
  rw [h4]; ring

theorem tangential_sq (M : M3 ℝ) (hr : Rows M) (f : V3 ℝ) : (tangential M.c f).dot (tangential M.c f) = f.dot M.a * f.dot M.a + f.dot M.b * f.dot M.b := by
  have e : tangential M.c f = f.dot M.a • M.a + f.dot M.b • M.b := by
    have := hr.full f
    unfold tangential
    conv_lhs => rw [this]
    have hc : (f.dot M.a • M.a + f.dot M.b • M.b + f.dot M.c • M.c).dot M.c = f.dot M.c := by rw [← this]
    rw [hc]
    ext <;> simp only [sub_x, sub_y, sub_z, add_x, add_y, add_z, smul_x, smul_y, smul_z] <;> ring
  rw [e]
  obtain ⟨aa, bb, cc, ab, ac, bc, _⟩ := hr
  generalize f.dot M.a = p
  generalize f.dot M.b = q
  simp only [V3.dot, add_x, add_y, add_z, smul_x, smul_y, smul_z] at aa bb ab ⊢
  linear_combination p * p * aa + q * q * bb + 2 * p * q * ab

/-- Components of a combination of the generators -/
theorem combine_dot (g : List (V3 ℝ)) (lam : Nat → ℝ) (u : V3 ℝ) : (combine g lam).dot u = ∑ i ∈ range g.length, lam i * (g.getD i 0).dot u := by
  unfold combine
  simp only [V3.dot]
  rw [Finset.sum_mul, Finset.sum_mul, Finset.sum_mul, ← Finset.sum_add_distrib, ← Finset.sum_add_distrib]
  exact Finset.sum_congr rfl (fun i _ => by ring)

theorem combine_gen (M : M3 ℝ) (h : M.Ortho) (N : Nat) (mu d : ℝ) (hd : d = 1 ∨ d = -1) : ∃ e : ℝ, e * e = 1 ∧ ∀ lam : Nat → ℝ,
    (combine (generators M N mu d) lam).dot M.c = Real.cos (Real.arctan mu) * ∑ i ∈ range N, lam i ∧
    (combine (generators M N mu d) lam).dot M.a = Real.sin (Real.arctan mu) * ∑ i ∈ range N, lam i * Real.sin (step N * i) ∧
    (combine (generators M N mu d) lam).dot M.b = e * (Real.sin (Real.arctan mu) * ∑ i ∈ range N, lam i * Real.cos (step N * i)) := by
  obtain ⟨e, he, hgen⟩ := gen_eq M h N mu d hd
  obtain ⟨aa, bb, cc, ab, ac, bc, _⟩ := rows M h
  refine ⟨e, he, fun lam => ?_⟩
  have hget : ∀ i ∈ range N, (generators M N mu d).getD i 0 = rotate (d * step N * i) (normal M) (gen M mu d) := by
    intro i hi
    have : i < N := Finset.mem_range.1 hi
    simp [generators, List.getD, this]
  simp only [combine_dot, C81_count]
  refine ⟨?_, ?_, ?_⟩
  · rw [Finset.mul_sum]
    refine Finset.sum_congr rfl (fun i hi => ?_)
    rw [hget i hi, hgen]
    simp only [V3.dot, add_x, add_y, add_z, smul_x, smul_y, smul_z] at cc ac bc ⊢
    linear_combination lam i * (Real.cos (Real.arctan mu) * cc + Real.sin (Real.arctan mu) * Real.sin (step N * i) * ac + Real.sin (Real.arctan mu) * Real.cos (step N * i) * e * bc)
  · rw [Finset.mul_sum]
    refine Finset.sum_congr rfl (fun i hi => ?_)
    rw [hget i hi, hgen]
    simp only [V3.dot, add_x, add_y, add_z, smul_x, smul_y, smul_z] at aa ac ab ⊢
    linear_combination lam i * (Real.cos (Real.arctan mu) * ac + Real.sin (Real.arctan mu) * Real.sin (step N * i) * aa + Real.sin (Real.arctan mu) * Real.cos (step N * i) * e * ab)
  · rw [Finset.mul_sum, Finset.mul_sum]
    refine Finset.sum_congr rfl (fun i hi => ?_)
    rw [hget i hi, hgen]
    simp only [V3.dot, add_x, add_y, add_z, smul_x, smul_y, smul_z] at bb bc ab ⊢
    linear_combination lam i * (Real.cos (Real.arctan mu) * bc + Real.sin (Real.arctan mu) * Real.sin (step N * i) * ab + Real.sin (Real.arctan mu) * Real.cos (step N * i) * e * bb)

theorem sin_arctan_eq (mu : ℝ) : Real.sin (Real.arctan mu) = mu * Real.cos (Real.arctan mu) := by
  have := Real.tan_arctan mu
  rw [Real.tan_eq_sin_div_cos, div_eq_iff (Real.cos_arctan_pos mu).ne'] at this
  exact this

/-- The linearized cone is inside the friction cone: no combination of the generators with positive coefficients slips. -/
theorem C81_inside (M : M3 ℝ) (h : M.Ortho) (N : Nat) (mu d : ℝ) (hd : d = 1 ∨ d = -1) (lam : Nat → ℝ) (hl : ∀ i < N, 0 ≤ lam i) :
    InCone mu M.c (combine (generators M N mu d) lam) := by
  obtain ⟨e, he, hc⟩ := combine_gen M h N mu d hd
  obtain ⟨h1, h2, h3⟩ := hc lam
  have hS : 0 ≤ ∑ i ∈ range N, lam i := Finset.sum_nonneg (fun i hi => hl i (Finset.mem_range.1 hi))
  have hca := Real.cos_arctan_pos mu
  refine ⟨by rw [h1]; exact mul_nonneg hca.le hS, ?_⟩
  rw [tangential_sq M (rows M h), h1, h2, h3, sin_arctan_eq]
  -- (∑ λ sin)² + (∑ λ cos)² ≤ (∑ λ)²
  have key : (∑ i ∈ range N, lam i * Real.sin (step N * i)) ^ 2 + (∑ i ∈ range N, lam i * Real.cos (step N * i)) ^ 2 ≤ (∑ i ∈ range N, lam i) ^ 2 := by
    rw [sq, sq, sq, Finset.sum_mul_sum, Finset.sum_mul_sum, Finset.sum_mul_sum, ← Finset.sum_add_distrib]
    refine Finset.sum_le_sum (fun i hi => ?_)
    rw [← Finset.sum_add_distrib]
    refine Finset.sum_le_sum (fun j hj => ?_)
    have hij : 0 ≤ lam i * lam j := mul_nonneg (hl i (Finset.mem_range.1 hi)) (hl j (Finset.mem_range.1 hj))
    have hcs := Real.cos_le_one (step N * i - step N * j)
    rw [Real.cos_sub] at hcs
    nlinarith
  have hm : 0 ≤ mu * mu * (Real.cos (Real.arctan mu) * Real.cos (Real.arctan mu)) := mul_nonneg (mul_self_nonneg _) (mul_self_nonneg _)
  have := mul_le_mul_of_nonneg_left key hm
  generalize (∑ i ∈ range N, lam i * Real.sin (step N * i)) = S at *
  generalize (∑ i ∈ range N, lam i * Real.cos (step N * i)) = C at *
  generalize (∑ i ∈ range N, lam i) = T at *
  generalize Real.cos (Real.arctan mu) = ca at *
  have e2 : e * (mu * ca * C) * (e * (mu * ca * C)) = (mu * ca * C) * (mu * ca * C) := by linear_combination (mu * ca * C) ^ 2 * he
  rw [e2]
  linarith

/-! ## The friction cone that is inside the linearized one -/

theorem step_pos (N : Nat) (hN : 3 ≤ N) : 0 < step N ∧ step N < Real.pi ∧ step N * N = 2 * Real.pi := by
  have h3 : (3 : ℝ) ≤ N := by exact_mod_cast hN
  have h0 : (0 : ℝ) < N := by linarith
  have hp := Real.pi_pos
  unfold step
  refine ⟨div_pos (by linarith) h0, ?_, ?_⟩
  · rw [div_lt_iff₀ h0]; nlinarith
  · rw [div_mul_cancel₀ _ h0.ne']; ring

/-- The sum of the directions of the generators is null -/
theorem sum_dirs (N : Nat) (hN : 3 ≤ N) : ∑ i ∈ range N, Real.cos (step N * i) = 0 ∧ ∑ i ∈ range N, Real.sin (step N * i) = 0 := by
  have hz := (Complex.isPrimitiveRoot_exp N (by omega)).geom_sum_eq_zero (by omega)
  have hpow : ∀ i : Nat, Complex.exp (2 * Real.pi * Complex.I / N) ^ i = ⟨Real.cos (step N * i), Real.sin (step N * i)⟩ := by
    intro i
    rw [← Complex.exp_nat_mul]
    have : (i : ℂ) * (2 * Real.pi * Complex.I / N) = ((step N * i : ℝ) : ℂ) * Complex.I := by
      unfold step
      push_cast
      ring
    rw [this]
    apply Complex.ext
    · exact Complex.exp_ofReal_mul_I_re _
    · exact Complex.exp_ofReal_mul_I_im _
  simp only [hpow] at hz
  constructor
  · have := congrArg Complex.re hz
    rw [Complex.re_sum] at this
    exact this
  · have := congrArg Complex.im hz
    rw [Complex.im_sum] at this
    exact this

/-- A direction of the plane is between two consecutive generators -/
theorem sector (N : Nat) (hN : 3 ≤ N) (x y : ℝ) : ∃ (ρ δ : ℝ) (k : Nat), 0 ≤ ρ ∧ ρ * ρ = x * x + y * y ∧ k < N ∧ 0 ≤ δ ∧ δ ≤ step N ∧
    x = ρ * Real.cos (step N * k + δ) ∧ y = ρ * Real.sin (step N * k + δ) := by
  obtain ⟨hs, _, hsN⟩ := step_pos N hN
  -- an angle between 0 and 2 pi
  obtain ⟨ψ, h0, h1, hx, hy⟩ : ∃ ψ : ℝ, 0 ≤ ψ ∧ ψ < 2 * Real.pi ∧ x = ‖(⟨x, y⟩ : ℂ)‖ * Real.cos ψ ∧ y = ‖(⟨x, y⟩ : ℂ)‖ * Real.sin ψ := by
    have hc := Complex.norm_mul_cos_arg ⟨x, y⟩
    have hsn := Complex.norm_mul_sin_arg ⟨x, y⟩
    have hl := Complex.neg_pi_lt_arg ⟨x, y⟩
    have hu := Complex.arg_le_pi ⟨x, y⟩
    have hp := Real.pi_pos
    by_cases hneg : Complex.arg ⟨x, y⟩ < 0
    · refine ⟨Complex.arg ⟨x, y⟩ + 2 * Real.pi, by linarith, by linarith, ?_, ?_⟩
      · rw [Real.cos_add_two_pi]; exact hc.symm
      · rw [Real.sin_add_two_pi]; exact hsn.symm
    · exact ⟨Complex.arg ⟨x, y⟩, by linarith, by linarith, hc.symm, hsn.symm⟩
  refine ⟨‖(⟨x, y⟩ : ℂ)‖, ψ - step N * ⌊ψ / step N⌋₊, ⌊ψ / step N⌋₊, norm_nonneg _, ?_, ?_, ?_, ?_, ?_, ?_⟩
  · have := Complex.normSq_eq_norm_sq ⟨x, y⟩
    rw [Complex.normSq_mk, sq] at this
    exact this.symm
  · rw [Nat.floor_lt (div_nonneg h0 hs.le), div_lt_iff₀ hs]
    linarith
  · have := Nat.floor_le (div_nonneg h0 hs.le)
    rw [le_div_iff₀ hs] at this
    linarith
  · have := Nat.lt_floor_add_one (ψ / step N)
    rw [div_lt_iff₀ hs] at this
    linarith
  · rw [show step N * (⌊ψ / step N⌋₊ : ℝ) + (ψ - step N * ⌊ψ / step N⌋₊) = ψ by ring]; exact hx
  · rw [show step N * (⌊ψ / step N⌋₊ : ℝ) + (ψ - step N * ⌊ψ / step N⌋₊) = ψ by ring]; exact hy

/-- The generator that follows -/
theorem next (N : Nat) (hN : 3 ≤ N) (k : Nat) (hk : k < N) : ∃ k' < N, Real.cos (step N * k') = Real.cos (step N * k + step N) ∧ Real.sin (step N * k') = Real.sin (step N * k + step N) := by
  obtain ⟨_, _, hsN⟩ := step_pos N hN
  by_cases h : k + 1 < N
  · refine ⟨k + 1, h, ?_, ?_⟩ <;> (congr 1; push_cast; ring)
  · have hk' : k + 1 = N := by omega
    have e : step N * k + step N = 2 * Real.pi := by
      rw [← hsN]
      rw [show (N : ℝ) = (k : ℝ) + 1 by rw [← hk']; push_cast; ring]
      ring
    refine ⟨0, by omega, ?_, ?_⟩
    · rw [e, Real.cos_two_pi]; simp
    · rw [e, Real.sin_two_pi]; simp

theorem sum_three (N k k' : Nat) (hk : k < N) (hk' : k' < N) (A B C : ℝ) (f : Nat → ℝ) :
    ∑ i ∈ range N, ((if i = k then A else 0) + (if i = k' then B else 0) + C) * f i = A * f k + B * f k' + C * ∑ i ∈ range N, f i := by
  have h : ∀ i, ((if i = k then A else 0) + (if i = k' then B else 0) + C) * f i = (if i = k then A * f k else 0) + (if i = k' then B * f k' else 0) + C * f i := by
    intro i
    by_cases h1 : i = k <;> by_cases h2 : i = k'
    · rw [if_pos h1, if_pos h2, if_pos h1, if_pos h2, ← h1, ← h2]; ring
    · rw [if_pos h1, if_neg h2, if_pos h1, if_neg h2, ← h1]; ring
    · rw [if_neg h1, if_pos h2, if_neg h1, if_pos h2, ← h2]; ring
    · rw [if_neg h1, if_neg h2, if_neg h1, if_neg h2]; ring
  simp only [h]
  rw [Finset.sum_add_distrib, Finset.sum_add_distrib, Finset.sum_ite_eq', Finset.sum_ite_eq', if_pos (Finset.mem_range.2 hk), if_pos (Finset.mem_range.2 hk'), Finset.mul_sum]

/-- The linearized cone contains the friction cone of coefficient `mu cos(pi / N)`: each force of that cone is a combination of the generators with positive coefficients. -/
theorem C81_contains (M : M3 ℝ) (h : M.Ortho) (N : Nat) (hN : 3 ≤ N) (mu d : ℝ) (hmu : 0 ≤ mu) (hd : d = 1 ∨ d = -1) (f : V3 ℝ)
    (hf : InCone (mu * Real.cos (Real.pi / N)) M.c f) : ∃ lam : Nat → ℝ, (∀ i, 0 ≤ lam i) ∧ f = combine (generators M N mu d) lam := by
  obtain ⟨e, he, hc⟩ := combine_gen M h N mu d hd
  have hr := rows M h
  obtain ⟨hf0, hf1⟩ := hf
  rw [tangential_sq M hr] at hf1
  -- it is enough to have the three components
  suffices hl : ∃ lam : Nat → ℝ, (∀ i, 0 ≤ lam i) ∧ Real.cos (Real.arctan mu) * ∑ i ∈ range N, lam i = f.dot M.c ∧
      Real.sin (Real.arctan mu) * ∑ i ∈ range N, lam i * Real.sin (step N * i) = f.dot M.a ∧
      Real.sin (Real.arctan mu) * ∑ i ∈ range N, lam i * Real.cos (step N * i) = e * f.dot M.b by
    obtain ⟨lam, h0, h1, h2, h3⟩ := hl
    refine ⟨lam, h0, ?_⟩
    obtain ⟨c1, c2, c3⟩ := hc lam
    rw [hr.full f, hr.full (combine (generators M N mu d) lam), c1, c2, c3, h1, h2, h3]
    rw [show e * (e * f.dot M.b) = f.dot M.b by rw [← mul_assoc, he, one_mul]]
  have hca := Real.cos_arctan_pos mu
  obtain ⟨hs, hsp, hsN⟩ := step_pos N hN
  have hN0 : (0 : ℝ) < N := by exact_mod_cast (by omega : 0 < N)
  obtain ⟨sc, ss⟩ := sum_dirs N hN
  obtain ⟨ρ, δ, k, hρ, hρ2, hk, hδ0, hδ1, hx, hy⟩ := sector N hN (e * f.dot M.b) (f.dot M.a)
  have hρ3 : ρ * ρ = f.dot M.a * f.dot M.a + f.dot M.b * f.dot M.b := by
    rw [hρ2]; linear_combination (f.dot M.b) ^ 2 * he
  rw [← hρ3] at hf1
  generalize f.dot M.c = fn at *
  generalize f.dot M.a = fa at *
  generalize e * f.dot M.b = fb at *
  have half : Real.pi / N = step N / 2 := by unfold step; ring
  rw [half] at hf1
  have hch : 0 < Real.cos (step N / 2) := Real.cos_pos_of_mem_Ioo ⟨by linarith, by linarith⟩
  have hsh : 0 < Real.sin (step N / 2) := Real.sin_pos_of_pos_of_lt_pi (by linarith) (by linarith)
  have hss : Real.sin (step N) = 2 * Real.sin (step N / 2) * Real.cos (step N / 2) := by
    rw [← Real.sin_two_mul]; congr 1; ring
  have hsp' : 0 < Real.sin (step N) := by rw [hss]; exact mul_pos (mul_pos two_pos hsh) hch
  have hle : ρ ≤ mu * Real.cos (step N / 2) * fn := by
    have h0 : 0 ≤ mu * Real.cos (step N / 2) * fn := mul_nonneg (mul_nonneg hmu hch.le) hf0
    nlinarith [sq_nonneg (ρ - mu * Real.cos (step N / 2) * fn)]
  by_cases hρ0 : ρ = 0
  · refine ⟨fun _ => fn / (N * Real.cos (Real.arctan mu)), fun _ => div_nonneg hf0 (mul_nonneg hN0.le hca.le), ?_, ?_, ?_⟩
    · rw [Finset.sum_const, Finset.card_range, nsmul_eq_mul, ← mul_assoc, mul_comm (Real.cos (Real.arctan mu)) (N : ℝ)]
      rw [mul_comm, div_mul_cancel₀ _ (mul_pos hN0 hca).ne']
    · rw [← Finset.mul_sum, ss, hy, hρ0]; ring
    · rw [← Finset.mul_sum, sc, hx, hρ0]; ring
  · have hmu0 : 0 < mu := by
      rcases hmu.lt_or_eq with h' | h'
      · exact h'
      · rw [← h'] at hle
        exact absurd (le_antisymm (by linarith) hρ) hρ0
    have hsa : 0 < Real.sin (Real.arctan mu) := by rw [sin_arctan_eq]; exact mul_pos hmu0 hca
    have hsin := sin_arctan_eq mu
    obtain ⟨k', hk', hc', hs'⟩ := next N hN k hk
    have hA : 0 ≤ Real.sin (step N - δ) := Real.sin_nonneg_of_nonneg_of_le_pi (by linarith) (by linarith)
    have hB : 0 ≤ Real.sin δ := Real.sin_nonneg_of_nonneg_of_le_pi hδ0 (by linarith)
    have hAB : (Real.sin (step N - δ) + Real.sin δ) * Real.cos (step N / 2) ≤ Real.sin (step N) := by
      have e1 : Real.sin (step N - δ) = Real.sin (step N / 2) * Real.cos (step N / 2 - δ) + Real.cos (step N / 2) * Real.sin (step N / 2 - δ) := by
        rw [← Real.sin_add]; congr 1; ring
      have e2 : Real.sin δ = Real.sin (step N / 2) * Real.cos (step N / 2 - δ) - Real.cos (step N / 2) * Real.sin (step N / 2 - δ) := by
        rw [← Real.sin_sub]; congr 1; ring
      rw [e1, e2, hss]
      have := Real.cos_le_one (step N / 2 - δ)
      nlinarith [mul_pos hsh hch]
    generalize hD : Real.sin (Real.arctan mu) * Real.sin (step N) = D
    have hD0 : 0 < D := by rw [← hD]; exact mul_pos hsa hsp'
    generalize hAd : ρ * Real.sin (step N - δ) / D = A
    generalize hBd : ρ * Real.sin δ / D = B
    have hA0 : 0 ≤ A := by rw [← hAd]; exact div_nonneg (mul_nonneg hρ hA) hD0.le
    have hB0 : 0 ≤ B := by rw [← hBd]; exact div_nonneg (mul_nonneg hρ hB) hD0.le
    have hAe : A * D = ρ * Real.sin (step N - δ) := by rw [← hAd]; exact div_mul_cancel₀ _ hD0.ne'
    have hBe : B * D = ρ * Real.sin δ := by rw [← hBd]; exact div_mul_cancel₀ _ hD0.ne'
    -- the normal part of the two generators is not more than that of the force
    have hn : Real.cos (Real.arctan mu) * (A + B) ≤ fn := by
      have h1 : (A + B) * D * Real.cos (step N / 2) ≤ ρ * Real.sin (step N) := by
        have := mul_le_mul_of_nonneg_left hAB hρ
        have e1 : (A + B) * D * Real.cos (step N / 2) = ρ * ((Real.sin (step N - δ) + Real.sin δ) * Real.cos (step N / 2)) := by
          linear_combination Real.cos (step N / 2) * hAe + Real.cos (step N / 2) * hBe
        rw [e1]; exact this
      have h2 : ρ * Real.sin (step N) ≤ mu * Real.cos (step N / 2) * fn * Real.sin (step N) := mul_le_mul_of_nonneg_right hle hsp'.le
      have h3 : Real.cos (Real.arctan mu) * (A + B) * (mu * Real.sin (step N) * Real.cos (step N / 2)) ≤ fn * (mu * Real.sin (step N) * Real.cos (step N / 2)) := by
        have : (A + B) * D * Real.cos (step N / 2) = Real.cos (Real.arctan mu) * (A + B) * (mu * Real.sin (step N) * Real.cos (step N / 2)) := by
          rw [← hD, hsin]; ring
        rw [← this]
        linarith
      exact le_of_mul_le_mul_right h3 (mul_pos (mul_pos hmu0 hsp') hch)
    generalize hCd : (fn - Real.cos (Real.arctan mu) * (A + B)) / (N * Real.cos (Real.arctan mu)) = C
    have hC0 : 0 ≤ C := by rw [← hCd]; exact div_nonneg (by linarith) (mul_nonneg hN0.le hca.le)
    have hCe : C * (N * Real.cos (Real.arctan mu)) = fn - Real.cos (Real.arctan mu) * (A + B) := by
      rw [← hCd]; exact div_mul_cancel₀ _ (mul_pos hN0 hca).ne'
    refine ⟨fun i => (if i = k then A else 0) + (if i = k' then B else 0) + C, ?_, ?_, ?_, ?_⟩
    · intro i
      have h1 : (0 : ℝ) ≤ if i = k then A else 0 := by by_cases h' : i = k <;> simp [h', hA0]
      have h2 : (0 : ℝ) ≤ if i = k' then B else 0 := by by_cases h' : i = k' <;> simp [h', hB0]
      show 0 ≤ (if i = k then A else 0) + (if i = k' then B else 0) + C
      linarith
    · have := sum_three N k k' hk hk' A B C (fun _ => 1)
      simp only [mul_one, Finset.sum_const, Finset.card_range, nsmul_eq_mul] at this
      rw [this]
      linear_combination hCe
    · rw [sum_three N k k' hk hk' A B C (fun i => Real.sin (step N * i)), ss, hs', hy]
      have id1 : Real.sin (step N - δ) * Real.sin (step N * k) + Real.sin δ * Real.sin (step N * k + step N) = Real.sin (step N) * Real.sin (step N * k + δ) := by
        rw [Real.sin_sub, Real.sin_add, Real.sin_add]
        ring
      have h2 : (A * Real.sin (step N * k) + B * Real.sin (step N * k + step N)) * D = ρ * Real.sin (step N * k + δ) * Real.sin (step N) := by
        linear_combination Real.sin (step N * k) * hAe + Real.sin (step N * k + step N) * hBe + ρ * id1
      rw [← hD] at h2
      apply mul_right_cancel₀ hsp'.ne'
      linear_combination h2
    · rw [sum_three N k k' hk hk' A B C (fun i => Real.cos (step N * i)), sc, hc', hx]
      have id1 : Real.sin (step N - δ) * Real.cos (step N * k) + Real.sin δ * Real.cos (step N * k + step N) = Real.sin (step N) * Real.cos (step N * k + δ) := by
        rw [Real.sin_sub, Real.cos_add, Real.cos_add]
        ring
      have h2 : (A * Real.cos (step N * k) + B * Real.cos (step N * k + step N)) * D = ρ * Real.cos (step N * k + δ) * Real.sin (step N) := by
        linear_combination Real.cos (step N * k) * hAe + Real.cos (step N * k + step N) * hBe + ρ * id1
      rw [← hD] at h2
      apply mul_right_cancel₀ hsp'.ne'
      linear_combination h2

/-- The other orientation of the frame, as `DynamicFunction` passes it for the second body of a contact (line 128), is orthogonal too. -/
example : (⟨⟨-1, 0, 0⟩, ⟨0, -1, 0⟩, ⟨0, 0, -1⟩⟩ : M3 ℝ).Ortho := by
  constructor <;> (ext <;> norm_num [M3.mul, M3.tr, M3.one, V3.dot])

/-- A force with a part along the normal and a part along the first axis is in the cone of coefficient `cos (pi / 4)`. -/
example : InCone (1 * Real.cos (Real.pi / (4 : ℕ))) (M3.one : M3 ℝ).c ⟨1, 0, 2⟩ := by
  have h : Real.cos (Real.pi / (4 : ℕ)) * Real.cos (Real.pi / (4 : ℕ)) = 1 / 2 := by
    have : ((4 : ℕ) : ℝ) = 4 := by norm_num
    rw [this, Real.cos_pi_div_four]
    have := Real.mul_self_sqrt (show (0 : ℝ) ≤ 2 by norm_num)
    linear_combination this / 4
  refine ⟨by norm_num [M3.one, V3.dot], ?_⟩
  rw [one_mul, h]
  norm_num [M3.one, V3.dot, tangential]

end Verif.C81
