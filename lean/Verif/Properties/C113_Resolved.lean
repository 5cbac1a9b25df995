import Verif.Properties.C113_SecondInequality
import Verif.Properties.C112_Resolved
/-!
# C113 Resolutions of the weighted scheme every `dt`, for inequality tasks of the second order

C113 applied to the problems that are resolved: what the solver does with the freedom that an inequality leaves does not matter.
-/
set_option autoImplicit false
set_option linter.unusedSectionVars false

namespace Verif.C113
open Verif TD LTask TR RV C48 C96 SBS Set C97 C110 C112 Filter Topology

section
variable {w : World} {vn : VId → Nat} {un : Nat → VId}
variable {f : Fn ℝ} {T : TaskObj ℝ} {F : Pt f → Nat → ℝ} {D : Nat → Pt f → Pt f →L[ℝ] ℝ} {o : ℝ → Outs ℝ} {e e2 : ℝ → Nat → ℝ} {usr : ℝ → UserCstr ℝ} {X : Path} {W : ℝ → Nat → Nat → ℝ} {dt : ℝ}

/-- **C113** With resolutions every `dt` that keep the accelerations in between, a task on an affine function with a proportional derivative dynamics, of any type, is never violated, at the resolutions and in between, when the roots of the
recurrence are real and not negative and the initial velocity is not beyond the slope `al`. The other tasks, the substitutions and the solver can change from one resolution to the other. -/
theorem C113_resolved (hu : ∀ v, un (vn v) = v) {ty : TD.CType} {kp kv : Gain ℝ} {l u : Vec ℝ} (hT : makeTask f ty (.pd kp kv) l = some T ∨ makeTask2 f ty (.pd kp kv) l u = some T) (hp : C64.Decoupled f.size kp)
    (hv : C64.Decoupled f.size kv) (ha : Affine F D) (hdt : 0 < dt) (h : ∀ k : ℕ, Resolved w vn un (Tk.at f T F D o e e2 (k * dt)) (usr (k * dt)) X (k * dt) (W (k * dt)))
    (hval : ∀ k : ℕ, ∀ i < f.size, (o (k * dt)).value i = F (point f X 0 (k * dt)) i ∧ (o (k * dt)).velocity i = D i (point f X 0 (k * dt)) (point f X 1 (k * dt))) (harcs : Arcs dt f X) (i : Nat) (hi : i < f.size)
    (hS : 0 < C64.coef kp i ∧ C64.coef kp i * dt / 2 < C64.coef kv i ∧ C64.coef kv i * dt < 2) {be ga al : ℝ} (R : Roots (C64.coef kp i) (C64.coef kv i) dt be ga al) (h0 : Related ty (F (point f X 0 0) i) (l.v i) (u.v i))
    (hv0 : Related ty (D i (point f X 0 0) (point f X 1 0)) (-(al * (F (point f X 0 0) i - l.v i))) (-(al * (F (point f X 0 0) i - u.v i)))) (t : ℝ) (ht : 0 ≤ t) :
    Related ty (F (point f X 0 t) i) (l.v i) (u.v i) :=
  C113_sampled hu hT hp hv (C112_resolved hu h hval harcs) ha hdt i hi hS R h0 hv0 t ht

end

/-- The hypotheses are met by the constraint `x ≥ -10` of `C112_Resolved`, of gains `1/3` and `1`: the roots are `1/3` and `1/2`. -/
example (t : ℝ) (ht : 0 ≤ t) : -10 ≤ linF (point square path₂ 0 t) 0 := by
  have h0 := at₂ 0
  rw [Nat.cast_zero, zero_mul] at h0
  have hx : linF (point square path₂ 0 0) 0 = 6 := h0.1.trans (by show (1 : ℝ) + 5 = 6; norm_num)
  have hv : linD 0 (point square path₂ 0 0) (point square path₂ 1 0) = 0 := h0.2.1
  refine C113_resolved un_vn₀ (ty := .greaterThan) (kp := .scalar (1 / 3)) (kv := .scalar 1) (l := ⟨1, fun _ => -10⟩) (u := ⟨1, fun _ => -10⟩) (T := oneT .greaterThan (.pd (.scalar (1 / 3)) (.scalar 1)) (-10))
    (Or.inl (by simp [makeTask, Dyn.impl, Dyn.accepts, implAccepts, gainFits, square, oneT])) trivial trivial lin_affine one_pos
    (o := fun t => outs3 (path₂ ⟨0, 0⟩ 0 t) (path₂ ⟨0, 1⟩ 0 t)) (e := fun t _ => eU₂ (path₂ ⟨0, 0⟩ 0 t) (path₂ ⟨0, 1⟩ 0 t)) (e2 := fun _ => 0) (usr := fun t => usr₂ (path₂ ⟨0, 0⟩ 0 t) (path₂ ⟨0, 1⟩ 0 t) C97.cU) (X := path₂)
    (W := fun t => finalValues w₃ final₃ out₃ V₂ num₁ (x₂ (path₂ ⟨0, 0⟩ 0 t) (path₂ ⟨0, 1⟩ 0 t)) fun _ _ => 0) (fun k => resolved₂ k (c := C97.cU) (Or.inl rfl)) (fun k i _ => ⟨rfl, rfl⟩) arcs₂ 0 (by decide)
    (by simp only [C64.coef]; norm_num) (be := 1 / 3) (ga := 1 / 2) (al := 2 / 3) ⟨?_, ?_, ?_, ?_, ?_⟩ ?_ ?_ t ht
  · simp only [C64.coef]; norm_num
  · simp only [C64.coef]; norm_num
  · norm_num
  · norm_num
  · simp only [C64.coef]; norm_num
  · show (-10 : ℝ) ≤ _
    rw [hx]; norm_num
  · show -(2 / 3 * (linF (point square path₂ 0 0) 0 - -10)) ≤ linD 0 (point square path₂ 0 0) (point square path₂ 1 0)
    rw [hx, hv]; norm_num

end Verif.C113
