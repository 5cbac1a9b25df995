import Verif.Properties.C114_Composed
import Verif.Properties.C112_SampledSecond
/-!
# C114 Composed task dynamics act on the derivative that the innermost dynamics act on

Feed-forward terms and clamping can be put around any dynamics, in any order and any number of times. The derivative of the function that the resolution sets is then the one of the innermost dynamics: the velocity for `Proportional`, the acceleration
for `ProportionalDerivative`.
-/
set_option autoImplicit false
set_option linter.unusedSectionVars false

namespace Verif.C114
open Verif TD LTask TR RV C48 C96 SBS Set C97 C110

/-- The dynamics are `b`, with feed-forward terms and clamping around. -/
inductive Around (b : Dyn ℝ) : Dyn ℝ → Prop
  | base : Around b b
  | feedForward {d : Dyn ℝ} (ff : Vec ℝ) : Around b d → Around b (.feedForward d ff)
  | clamped {d : Dyn ℝ} (lo hi : Vec ℝ) : Around b d → Around b (.clamped d lo hi)

theorem Around.order {b d : Dyn ℝ} (h : Around b d) : d.order = b.order := by
  induction h with
  | base => rfl
  | feedForward ff _ ih => exact ih
  | clamped lo hi _ ih => exact ih

section
variable {w : World} {vn : VId → Nat} {un : Nat → VId} {τ : Tk} {c : UserCstr ℝ} {X : Path} {t : ℝ} {W : Nat → Nat → ℝ}

/-- **C114** The constraint of a task whose dynamics are proportional, with feed-forward terms and clamping around, is satisfied by the values computed if and only if the velocity of the function is in the relation of the task with the value of
the dynamics; when the innermost dynamics are proportional derivative it is the acceleration. -/
theorem C114_layers (hu : ∀ v, un (vn v) = v) (hp : Posed w vn un τ c) (h : τ.Ok X t) (hW : Decided vn τ X t W) :
    ((∃ kp, Around (.proportional kp) τ.T.td.dyn) → (Sat w c W ↔ ∀ i < τ.f.size, ∃ d, HasDerivWithinAt (τ.along X i) d (Ici t) t ∧ Related τ.T.type d (τ.e i) (τ.e2 i))) ∧
    ((∃ kp kv, Around (.pd kp kv) τ.T.td.dyn) → (Sat w c W ↔ ∀ i < τ.f.size, ∃ d, (∃ g' : ℝ → ℝ, (∀ s, t ≤ s → HasDerivWithinAt (τ.along X i) (g' s) (Ici s) s) ∧ HasDerivWithinAt g' d (Ici t) t) ∧
      Related τ.T.type d (τ.e i) (τ.e2 i))) := by
  have h1 := (C97_task hu hp h hW).1
  constructor
  · rintro ⟨kp, hb⟩
    have ho : τ.order = 1 := by unfold Tk.order; rw [hb.order]; rfl
    rw [h1]
    unfold Tk.Achieved
    rw [ho]
    exact Iff.rfl
  · rintro ⟨kp, kv, hb⟩
    have ho : τ.order = 2 := by unfold Tk.order; rw [hb.order]; rfl
    rw [h1]
    unfold Tk.Achieved
    rw [ho]
    exact Iff.rfl

/-- **C114** An equality task with the dynamics `FeedForward<ProportionalDerivative>` (scalar or diagonal gains), when its constraint is satisfied, gives its function the acceleration `- kv velocity - kp (value - rhs)` plus the feed-forward term. -/
theorem C114_feedForward_second (hu : ∀ v, un (vn v) = v) (hp : Posed w vn un τ c) (h : τ.Ok X t) (hW : Decided vn τ X t W) {kp kv : Gain ℝ} {ff rhs : Vec ℝ} {f₀ : Fn ℝ}
    (hT : makeTask f₀ .equal (.feedForward (.pd kp kv) ff) rhs = some τ.T) (hk : C64.Decoupled τ.f.size kp) (hv : C64.Decoupled τ.f.size kv) (hs : Sat w c W) (i : Nat) (hi : i < τ.f.size) :
    ∃ g' : ℝ → ℝ, (∀ s, t ≤ s → HasDerivWithinAt (τ.along X i) (g' s) (Ici s) s) ∧
      HasDerivWithinAt g' (-(C64.coef kv i * τ.f.velocity i) - C64.coef kp i * (τ.f.value i - rhs.v i) + ff.v i) (Ici t) t := by
  obtain ⟨t1, t2, t3, -⟩ := made_fields (u := rhs) (Or.inl hT)
  obtain ⟨d, ⟨g', h1, h2⟩, h3⟩ := ((C114_layers hu hp h hW).2 ⟨kp, kv, by rw [t2]; exact .feedForward ff .base⟩).1 hs i hi
  rw [t1] at h3
  have h3 : d = τ.e i := h3
  refine ⟨g', h1, ?_⟩
  obtain ⟨x, hx, -, hxe⟩ := h.wants.first
  have h4 : (Dyn.pd kp kv).value τ.T.td.type τ.f rhs = .ok () ⟨τ.f.size, fun i => -(C64.coef kv i * τ.f.velocity i) - C64.coef kp i * (τ.f.value i - rhs.v i)⟩ := C112.pd_value_decoupled hk hv _ _ _
  rw [t2, t3] at hx
  unfold Dyn.value at hx
  rw [h4] at hx
  simp only at hx
  split at hx
  · injection hx with _ hx
    rw [h3, ← hxe, ← hx] at h2
    exact h2
  · cases hx
end

/-! ## The hypotheses are met: the function `x` with the dynamics `FeedForward<ProportionalDerivative>`, along the motion `x = s² / 2` -/

section
open Verif.C112 (outs3 twoC two_posed two_ok two_decided two_sat arcs arcs_deriv arcs_at)

noncomputable def layers : Dyn ℝ := .feedForward (.pd (.scalar 1) (.scalar 2)) ⟨1, fun _ => 1⟩

theorem layers_value : layers.value .equal (after square (outs3 0 0)) ⟨1, fun _ => 0⟩ = .ok () ⟨1, fun _ => 1⟩ := by
  have h4 : (Dyn.pd (.scalar 1) (.scalar 2)).value .equal (after square (outs3 0 0)) ⟨1, fun _ => (0 : ℝ)⟩ = .ok () ⟨1, fun i => -(2 * 0) - 1 * (0 - 0)⟩ :=
    C112.pd_value_decoupled (kp := .scalar 1) (kv := .scalar 2) (n := 1) trivial trivial _ _ _
  unfold layers Dyn.value
  rw [h4]
  simp only [if_true]
  congr 2
  funext i
  show -(2 * (0 : ℝ)) - 1 * (0 - 0) + 1 = 1
  norm_num

/-- From rest at the target, the acceleration is the feed-forward term. -/
example : ∃ g' : ℝ → ℝ, (∀ s, 0 ≤ s → HasDerivWithinAt (fun s => linF (point square (arcs (fun k => (k : ℝ) ^ 2 / 2) (fun k => k) fun _ => 1) 0 s) 0) (g' s) (Ici s) s) ∧ HasDerivWithinAt g' 1 (Ici 0) 0 := by
  have hX : arcs (fun k => (k : ℝ) ^ 2 / 2) (fun k => k) (fun _ => 1) ⟨0, 2⟩ 0 0 = 1 := by simp [arcs]
  have hW := two_decided (ty := .equal) (d := layers) (r := 0) rfl 0 0 1 (arcs (fun k => (k : ℝ) ^ 2 / 2) (fun k => k) fun _ => 1) 0
  rw [hX] at hW
  have := C114_feedForward_second un_vn₀ (two_posed (by decide) rfl 0 0 1 layers_value) (two_ok (by decide) rfl 0 0 1 layers_value _ 0 fun s hs => arcs_deriv hs) hW (kp := .scalar 1) (kv := .scalar 2) (ff := ⟨1, fun _ => 1⟩)
    (rhs := ⟨1, fun _ => 0⟩) (f₀ := square) (by simp [makeTask, Dyn.impl, Dyn.accepts, implAccepts, gainFits, square, oneT, layers]) trivial trivial (two_sat (by decide) 1 1 rfl) 0 (by decide)
  obtain ⟨g', h1, h2⟩ := this
  refine ⟨g', h1, ?_⟩
  have e : -(2 * (0 : ℝ)) - 1 * (0 - 0) + 1 = 1 := by norm_num
  have h2 : HasDerivWithinAt g' (-(2 * (0 : ℝ)) - 1 * (0 - 0) + 1) (Ici 0) 0 := h2
  rwa [e] at h2

/-- Several layers -/
example : Around (.pd (.scalar 1) (.scalar 2)) (.clamped (.feedForward (.clamped (.pd (.scalar 1) (.scalar 2)) ⟨1, fun _ => -1⟩ ⟨1, fun _ => 1⟩) ⟨1, fun _ => 3⟩) ⟨1, fun _ => -2⟩ ⟨1, fun _ => 2⟩) :=
  .clamped _ _ (.feedForward _ (.clamped _ _ .base))
end

end Verif.C114
