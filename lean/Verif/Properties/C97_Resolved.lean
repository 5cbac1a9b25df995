import Verif.Properties.C97_Tasks
/-!
# C97 The control loop with the resolutions of the weighted scheme

`C97.Loop` asks for values that satisfy the constraint of the task at each time. Here they come from resolutions: a task of the priority 0, a bound, or an objective, when the objectives can be achieved with the constraints.
-/
set_option autoImplicit false
set_option linter.unusedSectionVars false

namespace Verif.C97
open Verif TD LTask TR RV C48 C96 SBS Set

variable {w : World} {vn : VId → Nat} {un : Nat → VId}

section
variable {S : State} {o : Nat → SU.Out ℝ} {num : PVar → Nat} {V : AS.Vars} {J : Nat → Nat → Nat → Nat → ℝ} {e : Nat → Nat → ℝ} {l : List Sub} {usr : SE.Cstr → UserCstr ℝ} {U B : SE.Cstr → Prop}
  {wt : SE.Cstr → Nat → ℝ} {os : List SE.Cstr} {lim : (Nat → ℝ) → Prop} {pen : (Nat → ℝ) → ℝ} {x : Nat → ℝ} {val : PVar → Nat → ℝ} {τ : SE.Cstr → Tk} {σ : Nat → Tk}

/-- The motion `X` follows the values `W` at the time `t`, and the functions of all the tasks are what their documentation says along it. -/
def Following (vn : VId → Nat) (I : SE.Cstr → Prop) (l : List Sub) (τ : SE.Cstr → Tk) (σ : Nat → Tk) (X : Path) (t : ℝ) (W : Nat → Nat → ℝ) : Prop :=
  (∀ c, I c → (τ c).Ok X t ∧ Decided vn (τ c) X t W) ∧ ∀ s ∈ l, ∀ a ∈ s.cstrs, (σ a).Ok X t ∧ Decided vn (σ a) X t W

/-- **C97** If some motion achieves the objectives together with the tasks of the constraints, of the bounds and of the substitutions (within the limits of the solver, and without more of what the solver penalizes), then after a resolution the
objectives with positive weights are achieved. -/
theorem C97_objectives (hu : ∀ v, un (vn v) = v) (hs : Solves w S o num V J e l usr U B wt os lim pen x val) (hτ : ∀ c, U c ∨ B c ∨ c ∈ os → Posed w vn un (τ c) (usr c))
    (hσ : ∀ s ∈ l, ∀ a ∈ s.cstrs, PosedSub w J e vn un (σ a) a) (hos : ∀ c ∈ os, (τ c).T.type = .equal) (hw : ∀ c ∈ os, ∀ i < (τ c).f.size, 0 < wt c i) {X : Path} {t : ℝ}
    (hX : Following vn (fun c => U c ∨ B c ∨ c ∈ os) l τ σ X t (finalValues w S o V num x val))
    (hsome : ∃ X' W' z ζ, Following vn (fun c => U c ∨ B c ∨ c ∈ os) l τ σ X' t W' ∧ (∀ c, U c ∨ B c ∨ c ∈ os → (τ c).Achieved X' t) ∧ (∀ s ∈ l, ∀ a ∈ s.cstrs, (σ a).Achieved X' t) ∧
      Represents w S o V num z W' ζ ∧ C70.Additional w S o W' ζ ∧ lim z ∧ pen z ≤ pen x) : ∀ c ∈ os, (τ c).Achieved X t := by
  obtain ⟨X', W', z, ζ, hF, hA, hA', hR, hZ, hL, hP⟩ := hsome
  have heq : ∀ c ∈ os, (usr c).type = .equal := by
    intro c hc
    obtain ⟨⟨L, hL, hcc⟩, -⟩ := hτ c (Or.inr (Or.inr hc))
    obtain ⟨-, -, -, hty⟩ := ltc_vars _ _ L hL (hX.1 c (Or.inr (Or.inr hc))).1.nodup
    unfold constraintOf at hcc
    split at hcc
    · cases hcc
    · cases hcc
    · injection hcc with _ hcc
      rw [← hcc]
      show ctype L.type = .equal
      rw [hty, hos c hc]; rfl
  have hsize : ∀ c ∈ os, (usr c).size = (τ c).f.size := fun c hc => (C97_task hu (hτ c (Or.inr (Or.inr hc))) (hX.1 c (Or.inr (Or.inr hc))).1 (hX.1 c (Or.inr (Or.inr hc))).2).2.1
  have hall : AllHold w J e l usr U B W' :=
    ⟨fun s hs a ha => (sub_eq hu (hσ s hs a ha) (hF.2 s hs a ha).1 (hF.2 s hs a ha).2).mpr (hA' s hs a ha), fun c hc => by
      have hc' : U c ∨ B c ∨ c ∈ os := by tauto
      exact (C97_task hu (hτ c hc') (hF.1 c hc').1 (hF.1 c hc').2).1.mpr (hA c hc')⟩
  have h0 : cost w usr wt os W' = 0 := by
    unfold cost
    refine List.sum_eq_zero fun y hy => ?_
    obtain ⟨c, hc, rfl⟩ := List.mem_map.1 hy
    have hc' : U c ∨ B c ∨ c ∈ os := Or.inr (Or.inr hc)
    have hS := (C97_task hu (hτ c hc') (hF.1 c hc').1 (hF.1 c hc').2).1.mpr (hA c hc')
    refine Finset.sum_eq_zero fun i hi => ?_
    have h1 := hS i (Finset.mem_range.1 hi)
    rw [heq c hc] at h1
    have h1 : row w (usr c) W' i = meant (usr c).rhs ((usr c).e i) := h1
    rw [h1, sub_self]; ring
  have h1 := (hs.2.2 W' hall).2 z ζ hR hZ hL
  have hnn : ∀ c ∈ os, ∀ i ∈ Finset.range (usr c).size, 0 ≤ wt c i * (row w (usr c) (finalValues w S o V num x val) i - meant (usr c).rhs ((usr c).e i)) ^ 2 := fun c hc i hi =>
    mul_nonneg (hw c hc i (hsize c hc ▸ Finset.mem_range.1 hi)).le (sq_nonneg _)
  have h2 : cost w usr wt os (finalValues w S o V num x val) ≤ 0 := by linarith
  intro c hc
  have hc' : U c ∨ B c ∨ c ∈ os := Or.inr (Or.inr hc)
  refine (C97_task hu (hτ c hc') (hX.1 c hc').1 (hX.1 c hc').2).1.mp fun i hi => ?_
  rw [heq c hc]
  show row w (usr c) _ i = meant (usr c).rhs ((usr c).e i)
  have h3 : ∑ i ∈ Finset.range (usr c).size, wt c i * (row w (usr c) (finalValues w S o V num x val) i - meant (usr c).rhs ((usr c).e i)) ^ 2 ≤ 0 := by
    refine le_trans (List.single_le_sum (fun y hy => ?_) _ (List.mem_map_of_mem (f := fun c => ∑ i ∈ Finset.range (usr c).size, wt c i * (row w (usr c) (finalValues w S o V num x val) i - meant (usr c).rhs ((usr c).e i)) ^ 2) hc)) h2
    obtain ⟨d, hd, rfl⟩ := List.mem_map.1 hy
    exact Finset.sum_nonneg (hnn d hd)
  have h4 := le_trans (Finset.single_le_sum (hnn c hc) (Finset.mem_range.2 hi)) h3
  have h5 := hw c hc i (hsize c hc ▸ hi)
  have h6 : (row w (usr c) (finalValues w S o V num x val) i - meant (usr c).rhs ((usr c).e i)) ^ 2 ≤ 0 := by
    by_contra hh
    exact absurd h4 (not_le.2 (mul_pos h5 (not_le.1 hh)))
  exact sub_eq_zero.1 (pow_eq_zero_iff (two_ne_zero)|>.1 (le_antisymm h6 (sq_nonneg _)))

end

/-- At the time `t` of the motion `X`, the task `τ₀`, whose constraint is `u₀`, is in a problem that is solved with values `W`, which the motion follows. Either it is a constraint of the problem or a bound, or it is an objective and the
objectives can be achieved as in `C97_objectives`. -/
def Resolved (w : World) (vn : VId → Nat) (un : Nat → VId) (τ₀ : Tk) (u₀ : UserCstr ℝ) (X : Path) (t : ℝ) (W : Nat → Nat → ℝ) : Prop :=
  ∃ (S : State) (o : Nat → SU.Out ℝ) (num : PVar → Nat) (V : AS.Vars) (J : Nat → Nat → Nat → Nat → ℝ) (e : Nat → Nat → ℝ) (l : List Sub) (usr : SE.Cstr → UserCstr ℝ) (U B : SE.Cstr → Prop)
    (wt : SE.Cstr → Nat → ℝ) (os : List SE.Cstr) (lim : (Nat → ℝ) → Prop) (pen : (Nat → ℝ) → ℝ) (x : Nat → ℝ) (val : PVar → Nat → ℝ) (τ : SE.Cstr → Tk) (σ : Nat → Tk) (c : SE.Cstr),
    Solves w S o num V J e l usr U B wt os lim pen x val ∧ (∀ c, U c ∨ B c ∨ c ∈ os → Posed w vn un (τ c) (usr c)) ∧ (∀ s ∈ l, ∀ a ∈ s.cstrs, PosedSub w J e vn un (σ a) a) ∧
    Following vn (fun c => U c ∨ B c ∨ c ∈ os) l τ σ X t W ∧ W = finalValues w S o V num x val ∧ τ c = τ₀ ∧ usr c = u₀ ∧
    ((U c ∨ B c) ∨ c ∈ os ∧ (∀ c ∈ os, (τ c).T.type = .equal) ∧ (∀ c ∈ os, ∀ i < (τ c).f.size, 0 < wt c i) ∧
      ∃ X' W' z ζ, Following vn (fun c => U c ∨ B c ∨ c ∈ os) l τ σ X' t W' ∧ (∀ c, U c ∨ B c ∨ c ∈ os → (τ c).Achieved X' t) ∧ (∀ s ∈ l, ∀ a ∈ s.cstrs, (σ a).Achieved X' t) ∧
        Represents w S o V num z W' ζ ∧ C70.Additional w S o W' ζ ∧ lim z ∧ pen z ≤ pen x)

theorem Resolved.key (hu : ∀ v, un (vn v) = v) {τ₀ : Tk} {u₀ : UserCstr ℝ} {X : Path} {t : ℝ} {W : Nat → Nat → ℝ} (h : Resolved w vn un τ₀ u₀ X t W) :
    Posed w vn un τ₀ u₀ ∧ τ₀.Ok X t ∧ Decided vn τ₀ X t W ∧ Sat w u₀ W := by
  obtain ⟨S, o', num, V, J, e', l, usr', U, B, wt, os, lim, pen, x, val, τ, σ, c, h1, h2, h3, h4, h5, h6, h7, h8⟩ := h
  have hc : U c ∨ B c ∨ c ∈ os := by tauto
  have ha : (τ c).Achieved X t := by
    rcases h8 with h8 | ⟨h8, h9, h10, h11⟩
    · exact (C97_task hu (h2 c hc) (h4.1 c hc).1 (h5 ▸ (h4.1 c hc).2)).1.mp (h1.1.2 c h8)
    · exact C97_objectives hu h1 h2 h3 h9 h10 (h5 ▸ h4) h11 c h8
  obtain ⟨k1, k2⟩ := h4.1 c hc
  have k3 := h2 c hc
  rw [h6] at k1 k2 k3 ha
  rw [h7] at k3
  exact ⟨k3, k1, k2, (C97_task hu k3 k1 k2).1.2 ha⟩

/-- **C97** The loop with these resolutions is a control loop for the task; `C97_proportional`, `C97_critical` and `C97_matrix` follow. The other tasks, the substitutions and the solver can change from one time to the other. -/
theorem C97_resolved_loop (hu : ∀ v, un (vn v) = v) {f : Fn ℝ} {T : TaskObj ℝ} {F : Pt f → Nat → ℝ} {D : Nat → Pt f → Pt f →L[ℝ] ℝ} {o : ℝ → Outs ℝ} {e e2 : ℝ → Nat → ℝ} {usr : ℝ → UserCstr ℝ} {X : Path}
    {W : ℝ → Nat → Nat → ℝ} (h : ∀ t, 0 ≤ t → Resolved w vn un (Tk.at f T F D o e e2 t) (usr t) X t (W t)) (hval : ∀ t, 0 ≤ t → ∀ i < f.size, (o t).value i = F (point f X 0 t) i)
    (hcont : ∀ v ∈ f.vars, ∀ c < f.dim v.base, ContinuousOn (X v c) (Ici 0)) : Loop w vn un f T F D o e e2 usr X W :=
  ⟨fun t ht => ((h t ht).key hu).1, fun t ht => ((h t ht).key hu).2.1, fun t ht => ((h t ht).key hu).2.2.1, fun t ht => ((h t ht).key hu).2.2.2, hval, hcont⟩

/-! ## The hypotheses are met: the constraint `x² ≥ 0` of gain 2 and the objective `x² = 0` of gain 1, along the motion `x = exp (-t/2)` -/

section
noncomputable def tk₈ (κ : ℝ) (c : SE.Cstr) : Tk := if c.id = 1 then sqTk .greaterThan 2 κ else sqTk .equal 1 κ
noncomputable def usr₈ (κ : ℝ) (c : SE.Cstr) : UserCstr ℝ := if c.id = 1 then sqC .greaterThan 2 κ else sqC .equal 1 κ

theorem row₈ (ty : CType) (k κ : ℝ) (W : Nat → Nat → ℝ) (i : Nat) : row w₃ (sqC ty k κ) W i = 2 * κ * W 1 0 := by
  have h1 : un₀ 1 = ⟨0, 1⟩ := un_vn₀ ⟨0, 1⟩
  simp [row, w₃, sqC, h1]

noncomputable def env₈ (κ : ℝ) : ASM.Env := ⟨V₃, fun c => sourceOf w₃ final₃ num₁ (fun _ _ => true) (fun _ => .other) ((usr₈ κ) c)⟩

noncomputable def now₈ (κ : ℝ) : ASM.Now ℝ where
  fl := fun _ => ⟨true, true⟩
  dat := fun c => dataOf w₃ final₃ out₃ den₁ ⟨1, -1, fun _ => 0, fun _ => 0⟩ ((usr₈ κ) c)
  bnd := fun _ => ⟨.lowerThan, .asGiven, .identity, 0, 1, fun _ _ => 1, fun _ => 0, fun _ => 0, fun _ => 0, ⟨7, 5, fun _ => 3, fun _ => 2⟩⟩

theorem assembled₈ (κ : ℝ) : Assembled w₃ final₃ out₃ num₁ den₁ (env₈ κ) (now₈ κ) (usr₈ κ) (fun _ _ => cU) (· ∈ [cU]) (· ∈ [cU]) (fun _ => False) (· ∈ [cO]) (fun _ => 0) := by
  have hd : ∀ p, V₃.dim (num₁ p) = match p with
    | .var _ => 1
    | .z _ _ => 0 := by
    intro p
    simp only [V₃, back₁]
    cases p <;> rfl
  refine ⟨back₁, fun x => hd (.var x), fun a k => hd (.z a k), ?_, ?_, ?_, ?_, ?_, ?_⟩
  · intro p p' h h' hne
    exact absurd (((known₃ p).mp h).trans ((known₃ p').mp h').symm) hne
  · intro p
    have h1 : ∀ c, unknowns w₃ final₃ [(usr₈ κ) c] = [.var 1] := by
      intro c
      unfold usr₈
      split <;> rfl
    refine (known₃ p).trans ⟨fun h => ⟨cU, Or.inl (by simp), by rw [h1, h]; simp⟩, ?_⟩
    rintro ⟨c, -, hp⟩
    rw [h1] at hp; simpa using hp
  · intro c
    have : final₃.addCstrs = [] := rfl
    simp [this]
  · intro c hc
    simp only [List.mem_singleton] at hc
    refine ⟨⟨_, _, rfl⟩, ⟨_, rfl⟩, ?_⟩
    rcases hc with rfl | rfl <;> simp [usr₈, cU, cO, sqC]
  · intro a k hak
    cases hak
  · intro c hc
    exact hc.elim

theorem linked₈ (κ : ℝ) : Linked w₃ final₃ out₃ num₁ (env₈ κ) (now₈ κ) (usr₈ κ) (fun _ _ => cU) (· ∈ [cU]) (· ∈ [cU]) (fun _ => False) (· ∈ [cO]) (fun _ => 0) := (C96_assembled .init finalize₃ (assembled₈ κ)).1

theorem envOk₈ (κ : ℝ) : C95.EnvOk (env₈ κ) (· ∈ [cU]) (fun _ => False) (· ∈ [cO]) 1 (fun _ => 0) := by
  refine ⟨?_, ?_, ?_, ?_, fun c hc => hc.elim⟩
  · intro c hc
    simp only [List.mem_singleton] at hc
    rcases hc with rfl | rfl <;> simp [env₈, usr₈, cU, cO, sqC, sourceOf, ctype, C95.ty]
  · intro c hc
    simp only [List.mem_singleton] at hc
    subst hc; rfl
  · intro c hc
    exact (C96_assembled .init finalize₃ (assembled₈ κ)).2 c hc
  · intro c hc x y hy
    have : ((env₈ κ).src c).subs = [] := rfl
    unfold AS.Src.sub
    rw [this]; rfl

theorem solves₈ (κ : ℝ) (val : PVar → Nat → ℝ) : Solves w₃ final₃ out₃ num₁ V₃ (fun _ _ _ _ => 0) (fun _ _ => 0) [] (usr₈ κ) (· ∈ [cU]) (fun _ => False) (fun _ _ => 1) [cO] (fun _ => True) (fun _ => 0) (fun _ => -κ / 2) val := by
  have hl : C95.Lists (· ∈ [cO]) [cO] := ⟨by simp, fun _ => Iff.rfl⟩
  have key : ∀ z : Nat → ℝ, (C95.Holds (env₈ κ) (now₈ κ) (· ∈ [cU]) z ∧ C95.InBounds (now₈ κ) (fun _ => 0) (fun _ => False) z ↔ -(2 * (κ * κ)) ≤ 2 * κ * z 0) ∧
      C95.objective (env₈ κ) (now₈ κ) (fun _ _ => 1) [cO] z = (2 * κ * z 0 + κ * κ) ^ 2 := by
    intro z
    obtain ⟨-, -, l3, -, -, -, l7, -⟩ := C70.C70_lists .init finalize₃
    obtain ⟨h1, h2⟩ := problem_eq l3 l7 (linked₈ κ) (envOk₈ κ) (final_represents .init finalize₃ (linked₈ κ) z val).1
    rw [h1, h2 _ _ hl]
    have hz : finalValues w₃ final₃ out₃ (env₈ κ).V num₁ z val 1 0 = z 0 := value₃ z val
    constructor
    · refine ⟨fun h => ?_, fun h => ⟨fun c hc => ?_, fun a u hu => by cases hu⟩⟩
      · have h3 : meant .asGiven (-(2 * (κ * κ - 0)) : ℝ) ≤ row w₃ (sqC .greaterThan 2 κ) _ 0 := h.1 cU (Or.inl (by simp)) 0 Nat.one_pos
        rw [row₈, hz] at h3
        simpa [meant] using h3
      · have hc : c = cU := by simpa using hc
        subst hc
        intro i hi
        show meant .asGiven (-(2 * (κ * κ - 0)) : ℝ) ≤ row w₃ (sqC .greaterThan 2 κ) _ i
        rw [row₈, hz]
        simpa [meant] using h
    · have h4 : (usr₈ κ) cO = sqC .equal 1 κ := rfl
      simp only [cost, h4, List.map_cons, List.map_nil, List.sum_cons, List.sum_nil, row₈, hz]
      simp [sqC, meant]
  refine C96_values (fun _ => by simp [w₃]) .init finalize₃ (cal := fun _ _ => ⟨fun _ _ => 0, fun _ _ => 0, fun _ _ => 0⟩) (fun a u hu => by cases hu) (linked₈ κ) (envOk₈ κ) hl (lim := fun _ => True) (pen := fun _ => 0) (x := fun _ => -κ / 2) ⟨⟨(key (fun _ => -κ / 2)).1.mpr (by nlinarith [mul_self_nonneg κ]), trivial⟩, fun y hy => ?_⟩ val
  have h5 := (key y).1.mp hy.1
  simp only [(key _).2, add_zero]
  nlinarith [sq_nonneg (2 * κ * y 0 + κ * κ)]

theorem following₈ (t : ℝ) : Following vn₀ (fun c => c ∈ [cU] ∨ False ∨ c ∈ [cO]) [] (tk₈ (path₃ ⟨0, 0⟩ 0 t)) (fun _ => sqTk .equal 1 1) path₃ t
    (finalValues w₃ final₃ out₃ V₃ num₁ (fun _ => -(path₃ ⟨0, 0⟩ 0 t) / 2) fun _ _ => 0) := by
  have hd : ∀ ty k, Decided vn₀ (sqTk ty k (path₃ ⟨0, 0⟩ 0 t)) path₃ t (finalValues w₃ final₃ out₃ V₃ num₁ (fun _ => -(path₃ ⟨0, 0⟩ 0 t) / 2) fun _ _ => 0) := by
    intro ty k v hv k hk
    have hv : v ∈ [(⟨0, 0⟩ : VId)] := hv
    have hk : k < 1 := hk
    rw [List.mem_singleton] at hv
    obtain rfl : k = 0 := by omega
    subst hv
    exact Eq.trans (by simp [path₃, VId.dot, Tk.order, sqTk, sqT, Dyn.order, Order.num]) (value₃ (fun _ => -(path₃ ⟨0, 0⟩ 0 t) / 2) fun _ _ => 0).symm
  refine ⟨fun c _ => ?_, fun s hs => by cases hs⟩
  unfold tk₈
  split <;> exact ⟨sq_ok _ (by decide) _ _ _ _ rfl (path₃_deriv t).hasDerivWithinAt, hd _ _⟩

theorem resolved₈ (t : ℝ) {c : SE.Cstr} (hc : c = cU ∨ c = cO) : Resolved w₃ vn₀ un₀ (tk₈ (path₃ ⟨0, 0⟩ 0 t) c) (usr₈ (path₃ ⟨0, 0⟩ 0 t) c) path₃ t
    (finalValues w₃ final₃ out₃ V₃ num₁ (fun _ => -(path₃ ⟨0, 0⟩ 0 t) / 2) fun _ _ => 0) := by
  have hf := following₈ t
  generalize path₃ ⟨0, 0⟩ 0 t = κ at hf
  have hs := solves₈ κ fun _ _ => 0
  have hp : ∀ c, Posed w₃ vn₀ un₀ (tk₈ κ c) (usr₈ κ c) := fun c => by unfold tk₈ usr₈; split <;> exact sq_posed _ (by decide) _ _
  refine ⟨_, _, _, _, _, _, _, _, _, _, _, _, _, _, _, _, tk₈ κ, fun _ => sqTk .equal 1 1, c, hs, fun c _ => hp c, fun s hs => (by cases hs), hf, rfl, rfl, rfl, ?_⟩
  rcases hc with rfl | rfl
  · exact Or.inl (Or.inl (by simp))
  · refine Or.inr ⟨by simp, ?_, fun _ _ _ _ => one_pos, path₃, _, fun _ => -κ / 2, _, hf, fun c hc => ?_, fun s hs => (by cases hs), (final_represents .init finalize₃ (linked₈ κ) (fun _ => -κ / 2) fun _ _ => 0).1, fun a u hu => (by cases hu), trivial, le_rfl⟩
    · intro c hc
      rw [List.mem_singleton] at hc
      subst hc; rfl
    · refine (C97_task un_vn₀ (hp c) (hf.1 c hc).1 (hf.1 c hc).2).1.mp ?_
      rcases hc with hc | hc | hc
      · exact hs.1.2 c (Or.inl hc)
      · exact hc.elim
      · rw [List.mem_singleton] at hc
        subst hc
        intro i _
        show row w₃ (sqC .equal 1 κ) _ i = meant .asGiven (-(1 * (κ * κ - 0)) : ℝ)
        have hz : finalValues w₃ final₃ out₃ V₃ num₁ (fun _ => -κ / 2) (fun _ _ => 0) 1 0 = -κ / 2 := value₃ _ _
        rw [row₈]
        refine (congrArg (2 * κ * ·) hz).trans ?_
        simp only [meant]; ring

/-- The theorem applies to the constraint and to the objective: `x² ≥ exp (-2 t)` and `x² = exp (-t)`. -/
example (t : ℝ) (ht : 0 ≤ t) : Real.exp (-(2 * t)) ≤ sqF (point square path₃ 0 t) 0 ∧ sqF (point square path₃ 0 t) 0 = Real.exp (-t) := by
  have h0 : sqF (point square path₃ 0 0) 0 = 1 := by
    show path₃ ⟨0, 0⟩ 0 0 * path₃ ⟨0, 0⟩ 0 0 = 1
    simp [path₃]
  constructor
  · have := C97_proportional un_vn₀ (u := ⟨1, fun _ => 0⟩) (Or.inl (sqT_made .greaterThan (by decide) 2)) (by trivial) (C97_resolved_loop un_vn₀ (o := fun t => outs (path₃ ⟨0, 0⟩ 0 t))
      (e := fun t _ => -(2 * (path₃ ⟨0, 0⟩ 0 t * path₃ ⟨0, 0⟩ 0 t - 0))) (e2 := fun _ => 0) (F := sqF) (D := sqD) (fun s _ => resolved₈ s (c := cU) (Or.inl rfl)) (fun _ _ _ _ => rfl) loop₃.cont) 0 (by decide) t ht
    simpa [Related, h0, C64.coef] using this
  · have := C97_proportional un_vn₀ (u := ⟨1, fun _ => 0⟩) (Or.inl (sqT_made .equal (by decide) 1)) (by trivial) (C97_resolved_loop un_vn₀ (o := fun t => outs (path₃ ⟨0, 0⟩ 0 t))
      (e := fun t _ => -(1 * (path₃ ⟨0, 0⟩ 0 t * path₃ ⟨0, 0⟩ 0 t - 0))) (e2 := fun _ => 0) (F := sqF) (D := sqD) (fun s _ => resolved₈ s (c := cO) (Or.inr rfl)) (fun _ _ _ _ => rfl) loop₃.cont) 0 (by decide) t ht
    simpa [Related, h0, C64.coef] using this

end

end Verif.C97
