import Verif.Properties.C97_Resolved
import Verif.Properties.C97_Loops
/-!
# C97 Resolutions of the weighted scheme every `dt`

The values computed by a resolution are kept until the next one: the motion is the one that `C110.Sampled` describes, and what C97 and C110 say of it applies to the tasks of a problem that is resolved.
-/
set_option autoImplicit false
set_option linter.unusedSectionVars false

namespace Verif.C97
open Verif TD LTask TR RV C48 C96 SBS Set C110

section
variable {w : World} {vn : VId → Nat} {un : Nat → VId}

/-- **C97** Resolutions with the weighted scheme at the times `k dt`, between which the variables move along straight lines, make a sampled control loop for the task; `C97_sampled_proportional`, `C97_sampled_oneStep` and `C110_sampled` follow. The other tasks, the substitutions and the solver can change from one resolution to the other. -/
theorem C97_resolved_sampled (hu : ∀ v, un (vn v) = v) {dt : ℝ} {f : Fn ℝ} {T : TaskObj ℝ} {F : Pt f → Nat → ℝ} {D : Nat → Pt f → Pt f →L[ℝ] ℝ} {o : ℝ → Outs ℝ} {e e2 : ℝ → Nat → ℝ} {usr : ℝ → UserCstr ℝ} {X : Path}
    {W : ℝ → Nat → Nat → ℝ} (h : ∀ k : ℕ, Resolved w vn un (Tk.at f T F D o e e2 (k * dt)) (usr (k * dt)) X (k * dt) (W (k * dt))) (hval : ∀ k : ℕ, ∀ i < f.size, (o (k * dt)).value i = F (point f X 0 (k * dt)) i)
    (hstraight : ∀ k : ℕ, ∀ s, k * dt ≤ s → s ≤ (k + 1) * dt → ∀ v ∈ f.vars, ∀ c < f.dim v.base, X (v.dot 0) c s = X (v.dot 0) c (k * dt) + (s - k * dt) * X (v.dot 1) c (k * dt)) :
    Sampled w vn un dt f T F D o e e2 usr X W :=
  ⟨fun k => ((h k).key hu).1, fun k => ((h k).key hu).2.1, fun k => ((h k).key hu).2.2.1, fun k => ((h k).key hu).2.2.2, hval, hstraight⟩

/-- **C97** With resolutions every `dt`, the task of an affine function with the one-step dynamics of the same `dt` holds from the first resolution on. -/
theorem C97_resolved_oneStep (hu : ∀ v, un (vn v) = v) {dt : ℝ} (hdt : 0 < dt) {f : Fn ℝ} {ty : TD.CType} {l u : Vec ℝ} {T : TaskObj ℝ} (hT : makeTask f ty (.oneStep false dt) l = some T ∨ makeTask2 f ty (.oneStep false dt) l u = some T)
    {F : Pt f → Nat → ℝ} {D : Nat → Pt f → Pt f →L[ℝ] ℝ} (ha : Affine F D) {o : ℝ → Outs ℝ} {e e2 : ℝ → Nat → ℝ} {usr : ℝ → UserCstr ℝ} {X : Path} {W : ℝ → Nat → Nat → ℝ}
    (h : ∀ k : ℕ, Resolved w vn un (Tk.at f T F D o e e2 (k * dt)) (usr (k * dt)) X (k * dt) (W (k * dt))) (hval : ∀ k : ℕ, ∀ i < f.size, (o (k * dt)).value i = F (point f X 0 (k * dt)) i)
    (hstraight : ∀ k : ℕ, ∀ s, k * dt ≤ s → s ≤ (k + 1) * dt → ∀ v ∈ f.vars, ∀ c < f.dim v.base, X (v.dot 0) c s = X (v.dot 0) c (k * dt) + (s - k * dt) * X (v.dot 1) c (k * dt)) (k : ℕ) :
    ∀ i < f.size, Related ty (F (point f X 0 ((k + 1) * dt)) i) (l.v i) (u.v i) :=
  fun i hi => C97_sampled_oneStep hu hT (C97_resolved_sampled hu h hval hstraight) ha hdt i hi k

end

/-! ## The hypotheses are met: the constraint `x ≥ 1` of gain 1 and the objective `x = 3/2` in one step, along the motion `pathB` from 2 to `3/2` with resolutions every `1/2` -/

section
/-- What the dynamics of the two tasks give at `x = κ` -/
noncomputable def eU₉ (κ : ℝ) : ℝ := -(1 * (κ - 1))
noncomputable def eO₉ (κ : ℝ) : ℝ := (3 / 2 - κ) / (1 / 2)

noncomputable def tkU₉ (κ : ℝ) : Tk := ⟨after square (C110.outs κ), oneT .greaterThan (.proportional (.scalar 1)) 1, linF, linD, fun _ => eU₉ κ, 0⟩
noncomputable def tkO₉ (κ : ℝ) : Tk := ⟨after square (C110.outs κ), oneT .equal (.oneStep false (1 / 2)) (3 / 2), linF, linD, fun _ => eO₉ κ, 0⟩

noncomputable def tk₉ (κ : ℝ) (c : SE.Cstr) : Tk := if c.id = 1 then tkU₉ κ else tkO₉ κ
noncomputable def usr₉ (κ : ℝ) (c : SE.Cstr) : UserCstr ℝ := if c.id = 1 then oneC .greaterThan (eU₉ κ) else oneC .equal (eO₉ κ)

theorem row₉ (ty : CType) (E : ℝ) (W : Nat → Nat → ℝ) (i : Nat) : row w₃ (oneC ty E) W i = W 1 0 := by
  have h1 : un₀ 1 = ⟨0, 1⟩ := un_vn₀ ⟨0, 1⟩
  simp [row, w₃, oneC, h1]

theorem posed₉ (κ : ℝ) (c : SE.Cstr) : Posed w₃ vn₀ un₀ (tk₉ κ c) (usr₉ κ c) := by
  unfold tk₉ usr₉
  split
  · exact one_posed (by decide) rfl _ _ rfl
  · exact one_posed (by decide) rfl _ _ rfl

noncomputable def env₉ (κ : ℝ) : ASM.Env := ⟨V₃, fun c => sourceOf w₃ final₃ num₁ (fun _ _ => true) (fun _ => .other) ((usr₉ κ) c)⟩

noncomputable def now₉ (κ : ℝ) : ASM.Now ℝ where
  fl := fun _ => ⟨true, true⟩
  dat := fun c => dataOf w₃ final₃ out₃ den₁ ⟨1, -1, fun _ => 0, fun _ => 0⟩ ((usr₉ κ) c)
  bnd := fun _ => ⟨.lowerThan, .asGiven, .identity, 0, 1, fun _ _ => 1, fun _ => 0, fun _ => 0, fun _ => 0, ⟨7, 5, fun _ => 3, fun _ => 2⟩⟩

theorem assembled₉ (κ : ℝ) : Assembled w₃ final₃ out₃ num₁ den₁ (env₉ κ) (now₉ κ) (usr₉ κ) (fun _ _ => cU) (· ∈ [cU]) (· ∈ [cU]) (fun _ => False) (· ∈ [cO]) (fun _ => 0) := by
  have hd : ∀ p, V₃.dim (num₁ p) = match p with
    | .var _ => 1
    | .z _ _ => 0 := by
    intro p
    simp only [V₃, back₁]
    cases p <;> rfl
  refine ⟨back₁, fun x => hd (.var x), fun a k => hd (.z a k), ?_, ?_, ?_, ?_, ?_, ?_⟩
  · intro p p' h h' hne
    exact absurd (((known₃ p).mp h).trans ((known₃ p').mp h').symm) hne
  · intro p
    have h1 : ∀ c, unknowns w₃ final₃ [(usr₉ κ) c] = [.var 1] := by
      intro c
      unfold usr₉
      split <;> rfl
    refine (known₃ p).trans ⟨fun h => ⟨cU, Or.inl (by simp), by rw [h1, h]; simp⟩, ?_⟩
    rintro ⟨c, -, hp⟩
    rw [h1] at hp; simpa using hp
  · intro c
    have : final₃.addCstrs = [] := rfl
    simp [this]
  · intro c hc
    simp only [List.mem_singleton] at hc
    refine ⟨⟨_, _, rfl⟩, ⟨_, rfl⟩, ?_⟩
    rcases hc with rfl | rfl <;> simp [usr₉, cU, cO, oneC]
  · intro a k hak
    cases hak
  · intro c hc
    exact hc.elim

theorem linked₉ (κ : ℝ) : Linked w₃ final₃ out₃ num₁ (env₉ κ) (now₉ κ) (usr₉ κ) (fun _ _ => cU) (· ∈ [cU]) (· ∈ [cU]) (fun _ => False) (· ∈ [cO]) (fun _ => 0) := (C96_assembled .init finalize₃ (assembled₉ κ)).1

theorem envOk₉ (κ : ℝ) : C95.EnvOk (env₉ κ) (· ∈ [cU]) (fun _ => False) (· ∈ [cO]) 1 (fun _ => 0) := by
  refine ⟨?_, ?_, ?_, ?_, fun c hc => hc.elim⟩
  · intro c hc
    simp only [List.mem_singleton] at hc
    rcases hc with rfl | rfl <;> simp [env₉, usr₉, cU, cO, oneC, sourceOf, ctype, C95.ty]
  · intro c hc
    simp only [List.mem_singleton] at hc
    subst hc; rfl
  · intro c hc
    exact (C96_assembled .init finalize₃ (assembled₉ κ)).2 c hc
  · intro c hc x y hy
    have : ((env₉ κ).src c).subs = [] := rfl
    unfold AS.Src.sub
    rw [this]; rfl

/-- The derivative of `x` that achieves the two tasks -/
noncomputable def x₉ (κ : ℝ) (_ : Nat) : ℝ := eO₉ κ

theorem solves₉ {κ : ℝ} (hκ : κ ≤ 2) (val : PVar → Nat → ℝ) : Solves w₃ final₃ out₃ num₁ V₃ (fun _ _ _ _ => 0) (fun _ _ => 0) [] (usr₉ κ) (· ∈ [cU]) (fun _ => False) (fun _ _ => 1) [cO] (fun _ => True) (fun _ => 0) (x₉ κ) val := by
  have hl : C95.Lists (· ∈ [cO]) [cO] := ⟨by simp, fun _ => Iff.rfl⟩
  have key : ∀ z : Nat → ℝ, (C95.Holds (env₉ κ) (now₉ κ) (· ∈ [cU]) z ∧ C95.InBounds (now₉ κ) (fun _ => 0) (fun _ => False) z ↔ eU₉ κ ≤ z 0) ∧
      C95.objective (env₉ κ) (now₉ κ) (fun _ _ => 1) [cO] z = (z 0 - eO₉ κ) ^ 2 := by
    intro z
    obtain ⟨-, -, l3, -, -, -, l7, -⟩ := C70.C70_lists .init finalize₃
    obtain ⟨h1, h2⟩ := problem_eq l3 l7 (linked₉ κ) (envOk₉ κ) (final_represents .init finalize₃ (linked₉ κ) z val).1
    rw [h1, h2 _ _ hl]
    have hz : finalValues w₃ final₃ out₃ (env₉ κ).V num₁ z val 1 0 = z 0 := value₃ z val
    constructor
    · refine ⟨fun h => ?_, fun h => ⟨fun c hc => ?_, fun a u hu => by cases hu⟩⟩
      · have h3 : meant .asGiven (eU₉ κ) ≤ row w₃ (oneC .greaterThan (eU₉ κ)) _ 0 := h.1 cU (Or.inl (by simp)) 0 Nat.one_pos
        rw [row₉, hz] at h3
        simpa [meant] using h3
      · have hc : c = cU := by simpa using hc
        subst hc
        intro i hi
        show meant .asGiven (eU₉ κ) ≤ row w₃ (oneC .greaterThan (eU₉ κ)) _ i
        rw [row₉, hz]
        simpa [meant] using h
    · have h4 : (usr₉ κ) cO = oneC .equal (eO₉ κ) := rfl
      simp only [cost, h4, List.map_cons, List.map_nil, List.sum_cons, List.sum_nil, row₉, hz]
      simp [oneC, meant]
  refine C96_values (fun _ => by simp [w₃]) .init finalize₃ (cal := fun _ _ => ⟨fun _ _ => 0, fun _ _ => 0, fun _ _ => 0⟩) (fun a u hu => by cases hu) (linked₉ κ) (envOk₉ κ) hl (lim := fun _ => True) (pen := fun _ => 0) (x := x₉ κ)
    ⟨⟨(key (x₉ κ)).1.mpr (by simp only [x₉, eU₉, eO₉]; linarith), trivial⟩, fun y hy => ?_⟩ val
  simp only [(key _).2, add_zero, x₉, sub_self]
  simpa using sq_nonneg (y 0 - eO₉ κ)

/-- At the times of the resolutions, the derivative of `pathB` is the one that the resolution gives. -/
theorem speed₉ (k : ℕ) : pathB ⟨0, 1⟩ 0 (k * (1 / 2)) = eO₉ (pathB ⟨0, 0⟩ 0 (k * (1 / 2))) ∧ pathB ⟨0, 0⟩ 0 (k * (1 / 2)) ≤ 2 := by
  cases k with
  | zero =>
    rw [pathB_low (by norm_num)]
    constructor
    · simp [pathB, eO₉]; norm_num
    · norm_num
  | succ k =>
    have : (1 : ℝ) / 2 ≤ ((k + 1 : ℕ) : ℝ) * (1 / 2) := by
      have : (0 : ℝ) ≤ k := Nat.cast_nonneg k
      push_cast; linarith
    have h3 : pathB ⟨0, 1⟩ 0 (((k + 1 : ℕ) : ℝ) * (1 / 2)) = 0 := by
      simp only [pathB]
      rw [if_neg (by decide), if_neg (not_lt.mpr this)]
    rw [pathB_high this, h3]
    exact ⟨by simp [eO₉], by norm_num⟩

theorem following₉ (k : ℕ) : Following vn₀ (fun c => c ∈ [cU] ∨ False ∨ c ∈ [cO]) [] (tk₉ (pathB ⟨0, 0⟩ 0 (k * (1 / 2)))) (fun _ => sqTk .equal 1 1) pathB (k * (1 / 2))
    (finalValues w₃ final₃ out₃ V₃ num₁ (x₉ (pathB ⟨0, 0⟩ 0 (k * (1 / 2)))) fun _ _ => 0) := by
  have hd : ∀ τ : Tk, τ.f.vars = [⟨0, 0⟩] → τ.f.dim = square.dim → τ.order = 1 → Decided vn₀ τ pathB (k * (1 / 2)) (finalValues w₃ final₃ out₃ V₃ num₁ (x₉ (pathB ⟨0, 0⟩ 0 (k * (1 / 2)))) fun _ _ => 0) := by
    intro τ h1 h2 h3 v hv c hc
    rw [h1, List.mem_singleton] at hv
    rw [h2] at hc
    have hc : c < 1 := hc
    obtain rfl : c = 0 := by omega
    subst hv
    rw [h3]
    exact ((speed₉ k).1.trans rfl).trans (value₃ (x₉ (pathB ⟨0, 0⟩ 0 (k * (1 / 2)))) fun _ _ => 0).symm
  refine ⟨fun c _ => ?_, fun s hs => by cases hs⟩
  unfold tk₉
  split
  · exact ⟨one_ok (by decide) rfl _ _ rfl pathB _ (pathB_deriv _), hd _ rfl rfl rfl⟩
  · exact ⟨one_ok (by decide) rfl _ _ rfl pathB _ (pathB_deriv _), hd _ rfl rfl rfl⟩

theorem resolved₉ (k : ℕ) {c : SE.Cstr} (hc : c = cU ∨ c = cO) : Resolved w₃ vn₀ un₀ (tk₉ (pathB ⟨0, 0⟩ 0 (k * (1 / 2))) c) (usr₉ (pathB ⟨0, 0⟩ 0 (k * (1 / 2))) c) pathB (k * (1 / 2))
    (finalValues w₃ final₃ out₃ V₃ num₁ (x₉ (pathB ⟨0, 0⟩ 0 (k * (1 / 2)))) fun _ _ => 0) := by
  have hf := following₉ k
  have hκ := (speed₉ k).2
  generalize pathB ⟨0, 0⟩ 0 (k * (1 / 2)) = κ at hf hκ
  have hs := solves₉ hκ fun _ _ => 0
  refine ⟨_, _, _, _, _, _, _, _, _, _, _, _, _, _, _, _, tk₉ κ, fun _ => sqTk .equal 1 1, c, hs, fun c _ => posed₉ κ c, fun s hs => (by cases hs), hf, rfl, rfl, rfl, ?_⟩
  rcases hc with rfl | rfl
  · exact Or.inl (Or.inl (by simp))
  · refine Or.inr ⟨by simp, ?_, fun _ _ _ _ => one_pos, pathB, _, x₉ κ, _, hf, fun c hc => ?_, fun s hs => (by cases hs), (final_represents .init finalize₃ (linked₉ κ) (x₉ κ) fun _ _ => 0).1, fun a u hu => (by cases hu), trivial, le_rfl⟩
    · intro c hc
      rw [List.mem_singleton] at hc
      subst hc; rfl
    · refine (C97_task un_vn₀ (posed₉ κ c) (hf.1 c hc).1 (hf.1 c hc).2).1.mp ?_
      rcases hc with hc | hc | hc
      · exact hs.1.2 c (Or.inl hc)
      · exact hc.elim
      · rw [List.mem_singleton] at hc
        subst hc
        intro i _
        show row w₃ (oneC .equal (eO₉ κ)) _ i = meant .asGiven (eO₉ κ)
        rw [row₉]
        exact value₃ _ _

/-- The theorem applies to the constraint, `x ≥ 1 + (1/2)^k` at the time `k/2`, and to the objective, `x = 3/2` from the time `1/2` on. -/
example (k : ℕ) : 1 + (1 / 2 : ℝ) ^ k ≤ linF (point square pathB 0 (k * (1 / 2))) 0 ∧ linF (point square pathB 0 ((k + 1) * (1 / 2))) 0 = 3 / 2 := by
  constructor
  · have hS : Sampled w₃ vn₀ un₀ (1 / 2) square (oneT .greaterThan (.proportional (.scalar 1)) 1) linF linD (fun t => C110.outs (pathB ⟨0, 0⟩ 0 t)) (fun t _ => eU₉ (pathB ⟨0, 0⟩ 0 t)) (fun _ => 0) (fun t => usr₉ (pathB ⟨0, 0⟩ 0 t) cU) pathB
        (fun t => finalValues w₃ final₃ out₃ V₃ num₁ (x₉ (pathB ⟨0, 0⟩ 0 t)) fun _ _ => 0) :=
      C97_resolved_sampled un_vn₀ (fun k => resolved₉ k (c := cU) (Or.inl rfl)) (fun _ _ _ => rfl) sampledB.straight
    have := C97_sampled_proportional un_vn₀ (ty := .greaterThan) (l := ⟨1, fun _ => 1⟩) (u := ⟨1, fun _ => 0⟩) (kp := .scalar 1) (Or.inl (by simp [makeTask, Dyn.impl, Dyn.accepts, implAccepts, propAccepts, square, oneT])) (by trivial) hS lin_affine
      (by norm_num) 0 (by decide) (Or.inr (by simp [C64.coef]; norm_num)) k
    have h0 : linF (point square pathB 0 0) 0 = 2 := by
      show pathB ⟨0, 0⟩ 0 0 = 2
      rw [pathB_low (by norm_num)]; norm_num
    have this : (1 : ℝ) + (1 - 1 * (1 / 2)) ^ k * (linF (point square pathB 0 0) 0 - 1) ≤ linF (point square pathB 0 (k * (1 / 2))) 0 := this
    rw [h0] at this
    norm_num at this ⊢
    exact this
  · exact C97_resolved_oneStep un_vn₀ (dt := 1 / 2) (by norm_num) (ty := .equal) (l := ⟨1, fun _ => 3 / 2⟩) (u := ⟨1, fun _ => 0⟩) (T := oneT .equal (.oneStep false (1 / 2)) (3 / 2)) (Or.inl (by simp [makeTask, Dyn.impl, Dyn.accepts, implAccepts, square, oneT])) lin_affine
      (o := fun t => C110.outs (pathB ⟨0, 0⟩ 0 t)) (e := fun t _ => eO₉ (pathB ⟨0, 0⟩ 0 t)) (e2 := fun _ => 0) (usr := fun t => usr₉ (pathB ⟨0, 0⟩ 0 t) cO) (X := pathB)
      (W := fun t => finalValues w₃ final₃ out₃ V₃ num₁ (x₉ (pathB ⟨0, 0⟩ 0 t)) fun _ _ => 0) (fun k => resolved₉ k (c := cO) (Or.inr rfl)) (fun _ _ _ => rfl) sampledB.straight k 0 (by decide)

end

end Verif.C97
