import Verif.Properties.C112_SampledSecond
import Verif.Properties.C97_Resolved
/-!
# C112 Resolutions of the weighted scheme every `dt`, for tasks of the second order

The accelerations computed by a resolution are kept until the next one: the motion is the one that `Sampled2` describes.
-/
set_option autoImplicit false
set_option linter.unusedSectionVars false

namespace Verif.C112
open Verif TD LTask TR RV C48 C96 SBS Set C97 C110 Filter Topology

section
variable {w : World} {vn : VId → Nat} {un : Nat → VId}
variable {f : Fn ℝ} {T : TaskObj ℝ} {F : Pt f → Nat → ℝ} {D : Nat → Pt f → Pt f →L[ℝ] ℝ} {o : ℝ → Outs ℝ} {e e2 : ℝ → Nat → ℝ} {usr : ℝ → UserCstr ℝ} {X : Path} {W : ℝ → Nat → Nat → ℝ} {dt : ℝ}

/-- Between the times `k dt` the variables of the function move with a constant acceleration. -/
def Arcs (dt : ℝ) (f : Fn ℝ) (X : Path) : Prop := ∀ k : ℕ, ∀ s, k * dt ≤ s → s ≤ (k + 1) * dt → ∀ v ∈ f.vars, ∀ c < f.dim v.base,
  X (v.dot 0) c s = X (v.dot 0) c (k * dt) + (s - k * dt) * X (v.dot 1) c (k * dt) + (s - k * dt) ^ 2 / 2 * X (v.dot 2) c (k * dt) ∧ X (v.dot 1) c s = X (v.dot 1) c (k * dt) + (s - k * dt) * X (v.dot 2) c (k * dt)

/-- **C112** Resolutions with the weighted scheme at the times `k dt`, between which the accelerations are kept, make the sampled control loop of the second order; `C112_sampled_critical`, `C112_sampled_oneStep` and C113 follow. The other tasks, the
substitutions and the solver can change from one resolution to the other. -/
theorem C112_resolved (hu : ∀ v, un (vn v) = v) (h : ∀ k : ℕ, Resolved w vn un (Tk.at f T F D o e e2 (k * dt)) (usr (k * dt)) X (k * dt) (W (k * dt)))
    (hval : ∀ k : ℕ, ∀ i < f.size, (o (k * dt)).value i = F (point f X 0 (k * dt)) i ∧ (o (k * dt)).velocity i = D i (point f X 0 (k * dt)) (point f X 1 (k * dt))) (harcs : Arcs dt f X) :
    Sampled2 w vn un dt f T F D o e e2 usr X W :=
  ⟨fun k => ((h k).key hu).1, fun k => ((h k).key hu).2.1, fun k => ((h k).key hu).2.2.1, fun k => ((h k).key hu).2.2.2, fun k i hi => (hval k i hi).1, fun k i hi => (hval k i hi).2,
    fun k s h1 h2 v hv c hc => (harcs k s h1 h2 v hv c hc).1, fun k s h1 h2 v hv c hc => (harcs k s h1 h2 v hv c hc).2⟩

/-- **C112** With resolutions every `dt` that keep the accelerations in between, an equality task on an affine function with a proportional derivative dynamics is attained in the limit, and its velocity vanishes, if `0 < kp` and `kp dt / 2 < kv < 2 / dt`;
be the task a constraint, or an objective that can be achieved with the others. -/
theorem C112_resolved_pd (hu : ∀ v, un (vn v) = v) {kp kv : Gain ℝ} {rhs : Vec ℝ} (hT : makeTask f .equal (.pd kp kv) rhs = some T) (hp : C64.Decoupled f.size kp) (hv : C64.Decoupled f.size kv) (ha : Affine F D) (hdt : 0 < dt)
    (h : ∀ k : ℕ, Resolved w vn un (Tk.at f T F D o e e2 (k * dt)) (usr (k * dt)) X (k * dt) (W (k * dt)))
    (hval : ∀ k : ℕ, ∀ i < f.size, (o (k * dt)).value i = F (point f X 0 (k * dt)) i ∧ (o (k * dt)).velocity i = D i (point f X 0 (k * dt)) (point f X 1 (k * dt))) (harcs : Arcs dt f X)
    (i : Nat) (hi : i < f.size) (hS : 0 < C64.coef kp i ∧ C64.coef kp i * dt / 2 < C64.coef kv i ∧ C64.coef kv i * dt < 2) :
    Tendsto (fun k : ℕ => F (point f X 0 (k * dt)) i) atTop (𝓝 (rhs.v i)) ∧ Tendsto (fun k : ℕ => D i (point f X 0 (k * dt)) (point f X 1 (k * dt))) atTop (𝓝 0) :=
  C112_sampled_pd hu hT hp hv (C112_resolved hu h hval harcs) ha hdt i hi hS

end

/-! ## The hypotheses are met: the constraint `x ≥ -10` and the objective `x = 5`, both with a proportional derivative dynamics, from `x = 6` at rest -/

section
/-- What the dynamics of the two tasks give at `x = y` with the velocity `z` -/
noncomputable def eU₂ (y z : ℝ) : ℝ := -(1 * z) - 1 / 3 * (y - -10)
noncomputable def eO₂ (y z : ℝ) : ℝ := -(1 * z) - 1 / 4 * (y - 5)

noncomputable def tkU₂ (y z : ℝ) : Tk := ⟨after square (outs3 y z), oneT .greaterThan (.pd (.scalar (1 / 3)) (.scalar 1)) (-10), linF, linD, fun _ => eU₂ y z, 0⟩
noncomputable def tkO₂ (y z : ℝ) : Tk := ⟨after square (outs3 y z), oneT .equal (.pd (.scalar (1 / 4)) (.scalar 1)) 5, linF, linD, fun _ => eO₂ y z, 0⟩

noncomputable def tk₂ (y z : ℝ) (c : SE.Cstr) : Tk := if c.id = 1 then tkU₂ y z else tkO₂ y z
noncomputable def usr₂ (y z : ℝ) (c : SE.Cstr) : UserCstr ℝ := if c.id = 1 then twoC .greaterThan (eU₂ y z) else twoC .equal (eO₂ y z)

theorem valueU₂ (y z : ℝ) : (Dyn.pd (.scalar (1 / 3)) (.scalar 1) : Dyn ℝ).value .greaterThan (after square (outs3 y z)) ⟨1, fun _ => -10⟩ = .ok () ⟨1, fun _ => eU₂ y z⟩ :=
  pd_value_decoupled (kp := .scalar (1 / 3)) (kv := .scalar 1) (n := 1) trivial trivial _ _ _

theorem valueO₂ (y z : ℝ) : (Dyn.pd (.scalar (1 / 4)) (.scalar 1) : Dyn ℝ).value .equal (after square (outs3 y z)) ⟨1, fun _ => 5⟩ = .ok () ⟨1, fun _ => eO₂ y z⟩ :=
  pd_value_decoupled (kp := .scalar (1 / 4)) (kv := .scalar 1) (n := 1) trivial trivial _ _ _

theorem row₂ (ty : CType) (E : ℝ) (W : Nat → Nat → ℝ) (i : Nat) : row w₃ (twoC ty E) W i = W 4 0 := by
  have h1 : un₀ 4 = ⟨0, 2⟩ := un_vn₀ ⟨0, 2⟩
  simp [row, w₃, twoC, h1]

theorem posed₂ (y z : ℝ) (c : SE.Cstr) : Posed w₃ vn₀ un₀ (tk₂ y z c) (usr₂ y z c) := by
  unfold tk₂ usr₂
  split
  · exact two_posed (by decide) rfl _ _ _ (valueU₂ y z)
  · exact two_posed (by decide) rfl _ _ _ (valueO₂ y z)

/-- The unknown is the acceleration of `x`. -/
def V₂ : AS.Vars where
  dim := fun m => match den₁ m with
    | .var _ => 1
    | .z _ _ => 0
  known := fun m => decide (m = 8)
  col := fun _ => 0

theorem known₂ (p : PVar) : V₂.known (num₁ p) = true ↔ p = .var 4 := by
  have h : ∀ q, num₁ p = num₁ q ↔ p = q := fun q => ⟨fun e => by rw [← back₁ p, e, back₁], fun e => e ▸ rfl⟩
  rw [← h (.var 4)]
  simp [V₂, num₁]

theorem value₂ (z : Nat → ℝ) (val : PVar → Nat → ℝ) : finalValues w₃ final₃ out₃ V₂ num₁ z val 4 0 = z 0 := by
  show setToSolution V₂ num₁ z val (.var 4) 0 = z 0
  unfold setToSolution
  rw [if_pos (by decide)]
  rfl

noncomputable def env₂ (y z : ℝ) : ASM.Env := ⟨V₂, fun c => sourceOf w₃ final₃ num₁ (fun _ _ => true) (fun _ => .other) ((usr₂ y z) c)⟩

noncomputable def now₂ (y z : ℝ) : ASM.Now ℝ where
  fl := fun _ => ⟨true, true⟩
  dat := fun c => dataOf w₃ final₃ out₃ den₁ ⟨1, -1, fun _ => 0, fun _ => 0⟩ ((usr₂ y z) c)
  bnd := fun _ => ⟨.lowerThan, .asGiven, .identity, 0, 1, fun _ _ => 1, fun _ => 0, fun _ => 0, fun _ => 0, ⟨7, 5, fun _ => 3, fun _ => 2⟩⟩

theorem assembled₂ (y z : ℝ) : Assembled w₃ final₃ out₃ num₁ den₁ (env₂ y z) (now₂ y z) (usr₂ y z) (fun _ _ => C97.cU) (· ∈ [C97.cU]) (· ∈ [C97.cU]) (fun _ => False) (· ∈ [C97.cO]) (fun _ => 0) := by
  have hd : ∀ p, V₂.dim (num₁ p) = match p with
    | .var _ => 1
    | .z _ _ => 0 := by
    intro p
    simp only [V₂, back₁]
  refine ⟨back₁, fun x => hd (.var x), fun a k => hd (.z a k), ?_, ?_, ?_, ?_, ?_, ?_⟩
  · intro p p' h h' hne
    exact absurd (((known₂ p).mp h).trans ((known₂ p').mp h').symm) hne
  · intro p
    have h1 : ∀ c, unknowns w₃ final₃ [(usr₂ y z) c] = [.var 4] := by
      intro c
      unfold usr₂
      split <;> rfl
    refine (known₂ p).trans ⟨fun h => ⟨C97.cU, Or.inl (by simp), by rw [h1, h]; simp⟩, ?_⟩
    rintro ⟨c, -, hp⟩
    rw [h1] at hp; simpa using hp
  · intro c
    have : final₃.addCstrs = [] := rfl
    simp [this]
  · intro c hc
    simp only [List.mem_singleton] at hc
    refine ⟨⟨_, _, rfl⟩, ⟨_, rfl⟩, ?_⟩
    rcases hc with rfl | rfl <;> simp [usr₂, C97.cU, C97.cO, twoC]
  · intro a k hak
    cases hak
  · intro c hc
    exact hc.elim

theorem linked₂ (y z : ℝ) : Linked w₃ final₃ out₃ num₁ (env₂ y z) (now₂ y z) (usr₂ y z) (fun _ _ => C97.cU) (· ∈ [C97.cU]) (· ∈ [C97.cU]) (fun _ => False) (· ∈ [C97.cO]) (fun _ => 0) := (C96_assembled .init finalize₃ (assembled₂ y z)).1

theorem envOk₂ (y z : ℝ) : C95.EnvOk (env₂ y z) (· ∈ [C97.cU]) (fun _ => False) (· ∈ [C97.cO]) 1 (fun _ => 0) := by
  refine ⟨?_, ?_, ?_, ?_, fun c hc => hc.elim⟩
  · intro c hc
    simp only [List.mem_singleton] at hc
    rcases hc with rfl | rfl <;> simp [env₂, usr₂, C97.cU, C97.cO, twoC, sourceOf, ctype, C95.ty]
  · intro c hc
    simp only [List.mem_singleton] at hc
    subst hc; rfl
  · intro c hc
    exact (C96_assembled .init finalize₃ (assembled₂ y z)).2 c hc
  · intro c hc x y' hy
    have : ((env₂ y z).src c).subs = [] := rfl
    unfold AS.Src.sub
    rw [this]; rfl

/-- The acceleration that achieves the two tasks -/
noncomputable def x₂ (y z : ℝ) (_ : Nat) : ℝ := eO₂ y z

theorem solves₂ {y z : ℝ} (hy : 5 ≤ y) (val : PVar → Nat → ℝ) : Solves w₃ final₃ out₃ num₁ V₂ (fun _ _ _ _ => 0) (fun _ _ => 0) [] (usr₂ y z) (· ∈ [C97.cU]) (fun _ => False) (fun _ _ => 1) [C97.cO] (fun _ => True) (fun _ => 0) (x₂ y z) val := by
  have hl : C95.Lists (· ∈ [C97.cO]) [C97.cO] := ⟨by simp, fun _ => Iff.rfl⟩
  have key : ∀ q : Nat → ℝ, (C95.Holds (env₂ y z) (now₂ y z) (· ∈ [C97.cU]) q ∧ C95.InBounds (now₂ y z) (fun _ => 0) (fun _ => False) q ↔ eU₂ y z ≤ q 0) ∧
      C95.objective (env₂ y z) (now₂ y z) (fun _ _ => 1) [C97.cO] q = (q 0 - eO₂ y z) ^ 2 := by
    intro q
    obtain ⟨-, -, l3, -, -, -, l7, -⟩ := C70.C70_lists .init finalize₃
    obtain ⟨h1, h2⟩ := problem_eq l3 l7 (linked₂ y z) (envOk₂ y z) (final_represents .init finalize₃ (linked₂ y z) q val).1
    rw [h1, h2 _ _ hl]
    have hz : finalValues w₃ final₃ out₃ (env₂ y z).V num₁ q val 4 0 = q 0 := value₂ q val
    constructor
    · refine ⟨fun h => ?_, fun h => ⟨fun c hc => ?_, fun a u hu => by cases hu⟩⟩
      · have h3 : meant .asGiven (eU₂ y z) ≤ row w₃ (twoC .greaterThan (eU₂ y z)) _ 0 := h.1 C97.cU (Or.inl (by simp)) 0 Nat.one_pos
        rw [row₂, hz] at h3
        simpa [meant] using h3
      · have hc : c = C97.cU := by simpa using hc
        subst hc
        intro i hi
        show meant .asGiven (eU₂ y z) ≤ row w₃ (twoC .greaterThan (eU₂ y z)) _ i
        rw [row₂, hz]
        simpa [meant] using h
    · have h4 : (usr₂ y z) C97.cO = twoC .equal (eO₂ y z) := rfl
      simp only [cost, h4, List.map_cons, List.map_nil, List.sum_cons, List.sum_nil, row₂, hz]
      simp [twoC, meant]
  refine C96_values (fun _ => by simp [w₃]) .init finalize₃ (cal := fun _ _ => ⟨fun _ _ => 0, fun _ _ => 0, fun _ _ => 0⟩) (fun a u hu => by cases hu) (linked₂ y z) (envOk₂ y z) hl (lim := fun _ => True) (pen := fun _ => 0) (x := x₂ y z)
    ⟨⟨(key (x₂ y z)).1.mpr (by simp only [x₂, eU₂, eO₂]; linarith), trivial⟩, fun q hq => ?_⟩ val
  simp only [(key _).2, add_zero, x₂, sub_self]
  simpa using sq_nonneg (q 0 - eO₂ y z)

/-- The errors and the velocities at the times of the resolutions -/
noncomputable def p₂ : ℕ → ℝ × ℝ := orbit (1 / 4) 1 1 1 0

theorem step₂ (k : ℕ) : (p₂ (k + 1)).1 = 7 / 8 * (p₂ k).1 + 1 / 2 * (p₂ k).2 ∧ (p₂ (k + 1)).2 = -(1 / 4 * (p₂ k).1) := by
  constructor
  · show (p₂ k).1 + 1 * (p₂ k).2 + 1 ^ 2 / 2 * (-(1 * (p₂ k).2) - 1 / 4 * (p₂ k).1) = _
    ring
  · show (p₂ k).2 + 1 * (-(1 * (p₂ k).2) - 1 / 4 * (p₂ k).1) = _
    ring

theorem above₂ (k : ℕ) : 0 ≤ (p₂ k).1 ∧ -(1 / 2 * (p₂ k).1) ≤ (p₂ k).2 := by
  induction k with
  | zero =>
    have h : p₂ 0 = (1, 0) := rfl
    rw [h]; norm_num
  | succ k ih =>
    rw [(step₂ k).1, (step₂ k).2]
    constructor <;> linarith [ih.1, ih.2]

noncomputable def path₂ : Path := arcs (fun k => (p₂ k).1 + 5) (fun k => (p₂ k).2) (fun k => eO₂ ((p₂ k).1 + 5) (p₂ k).2)

theorem at₂ (k : ℕ) : path₂ ⟨0, 0⟩ 0 (k * 1) = (p₂ k).1 + 5 ∧ path₂ ⟨0, 1⟩ 0 (k * 1) = (p₂ k).2 ∧ path₂ ⟨0, 2⟩ 0 (k * 1) = eO₂ ((p₂ k).1 + 5) (p₂ k).2 := by
  rw [mul_one]
  exact arcs_at k

theorem following₂ (k : ℕ) : Following vn₀ (fun c => c ∈ [C97.cU] ∨ False ∨ c ∈ [C97.cO]) [] (tk₂ (path₂ ⟨0, 0⟩ 0 (k * 1)) (path₂ ⟨0, 1⟩ 0 (k * 1))) (fun _ => sqTk .equal 1 1) path₂ (k * 1)
    (finalValues w₃ final₃ out₃ V₂ num₁ (x₂ (path₂ ⟨0, 0⟩ 0 (k * 1)) (path₂ ⟨0, 1⟩ 0 (k * 1))) fun _ _ => 0) := by
  have hd : ∀ τ : Tk, τ.f.vars = [⟨0, 0⟩] → τ.f.dim = square.dim → τ.order = 2 →
      Decided vn₀ τ path₂ (k * 1) (finalValues w₃ final₃ out₃ V₂ num₁ (x₂ (path₂ ⟨0, 0⟩ 0 (k * 1)) (path₂ ⟨0, 1⟩ 0 (k * 1))) fun _ _ => 0) := by
    intro τ h1 h2 h3 v hv c hc
    rw [h1, List.mem_singleton] at hv
    rw [h2] at hc
    have hc : c < 1 := hc
    obtain rfl : c = 0 := by omega
    subst hv
    rw [h3]
    refine Eq.trans ?_ (value₂ (x₂ (path₂ ⟨0, 0⟩ 0 (k * 1)) (path₂ ⟨0, 1⟩ 0 (k * 1))) fun _ _ => 0).symm
    show path₂ ⟨0, 2⟩ 0 (k * 1) = eO₂ _ _
    rw [(at₂ k).1, (at₂ k).2.1, (at₂ k).2.2]
  refine ⟨fun c _ => ?_, fun s hs => by cases hs⟩
  unfold tk₂
  split
  · exact ⟨two_ok (by decide) rfl _ _ _ (valueU₂ _ _) _ _ fun s hs => arcs_deriv (le_trans (by positivity) hs), hd _ rfl rfl rfl⟩
  · exact ⟨two_ok (by decide) rfl _ _ _ (valueO₂ _ _) _ _ fun s hs => arcs_deriv (le_trans (by positivity) hs), hd _ rfl rfl rfl⟩

theorem resolved₂ (k : ℕ) {c : SE.Cstr} (hc : c = C97.cU ∨ c = C97.cO) :
    Resolved w₃ vn₀ un₀ (tk₂ (path₂ ⟨0, 0⟩ 0 (k * 1)) (path₂ ⟨0, 1⟩ 0 (k * 1)) c) (usr₂ (path₂ ⟨0, 0⟩ 0 (k * 1)) (path₂ ⟨0, 1⟩ 0 (k * 1)) c) path₂ (k * 1)
    (finalValues w₃ final₃ out₃ V₂ num₁ (x₂ (path₂ ⟨0, 0⟩ 0 (k * 1)) (path₂ ⟨0, 1⟩ 0 (k * 1))) fun _ _ => 0) := by
  have hf := following₂ k
  have hy : 5 ≤ path₂ ⟨0, 0⟩ 0 (k * 1) := by rw [(at₂ k).1]; linarith [(above₂ k).1]
  generalize path₂ ⟨0, 0⟩ 0 (k * 1) = y at hf hy
  generalize path₂ ⟨0, 1⟩ 0 (k * 1) = z at hf
  have hs := solves₂ (z := z) hy fun _ _ => 0
  refine ⟨_, _, _, _, _, _, _, _, _, _, _, _, _, _, _, _, tk₂ y z, fun _ => sqTk .equal 1 1, c, hs, fun c _ => posed₂ y z c, fun s hs => (by cases hs), hf, rfl, rfl, rfl, ?_⟩
  rcases hc with rfl | rfl
  · exact Or.inl (Or.inl (by simp))
  · refine Or.inr ⟨by simp, ?_, fun _ _ _ _ => one_pos, path₂, _, x₂ y z, _, hf, fun c hc => ?_, fun s hs => (by cases hs), (final_represents .init finalize₃ (linked₂ y z) (x₂ y z) fun _ _ => 0).1, fun a u hu => (by cases hu), trivial, le_rfl⟩
    · intro c hc
      rw [List.mem_singleton] at hc
      subst hc; rfl
    · refine (C97_task un_vn₀ (posed₂ y z c) (hf.1 c hc).1 (hf.1 c hc).2).1.mp ?_
      rcases hc with hc | hc | hc
      · exact hs.1.2 c (Or.inl hc)
      · exact hc.elim
      · rw [List.mem_singleton] at hc
        subst hc
        intro i _
        show row w₃ (twoC .equal (eO₂ y z)) _ i = meant .asGiven (eO₂ y z)
        rw [row₂]
        exact value₂ _ _

theorem arcs₂ : Arcs 1 square path₂ := by
  have h := two_sampled (ty := .equal) (d := .pd (.scalar (1 / 4)) (.scalar 1)) (r := 5) (x := fun k => (p₂ k).1 + 5) (v := fun k => (p₂ k).2) (a := fun k => eO₂ ((p₂ k).1 + 5) (p₂ k).2) (by decide) rfl eO₂ valueO₂
    (fun k => by simp only [(step₂ k).1, eO₂]; ring) (fun k => by simp only [(step₂ k).2, eO₂]; ring) (fun k => rfl)
  exact fun k s h1 h2 v hv c hc => ⟨h.position k s h1 h2 v hv c hc, h.speed k s h1 h2 v hv c hc⟩

/-- The theorems apply to the objective, `x` tends to 5, and to the constraint. -/
example : (linF (point square path₂ 0 0) 0 = 6 ∧ Tendsto (fun k : ℕ => linF (point square path₂ 0 (k * 1)) 0) atTop (𝓝 5)) ∧
    Sampled2 w₃ vn₀ un₀ 1 square (oneT .greaterThan (.pd (.scalar (1 / 3)) (.scalar 1)) (-10)) linF linD (fun t => outs3 (path₂ ⟨0, 0⟩ 0 t) (path₂ ⟨0, 1⟩ 0 t)) (fun t _ => eU₂ (path₂ ⟨0, 0⟩ 0 t) (path₂ ⟨0, 1⟩ 0 t)) (fun _ => 0)
      (fun t => usr₂ (path₂ ⟨0, 0⟩ 0 t) (path₂ ⟨0, 1⟩ 0 t) C97.cU) path₂ (fun t => finalValues w₃ final₃ out₃ V₂ num₁ (x₂ (path₂ ⟨0, 0⟩ 0 t) (path₂ ⟨0, 1⟩ 0 t)) fun _ _ => 0) := by
  refine ⟨⟨?_, ?_⟩, C112_resolved un_vn₀ (fun k => resolved₂ k (c := C97.cU) (Or.inl rfl)) (fun k i _ => ⟨rfl, rfl⟩) arcs₂⟩
  · have := (at₂ 0).1
    rw [Nat.cast_zero, zero_mul] at this
    refine this.trans ?_
    show (1 : ℝ) + 5 = 6
    norm_num
  · exact (C112_resolved_pd un_vn₀ (kp := .scalar (1 / 4)) (kv := .scalar 1) (rhs := ⟨1, fun _ => 5⟩) (T := oneT .equal (.pd (.scalar (1 / 4)) (.scalar 1)) 5)
      (by simp [makeTask, Dyn.impl, Dyn.accepts, implAccepts, gainFits, square, oneT]) trivial trivial lin_affine one_pos
      (o := fun t => outs3 (path₂ ⟨0, 0⟩ 0 t) (path₂ ⟨0, 1⟩ 0 t)) (e := fun t _ => eO₂ (path₂ ⟨0, 0⟩ 0 t) (path₂ ⟨0, 1⟩ 0 t)) (e2 := fun _ => 0) (usr := fun t => usr₂ (path₂ ⟨0, 0⟩ 0 t) (path₂ ⟨0, 1⟩ 0 t) C97.cO) (X := path₂)
      (W := fun t => finalValues w₃ final₃ out₃ V₂ num₁ (x₂ (path₂ ⟨0, 0⟩ 0 t) (path₂ ⟨0, 1⟩ 0 t)) fun _ _ => 0) (fun k => resolved₂ k (c := C97.cO) (Or.inr rfl)) (fun k i _ => ⟨rfl, rfl⟩) arcs₂ 0 (by decide)
      (by simp only [C64.coef]; norm_num)).1

end

end Verif.C112
