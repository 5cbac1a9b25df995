import Verif.Model.TaskResolution
import Verif.Properties.C48_LinearizedTask
import Verif.Properties.C64_Convergence
import Verif.Properties.C96_Resolution
/-!
# C97 After a resolution the tasks follow their dynamics

The specification is about the motion of the variables in continuous time: `X v c s` is the value at the time `s` of the component `c` of the variable `v`, and `X (v.dot 1) c` is the right derivative of `X v c`
(the derivatives computed by the solver may jump from one resolution to the next). The tasks are about the functions of the user, differentiable maps from the values of their variables.
-/
set_option autoImplicit false
set_option linter.unusedSectionVars false

namespace Verif.C97
open Verif TD LTask TR RV C48 C96 SBS Set

/-! ## Specification -/

/-- The values of the variables in time -/
abbrev Path : Type := VId → Nat → ℝ → ℝ

/-- `d` is the right derivative of order `k` of `g` at the time `t`; the derivatives of lower orders exist from `t` on. -/
def RightDeriv : Nat → (ℝ → ℝ) → ℝ → ℝ → Prop
  | 0, g, t, d => g t = d
  | 1, g, t, d => HasDerivWithinAt g d (Ici t) t
  | k + 2, g, t, d => ∃ g' : ℝ → ℝ, (∀ s, t ≤ s → HasDerivWithinAt g (g' s) (Ici s) s) ∧ RightDeriv (k + 1) g' t d

/-- The derivatives of order `k` of the variables of a function, at the time `s` -/
def point (f : Fn ℝ) (X : Path) (k : Nat) (s : ℝ) : Pt f := fun a c => X ((f.vars.get a).dot k) c s

/-- From the time `t` on, the derivatives of the variables of a function are what their names say, up to the order `k`; for the order `k` itself, at the time `t` only. -/
def Moves (f : Fn ℝ) (X : Path) (k : Nat) (t : ℝ) : Prop :=
  ∀ j, j < k → ∀ v ∈ f.vars, ∀ c < f.dim v.base, ∀ s, s = t ∨ (t ≤ s ∧ j + 1 < k) → HasDerivWithinAt (X (v.dot j) c) (X (v.dot (j + 1)) c s) (Ici s) s

/-- The normal acceleration of the function at the time `t`: the right derivative of the Jacobian along the motion, times the velocity -/
def Drift (f : Fn ℝ) (D : Nat → Pt f → Pt f →L[ℝ] ℝ) (X : Path) (t : ℝ) : Prop :=
  ∀ i, i < f.size → ∃ Jd : (a : Fin f.vars.length) → Fin (f.dim (f.vars.get a).base) → ℝ,
    (∀ a c, HasDerivWithinAt (fun s => D i (point f X 0 s) (unit f a c)) (Jd a c) (Ici t) t) ∧ f.normalAcc i = ∑ a, ∑ c, Jd a c * point f X 1 t a c

/-- A task: its function, with the outputs of the last update, the map `F` that the function computes and its differential, the vectors `e`, `e2` given by the dynamics -/
structure Tk where
  f : Fn ℝ
  T : TaskObj ℝ
  F : Pt f → Nat → ℝ
  D : Nat → Pt f → Pt f →L[ℝ] ℝ
  e : Nat → ℝ
  e2 : Nat → ℝ

/-- The order of a task -/
def Tk.order (τ : Tk) : Nat := τ.T.td.dyn.order.num

/-- The component `i` of the function of a task, along a motion -/
def Tk.along (τ : Tk) (X : Path) (i : Nat) : ℝ → ℝ := fun s => τ.F (point τ.f X 0 s) i

/-- The task has the order one or two, its dynamics give `e` and `e2`, and the outputs of its function are what their documentation says at the time `t` of the motion. -/
structure Tk.Ok (τ : Tk) (X : Path) (t : ℝ) : Prop where
  nodup : τ.f.vars.Nodup
  order : τ.T.td.dyn.order ≠ .zero
  wants : Wants τ.f τ.T τ.e τ.e2
  diff : Differential τ.f τ.F τ.D
  moves : Moves τ.f X τ.order t
  jac : GivesJacobian τ.f τ.D (point τ.f X 0 t)
  drift : τ.T.td.dyn.order = .two → Drift τ.f τ.D X t

/-- The task is achieved at the time `t` of the motion: the derivative of its function, of the order of the task, is in the relation of the task with the value of its dynamics. -/
def Tk.Achieved (τ : Tk) (X : Path) (t : ℝ) : Prop :=
  ∀ i, i < τ.f.size → ∃ d, RightDeriv τ.order (τ.along X i) t d ∧ Related τ.T.type d (τ.e i) (τ.e2 i)

/-- The constraint `c` is the one built for the task, as the solvers see it. -/
def Posed (w : World) (vn : VId → Nat) (un : Nat → VId) (τ : Tk) (c : UserCstr ℝ) : Prop :=
  (∃ L, makeLTC τ.f τ.T = some L ∧ constraintOf vn un τ.f L = .ok () c) ∧ ∀ v ∈ τ.f.vars, w.dim (vn (v.dot τ.order)) = τ.f.dim v.base

/-- The constraint at the address `a`, used by a substitution, is the one built for the task. -/
def PosedSub (w : World) (J : Nat → Nat → Nat → Nat → ℝ) (e : Nat → Nat → ℝ) (vn : VId → Nat) (un : Nat → VId) (τ : Tk) (a : Nat) : Prop :=
  ∃ c, Posed w vn un τ c ∧ c.type = .equal ∧ (w.cstr a).size = c.size ∧ (w.cstr a).vars = c.vars ∧ (w.cstr a).rhs = .asGiven ∧ J a = c.jac ∧ e a = c.e

/-- The solver decides the derivatives of the variables: at the time `t`, those of the order of the task have the values `W`. -/
def Decided (vn : VId → Nat) (τ : Tk) (X : Path) (t : ℝ) (W : Nat → Nat → ℝ) : Prop :=
  ∀ v ∈ τ.f.vars, ∀ k < τ.f.dim v.base, X (v.dot τ.order) k t = W (vn (v.dot τ.order)) k

/-- The weighted sum of the squares of the errors of the objectives: `rate c i` is the derivative of the component `i` of the function of `c`. -/
def errors (τ : SE.Cstr → Tk) (wt : SE.Cstr → Nat → ℝ) (rate : SE.Cstr → Nat → ℝ) (os : List SE.Cstr) : ℝ :=
  (os.map fun c => ∑ i ∈ Finset.range (τ c).f.size, wt c i * (rate c i - (τ c).e i) ^ 2).sum

/-! ## The derivatives along a motion -/

theorem rightDeriv_unique : ∀ (k : Nat) (g h : ℝ → ℝ) (t d d' : ℝ), (∀ s, t ≤ s → g s = h s) → RightDeriv k g t d → RightDeriv k h t d' → d = d'
  | 0, g, h, t, d, d', e, h1, h2 => by
    have h1 : g t = d := h1
    have h2 : h t = d' := h2
    rw [← h1, ← h2]; exact e t le_rfl
  | 1, g, h, t, d, d', e, h1, h2 => by
    have h1 : HasDerivWithinAt g d (Ici t) t := h1
    have : HasDerivWithinAt h d (Ici t) t := h1.congr (fun y hy => (e y hy).symm) (e t le_rfl).symm
    exact (uniqueDiffOn_Ici t t self_mem_Ici).eq_deriv _ this h2
  | k + 2, g, h, t, d, d', e, ⟨g', a1, a2⟩, ⟨h', b1, b2⟩ => by
    refine rightDeriv_unique (k + 1) g' h' t d d' (fun s hs => ?_) a2 b2
    have : HasDerivWithinAt h (g' s) (Ici s) s := (a1 s hs).congr (fun y hy => (e y (le_trans hs hy)).symm) (e s hs).symm
    exact (uniqueDiffOn_Ici s s self_mem_Ici).eq_deriv _ this (b1 s hs)

theorem point_deriv {f : Fn ℝ} {X : Path} {k : Nat} {t : ℝ} (h : Moves f X k t) {j : Nat} (hj : j < k) {s : ℝ} (hs : s = t ∨ (t ≤ s ∧ j + 1 < k)) :
    HasDerivWithinAt (point f X j) (point f X (j + 1) s) (Ici s) s := by
  refine hasDerivWithinAt_pi.2 fun a => hasDerivWithinAt_pi.2 fun c => ?_
  exact h j hj _ (List.get_mem _ _) c c.2 s hs

theorem along_first {τ : Tk} {X : Path} {t : ℝ} (hD : Differential τ.f τ.F τ.D) {k : Nat} (h : Moves τ.f X k t) (hk : 0 < k) {i : Nat} (hi : i < τ.f.size) {s : ℝ} (hs : s = t ∨ (t ≤ s ∧ 1 < k)) :
    HasDerivWithinAt (τ.along X i) (τ.D i (point τ.f X 0 s) (point τ.f X 1 s)) (Ici s) s :=
  (hD i hi (point τ.f X 0 s)).comp_hasDerivWithinAt s (point_deriv h hk hs)

theorem along_second {τ : Tk} {X : Path} {t : ℝ} (h : Moves τ.f X 2 t) (hN : Drift τ.f τ.D X t) {i : Nat} (hi : i < τ.f.size) :
    HasDerivWithinAt (fun s => τ.D i (point τ.f X 0 s) (point τ.f X 1 s)) (τ.D i (point τ.f X 0 t) (point τ.f X 2 t) + τ.f.normalAcc i) (Ici t) t := by
  obtain ⟨Jd, hJ, hn⟩ := hN i hi
  have h1 : (fun s => τ.D i (point τ.f X 0 s) (point τ.f X 1 s)) = fun s => ∑ a, ∑ c, τ.D i (point τ.f X 0 s) (unit τ.f a c) * point τ.f X 1 s a c := by
    funext s; exact expand _ _
  rw [h1]
  have hv : ∀ a c, HasDerivWithinAt (fun s => point τ.f X 1 s a c) (point τ.f X 2 t a c) (Ici t) t := fun a c =>
    (hasDerivWithinAt_pi.1 ((hasDerivWithinAt_pi.1 (point_deriv h (by omega : 1 < 2) (Or.inl rfl))) a)) c
  have h2 : HasDerivWithinAt (fun s => ∑ a, ∑ c, τ.D i (point τ.f X 0 s) (unit τ.f a c) * point τ.f X 1 s a c)
      (∑ a, ∑ c, (Jd a c * point τ.f X 1 t a c + τ.D i (point τ.f X 0 t) (unit τ.f a c) * point τ.f X 2 t a c)) (Ici t) t :=
    HasDerivWithinAt.fun_sum fun a _ => HasDerivWithinAt.fun_sum fun c _ => (hJ a c).mul (hv a c)
  refine h2.congr_deriv ?_
  rw [expand (τ.D i (point τ.f X 0 t)) (point τ.f X 2 t), hn]
  simp only [Finset.sum_add_distrib]
  ring

/-- The derivative of the function of a task -/
noncomputable def Tk.rate (τ : Tk) (X : Path) (t : ℝ) (i : Nat) : ℝ := τ.D i (point τ.f X 0 t) (point τ.f X τ.order t) + if τ.T.td.dyn.order = .two then τ.f.normalAcc i else 0

theorem rate_deriv {τ : Tk} {X : Path} {t : ℝ} (h : τ.Ok X t) {i : Nat} (hi : i < τ.f.size) : RightDeriv τ.order (τ.along X i) t (τ.rate X t i) := by
  have hm := h.moves
  have ho := h.order
  unfold Tk.rate
  unfold Tk.order at hm ⊢
  rcases hk : τ.T.td.dyn.order with _ | _ | _
  · exact absurd hk ho
  · rw [hk] at hm
    simp only [Order.num, reduceCtorEq, if_false, add_zero] at hm ⊢
    exact along_first h.diff hm (by omega) hi (Or.inl rfl)
  · rw [hk] at hm
    simp only [Order.num, if_true] at hm ⊢
    exact ⟨_, fun s hs => along_first h.diff hm (by omega) hi (Or.inr ⟨hs, by omega⟩), along_second hm (h.drift hk) hi⟩

/-! ## The constraint of a task -/

section
variable {w : World} {vn : VId → Nat} {un : Nat → VId}

/-- The value of the constraint is the differential of the function applied to the values decided. -/
theorem row_eq (hu : ∀ v, un (vn v) = v) {τ : Tk} {c : UserCstr ℝ} (hp : Posed w vn un τ c) {X : Path} {t : ℝ} (h : τ.Ok X t) {W : Nat → Nat → ℝ} (hW : Decided vn τ X t W) {i : Nat} (hi : i < τ.f.size) :
    row w c W i = τ.D i (point τ.f X 0 t) (point τ.f X τ.order t) := by
  obtain ⟨⟨L, hL, hc⟩, hdim⟩ := hp
  obtain ⟨hv, htd, -, -⟩ := ltc_vars τ.f τ.T L hL h.nodup
  obtain ⟨y, hy, hyD⟩ := ltc_value τ.f τ.T L hL h.nodup τ.D (point τ.f X 0 t) (point τ.f X τ.order t) h.jac (fun v k => X v k t) (fun a k => rfl)
  have hval : L.value τ.f (fun v k => X v k t) = .ok () fun i => 0 + (τ.f.vars.map fun v =>
      ∑ k ∈ Finset.range (τ.f.dim v.base), τ.f.jac v i k * X (v.dot L.td.dyn.order.num) k t).sum := by
    unfold LTC.value
    rw [hv, ← htd]
    exact value_fold τ.f L _ τ.f.vars (fun _ h => h) _
  rw [hval] at hy
  injection hy with _ hy
  rw [← hyD i hi, ← hy]
  simp only [zero_add]
  unfold constraintOf at hc
  split at hc
  · cases hc
  · cases hc
  · injection hc with _ hc
    subst hc
    unfold row
    rw [hv, List.map_map, List.map_map]
    congr 1
    refine List.map_congr_left fun v hm => ?_
    simp only [Function.comp_apply]
    have hd := hdim v hm
    unfold Tk.order at hd
    rw [hd]
    refine Finset.sum_congr rfl fun k hk => ?_
    rw [hu, ← htd, jacobian_dot τ.f L v hm, htd]
    simp only
    have := hW v hm k (Finset.mem_range.mp hk)
    unfold Tk.order at this
    rw [this]

/-- The vectors that a constraint has -/
theorem update_shape (f : Fn ℝ) (L : LTC ℝ) (r : LTask.Rhs ℝ) (h : L.update f = .ok () r) :
    match L.type with
    | .equal => ∃ x, r = ⟨none, none, some x⟩
    | .greaterThan => ∃ x, r = ⟨some x, none, none⟩
    | .lowerThan => ∃ x, r = ⟨none, some x, none⟩
    | .doubleSided => ∃ x y, r = ⟨some x, some y, none⟩ := by
  unfold LTC.update at h
  split at h
  · cases h
  · cases h
  · rename_i x _
    cases ht : L.type <;> simp only [ht] at h ⊢
    · injection h with _ h; exact ⟨x, h.symm⟩
    · injection h with _ h; exact ⟨x, h.symm⟩
    · injection h with _ h; exact ⟨x, h.symm⟩
    · split at h
      · cases h
      · split at h
        · rename_i y _
          injection h with _ h; exact ⟨x, y, h.symm⟩
        · cases h
        · cases h

/-- **C97** for one task: its constraint holds for the values decided exactly when the task is achieved along the motion; and the residual of the constraint is the error of the task. -/
theorem C97_task (hu : ∀ v, un (vn v) = v) {τ : Tk} {c : UserCstr ℝ} (hp : Posed w vn un τ c) {X : Path} {t : ℝ} (h : τ.Ok X t) {W : Nat → Nat → ℝ} (hW : Decided vn τ X t W) :
    (Sat w c W ↔ τ.Achieved X t) ∧ c.size = τ.f.size ∧
      (τ.T.type = .equal → ∀ i, i < τ.f.size → ∀ d, RightDeriv τ.order (τ.along X i) t d → row w c W i - meant c.rhs (c.e i) = d - τ.e i) := by
  have hrow := fun i hi => row_eq hu hp h hW (i := i) hi
  obtain ⟨⟨L, hL, hc⟩, hdim⟩ := hp
  obtain ⟨hv, htd, -, hty⟩ := ltc_vars τ.f τ.T L hL h.nodup
  obtain ⟨r, hr, hiff⟩ := ltc_rhs τ.f τ.T L hL h.nodup τ.e τ.e2 h.wants
  have hA : τ.Achieved X t ↔ ∀ i, i < τ.f.size → Related τ.T.type (τ.rate X t i) (τ.e i) (τ.e2 i) := by
    refine forall_congr' fun i => forall_congr' fun hi => ⟨fun ⟨d, hd, hR⟩ => ?_, fun hR => ⟨_, rate_deriv h hi, hR⟩⟩
    rw [rightDeriv_unique _ _ _ _ _ _ (fun _ _ => rfl) (rate_deriv h hi) hd]
    exact hR
  have hH := hiff (fun i => row w c W i) (fun i => τ.rate X t i) (fun i hi => by rw [hrow i hi]; rfl)
  unfold constraintOf at hc
  rw [hr] at hc
  injection hc with _ hc
  have hsz : c.size = τ.f.size := by rw [← hc]
  have hct : c.type = ctype L.type := by rw [← hc]
  have hcr : c.rhs = .asGiven := by rw [← hc]
  have hce : c.e = vec r.e := by rw [← hc]
  have hcl : c.l = vec r.l := by rw [← hc]
  have hcu : c.u = vec r.u := by rw [← hc]
  clear hc
  have hs := update_shape τ.f L r hr
  refine ⟨?_, hsz, fun he i hi d hd => ?_⟩
  · rw [hA, ← hH]
    unfold Sat Holds
    rw [hsz, hct, hcr, hce, hcl, hcu]
    refine forall_congr' fun i => forall_congr' fun hi => ?_
    cases ht : L.type <;> simp only [ht] at hs
    · obtain ⟨x, rfl⟩ := hs; simp [ctype, meant, vec]
    · obtain ⟨x, rfl⟩ := hs; simp [ctype, meant, vec]
    · obtain ⟨x, rfl⟩ := hs; simp [ctype, meant, vec]
    · obtain ⟨x, y, rfl⟩ := hs; simp [ctype, meant, vec]
  · rw [hty, he] at hs
    obtain ⟨x, rfl⟩ := hs
    have := (hiff x.v (fun i => x.v i + if τ.T.td.dyn.order = .two then τ.f.normalAcc i else 0) (fun _ _ => rfl)).mp (by intro i _; simp) i hi
    simp only [he, Related] at this
    rw [← rightDeriv_unique _ _ _ _ _ _ (fun _ _ => rfl) (rate_deriv h hi) hd, hrow i hi, hcr, hce]
    unfold Tk.rate
    simp only [meant, vec, ← this]
    ring

/-- The constraint used by a substitution holds exactly when its task is achieved. -/
theorem sub_eq (hu : ∀ v, un (vn v) = v) {J : Nat → Nat → Nat → Nat → ℝ} {e : Nat → Nat → ℝ} {τ : Tk} {a : Nat} (hp : PosedSub w J e vn un τ a) {X : Path} {t : ℝ} (h : τ.Ok X t) {W : Nat → Nat → ℝ}
    (hW : Decided vn τ X t W) : C70.Holds w J e W a ↔ τ.Achieved X t := by
  obtain ⟨c, hp, hty, hs, hv, hr, hJ, he⟩ := hp
  obtain ⟨h1, h2, -⟩ := C97_task hu hp h hW
  rw [← h1]
  have hcr : c.rhs = .asGiven := by
    obtain ⟨⟨L, hL, hc⟩, -⟩ := hp
    unfold constraintOf at hc
    split at hc
    · cases hc
    · cases hc
    · injection hc with _ hc
      rw [← hc]
  unfold C70.Holds Sat row
  rw [hs, hv, hr, hJ, he, hty, hcr]
  rfl

/-! ## The resolution -/

/-- **C97** After a resolution, all the tasks of the constraints, of the bounds and of the substitutions are achieved along any motion whose derivatives are the values of the variables. And the weighted sum of the
squares of the errors of the objectives is the lowest: any other motion through the same state that achieves all these tasks has not a lower one (up to the term `pen` of the solver and its limits `lim`). -/
theorem C97_resolution (hu : ∀ v, un (vn v) = v) {S : State} {o : Nat → SU.Out ℝ} {num : PVar → Nat} {V : AS.Vars} {J : Nat → Nat → Nat → Nat → ℝ} {e : Nat → Nat → ℝ} {l : List Sub}
    {usr : SE.Cstr → UserCstr ℝ} {U B : SE.Cstr → Prop} {wt : SE.Cstr → Nat → ℝ} {os : List SE.Cstr} {lim : (Nat → ℝ) → Prop} {pen : (Nat → ℝ) → ℝ} {x : Nat → ℝ} {val : PVar → Nat → ℝ}
    (hs : Solves w S o num V J e l usr U B wt os lim pen x val) {τ : SE.Cstr → Tk} {σ : Nat → Tk}
    (hτ : ∀ c, U c ∨ B c ∨ c ∈ os → Posed w vn un (τ c) (usr c)) (hσ : ∀ s ∈ l, ∀ a ∈ s.cstrs, PosedSub w J e vn un (σ a) a) (hos : ∀ c ∈ os, (τ c).T.type = .equal)
    {X : Path} {t : ℝ} (hok : ∀ c, U c ∨ B c ∨ c ∈ os → (τ c).Ok X t ∧ Decided vn (τ c) X t (finalValues w S o V num x val))
    (hoks : ∀ s ∈ l, ∀ a ∈ s.cstrs, (σ a).Ok X t ∧ Decided vn (σ a) X t (finalValues w S o V num x val)) :
    (∀ c, U c ∨ B c → (τ c).Achieved X t) ∧ (∀ s ∈ l, ∀ a ∈ s.cstrs, (σ a).Achieved X t) ∧
    ∀ (X' : Path) (W' : Nat → Nat → ℝ), (∀ c, U c ∨ B c ∨ c ∈ os → (τ c).Ok X' t ∧ Decided vn (τ c) X' t W') → (∀ s ∈ l, ∀ a ∈ s.cstrs, (σ a).Ok X' t ∧ Decided vn (σ a) X' t W') →
      (∀ c, U c ∨ B c → (τ c).Achieved X' t) → (∀ s ∈ l, ∀ a ∈ s.cstrs, (σ a).Achieved X' t) →
      (∃ z ζ, Represents w S o V num z W' ζ ∧ C70.Additional w S o W' ζ) ∧
      ∀ z ζ, Represents w S o V num z W' ζ → C70.Additional w S o W' ζ → lim z → ∀ rate rate' : SE.Cstr → Nat → ℝ,
        (∀ c ∈ os, ∀ i < (τ c).f.size, RightDeriv (τ c).order ((τ c).along X i) t (rate c i) ∧ RightDeriv (τ c).order ((τ c).along X' i) t (rate' c i)) →
        errors τ wt rate os + pen x ≤ errors τ wt rate' os + pen z := by
  obtain ⟨⟨h1, h2⟩, -, h3⟩ := hs
  refine ⟨fun c hc => ?_, fun s hs a ha => ?_, fun X' W' hok' hoks' hA hA' => ?_⟩
  · have hc' : U c ∨ B c ∨ c ∈ os := by tauto
    exact (C97_task hu (hτ c hc') (hok c hc').1 (hok c hc').2).1.mp (h2 c hc)
  · exact (sub_eq hu (hσ s hs a ha) (hoks s hs a ha).1 (hoks s hs a ha).2).mp (h1 s hs a ha)
  · have hall : AllHold w J e l usr U B W' := by
      refine ⟨fun s hs a ha => (sub_eq hu (hσ s hs a ha) (hoks' s hs a ha).1 (hoks' s hs a ha).2).mpr (hA' s hs a ha), fun c hc => ?_⟩
      have hc' : U c ∨ B c ∨ c ∈ os := by tauto
      exact (C97_task hu (hτ c hc') (hok' c hc').1 (hok' c hc').2).1.mpr (hA c hc)
    obtain ⟨h4, h5⟩ := h3 W' hall
    refine ⟨h4, fun z ζ hr hz hl rate rate' hrate => ?_⟩
    have hcost : ∀ (Y : Path) (W : Nat → Nat → ℝ) (ρ : SE.Cstr → Nat → ℝ), (∀ c, U c ∨ B c ∨ c ∈ os → (τ c).Ok Y t ∧ Decided vn (τ c) Y t W) →
        (∀ c ∈ os, ∀ i < (τ c).f.size, RightDeriv (τ c).order ((τ c).along Y i) t (ρ c i)) → cost w usr wt os W = errors τ wt ρ os := by
      intro Y W ρ hY hρ
      unfold cost errors
      congr 1
      refine List.map_congr_left fun c hc => ?_
      have hc' : U c ∨ B c ∨ c ∈ os := by tauto
      obtain ⟨-, e1, e2⟩ := C97_task hu (hτ c hc') (hY c hc').1 (hY c hc').2
      rw [e1]
      refine Finset.sum_congr rfl fun i hi => ?_
      have hi := Finset.mem_range.mp hi
      rw [e2 (hos c hc) i hi _ (hρ c hc i hi)]
    rw [← hcost X _ rate hok fun c hc i hi => (hrate c hc i hi).1, ← hcost X' W' rate' hok' fun c hc i hi => (hrate c hc i hi).2]
    exact h5 z ζ hr hz hl

/-! ## The control loop -/

/-- A task in time: the outputs of its function at the time `t` are `o t`, the vectors of its dynamics `e t` and `e2 t`. -/
def Tk.at (f : Fn ℝ) (T : TaskObj ℝ) (F : Pt f → Nat → ℝ) (D : Nat → Pt f → Pt f →L[ℝ] ℝ) (o : ℝ → Outs ℝ) (e e2 : ℝ → Nat → ℝ) (t : ℝ) : Tk := ⟨after f (o t), T, F, D, e t, e2 t⟩

/-- The control loop, for one task: at each time `t` from 0 on, the constraint of the task is updated, a resolution gives values `W t` for which it holds, and the variables follow these values. -/
structure Loop (w : World) (vn : VId → Nat) (un : Nat → VId) (f : Fn ℝ) (T : TaskObj ℝ) (F : Pt f → Nat → ℝ) (D : Nat → Pt f → Pt f →L[ℝ] ℝ) (o : ℝ → Outs ℝ) (e e2 : ℝ → Nat → ℝ)
    (usr : ℝ → UserCstr ℝ) (X : Path) (W : ℝ → Nat → Nat → ℝ) : Prop where
  posed : ∀ t, 0 ≤ t → Posed w vn un (Tk.at f T F D o e e2 t) (usr t)
  ok : ∀ t, 0 ≤ t → (Tk.at f T F D o e e2 t).Ok X t
  decided : ∀ t, 0 ≤ t → Decided vn (Tk.at f T F D o e e2 t) X t (W t)
  sat : ∀ t, 0 ≤ t → Sat w (usr t) (W t)
  value : ∀ t, 0 ≤ t → ∀ i < f.size, (o t).value i = F (point f X 0 t) i
  cont : ∀ v ∈ f.vars, ∀ c < f.dim v.base, ContinuousOn (X v c) (Ici 0)

theorem Loop.achieved {f : Fn ℝ} {T : TaskObj ℝ} {F : Pt f → Nat → ℝ} {D : Nat → Pt f → Pt f →L[ℝ] ℝ} {o : ℝ → Outs ℝ} {e e2 : ℝ → Nat → ℝ} {usr : ℝ → UserCstr ℝ} {X : Path}
    {W : ℝ → Nat → Nat → ℝ} (hu : ∀ v, un (vn v) = v) (h : Loop w vn un f T F D o e e2 usr X W) (t : ℝ) (ht : 0 ≤ t) : (Tk.at f T F D o e e2 t).Achieved X t :=
  (C97_task hu (h.posed t ht) (h.ok t ht) (h.decided t ht)).1.mp (h.sat t ht)

theorem Loop.continuous {f : Fn ℝ} {T : TaskObj ℝ} {F : Pt f → Nat → ℝ} {D : Nat → Pt f → Pt f →L[ℝ] ℝ} {o : ℝ → Outs ℝ} {e e2 : ℝ → Nat → ℝ} {usr : ℝ → UserCstr ℝ} {X : Path}
    {W : ℝ → Nat → Nat → ℝ} (h : Loop w vn un f T F D o e e2 usr X W) {i : Nat} (hi : i < f.size) : ContinuousOn (fun t => F (point f X 0 t) i) (Ici 0) := by
  have hp : ContinuousOn (point f X 0) (Ici 0) := by
    refine continuousOn_pi.2 fun a => continuousOn_pi.2 fun c => ?_
    exact h.cont _ (List.get_mem _ _) c c.2
  have hF : Continuous fun p => F p i := continuous_iff_continuousAt.2 fun p => ((h.ok 0 le_rfl).diff i hi p).continuousAt
  exact hF.comp_continuousOn hp

/-- A motion whose derivative is at least `-k (y - r)` -/
theorem stays_above (k r : ℝ) (y y' : ℝ → ℝ) (h : C64.Moves y y') (hy : ∀ t, 0 ≤ t → -(k * (y t - r)) ≤ y' t) (t : ℝ) (ht : 0 ≤ t) : r + (y 0 - r) * Real.exp (-(k * t)) ≤ y t := by
  have h1 := C64.moves_cmul (-1) _ _ (C64.moves_mul _ _ _ _ (C64.moves_sub_const r _ _ h) (C64.moves_exp k))
  have h2 := C64.not_increasing _ _ h1 (fun s hs => by
    have h3 := hy s hs
    have h4 : 0 ≤ (y' s + k * (y s - r)) * Real.exp (k * s) := mul_nonneg (by linarith) (Real.exp_nonneg _)
    nlinarith [h4]) 0 t le_rfl ht
  simp only [mul_zero, Real.exp_zero, mul_one] at h2
  have h5 : (y 0 - r) ≤ (y t - r) * Real.exp (k * t) := by linarith
  have h6 := mul_le_mul_of_nonneg_right h5 (Real.exp_nonneg (-(k * t)))
  rw [mul_assoc, ← Real.exp_add, add_neg_cancel, Real.exp_zero, mul_one] at h6
  linarith

theorem stays_below (k r : ℝ) (y y' : ℝ → ℝ) (h : C64.Moves y y') (hy : ∀ t, 0 ≤ t → y' t ≤ -(k * (y t - r))) (t : ℝ) (ht : 0 ≤ t) : y t ≤ r + (y 0 - r) * Real.exp (-(k * t)) := by
  have h1 := C64.moves_mul _ _ _ _ (C64.moves_sub_const r _ _ h) (C64.moves_exp k)
  have h2 := C64.not_increasing _ _ h1 (fun s hs => by
    have h3 := hy s hs
    have h4 : 0 ≤ (-(k * (y s - r)) - y' s) * Real.exp (k * s) := mul_nonneg (by linarith) (Real.exp_nonneg _)
    nlinarith [h4]) 0 t le_rfl ht
  simp only [mul_zero, Real.exp_zero, mul_one] at h2
  have h6 := mul_le_mul_of_nonneg_right h2 (Real.exp_nonneg (-(k * t)))
  rw [mul_assoc, ← Real.exp_add, add_neg_cancel, Real.exp_zero, mul_one] at h6
  linarith

/-- **C97** In the control loop, a task with proportional dynamics keeps its function in the relation of the task with `rhs` plus an error that vanishes at the rate of the gain: an equality is approached exponentially, an
inequality that holds at the beginning is never violated, and one that does not hold is approached exponentially. -/
theorem C97_proportional (hu : ∀ v, un (vn v) = v) {f : Fn ℝ} {ty : CType} {kp : Gain ℝ} {l u : Vec ℝ} {T : TaskObj ℝ}
    (hT : makeTask f ty (.proportional kp) l = some T ∨ makeTask2 f ty (.proportional kp) l u = some T) (hd : C64.Decoupled f.size kp) {F : Pt f → Nat → ℝ} {D : Nat → Pt f → Pt f →L[ℝ] ℝ}
    {o : ℝ → Outs ℝ} {e e2 : ℝ → Nat → ℝ} {usr : ℝ → UserCstr ℝ} {X : Path} {W : ℝ → Nat → Nat → ℝ} (h : Loop w vn un f T F D o e e2 usr X W) (i : Nat) (hi : i < f.size) (t : ℝ) (ht : 0 ≤ t) :
    Related ty (F (point f X 0 t) i) (l.v i + (F (point f X 0 0) i - l.v i) * Real.exp (-(C64.coef kp i * t))) (u.v i + (F (point f X 0 0) i - u.v i) * Real.exp (-(C64.coef kp i * t))) := by
  have hty : T.type = ty ∧ T.td.dyn = .proportional kp ∧ T.td.rhs = l ∧ (ty = .doubleSided → ∃ d, T.td2 = some d ∧ d.dyn = .proportional kp ∧ d.rhs = u) := by
    rcases hT with hT | hT
    · obtain ⟨h1, rfl, -⟩ := task_fields _ _ _ _ _ hT
      exact ⟨rfl, rfl, rfl, fun hh => absurd hh h1⟩
    · obtain ⟨rfl, rfl, -, -⟩ := task2_fields _ _ _ _ _ _ hT
      exact ⟨rfl, rfl, rfl, fun _ => ⟨_, rfl, rfl, rfl⟩⟩
  obtain ⟨t1, t2, t3, t4⟩ := hty
  have he : ∀ s, 0 ≤ s → e s i = -(C64.coef kp i * (F (point f X 0 s) i - l.v i)) := by
    intro s hs
    obtain ⟨x, hx, -, hxe⟩ := (h.ok s hs).wants.first
    have hx : T.td.dyn.value T.td.type (after f (o s)) T.td.rhs = .ok () x := hx
    have hxe : x.v = e s := hxe
    rw [t2, t3] at hx
    have hx : propValue kp f.size (o s).value l.v = .ok () x := hx
    rw [C64.prop_decoupled kp _ hd] at hx
    injection hx with _ hx
    rw [← hxe, ← hx]
    simp only [h.value s hs i hi]
  have he2 : ty = .doubleSided → ∀ s, 0 ≤ s → e2 s i = -(C64.coef kp i * (F (point f X 0 s) i - u.v i)) := by
    intro hty s hs
    obtain ⟨d, hd1, hd2, hd3⟩ := t4 hty
    obtain ⟨d', x, hd', hx, -, hxe⟩ := (h.ok s hs).wants.second (t1.trans hty)
    have hd' : T.td2 = some d' := hd'
    rw [hd1] at hd'
    injection hd' with hd'
    subst hd'
    have hx : d.dyn.value d.type (after f (o s)) d.rhs = .ok () x := hx
    have hxe : x.v = e2 s := hxe
    rw [hd2, hd3] at hx
    have hx : propValue kp f.size (o s).value u.v = .ok () x := hx
    rw [C64.prop_decoupled kp _ hd] at hx
    injection hx with _ hx
    rw [← hxe, ← hx]
    simp only [h.value s hs i hi]
  have hA : ∀ s, 0 ≤ s → ∃ d, HasDerivWithinAt (fun s => F (point f X 0 s) i) d (Ici s) s ∧ Related ty d (e s i) (e2 s i) := by
    intro s hs
    obtain ⟨d, hd, hR⟩ := h.achieved hu s hs i hi
    have ho : (Tk.at f T F D o e e2 s).order = 1 := by
      show T.td.dyn.order.num = 1
      rw [t2]; rfl
    rw [ho] at hd
    have hR : Related T.type d (e s i) (e2 s i) := hR
    rw [t1] at hR
    exact ⟨d, hd, hR⟩
  choose! y' hy' hR using hA
  have hm : C64.Moves (fun s => F (point f X 0 s) i) y' := ⟨h.continuous hi, hy'⟩
  cases ty with
  | equal =>
    exact le_antisymm (stays_below _ _ _ y' hm (fun s hs => (he s hs ▸ hR s hs : y' s = _).le) t ht) (stays_above _ _ _ y' hm (fun s hs => (he s hs ▸ hR s hs : y' s = _).ge) t ht)
  | greaterThan => exact stays_above _ _ _ y' hm (fun s hs => he s hs ▸ hR s hs) t ht
  | lowerThan => exact stays_below _ _ _ y' hm (fun s hs => he s hs ▸ hR s hs) t ht
  | doubleSided =>
    exact ⟨stays_above _ _ _ y' hm (fun s hs => he s hs ▸ (hR s hs).1) t ht, stays_below _ _ _ y' hm (fun s hs => he2 rfl s hs ▸ (hR s hs).2) t ht⟩

/-- **C97** In the control loop, an equality task with critically damped proportional derivative dynamics makes the error vanish. -/
theorem C97_critical (hu : ∀ v, un (vn v) = v) {f : Fn ℝ} {kp : Gain ℝ} {S : Schur ℝ} {rhs : Vec ℝ} {T : TaskObj ℝ}
    (hT : makeTask f .equal (.pd (pdCritical Real.sqrt S kp).1 (pdCritical Real.sqrt S kp).2) rhs = some T) (hd : C64.Decoupled f.size kp) {F : Pt f → Nat → ℝ} {D : Nat → Pt f → Pt f →L[ℝ] ℝ}
    {o : ℝ → Outs ℝ} {e e2 : ℝ → Nat → ℝ} {usr : ℝ → UserCstr ℝ} {X : Path} {W : ℝ → Nat → Nat → ℝ} (h : Loop w vn un f T F D o e e2 usr X W)
    (hv : ∀ t, 0 ≤ t → ∀ i < f.size, (o t).velocity i = D i (point f X 0 t) (point f X 1 t)) (hvc : ∀ i < f.size, ContinuousOn (fun t => (o t).velocity i) (Ici 0))
    (i : Nat) (hi : i < f.size) (hk : 0 ≤ C64.coef kp i) (t : ℝ) (ht : 0 ≤ t) :
    F (point f X 0 t) i - rhs.v i = (F (point f X 0 0) i - rhs.v i + ((o 0).velocity i + Real.sqrt (C64.coef kp i) * (F (point f X 0 0) i - rhs.v i)) * t) *
      Real.exp (-(Real.sqrt (C64.coef kp i) * t)) := by
  obtain ⟨-, rfl, -⟩ := task_fields _ _ _ _ _ hT
  have h1 : ∀ s, 0 ≤ s → ∀ j < f.size, HasDerivWithinAt (fun s => F (point f X 0 s) j) ((o s).velocity j) (Ici s) s := by
    intro s hs j hj
    rw [hv s hs j hj]
    exact along_first (τ := Tk.at f _ F D o e e2 s) (h.ok s hs).diff (h.ok s hs).moves (by show 0 < 2; omega) hj (Or.inl rfl)
  have h2 : ∀ s, 0 ≤ s → ∀ j < f.size, HasDerivWithinAt (fun s => (o s).velocity j) (e s j) (Ici s) s := by
    intro s hs j hj
    obtain ⟨d, ⟨g, hg1, hg2⟩, hR⟩ := h.achieved hu s hs j hj
    have hR : d = e s j := hR
    have hg2 : HasDerivWithinAt g d (Ici s) s := hg2
    rw [← hR]
    have hg : ∀ r, s ≤ r → (o r).velocity j = g r := fun r hr =>
      (uniqueDiffOn_Ici r r self_mem_Ici).eq_deriv _ (h1 r (le_trans hs hr) j hj) (hg1 r hr)
    exact hg2.congr (fun r hr => hg r hr) (hg s le_rfl)
  refine C64.C64_critical kp f.size hd S rhs.v (fun t j => F (point f X 0 t) j) (fun t => (o t).velocity) e ⟨fun j hj => ⟨h.continuous hj, fun s hs => h1 s hs j hj⟩,
    fun j hj => ⟨hvc j hj, fun s hs => h2 s hs j hj⟩, fun s hs => ?_⟩ i hi hk t ht
  obtain ⟨x, hx, -, hxe⟩ := (h.ok s hs).wants.first
  have hx : pdValue (pdCritical Real.sqrt S kp).1 (pdCritical Real.sqrt S kp).2 f.size (o s).value (o s).velocity rhs.v = .ok () x := hx
  have hxe : x.v = e s := hxe
  rw [C64.pd_decoupled Real.sqrt S kp _ hd] at hx ⊢
  injection hx with _ hx
  refine ⟨_, rfl, rfl, fun j hj => ?_⟩
  rw [← hxe, ← hx]
  simp only [h.value s hs j hj]

end

/-! ## The hypotheses are met: the function `x²` -/

section
/-- The numbers of the variables -/
def vn₀ (v : VId) : Nat := Nat.pair v.base v.order
@[inherit_doc vn₀]
def un₀ (n : Nat) : VId := ⟨(Nat.unpair n).1, (Nat.unpair n).2⟩

theorem un_vn₀ (v : VId) : un₀ (vn₀ v) = v := by simp [un₀, vn₀]

/-- All the variables have the size 1, there is no constraint for substitutions. -/
def w₃ : World := ⟨fun _ => 1, fun _ => ⟨0, [], .asGiven⟩, fun _ => true⟩

/-- The outputs of the function `x²` for the value `x` (the normal acceleration is not used at the order 1) -/
noncomputable def outs (x : ℝ) : Outs ℝ := ⟨fun _ => x * x, fun _ => 0, fun _ => 0, fun _ _ _ => 2 * x⟩

/-- A task on `x²`, with a proportional dynamics and a right-hand side 0, as a task object -/
noncomputable def sqT (ty : CType) (k : ℝ) : TaskObj ℝ := ⟨ty, ⟨.proportional (.scalar k), ty, ⟨1, fun _ => 0⟩⟩, none⟩

noncomputable def sqF : Pt square → Nat → ℝ := fun p _ => proj p * proj p

noncomputable def sqD : Nat → Pt square → Pt square →L[ℝ] ℝ := fun _ p => proj p • proj + proj p • proj

/-- The task for the value `x` -/
noncomputable def sqTk (ty : CType) (k x : ℝ) : Tk := ⟨after square (outs x), sqT ty k, sqF, sqD, fun _ => -(k * (x * x - 0)), 0⟩

theorem sqT_made (ty : CType) (hty : ty ≠ .doubleSided) (k : ℝ) : makeTask square ty (.proportional (.scalar k)) ⟨1, fun _ => 0⟩ = some (sqT ty k) := by
  simp [makeTask, Dyn.impl, Dyn.accepts, implAccepts, propAccepts, square, sqT, hty]

theorem proj_unit (a : Fin square.vars.length) (c : Fin (square.dim (square.vars.get a).base)) : proj (unit square a c) = 1 := by
  have ha : a = a0 := by
    apply Fin.ext
    have := a.2
    simp only [square, List.length_cons, List.length_nil] at this
    simp only [a0]; omega
  subst ha
  have hc : c = c0 := by
    apply Fin.ext
    have : c.val < 1 := c.2
    simp only [c0]; omega
  subst hc
  simp [proj_apply, unit]

theorem sq_diff : Differential square sqF sqD := fun _ _ _ => proj.hasFDerivAt.mul proj.hasFDerivAt

theorem sq_jac (p : Pt square) (i : Nat) (a : Fin square.vars.length) (c : Fin (square.dim (square.vars.get a).base)) : 2 * proj p = sqD i p (unit square a c) := by
  show 2 * proj p = (proj p • proj + proj p • proj) (unit square a c)
  rw [add_apply, smul_apply, proj_unit]
  simp only [smul_eq_mul]
  ring

theorem sq_ok (ty : CType) (hty : ty ≠ .doubleSided) (k x : ℝ) (X : Path) (t : ℝ) (hx : X ⟨0, 0⟩ 0 t = x) (hX : HasDerivWithinAt (X ⟨0, 0⟩ 0) (X ⟨0, 1⟩ 0 t) (Ici t) t) : (sqTk ty k x).Ok X t := by
  refine ⟨?_, ?_, ?_, sq_diff, ?_, ?_, ?_⟩
  · show [(⟨0, 0⟩ : VId)].Nodup
    decide
  · intro h; cases h
  · exact ⟨⟨⟨1, fun _ => -(k * (x * x - 0))⟩, rfl, rfl, rfl⟩, fun h => absurd h hty⟩
  · intro j hj v hv c hc s hs
    have hj : j < 1 := hj
    have hv : v ∈ [(⟨0, 0⟩ : VId)] := hv
    have hc : c < 1 := hc
    rw [List.mem_singleton] at hv
    obtain rfl : j = 0 := by omega
    obtain rfl : c = 0 := by omega
    subst hv
    obtain rfl : s = t := by
      rcases hs with hs | ⟨-, hs⟩
      · exact hs
      · have hs : 0 + 1 < 1 := hs
        omega
    exact hX
  · intro i _ a c
    have h1 : proj (point square X 0 t) = x := hx
    have h2 : 2 * proj (point square X 0 t) = sqD i (point square X 0 t) (unit square a c) := sq_jac _ i a c
    rw [h1] at h2
    exact h2
  · intro h; cases h

/-- What the solvers see of the task -/
noncomputable def sqC (ty : CType) (k x : ℝ) : UserCstr ℝ :=
  ⟨ctype ty, .asGiven, 1, [1], fun m _ _ => if un₀ m = ⟨0, 1⟩ then 2 * x else 0, fun _ => if ty = .equal then -(k * (x * x - 0)) else 0,
    fun _ => if ty = .greaterThan then -(k * (x * x - 0)) else 0, fun _ => if ty = .lowerThan then -(k * (x * x - 0)) else 0⟩

theorem sq_posed (ty : CType) (hty : ty ≠ .doubleSided) (k x : ℝ) : Posed w₃ vn₀ un₀ (sqTk ty k x) (sqC ty k x) := by
  refine ⟨⟨⟨ty, (sqT ty k).td, none, [⟨0, 1⟩]⟩, ?_, ?_⟩, fun _ _ => rfl⟩
  · show makeLTC (after square (outs x)) (sqT ty k) = _
    cases ty
    · rfl
    · rfl
    · rfl
    · exact absurd rfl hty
  · have hj : (fun (m i r : Nat) => match LTC.jacobian (⟨ty, (sqT ty k).td, none, [⟨0, 1⟩]⟩ : LTC ℝ) (after square (outs x)) (un₀ m) with
        | .ok _ J => J i r
        | _ => 0) = fun m _ _ => if un₀ m = ⟨0, 1⟩ then 2 * x else 0 := by
      funext m i r
      generalize un₀ m = v
      obtain ⟨b, n⟩ := v
      unfold LTC.jacobian VId.primitive
      have h1 : (⟨ty, (sqT ty k).td, none, [⟨0, 1⟩]⟩ : LTC ℝ).td.dyn.order.num = 1 := rfl
      rw [h1]
      have h2 : (after square (outs x)).vars = [⟨0, 0⟩] := rfl
      by_cases hn : 1 ≤ n
      · simp only [hn, if_true, h2, List.mem_singleton, VId.mk.injEq]
        by_cases hb : b = 0 ∧ n = 1
        · obtain ⟨rfl, rfl⟩ := hb
          simp [after, outs]
        · rw [if_neg (by omega), if_neg hb]
      · have : ¬ (b = 0 ∧ n = 1) := by omega
        simp [hn, this]
    have hup : LTC.update (⟨ty, (sqT ty k).td, none, [⟨0, 1⟩]⟩ : LTC ℝ) (after square (outs x)) = .ok () ⟨if ty = .greaterThan then some ⟨1, fun _ => -(k * (x * x - 0))⟩ else none,
        if ty = .lowerThan then some ⟨1, fun _ => -(k * (x * x - 0))⟩ else none, if ty = .equal then some ⟨1, fun _ => -(k * (x * x - 0))⟩ else none⟩ := by
      cases ty
      · rfl
      · rfl
      · rfl
      · exact absurd rfl hty
    have hv : [(⟨0, 1⟩ : VId)].map vn₀ = [1] := by decide
    show constraintOf vn₀ un₀ (after square (outs x)) _ = _
    unfold constraintOf sqC
    rw [hup]
    simp only [hv]
    congr 1
    rw [UserCstr.mk.injEq]
    refine ⟨rfl, rfl, rfl, rfl, ?_, ?_, ?_, ?_⟩
    · refine Eq.trans ?_ hj
      funext m i r
      cases LTC.jacobian (⟨ty, (sqT ty k).td, none, [⟨0, 1⟩]⟩ : LTC ℝ) (after square (outs x)) (un₀ m) <;> rfl
    · funext i; by_cases h : ty = .equal <;> simp [h, vec]
    · funext i; by_cases h : ty = .greaterThan <;> simp [h, vec]
    · funext i; by_cases h : ty = .lowerThan <;> simp [h, vec]

/-- The loop with the task `x² = 0`, of gain 1: the motion is `x = exp (-t/2)`. -/
noncomputable def path₃ : Path := fun v _ s => if v = ⟨0, 0⟩ then Real.exp (-s / 2) else -Real.exp (-s / 2) / 2

theorem path₃_deriv (t : ℝ) : HasDerivAt (path₃ ⟨0, 0⟩ 0) (path₃ ⟨0, 1⟩ 0 t) t := by
  have h1 : path₃ ⟨0, 0⟩ 0 = fun s => Real.exp (-s / 2) := by funext s; simp [path₃]
  have h2 : path₃ ⟨0, 1⟩ 0 t = Real.exp (-t / 2) * (-1 / 2) := by simp [path₃]; ring
  rw [h1, h2]
  exact (((hasDerivAt_id t).neg).div_const 2).exp

theorem loop₃ : Loop w₃ vn₀ un₀ square (sqT .equal 1) sqF sqD (fun t => outs (path₃ ⟨0, 0⟩ 0 t)) (fun t _ => -(1 * (path₃ ⟨0, 0⟩ 0 t * path₃ ⟨0, 0⟩ 0 t - 0))) (fun _ => 0)
    (fun t => sqC .equal 1 (path₃ ⟨0, 0⟩ 0 t)) path₃ (fun t _ _ => path₃ ⟨0, 1⟩ 0 t) := by
  refine ⟨fun t _ => sq_posed .equal (by decide) 1 _, fun t _ => sq_ok .equal (by decide) 1 _ path₃ t rfl (path₃_deriv t).hasDerivWithinAt, ?_, ?_, fun t _ i _ => rfl, ?_⟩
  · intro t _ v hv k hk
    have hv : v ∈ [(⟨0, 0⟩ : VId)] := hv
    have hk : k < 1 := hk
    rw [List.mem_singleton] at hv
    obtain rfl : k = 0 := by omega
    subst hv
    rfl
  · intro t _ i _
    have h1 : un₀ 1 = ⟨0, 1⟩ := un_vn₀ ⟨0, 1⟩
    simp only [sqC, ctype, row, w₃, List.map_cons, List.map_nil, List.sum_cons, List.sum_nil, Finset.sum_range_one, meant, h1, if_true]
    simp [path₃]
    ring
  · intro v hv c hc
    have hv : v ∈ [(⟨0, 0⟩ : VId)] := hv
    have hc : c < 1 := hc
    rw [List.mem_singleton] at hv
    obtain rfl : c = 0 := by omega
    subst hv
    exact fun t _ => (path₃_deriv t).continuousAt.continuousWithinAt

/-- The theorem gives `x² = exp (-t)`. -/
example (t : ℝ) (ht : 0 ≤ t) : sqF (point square path₃ 0 t) 0 = Real.exp (-t) := by
  have := C97_proportional un_vn₀ (u := ⟨1, fun _ => 0⟩) (Or.inl (sqT_made .equal (by decide) 1)) (by trivial) loop₃ 0 (by decide) t ht
  have h0 : sqF (point square path₃ 0 0) 0 = 1 := by
    show path₃ ⟨0, 0⟩ 0 0 * path₃ ⟨0, 0⟩ 0 0 = 1
    simp [path₃]
  simpa [Related, h0, C64.coef] using this

/-! A resolution at `x = 1`: the task `x² ≥ 0` of gain 1 at the priority 0, the task `x² = 0` of gain 2 at the priority 1 -/

def cU : SE.Cstr := ⟨1, 1, .greaterThan⟩
def cO : SE.Cstr := ⟨2, 1, .equal⟩

noncomputable def tk₃ (c : SE.Cstr) : Tk := if c.id = 1 then sqTk .greaterThan 1 1 else sqTk .equal 2 1
noncomputable def usr₃ (c : SE.Cstr) : UserCstr ℝ := if c.id = 1 then sqC .greaterThan 1 1 else sqC .equal 2 1

def final₃ : State :=
  match ({} : State).finalize w₃ with
  | .ok S _ => S
  | _ => {}

theorem finalize₃ : ({} : State).finalize w₃ = .ok final₃ () := rfl

def V₃ : AS.Vars where
  dim := fun m => match den₁ m with
    | .var _ => 1
    | .z _ _ => 0
  known := fun m => decide (m = 2)
  col := fun _ => 0

noncomputable def env₃ : ASM.Env := ⟨V₃, fun c => sourceOf w₃ final₃ num₁ (fun _ _ => true) (fun _ => .other) (usr₃ c)⟩

def out₃ (_ : Nat) : SU.Out ℝ := ⟨fun _ _ _ _ => 0, fun _ _ _ _ => 0, fun _ _ => 0, fun _ => true, fun _ _ _ _ => 0, fun _ _ _ _ => 0, fun _ _ => 0⟩

noncomputable def now₃ : ASM.Now ℝ where
  fl := fun _ => ⟨true, true⟩
  dat := fun c => dataOf w₃ final₃ out₃ den₁ ⟨1, -1, fun _ => 0, fun _ => 0⟩ (usr₃ c)
  bnd := fun _ => ⟨.lowerThan, .asGiven, .identity, 0, 1, fun _ _ => 1, fun _ => 0, fun _ => 0, fun _ => 0, ⟨7, 5, fun _ => 3, fun _ => 2⟩⟩

theorem known₃ (p : PVar) : V₃.known (num₁ p) = true ↔ p = .var 1 := by
  have h : ∀ q, num₁ p = num₁ q ↔ p = q := fun q => ⟨fun e => by rw [← back₁ p, e, back₁], fun e => e ▸ rfl⟩
  rw [← h (.var 1)]
  simp [V₃, num₁]

theorem assembled₃ : Assembled w₃ final₃ out₃ num₁ den₁ env₃ now₃ usr₃ (fun _ _ => cU) (· ∈ [cU]) (· ∈ [cU]) (fun _ => False) (· ∈ [cO]) (fun _ => 0) := by
  have hd : ∀ p, V₃.dim (num₁ p) = match p with
    | .var _ => 1
    | .z _ _ => 0 := by
    intro p
    simp only [V₃, back₁]
  refine ⟨back₁, fun x => hd (.var x), fun a k => hd (.z a k), ?_, ?_, ?_, ?_, ?_, ?_⟩
  · intro p p' h h' hne
    exact absurd (((known₃ p).mp h).trans ((known₃ p').mp h').symm) hne
  · intro p
    have h1 : ∀ c, unknowns w₃ final₃ [usr₃ c] = [.var 1] := by
      intro c
      unfold usr₃
      split <;> rfl
    refine (known₃ p).trans ⟨fun h => ⟨cU, Or.inl (by simp), by rw [h1, h]; simp⟩, ?_⟩
    rintro ⟨c, -, hp⟩
    rw [h1] at hp; simpa using hp
  · intro c
    have : final₃.addCstrs = [] := rfl
    simp [this]
  · intro c hc
    simp only [List.mem_singleton] at hc
    refine ⟨⟨_, _, rfl⟩, ⟨_, rfl⟩, ?_⟩
    rcases hc with rfl | rfl <;> simp [usr₃, cU, cO, sqC]
  · intro a k hak
    cases hak
  · intro c hc
    exact hc.elim

theorem linked₃ : Linked w₃ final₃ out₃ num₁ env₃ now₃ usr₃ (fun _ _ => cU) (· ∈ [cU]) (· ∈ [cU]) (fun _ => False) (· ∈ [cO]) (fun _ => 0) := (C96_assembled .init finalize₃ assembled₃).1

theorem envOk₃ : C95.EnvOk env₃ (· ∈ [cU]) (fun _ => False) (· ∈ [cO]) 1 (fun _ => 0) := by
  refine ⟨?_, ?_, ?_, ?_, fun c hc => hc.elim⟩
  · intro c hc
    simp only [List.mem_singleton] at hc
    rcases hc with rfl | rfl <;> simp [env₃, usr₃, cU, cO, sqC, sourceOf, ctype, C95.ty]
  · intro c hc
    simp only [List.mem_singleton] at hc
    subst hc; rfl
  · intro c hc
    exact (C96_assembled .init finalize₃ assembled₃).2 c hc
  · intro c hc x y hy
    have : (env₃.src c).subs = [] := rfl
    unfold AS.Src.sub
    rw [this]; rfl

/-- The value of the unknown is the derivative of `x`. -/
theorem value₃ (z : Nat → ℝ) (val : PVar → Nat → ℝ) : finalValues w₃ final₃ out₃ V₃ num₁ z val 1 0 = z 0 := by
  show setToSolution V₃ num₁ z val (.var 1) 0 = z 0
  unfold setToSolution
  rw [if_pos (by decide)]
  rfl

theorem row₃ (ty : CType) (k : ℝ) (W : Nat → Nat → ℝ) (i : Nat) : row w₃ (sqC ty k 1) W i = 2 * W 1 0 := by
  have h1 : un₀ 1 = ⟨0, 1⟩ := un_vn₀ ⟨0, 1⟩
  simp [row, w₃, sqC, h1]

theorem solves₃ (val : PVar → Nat → ℝ) : Solves w₃ final₃ out₃ num₁ V₃ (fun _ _ _ _ => 0) (fun _ _ => 0) [] usr₃ (· ∈ [cU]) (fun _ => False) (fun _ _ => 1) [cO] (fun _ => True) (fun _ => 0) (fun _ => -1 / 2) val := by
  have hl : C95.Lists (· ∈ [cO]) [cO] := ⟨by simp, fun _ => Iff.rfl⟩
  have key : ∀ z : Nat → ℝ, (C95.Holds env₃ now₃ (· ∈ [cU]) z ∧ C95.InBounds now₃ (fun _ => 0) (fun _ => False) z ↔ -1 ≤ 2 * z 0) ∧
      C95.objective env₃ now₃ (fun _ _ => 1) [cO] z = (2 * z 0 + 2) ^ 2 := by
    intro z
    obtain ⟨-, -, l3, -, -, -, l7, -⟩ := C70.C70_lists .init finalize₃
    obtain ⟨h1, h2⟩ := problem_eq l3 l7 linked₃ envOk₃ (final_represents .init finalize₃ linked₃ z val).1
    rw [h1, h2 _ _ hl]
    have hz : finalValues w₃ final₃ out₃ env₃.V num₁ z val 1 0 = z 0 := value₃ z val
    constructor
    · refine ⟨fun h => ?_, fun h => ⟨fun c hc => ?_, fun a u hu => by cases hu⟩⟩
      · have h3 : meant .asGiven (-(1 * (1 * 1 - 0)) : ℝ) ≤ row w₃ (sqC .greaterThan 1 1) _ 0 := h.1 cU (Or.inl (by simp)) 0 (by decide)
        rw [row₃, hz] at h3
        simpa [meant] using h3
      · have hc : c = cU := by simpa using hc
        subst hc
        intro i hi
        show meant .asGiven (-(1 * (1 * 1 - 0)) : ℝ) ≤ row w₃ (sqC .greaterThan 1 1) _ i
        rw [row₃, hz]
        simpa [meant] using h
    · have h4 : usr₃ cO = sqC .equal 2 1 := rfl
      simp only [cost, h4, List.map_cons, List.map_nil, List.sum_cons, List.sum_nil, row₃, hz]
      simp [sqC, meant]
  refine C96_values (fun _ => by simp [w₃]) .init finalize₃ (cal := fun _ _ => ⟨fun _ _ => 0, fun _ _ => 0, fun _ _ => 0⟩) (fun a u hu => by cases hu) linked₃ envOk₃ hl (lim := fun _ => True) (pen := fun _ => 0) (x := fun _ => -1 / 2) ⟨⟨(key (fun _ => -1 / 2)).1.mpr (by norm_num), trivial⟩, fun y hy => ?_⟩ val
  have h5 := (key y).1.mp hy.1
  simp only [(key _).2, add_zero]
  nlinarith

/-- The motion decided by the resolution -/
noncomputable def path₄ : Path := fun v _ s => if v = ⟨0, 0⟩ then 1 - s / 2 else -1 / 2

theorem ok₄ (c : SE.Cstr) : (tk₃ c).Ok path₄ 0 ∧ Decided vn₀ (tk₃ c) path₄ 0 (finalValues w₃ final₃ out₃ V₃ num₁ (fun _ => -1 / 2) fun _ _ => 0) := by
  have h0 : HasDerivAt (path₄ ⟨0, 0⟩ 0) (path₄ ⟨0, 1⟩ 0 0) 0 := by
    have h1 : path₄ ⟨0, 0⟩ 0 = fun s => 1 - s / 2 := by funext s; simp [path₄]
    have h2 : path₄ ⟨0, 1⟩ 0 0 = -(1 / 2) := by simp [path₄]; ring
    rw [h1, h2]
    exact ((hasDerivAt_id (0 : ℝ)).div_const 2).const_sub 1
  have h1 : path₄ ⟨0, 0⟩ 0 0 = 1 := by simp [path₄]
  have hd : ∀ ty k, Decided vn₀ (sqTk ty k 1) path₄ 0 (finalValues w₃ final₃ out₃ V₃ num₁ (fun _ => -1 / 2) fun _ _ => 0) := by
    intro ty k v hv k hk
    have hv : v ∈ [(⟨0, 0⟩ : VId)] := hv
    have hk : k < 1 := hk
    rw [List.mem_singleton] at hv
    obtain rfl : k = 0 := by omega
    subst hv
    exact Eq.trans (by simp [path₄, VId.dot, Tk.order, sqTk, sqT, Dyn.order, Order.num]) (value₃ (fun _ => -1 / 2) fun _ _ => 0).symm
  unfold tk₃
  split
  · exact ⟨sq_ok _ (by decide) _ _ _ _ h1 h0.hasDerivWithinAt, hd _ _⟩
  · exact ⟨sq_ok _ (by decide) _ _ _ _ h1 h0.hasDerivWithinAt, hd _ _⟩

/-- The theorem applies: the task at the priority 0 is achieved (the derivative of `x²` is -1, the limit given by the dynamics). -/
example : (sqTk .greaterThan 1 1).Achieved path₄ 0 :=
  (C97_resolution un_vn₀ (solves₃ _) (τ := tk₃) (σ := fun _ => sqTk .equal 1 1) (fun c _ => by unfold tk₃ usr₃; split <;> exact sq_posed _ (by decide) _ _) (fun s hs => by cases hs)
    (fun c hc => by rw [List.mem_singleton] at hc; subst hc; rfl) (fun c _ => ok₄ c) (fun s hs => by cases hs)).1 cU (Or.inl (by simp))

/-! The loop at the order 2, with the same motion: the task `x² = 0` with the gain 1 and the critical damping -/

noncomputable def pdT (S : Schur ℝ) : TaskObj ℝ := ⟨.equal, ⟨.pd (pdCritical Real.sqrt S (.scalar 1)).1 (pdCritical Real.sqrt S (.scalar 1)).2, .equal, ⟨1, fun _ => 0⟩⟩, none⟩

/-- The outputs of the function at the value `x`, with the velocity `-x/2` -/
noncomputable def outs2 (x : ℝ) : Outs ℝ := ⟨fun _ => x * x, fun _ => -(x * x), fun _ => x * x / 2, fun _ _ _ => 2 * x⟩

noncomputable def path₅ : Path := fun v _ s => if v.order = 0 then Real.exp (-s / 2) else if v.order = 1 then -Real.exp (-s / 2) / 2 else Real.exp (-s / 2) / 4

theorem exp_half (t : ℝ) : HasDerivAt (fun s => Real.exp (-s / 2)) (-Real.exp (-t / 2) / 2) t := by
  have := (((hasDerivAt_id t).neg).div_const 2).exp
  refine this.congr_deriv ?_
  simp
  ring

theorem path₅_deriv (j : Nat) (hj : j < 2) (t : ℝ) : HasDerivAt (path₅ ⟨0, j⟩ 0) (path₅ ⟨0, j + 1⟩ 0 t) t := by
  have h := exp_half t
  obtain rfl | rfl : j = 0 ∨ j = 1 := by omega
  · exact h
  · have h2 : HasDerivAt (fun s => -Real.exp (-s / 2) / 2) (-(-Real.exp (-t / 2) / 2) / 2) t := h.neg.div_const 2
    refine HasDerivAt.congr_deriv (f := path₅ ⟨0, 1⟩ 0) h2 ?_
    simp [path₅]
    ring

/-- What the solvers see of the task -/
noncomputable def pdC (x : ℝ) : UserCstr ℝ :=
  ⟨.equal, .asGiven, 1, [4], fun m _ _ => if un₀ m = ⟨0, 2⟩ then 2 * x else 0, fun _ => x * x - x * x / 2, fun _ => 0, fun _ => 0⟩

theorem pd_value (S : Schur ℝ) (x : ℝ) : pdValue (pdCritical Real.sqrt S (.scalar 1)).1 (pdCritical Real.sqrt S (.scalar 1)).2 1 (fun _ => x * x) (fun _ => -(x * x)) (fun _ => 0) =
    .ok () ⟨1, fun _ => x * x⟩ := by
  rw [C64.pd_decoupled Real.sqrt S (.scalar 1) 1 trivial]
  congr 2
  funext i
  simp [C64.coef]
  ring

theorem pd_posed (S : Schur ℝ) (x : ℝ) : constraintOf vn₀ un₀ (after square (outs2 x)) ⟨.equal, (pdT S).td, none, [⟨0, 2⟩]⟩ = .ok () (pdC x) := by
  have hup : LTC.update (⟨.equal, (pdT S).td, none, [⟨0, 2⟩]⟩ : LTC ℝ) (after square (outs2 x)) = .ok () ⟨none, none, some ⟨1, fun _ => x * x - x * x / 2⟩⟩ := by
    have h1 : (pdT S).td.dyn.value (pdT S).td.type (after square (outs2 x)) (pdT S).td.rhs = .ok () ⟨1, fun _ => x * x⟩ := pd_value S x
    unfold LTC.update LTC.side
    simp only [h1]
    rfl
  have hv : [(⟨0, 2⟩ : VId)].map vn₀ = [4] := by decide
  unfold constraintOf pdC
  rw [hup]
  simp only [hv]
  congr 1
  rw [UserCstr.mk.injEq]
  refine ⟨rfl, rfl, rfl, rfl, ?_, rfl, rfl, rfl⟩
  funext m i r
  generalize un₀ m = v
  obtain ⟨b, n⟩ := v
  unfold LTC.jacobian VId.primitive
  have h1 : (⟨.equal, (pdT S).td, none, [⟨0, 2⟩]⟩ : LTC ℝ).td.dyn.order.num = 2 := rfl
  rw [h1]
  have h2 : (after square (outs2 x)).vars = [⟨0, 0⟩] := rfl
  by_cases hn : 2 ≤ n
  · simp only [hn, if_true, h2, List.mem_singleton, VId.mk.injEq]
    by_cases hb : b = 0 ∧ n = 2
    · obtain ⟨rfl, rfl⟩ := hb
      simp [after, outs2]
    · rw [if_neg (by omega), if_neg hb]
  · have : ¬ (b = 0 ∧ n = 2) := by omega
    simp [hn, this]

theorem sq_drift (i : Nat) (a : Fin square.vars.length) (c : Fin (square.dim (square.vars.get a).base)) (t : ℝ) :
    HasDerivWithinAt (fun s => sqD i (point square path₅ 0 s) (unit square a c)) (-Real.exp (-t / 2)) (Ici t) t := by
  have h1 : (fun s => sqD i (point square path₅ 0 s) (unit square a c)) = fun s => 2 * Real.exp (-s / 2) := by
    funext s
    rw [← sq_jac]
    rfl
  rw [h1]
  refine (((exp_half t).const_mul 2).hasDerivWithinAt (s := Ici t)).congr_deriv ?_
  ring

theorem loop₅ (S : Schur ℝ) : Loop w₃ vn₀ un₀ square (pdT S) sqF sqD (fun t => outs2 (path₅ ⟨0, 0⟩ 0 t)) (fun t _ => path₅ ⟨0, 0⟩ 0 t * path₅ ⟨0, 0⟩ 0 t) (fun _ => 0)
    (fun t => pdC (path₅ ⟨0, 0⟩ 0 t)) path₅ (fun t _ _ => path₅ ⟨0, 2⟩ 0 t) := by
  have hx0 : ∀ t, proj (point square path₅ 0 t) = path₅ ⟨0, 0⟩ 0 t := fun _ => rfl
  refine ⟨fun t _ => ?_, fun t _ => ?_, ?_, ?_, fun t _ i _ => rfl, ?_⟩
  · exact ⟨⟨⟨.equal, (pdT S).td, none, [⟨0, 2⟩]⟩, rfl, pd_posed S _⟩, fun _ _ => rfl⟩
  · refine ⟨show [(⟨0, 0⟩ : VId)].Nodup by decide, fun h => (by cases h), ⟨⟨_, pd_value S _, rfl, rfl⟩, fun h => (by cases h)⟩, sq_diff, ?_, ?_, fun _ => ?_⟩
    · intro j hj v hv c hc s hs
      have hv : v ∈ [(⟨0, 0⟩ : VId)] := hv
      have hc : c < 1 := hc
      rw [List.mem_singleton] at hv
      obtain rfl : c = 0 := by omega
      subst hv
      have := (path₅_deriv j hj s).hasDerivWithinAt (s := Ici s)
      simpa [VId.dot] using this
    · exact fun i _ a c => sq_jac (point square path₅ 0 t) i a c
    · intro i _
      refine ⟨fun _ _ => -Real.exp (-t / 2), fun a c => sq_drift i a c t, ?_⟩
      · have h1 : (∑ _a : Fin 1, ∑ _c : Fin 1, -Real.exp (-t / 2) * (-Real.exp (-t / 2) / 2)) = Real.exp (-t / 2) * Real.exp (-t / 2) / 2 := by
          simp
          ring
        exact h1.symm
  · intro t _ v hv k hk
    have hv : v ∈ [(⟨0, 0⟩ : VId)] := hv
    have hk : k < 1 := hk
    rw [List.mem_singleton] at hv
    obtain rfl : k = 0 := by omega
    subst hv
    rfl
  · intro t _ i _
    have h1 : un₀ 4 = ⟨0, 2⟩ := un_vn₀ ⟨0, 2⟩
    simp only [pdC, row, w₃, List.map_cons, List.map_nil, List.sum_cons, List.sum_nil, Finset.sum_range_one, meant, h1, if_true]
    simp [path₅]
    ring
  · intro v hv c hc
    have hv : v ∈ [(⟨0, 0⟩ : VId)] := hv
    have hc : c < 1 := hc
    rw [List.mem_singleton] at hv
    obtain rfl : c = 0 := by omega
    subst hv
    exact fun t _ => (path₅_deriv 0 (by omega) t).continuousAt.continuousWithinAt

/-- The theorem gives `x² = exp (-t)`. -/
example (S : Schur ℝ) (t : ℝ) (ht : 0 ≤ t) : sqF (point square path₅ 0 t) 0 = Real.exp (-t) := by
  have hT : makeTask square .equal (.pd (pdCritical Real.sqrt S (.scalar 1)).1 (pdCritical Real.sqrt S (.scalar 1)).2) ⟨1, fun _ => 0⟩ = some (pdT S) := by
    simp [makeTask, Dyn.impl, Dyn.accepts, implAccepts, gainFits, square, pdT, pdCritical]
  have := C97_critical un_vn₀ hT trivial (loop₅ S) (fun t _ i _ => ?_) (fun i _ => ?_) 0 (by decide) (by simp [C64.coef]) t ht
  · have h0 : sqF (point square path₅ 0 0) 0 = 1 := by
      show path₅ ⟨0, 0⟩ 0 0 * path₅ ⟨0, 0⟩ 0 0 = 1
      simp [path₅]
    simp only [h0, C64.coef, outs2] at this
    simpa [path₅] using this
  · show -(Real.exp (-t / 2) * Real.exp (-t / 2)) = Real.exp (-t / 2) * (-Real.exp (-t / 2) / 2) + Real.exp (-t / 2) * (-Real.exp (-t / 2) / 2)
    ring
  · have h1 : Continuous fun t : ℝ => -(Real.exp (-t / 2) * Real.exp (-t / 2)) := by fun_prop
    exact h1.continuousOn

end
end Verif.C97
