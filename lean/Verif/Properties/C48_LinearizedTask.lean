import Verif.Model.LinearizedTask
import Mathlib.Analysis.Calculus.FDeriv.Comp
import Mathlib.Analysis.Calculus.Deriv.Comp
import Mathlib.Analysis.Calculus.Deriv.Mul
import Mathlib.Analysis.Calculus.Deriv.Add
import Mathlib.Analysis.Calculus.Deriv.Pi
import Mathlib.Analysis.Calculus.Deriv.Prod
import Mathlib.Analysis.Calculus.FDeriv.Mul
import Mathlib.Analysis.Normed.Module.FiniteDimension
/-!
# C48 The linearized task constraint expresses the task

The specification is about motions of the variables in continuous time and about the function of the user, a differentiable map from the values of the variables. The
outputs of the function are what their documentation says at the time considered: the Jacobian is the matrix of the partial derivatives, the normal acceleration is the
time derivative of the Jacobian times the velocity.
-/
set_option autoImplicit false
set_option linter.unusedSectionVars false

namespace Verif.C48
open Verif TD LTask

/-! ## Specification -/

/-- The values of the variables of a function -/
abbrev Pt (f : Fn ℝ) : Type := (a : Fin f.vars.length) → Fin (f.dim (f.vars.get a).base) → ℝ

/-- The unit vector for the component `c` of the variable `a` -/
def unit (f : Fn ℝ) (a : Fin f.vars.length) (c : Fin (f.dim (f.vars.get a).base)) : Pt f := Pi.single a (Pi.single c 1)

/-- `D i p` is the differential of the component `i` of the map `F` at `p`. -/
def Differential (f : Fn ℝ) (F : Pt f → Nat → ℝ) (D : Nat → Pt f → Pt f →L[ℝ] ℝ) : Prop :=
  ∀ i, i < f.size → ∀ p, HasFDerivAt (fun p => F p i) (D i p) p

/-- The variables move: `q` is their value, `qd` their velocity, `qdd` their acceleration at the time `t`. -/
structure Motion {f : Fn ℝ} (q qd : ℝ → Pt f) (qdd : Pt f) (t : ℝ) : Prop where
  vel : ∀ s, HasDerivAt q (qd s) s
  acc : HasDerivAt qd qdd t

/-- The Jacobian of the function at the time `t` -/
def GivesJacobian (f : Fn ℝ) (D : Nat → Pt f → Pt f →L[ℝ] ℝ) (p : Pt f) : Prop :=
  ∀ i, i < f.size → ∀ a (c : Fin (f.dim (f.vars.get a).base)), f.jac (f.vars.get a) i c = D i p (unit f a c)

/-- The normal acceleration of the function at the time `t`: the derivative of the Jacobian along the motion, times the velocity -/
def GivesDrift (f : Fn ℝ) (D : Nat → Pt f → Pt f →L[ℝ] ℝ) (q qd : ℝ → Pt f) (t : ℝ) : Prop :=
  ∀ i, i < f.size → ∃ Jd : (a : Fin f.vars.length) → Fin (f.dim (f.vars.get a).base) → ℝ,
    (∀ a c, HasDerivAt (fun s => D i (q s) (unit f a c)) (Jd a c) t) ∧ f.normalAcc i = ∑ a, ∑ c, Jd a c * qd t a c

/-- The value `x` of the derivatives of order `k` of the variables -/
def Reads {f : Fn ℝ} (k : Nat) (x : Pt f) (val : VId → Nat → ℝ) : Prop :=
  ∀ a (c : Fin (f.dim (f.vars.get a).base)), val ((f.vars.get a).dot k) c = x a c

/-- The constraint holds: its value `y` of size `m` satisfies `l ≤ y`, `y ≤ u`, `y = e` for the vectors it has. -/
def Holds (m : Nat) (y : Nat → ℝ) (r : Rhs ℝ) : Prop :=
  ∀ i, i < m → (∀ l, r.l = some l → l.v i ≤ y i) ∧ (∀ u, r.u = some u → y i ≤ u.v i) ∧ (∀ e, r.e = some e → y i = e.v i)

/-- The relation of the task, for the values `e`, `e2` of the dynamics -/
def Related (t : CType) (d e e2 : ℝ) : Prop :=
  match t with
  | .equal => d = e
  | .greaterThan => e ≤ d
  | .lowerThan => d ≤ e
  | .doubleSided => e ≤ d ∧ d ≤ e2

/-- The vectors given by the task dynamics of a task, of the size of the function (the second one is used for double-sided tasks only) -/
structure Wants (f : Fn ℝ) (T : TaskObj ℝ) (e e2 : Nat → ℝ) : Prop where
  first : ∃ x, T.td.dyn.value T.td.type f T.td.rhs = .ok () x ∧ x.n = f.size ∧ x.v = e
  second : T.type = .doubleSided → ∃ d x, T.td2 = some d ∧ d.dyn.value d.type f d.rhs = .ok () x ∧ x.n = f.size ∧ x.v = e2

/-- A gain that can multiply an error of size `n` to give a vector of size `n` -/
def Square (n : Nat) : Gain ℝ → Prop
  | .scalar _ => True
  | .diag m _ => m = n
  | .matrix r c _ => r = n ∧ c = n

/-- The dynamics and the right-hand side suit a function: the sizes agree, the function has a Euclidean image, what `None` reads is there, the gains have the size of the
function (the constructor of `Proportional` only asks it of one side of a matrix gain: see C47), the clamping bounds are around zero. -/
def Suits (f : Fn ℝ) (rhs : Vec ℝ) : Dyn ℝ → Prop
  | .constant | .reference _ _ | .oneStep _ _ | .other _ _ => rhs.n = f.size ∧ f.euclidean = true
  | .none => (rhs.n = f.size ∧ f.euclidean = true) ∧ ∃ b, f.b = some b
  | .proportional (.matrix r c _) => (rhs.n = f.size ∧ f.euclidean = true) ∧ (r = f.size ∨ c = f.size)
  | .proportional kp => (rhs.n = f.size ∧ f.euclidean = true) ∧ Square f.size kp
  | .pd kp kv => (rhs.n = f.size ∧ f.euclidean = true) ∧ Square f.size kp ∧ Square f.size kv
  | .feedForward d ff => Suits f rhs d ∧ ff.n = f.size
  | .clamped d lo hi => Suits f rhs d ∧ lo.n = f.size ∧ hi.n = f.size ∧ ∀ i, i < f.size → lo.v i ≤ 0 ∧ 0 ≤ hi.v i

/-! ## Linear algebra -/

theorem expand {f : Fn ℝ} (L : Pt f →L[ℝ] ℝ) (v : Pt f) : L v = ∑ a, ∑ c, L (unit f a c) * v a c := by
  have h : v = ∑ a, ∑ c, v a c • unit f a c := by
    funext a c
    simp only [Finset.sum_apply, Pi.smul_apply, smul_eq_mul, unit]
    rw [Finset.sum_eq_single a]
    · rw [Finset.sum_eq_single c]
      · simp
      · intro b _ hb
        simp [Ne.symm hb]
      · simp
    · intro b _ hb
      refine Finset.sum_eq_zero fun x _ => ?_
      rw [Pi.single_eq_of_ne (Ne.symm hb)]
      simp
    · simp
  conv_lhs => rw [h]
  simp only [map_sum, map_smul, smul_eq_mul]
  exact Finset.sum_congr rfl fun a _ => Finset.sum_congr rfl fun c _ => mul_comm _ _

/-- The chain rule for the velocity -/
theorem first_derivative {f : Fn ℝ} {F : Pt f → Nat → ℝ} {D : Nat → Pt f → Pt f →L[ℝ] ℝ} (hD : Differential f F D) {q qd : ℝ → Pt f}
    (hq : ∀ s, HasDerivAt q (qd s) s) (i : Nat) (hi : i < f.size) : deriv (fun s => F (q s) i) = fun s => D i (q s) (qd s) := by
  funext s
  exact ((hD i hi (q s)).comp_hasDerivAt s (hq s)).deriv

/-- The chain rule for the acceleration -/
theorem second_derivative {f : Fn ℝ} {F : Pt f → Nat → ℝ} {D : Nat → Pt f → Pt f →L[ℝ] ℝ} (hD : Differential f F D) {q qd : ℝ → Pt f}
    {qdd : Pt f} {t : ℝ} (hq : Motion q qd qdd t) (hn : GivesDrift f D q qd t) (i : Nat) (hi : i < f.size) :
    deriv (deriv fun s => F (q s) i) t = D i (q t) qdd + f.normalAcc i := by
  rw [first_derivative hD hq.vel i hi]
  obtain ⟨Jd, hJ, hN⟩ := hn i hi
  have h1 : (fun s => D i (q s) (qd s)) = fun s => ∑ a, ∑ c, D i (q s) (unit f a c) * qd s a c := by
    funext s; exact expand _ _
  rw [h1]
  have hv : ∀ a c, HasDerivAt (fun s => qd s a c) (qdd a c) t := by
    intro a c
    have := (hasDerivAt_pi.1 hq.acc) a
    exact (hasDerivAt_pi.1 this) c
  have h2 : HasDerivAt (fun s => ∑ a, ∑ c, D i (q s) (unit f a c) * qd s a c)
      (∑ a, ∑ c, (Jd a c * qd t a c + D i (q t) (unit f a c) * qdd a c)) t :=
    HasDerivAt.fun_sum fun a _ => HasDerivAt.fun_sum fun c _ => (hJ a c).mul (hv a c)
  rw [h2.deriv, expand (D i (q t)) qdd, hN]
  simp only [Finset.sum_add_distrib]
  ring

/-! ## The code -/

theorem foldl_addVar (l acc : List VId) (h : (acc ++ l).Nodup) : l.foldl addVar acc = acc ++ l := by
  induction l generalizing acc with
  | nil => simp
  | cons v l ih =>
    have hv : v ∉ acc := by
      intro hm
      have := List.disjoint_of_nodup_append h
      exact this hm (by simp)
    rw [List.foldl_cons, addVar, if_neg hv, ih _ (by simpa using h)]
    simp

theorem dot_inj (k : Nat) (v w : VId) (h : v.dot k = w.dot k) : v = w := by
  cases v; cases w
  simp only [VId.dot, VId.mk.injEq] at h
  simp only [VId.mk.injEq]
  omega

theorem dot_zero (v : VId) : v.dot 0 = v := rfl

/-- The variables of the constraint are the derivatives of those of the function, at the order of the task. -/
theorem ltc_vars (f : Fn ℝ) (T : TaskObj ℝ) (c : LTC ℝ) (h : makeLTC f T = some c) (hn : f.vars.Nodup) :
    c.vars = f.vars.map (fun v => v.dot T.td.dyn.order.num) ∧ c.td = T.td ∧ c.td2 = T.td2 ∧ c.type = T.type := by
  have hk : ∀ k, (f.vars.map fun v => v.dot k).foldl addVar [] = f.vars.map fun v => v.dot k := by
    intro k
    rw [foldl_addVar _ [] (by simpa using hn.map (fun a b => dot_inj k a b))]
    simp
  unfold makeLTC at h
  split at h
  · simp at h
  · cases ho : T.td.dyn.order with
    | zero =>
      simp only [ho] at h
      split at h
      · injection h with h
        subst h
        have := hk 0
        simp only [dot_zero, List.map_id'] at this
        simp [Order.num, dot_zero, this]
      · simp at h
    | one =>
      simp only [ho] at h
      injection h with h
      subst h
      simp [Order.num, hk]
    | two =>
      simp only [ho] at h
      injection h with h
      subst h
      simp [Order.num, hk]

theorem jacobian_dot (f : Fn ℝ) (c : LTC ℝ) (v : VId) (hv : v ∈ f.vars) :
    c.jacobian f (v.dot c.td.dyn.order.num) = .ok () (f.jac v) := by
  have : (v.dot c.td.dyn.order.num).primitive c.td.dyn.order.num = some v := by
    simp [VId.primitive, VId.dot]
  simp [LTC.jacobian, this, hv]

theorem value_fold (f : Fn ℝ) (c : LTC ℝ) (val : VId → Nat → ℝ) (l : List VId) (hl : ∀ v ∈ l, v ∈ f.vars) (s : Nat → ℝ) :
    (l.map fun v => v.dot c.td.dyn.order.num).foldl (LTC.valueStep c f val) (.ok () s) =
      .ok () fun i => s i + (l.map fun v => ∑ k ∈ Finset.range (f.dim v.base), f.jac v i k * val (v.dot c.td.dyn.order.num) k).sum := by
  induction l generalizing s with
  | nil => simp
  | cons v l ih =>
    rw [List.map_cons, List.foldl_cons]
    have : LTC.valueStep c f val (.ok () s) (v.dot c.td.dyn.order.num) =
        .ok () fun i => s i + ∑ k ∈ Finset.range (f.dim v.base), f.jac v i k * val (v.dot c.td.dyn.order.num) k := by
      simp only [LTC.valueStep, jacobian_dot f c v (hl v (by simp))]
      rfl
    rw [this, ih (fun w hw => hl w (by simp [hw]))]
    congr 1
    funext i
    simp [add_assoc]

/-- The value of the constraint is the differential of the function applied to the derivatives of the variables. -/
theorem ltc_value (f : Fn ℝ) (T : TaskObj ℝ) (c : LTC ℝ) (h : makeLTC f T = some c) (hn : f.vars.Nodup) (D : Nat → Pt f → Pt f →L[ℝ] ℝ)
    (p x : Pt f) (hJ : GivesJacobian f D p) (val : VId → Nat → ℝ) (hx : Reads T.td.dyn.order.num x val) :
    ∃ y, c.value f val = .ok () y ∧ ∀ i, i < f.size → y i = D i p x := by
  obtain ⟨hv, htd, -, -⟩ := ltc_vars f T c h hn
  have hval : c.value f val = .ok () fun i => 0 + (f.vars.map fun v =>
      ∑ k ∈ Finset.range (f.dim v.base), f.jac v i k * val (v.dot c.td.dyn.order.num) k).sum := by
    unfold LTC.value
    rw [hv, ← htd]
    exact value_fold f c val f.vars (fun _ h => h) _
  refine ⟨_, hval, ?_⟩
  · intro i hi
    rw [expand, htd]
    simp only [zero_add]
    rw [← List.sum_ofFn (f := fun a : Fin f.vars.length => ∑ c, D i p (unit f a c) * x a c)]
    congr 1
    refine List.ext_get (by simp) fun n h1 h2 => ?_
    simp only [List.get_eq_getElem, List.getElem_map, List.getElem_ofFn]
    rw [Finset.sum_range]
    have hnl : n < f.vars.length := by simpa using h1
    refine Finset.sum_congr rfl fun k _ => ?_
    have e1 := hJ i hi ⟨n, hnl⟩ k
    have e2 := hx ⟨n, hnl⟩ k
    simp only [List.get_eq_getElem] at e1 e2
    rw [e1, e2]

/-- The right-hand sides of the constraint -/
theorem ltc_rhs (f : Fn ℝ) (T : TaskObj ℝ) (c : LTC ℝ) (h : makeLTC f T = some c) (hn : f.vars.Nodup) (e e2 : Nat → ℝ) (hw : Wants f T e e2) :
    ∃ r, c.update f = .ok () r ∧ ∀ y d : Nat → ℝ,
      (∀ i, i < f.size → d i = y i + if T.td.dyn.order = .two then f.normalAcc i else 0) →
      (Holds f.size y r ↔ ∀ i, i < f.size → Related T.type (d i) (e i) (e2 i)) := by
  obtain ⟨-, htd, htd2, htype⟩ := ltc_vars f T c h hn
  have hside : ∀ (D : Impl ℝ) (x : Vec ℝ), D.dyn.value D.type f D.rhs = .ok () x → x.n = f.size → D.dyn.order = T.td.dyn.order →
      ∃ z, LTC.side D f = .ok () z ∧ ∀ i, z.v i = x.v i - if T.td.dyn.order = .two then f.normalAcc i else 0 := by
    intro D x hx hs ho
    unfold LTC.side
    simp only [hx, ho, hs, if_true]
    by_cases h2 : T.td.dyn.order = .two
    · simp [h2]
    · simp [h2]
  obtain ⟨x, hx, hxn, hxe⟩ := hw.first
  obtain ⟨z, hz, hze⟩ := hside T.td x hx hxn rfl
  have hd : T.type ≠ .doubleSided ∨ ∃ d z2, T.td2 = some d ∧ LTC.side d f = .ok () z2 ∧
      ∀ i, z2.v i = e2 i - if T.td.dyn.order = .two then f.normalAcc i else 0 := by
    by_cases hds : T.type = .doubleSided
    · right
      obtain ⟨d, x2, hd, hx2, hxn2, hxe2⟩ := hw.second hds
      have ho : d.dyn.order = T.td.dyn.order := by
        unfold makeLTC at h
        split at h
        · simp at h
        · rename_i hno
          by_contra hne
          exact hno ⟨hds, by simp [hd, hne]⟩
      obtain ⟨z2, hz2, hze2⟩ := hside d x2 hx2 hxn2 ho
      exact ⟨d, z2, hd, hz2, fun i => by rw [hze2, hxe2]⟩
    · exact Or.inl hds
  unfold LTC.update
  rw [htd, htd2, htype, hz]
  subst hxe
  cases ht : T.type with
  | equal =>
    refine ⟨_, rfl, fun y d hyd => ?_⟩
    unfold Holds Related
    refine forall_congr' fun i => forall_congr' fun hi => ?_
    simp only [reduceCtorEq, IsEmpty.forall_iff, implies_true, true_and, Option.some.injEq, forall_eq', hze, hyd i hi]
    constructor <;> intro h <;> linarith
  | greaterThan =>
    refine ⟨_, rfl, fun y d hyd => ?_⟩
    unfold Holds Related
    refine forall_congr' fun i => forall_congr' fun hi => ?_
    simp only [reduceCtorEq, IsEmpty.forall_iff, implies_true, and_true, Option.some.injEq, forall_eq', hze, hyd i hi]
    constructor <;> intro h <;> linarith
  | lowerThan =>
    refine ⟨_, rfl, fun y d hyd => ?_⟩
    unfold Holds Related
    refine forall_congr' fun i => forall_congr' fun hi => ?_
    simp only [reduceCtorEq, IsEmpty.forall_iff, implies_true, and_true, true_and, Option.some.injEq, forall_eq', hze, hyd i hi]
    constructor <;> intro h <;> linarith
  | doubleSided =>
    rcases hd with hd | ⟨d, z2, hd, hz2, hze2⟩
    · exact absurd ht hd
    · simp only [hd, hz2]
      refine ⟨_, rfl, fun y d hyd => ?_⟩
      unfold Holds Related
      refine forall_congr' fun i => forall_congr' fun hi => ?_
      simp only [reduceCtorEq, IsEmpty.forall_iff, implies_true, and_true, Option.some.injEq, forall_eq', hze, hze2, hyd i hi]
      constructor <;> rintro ⟨h1, h2⟩ <;> constructor <;> linarith

/-! ## The properties -/

/-- At the first order: for every motion of the variables through the current point, the constraint holds at their velocities exactly when the velocity of the function
along the motion is in the relation of the task with the value of the dynamics. -/
theorem C48_first_order (f : Fn ℝ) (hn : f.vars.Nodup) (T : TaskObj ℝ) (c : LTC ℝ) (hc : makeLTC f T = some c) (ho : T.td.dyn.order = .one)
    (F : Pt f → Nat → ℝ) (D : Nat → Pt f → Pt f →L[ℝ] ℝ) (hD : Differential f F D) (q qd : ℝ → Pt f) (hq : ∀ s, HasDerivAt q (qd s) s) (t : ℝ)
    (hJ : GivesJacobian f D (q t)) (e e2 : Nat → ℝ) (hw : Wants f T e e2) (val : VId → Nat → ℝ) (hv : Reads 1 (qd t) val) :
    ∃ r y, c.update f = .ok () r ∧ c.value f val = .ok () y ∧
      (Holds f.size y r ↔ ∀ i, i < f.size → Related T.type (deriv (fun s => F (q s) i) t) (e i) (e2 i)) := by
  obtain ⟨r, hr, hr2⟩ := ltc_rhs f T c hc hn e e2 hw
  obtain ⟨y, hy, hy2⟩ := ltc_value f T c hc hn D (q t) (qd t) hJ val (by rw [ho]; exact hv)
  refine ⟨r, y, hr, hy, ?_⟩
  refine hr2 y (fun i => deriv (fun s => F (q s) i) t) fun i hi => ?_
  rw [first_derivative hD hq i hi, ho, hy2 i hi]
  simp

/-- At the second order: for every motion of the variables through the current point with the current velocity, the constraint holds at their accelerations exactly when
the acceleration of the function along the motion is in the relation of the task with the value of the dynamics. -/
theorem C48_second_order (f : Fn ℝ) (hn : f.vars.Nodup) (T : TaskObj ℝ) (c : LTC ℝ) (hc : makeLTC f T = some c) (ho : T.td.dyn.order = .two)
    (F : Pt f → Nat → ℝ) (D : Nat → Pt f → Pt f →L[ℝ] ℝ) (hD : Differential f F D) (q qd : ℝ → Pt f) (qdd : Pt f) (t : ℝ) (hq : Motion q qd qdd t)
    (hJ : GivesJacobian f D (q t)) (hN : GivesDrift f D q qd t) (e e2 : Nat → ℝ) (hw : Wants f T e e2) (val : VId → Nat → ℝ) (hv : Reads 2 qdd val) :
    ∃ r y, c.update f = .ok () r ∧ c.value f val = .ok () y ∧
      (Holds f.size y r ↔ ∀ i, i < f.size → Related T.type (deriv (deriv fun s => F (q s) i) t) (e i) (e2 i)) := by
  obtain ⟨r, hr, hr2⟩ := ltc_rhs f T c hc hn e e2 hw
  obtain ⟨y, hy, hy2⟩ := ltc_value f T c hc hn D (q t) qdd hJ val (by rw [ho]; exact hv)
  refine ⟨r, y, hr, hy, ?_⟩
  refine hr2 y (fun i => deriv (deriv fun s => F (q s) i) t) fun i hi => ?_
  rw [second_derivative hD hq hN i hi, ho, hy2 i hi]
  simp

/-- At order zero, for an affine function `F p = D p + F 0`: the constraint holds at the values of the variables exactly when the *linear part* of the function is in the
relation of the task with the value of the dynamics. -/
theorem C48_order_zero_partial (f : Fn ℝ) (hn : f.vars.Nodup) (T : TaskObj ℝ) (c : LTC ℝ) (hc : makeLTC f T = some c) (ho : T.td.dyn.order = .zero)
    (F : Pt f → Nat → ℝ) (D : Nat → Pt f →L[ℝ] ℝ) (hF : ∀ i, i < f.size → ∀ p, F p i = D i p + F 0 i) (p : Pt f)
    (hJ : GivesJacobian f (fun i _ => D i) p) (e e2 : Nat → ℝ) (hw : Wants f T e e2) (val : VId → Nat → ℝ) (hv : Reads 0 p val) :
    ∃ r y, c.update f = .ok () r ∧ c.value f val = .ok () y ∧
      (Holds f.size y r ↔ ∀ i, i < f.size → Related T.type (F p i - F 0 i) (e i) (e2 i)) := by
  obtain ⟨r, hr, hr2⟩ := ltc_rhs f T c hc hn e e2 hw
  obtain ⟨y, hy, hy2⟩ := ltc_value f T c hc hn (fun i _ => D i) p p hJ val (by rw [ho]; exact hv)
  refine ⟨r, y, hr, hy, ?_⟩
  refine hr2 y (fun i => F p i - F 0 i) fun i hi => ?_
  rw [ho, hy2 i hi, hF i hi p]
  simp

/-- A task of order zero is refused when the function is not linear in one of its variables. -/
theorem C48_not_linear (f : Fn ℝ) (T : TaskObj ℝ) (ho : T.td.dyn.order = .zero) (v : VId) (hv : v ∈ f.vars) (hl : f.linearIn v = false) : makeLTC f T = none := by
  unfold makeLTC
  split
  · rfl
  · simp only [ho]
    rw [if_neg]
    intro h
    have := List.all_eq_true.1 h v hv
    simp [hl] at this

/-! ## Tasks built by the constructors -/

theorem task_fields (f : Fn ℝ) (t : CType) (d : Dyn ℝ) (rhs : Vec ℝ) (T : TaskObj ℝ) (h : makeTask f t d rhs = some T) :
    t ≠ .doubleSided ∧ T = ⟨t, ⟨d, t, rhs⟩, none⟩ ∧ d.accepts f rhs = true := by
  unfold makeTask Dyn.impl at h
  by_cases ha : d.accepts f rhs = true
  · simp only [ha, if_true] at h
    split at h
    · simp at h
    · rename_i ht
      split at h
      · simp at h
      · injection h with h
        exact ⟨ht, h.symm, ha⟩
  · simp only [ha] at h
    simp at h

theorem task2_fields (f : Fn ℝ) (t : CType) (d : Dyn ℝ) (l u : Vec ℝ) (T : TaskObj ℝ) (h : makeTask2 f t d l u = some T) :
    t = .doubleSided ∧ T = ⟨.doubleSided, ⟨d, .greaterThan, l⟩, some ⟨d, .lowerThan, u⟩⟩ ∧ d.accepts f l = true ∧ d.accepts f u = true := by
  unfold makeTask2 Dyn.impl at h
  by_cases ha : d.accepts f l = true
  · by_cases hb : d.accepts f u = true
    · simp only [ha, hb, if_true] at h
      split at h
      · simp at h
      · rename_i ht
        split at h
        · simp at h
        · injection h with h
          have ht : t = .doubleSided := by simpa using ht
          exact ⟨ht, by rw [← h, ht], ha, hb⟩
    · simp only [ha, hb, if_true] at h
      simp at h
  · simp only [ha] at h
    simp at h

theorem fits_iff (n : Nat) (g : Gain ℝ) : gainFits n g = true ↔ Square n g := by
  cases g <;> simp [gainFits, Square]

theorem impl_iff (n m : Nat) (e : Bool) : implAccepts n m e = true ↔ m = n ∧ e = true := by
  simp only [implAccepts, Bool.and_eq_true, decide_eq_true_eq]
  constructor <;> rintro ⟨rfl, h⟩ <;> exact ⟨rfl, h⟩

theorem accepts_iff (f : Fn ℝ) (rhs : Vec ℝ) (d : Dyn ℝ) : d.accepts f rhs = true ↔ Suits f rhs d := by
  induction d with
  | constant => simp [Dyn.accepts, Suits, impl_iff]
  | none => simp [Dyn.accepts, Suits, impl_iff, Option.isSome_iff_exists]
  | reference => simp [Dyn.accepts, Suits, impl_iff]
  | proportional kp =>
    cases kp <;> simp [Dyn.accepts, Suits, impl_iff, propAccepts, Square]
    intro _ _
    omega
  | pd kp kv => simp [Dyn.accepts, Suits, impl_iff, fits_iff, and_assoc]
  | oneStep => simp [Dyn.accepts, Suits, impl_iff]
  | feedForward d ff ih => simp [Dyn.accepts, Suits, ih]
  | clamped d lo hi ih =>
    simp only [Dyn.accepts, Suits, Bool.and_eq_true, ih]
    refine and_congr_right fun _ => ?_
    by_cases h1 : lo.n ≠ f.size ∨ hi.n ≠ f.size
    · have : clampedImpl f.size (.vec lo.n lo.v) (.vec hi.n hi.v) = none := by
        unfold clampedImpl
        exact if_pos h1
      rw [this]
      simp only [Option.isSome_none, Bool.false_eq_true, false_iff]
      omega
    · have : clampedImpl f.size (.vec lo.n lo.v) (.vec hi.n hi.v) = if anyB f.size (fun i => decide (0 < lo.v i)) = true then none else
          if anyB f.size (fun i => decide (hi.v i < 0)) = true then none else some (⟨lo.n, lo.v⟩, ⟨hi.n, hi.v⟩) := by
        unfold clampedImpl
        exact if_neg h1
      rw [this]
      have h1' : lo.n = f.size ∧ hi.n = f.size := by omega
      split
      · rename_i h2
        simp only [anyB, List.any_eq_true, List.mem_range, decide_eq_true_eq] at h2
        obtain ⟨i, hi', h⟩ := h2
        simp only [Option.isSome_none, Bool.false_eq_true, false_iff]
        exact fun H => absurd (H.2.2 i hi').1 (not_le.2 h)
      · rename_i h2
        split
        · rename_i h3
          simp only [anyB, List.any_eq_true, List.mem_range, decide_eq_true_eq] at h3
          obtain ⟨i, hi', h⟩ := h3
          simp only [Option.isSome_none, Bool.false_eq_true, false_iff]
          exact fun H => absurd (H.2.2 i hi').2 (not_le.2 h)
        · rename_i h3
          simp only [anyB, List.any_eq_true, List.mem_range, decide_eq_true_eq, not_exists, not_and, not_lt] at h2 h3
          simp only [Option.isSome_some, true_iff]
          exact ⟨h1'.1, h1'.2, fun i hi' => ⟨h2 i hi', h3 i hi'⟩⟩
  | other => simp [Dyn.accepts, Suits, impl_iff]

theorem suits_euclidean {f : Fn ℝ} {rhs : Vec ℝ} {d : Dyn ℝ} (h : Suits f rhs d) : f.euclidean = true := by
  induction d with
  | proportional kp => cases kp <;> exact h.1.2
  | feedForward d ff ih => exact ih h.1
  | clamped d lo hi ih => exact ih h.1
  | none => exact h.1.2
  | pd => exact h.1.2
  | constant => exact h.2
  | reference => exact h.2
  | oneStep => exact h.2
  | other => exact h.2

/-- A task has one right-hand side or is double-sided with two. It is made exactly when the dynamics and its right-hand sides suit the function, whatever the layers of
feed-forward and clamping. -/
theorem C48_sides (f : Fn ℝ) (t : CType) (d : Dyn ℝ) (rhs l u : Vec ℝ) :
    ((makeTask f t d rhs).isSome = true ↔ t ≠ .doubleSided ∧ Suits f rhs d) ∧
    ((makeTask2 f t d l u).isSome = true ↔ t = .doubleSided ∧ Suits f l d ∧ Suits f u d) := by
  constructor
  · rw [← accepts_iff]
    have he : d.accepts f rhs = true → f.euclidean = true := fun h => suits_euclidean ((accepts_iff f rhs d).1 h)
    unfold makeTask Dyn.impl
    by_cases ha : d.accepts f rhs = true
    · by_cases ht : t = .doubleSided <;> simp [ha, ht, he ha]
    · simp [ha]
  · rw [← accepts_iff, ← accepts_iff]
    have he : d.accepts f l = true → f.euclidean = true := fun h => suits_euclidean ((accepts_iff f l d).1 h)
    unfold makeTask2 Dyn.impl
    by_cases ha : d.accepts f l = true
    · by_cases hb : d.accepts f u = true <;> by_cases ht : t = .doubleSided <;> simp [ha, hb, ht, he ha]
    · simp [ha]

/-- The constraint of a task built by a constructor is refused only at order zero, for a function that is not linear. -/
theorem C48_accepted (f : Fn ℝ) (t : CType) (d : Dyn ℝ) (rhs l u : Vec ℝ) (T : TaskObj ℝ)
    (h : makeTask f t d rhs = some T ∨ makeTask2 f t d l u = some T) :
    (makeLTC f T).isSome = true ↔ (d.order = .zero → ∀ v, v ∈ f.vars → f.linearIn v = true) := by
  have hT : T.td.dyn = d ∧ ¬ (T.type = .doubleSided ∧ (T.td2.map fun d => d.dyn.order) ≠ some T.td.dyn.order) := by
    rcases h with h | h
    · obtain ⟨ht, rfl, -⟩ := task_fields f t d rhs T h
      simp [ht]
    · obtain ⟨ht, rfl, -⟩ := task2_fields f t d l u T h
      simp
  unfold makeLTC
  rw [if_neg hT.2, hT.1]
  cases ho : d.order with
  | zero =>
    by_cases ha : f.vars.all f.linearIn = true
    · simp only [ha, if_true, Option.isSome_some, true_iff]
      exact fun _ v hv => List.all_eq_true.1 ha v hv
    · simp only [ha]
      simp only [Bool.false_eq_true, if_false, Option.isSome_none, false_iff]
      intro h
      exact ha (List.all_eq_true.2 fun v hv => h trivial v hv)
  | one => simp
  | two => simp

/-- With no dynamics and an affine function `F p = D p + b`, the constraint is `F p = rhs`, `F p ≥ rhs` or `F p ≤ rhs`. -/
theorem C48_none (f : Fn ℝ) (hn : f.vars.Nodup) (t : CType) (rhs : Vec ℝ) (T : TaskObj ℝ) (hT : makeTask f t .none rhs = some T) (c : LTC ℝ)
    (hc : makeLTC f T = some c) (F : Pt f → Nat → ℝ) (D : Nat → Pt f →L[ℝ] ℝ) (b : Nat → ℝ) (hb : f.b = some b)
    (hF : ∀ i, i < f.size → ∀ p, F p i = D i p + b i) (p : Pt f) (hJ : GivesJacobian f (fun i _ => D i) p) (val : VId → Nat → ℝ)
    (hv : Reads 0 p val) :
    ∃ r y, c.update f = .ok () r ∧ c.value f val = .ok () y ∧ (Holds f.size y r ↔ ∀ i, i < f.size → Related t (F p i) (rhs.v i) 0) := by
  obtain ⟨ht, rfl, ha⟩ := task_fields f t .none rhs T hT
  have hs : rhs.n = f.size := by
    simp only [Dyn.accepts, implAccepts, Bool.and_eq_true, decide_eq_true_eq] at ha
    exact ha.1.1.symm
  have hF0 : ∀ i, i < f.size → F 0 i = b i := fun i hi => by rw [hF i hi 0]; simp
  have hw : Wants f ⟨t, ⟨.none, t, rhs⟩, none⟩ (fun i => rhs.v i - b i) 0 :=
    ⟨⟨⟨rhs.n, fun i => rhs.v i - b i⟩, by simp [Dyn.value, noneValue, hb], hs, rfl⟩, fun h => absurd h ht⟩
  obtain ⟨r, y, hr, hy, hiff⟩ := C48_order_zero_partial f hn _ c hc rfl F D (fun i hi p => by rw [hF i hi p, hF0 i hi]) p hJ _ _ hw val hv
  refine ⟨r, y, hr, hy, hiff.trans (forall_congr' fun i => forall_congr' fun hi => ?_)⟩
  rw [hF0 i hi]
  cases t with
  | equal => simp [Related]
  | greaterThan => simp [Related]
  | lowerThan => simp [Related]
  | doubleSided => exact absurd rfl ht

/-- With no dynamics and an affine function, the constraint of a double-sided task is `l ≤ F p ≤ u`. -/
theorem C48_none_double (f : Fn ℝ) (hn : f.vars.Nodup) (l u : Vec ℝ) (T : TaskObj ℝ) (hT : makeTask2 f .doubleSided .none l u = some T) (c : LTC ℝ)
    (hc : makeLTC f T = some c) (F : Pt f → Nat → ℝ) (D : Nat → Pt f →L[ℝ] ℝ) (b : Nat → ℝ) (hb : f.b = some b)
    (hF : ∀ i, i < f.size → ∀ p, F p i = D i p + b i) (p : Pt f) (hJ : GivesJacobian f (fun i _ => D i) p) (val : VId → Nat → ℝ)
    (hv : Reads 0 p val) :
    ∃ r y, c.update f = .ok () r ∧ c.value f val = .ok () y ∧ (Holds f.size y r ↔ ∀ i, i < f.size → l.v i ≤ F p i ∧ F p i ≤ u.v i) := by
  obtain ⟨-, rfl, ha, hb'⟩ := task2_fields f .doubleSided .none l u T hT
  have hs : l.n = f.size := by
    simp only [Dyn.accepts, implAccepts, Bool.and_eq_true, decide_eq_true_eq] at ha
    exact ha.1.1.symm
  have hs2 : u.n = f.size := by
    simp only [Dyn.accepts, implAccepts, Bool.and_eq_true, decide_eq_true_eq] at hb'
    exact hb'.1.1.symm
  have hF0 : ∀ i, i < f.size → F 0 i = b i := fun i hi => by rw [hF i hi 0]; simp
  have hw : Wants f ⟨.doubleSided, ⟨.none, .greaterThan, l⟩, some ⟨.none, .lowerThan, u⟩⟩ (fun i => l.v i - b i) (fun i => u.v i - b i) :=
    ⟨⟨⟨l.n, fun i => l.v i - b i⟩, by simp [Dyn.value, noneValue, hb], hs, rfl⟩,
      fun _ => ⟨_, ⟨u.n, fun i => u.v i - b i⟩, rfl, by simp [Dyn.value, noneValue, hb], hs2, rfl⟩⟩
  obtain ⟨r, y, hr, hy, hiff⟩ := C48_order_zero_partial f hn _ c hc rfl F D (fun i hi p => by rw [hF i hi p, hF0 i hi]) p hJ _ _ hw val hv
  refine ⟨r, y, hr, hy, hiff.trans (forall_congr' fun i => forall_congr' fun hi => ?_)⟩
  rw [hF0 i hi]
  simp [Related]

/-- A double-sided task with a scalar proportional gain keeps the velocity of the function between `-kp (f - l)` and `-kp (f - u)`. -/
theorem C48_proportional_double (f : Fn ℝ) (hn : f.vars.Nodup) (kp : ℝ) (l u : Vec ℝ) (T : TaskObj ℝ)
    (hT : makeTask2 f .doubleSided (.proportional (.scalar kp)) l u = some T) (c : LTC ℝ) (hc : makeLTC f T = some c)
    (F : Pt f → Nat → ℝ) (D : Nat → Pt f → Pt f →L[ℝ] ℝ) (hD : Differential f F D) (q qd : ℝ → Pt f) (hq : ∀ s, HasDerivAt q (qd s) s) (t : ℝ)
    (hV : ∀ i, i < f.size → f.value i = F (q t) i) (hJ : GivesJacobian f D (q t)) (val : VId → Nat → ℝ) (hv : Reads 1 (qd t) val) :
    ∃ r y, c.update f = .ok () r ∧ c.value f val = .ok () y ∧
      (Holds f.size y r ↔ ∀ i, i < f.size →
        -kp * (F (q t) i - l.v i) ≤ deriv (fun s => F (q s) i) t ∧ deriv (fun s => F (q s) i) t ≤ -kp * (F (q t) i - u.v i)) := by
  obtain ⟨-, rfl, -, -⟩ := task2_fields _ _ _ _ _ T hT
  have hw : Wants f ⟨.doubleSided, ⟨.proportional (.scalar kp), .greaterThan, l⟩, some ⟨.proportional (.scalar kp), .lowerThan, u⟩⟩
      (fun i => -(kp * (f.value i - l.v i))) (fun i => -(kp * (f.value i - u.v i))) :=
    ⟨⟨_, rfl, rfl, rfl⟩, fun _ => ⟨_, _, rfl, rfl, rfl, rfl⟩⟩
  obtain ⟨r, y, hr, hy, hiff⟩ := C48_first_order f hn _ c hc rfl F D hD q qd hq t hJ _ _ hw val hv
  refine ⟨r, y, hr, hy, hiff.trans (forall_congr' fun i => forall_congr' fun hi => ?_)⟩
  simp [Related, hV i hi]

/-- An equality task with scalar proportional and derivative gains imposes `e'' = -kv e' - kp e` on the error `e = f - rhs`. -/
theorem C48_pd (f : Fn ℝ) (hn : f.vars.Nodup) (kp kv : ℝ) (rhs : Vec ℝ) (T : TaskObj ℝ)
    (hT : makeTask f .equal (.pd (.scalar kp) (.scalar kv)) rhs = some T) (c : LTC ℝ) (hc : makeLTC f T = some c)
    (F : Pt f → Nat → ℝ) (D : Nat → Pt f → Pt f →L[ℝ] ℝ) (hD : Differential f F D) (q qd : ℝ → Pt f) (qdd : Pt f) (t : ℝ) (hq : Motion q qd qdd t)
    (hV : ∀ i, i < f.size → f.value i = F (q t) i) (hVel : ∀ i, i < f.size → f.velocity i = deriv (fun s => F (q s) i) t)
    (hJ : GivesJacobian f D (q t)) (hN : GivesDrift f D q qd t) (val : VId → Nat → ℝ) (hv : Reads 2 qdd val) :
    ∃ r y, c.update f = .ok () r ∧ c.value f val = .ok () y ∧
      (Holds f.size y r ↔ ∀ i, i < f.size →
        deriv (deriv fun s => F (q s) i) t = -kv * deriv (fun s => F (q s) i) t - kp * (F (q t) i - rhs.v i)) := by
  obtain ⟨-, rfl, -⟩ := task_fields _ _ _ _ T hT
  have hw : Wants f ⟨.equal, ⟨.pd (.scalar kp) (.scalar kv), .equal, rhs⟩, none⟩
      (fun i => -(kv * f.velocity i) - kp * (f.value i - rhs.v i)) 0 :=
    ⟨⟨⟨f.size, _⟩, by simp [Dyn.value, pdValue, Gain.mul], rfl, rfl⟩, fun h => by simp at h⟩
  obtain ⟨r, y, hr, hy, hiff⟩ := C48_second_order f hn _ c hc rfl F D hD q qd qdd t hq hJ hN _ _ hw val hv
  refine ⟨r, y, hr, hy, hiff.trans (forall_congr' fun i => forall_congr' fun hi => ?_)⟩
  simp [Related, hV i hi, hVel i hi]

/-! ## The offset of an affine function is lost by `Constant` -/

/-- The function `x + 1` of a variable of size 1, at `x = 0` -/
noncomputable def shifted : Fn ℝ :=
  ⟨1, true, [⟨0, 0⟩], fun _ => 1, fun _ => true, fun _ => 1, fun _ => 0, fun _ => 0, fun _ _ _ => 1, some fun _ => 1⟩

/-- `Constant` is documented as `f* = rhs`. For the function `x + 1`, the task `f = 0` with `Constant` gives a constraint that holds at `x = 0`, where the function is 1,
and that does not hold at `x = -1`, where it is 0. -/
theorem C48_constant_offset :
    ∃ T c, makeTask shifted .equal .constant ⟨1, fun _ => 0⟩ = some T ∧ makeLTC shifted T = some c ∧
      (∃ r y, c.update shifted = .ok () r ∧ c.value shifted (fun _ _ => 0) = .ok () y ∧ Holds 1 y r) ∧
      (∃ r y, c.update shifted = .ok () r ∧ c.value shifted (fun _ _ => -1) = .ok () y ∧ ¬ Holds 1 y r) := by
  refine ⟨⟨.equal, ⟨.constant, .equal, ⟨1, fun _ => 0⟩⟩, none⟩, ⟨.equal, ⟨.constant, .equal, ⟨1, fun _ => 0⟩⟩, none, [⟨0, 0⟩]⟩, ?_, ?_, ?_, ?_⟩
  · simp [makeTask, Dyn.impl, Dyn.accepts, implAccepts, shifted]
  · simp [makeLTC, Dyn.order, shifted, addVar]
  · refine ⟨⟨none, none, some ⟨1, fun _ => 0⟩⟩, fun _ => 0, rfl, ?_, ?_⟩
    · simp [LTC.value, LTC.valueStep, LTC.jacobian, VId.primitive, Dyn.order, Order.num, shifted]
    · intro i _
      simp
  · refine ⟨⟨none, none, some ⟨1, fun _ => 0⟩⟩, fun _ => -1, rfl, ?_, ?_⟩
    · simp [LTC.value, LTC.valueStep, LTC.jacobian, VId.primitive, Dyn.order, Order.num, shifted]
    · intro h
      have := (h 0 (by omega)).2.2 _ rfl
      simp at this

/-! ## The hypotheses are met -/

/-- The function `x²` of a variable of size 1, at `x = 1` with the velocity 1: value 1, velocity 2, normal acceleration 2, Jacobian 2 -/
noncomputable def square : Fn ℝ :=
  ⟨1, true, [⟨0, 0⟩], fun _ => 1, fun _ => false, fun _ => 1, fun _ => 2, fun _ => 2, fun _ _ _ => 2, none⟩

/-- The place of the only component -/
def a0 : Fin square.vars.length := ⟨0, by simp [square]⟩

@[inherit_doc a0]
def c0 : Fin (square.dim (square.vars.get a0).base) := ⟨0, by simp [square]⟩

/-- The projection on the only component -/
noncomputable def proj : Pt square →L[ℝ] ℝ :=
  (ContinuousLinearMap.proj (R := ℝ) (φ := fun _ : Fin (square.dim (square.vars.get a0).base) => ℝ) c0).comp
    (ContinuousLinearMap.proj (R := ℝ) (φ := fun a : Fin square.vars.length => Fin (square.dim (square.vars.get a).base) → ℝ) a0)

theorem proj_apply (p : Pt square) : proj p = p a0 c0 := rfl

theorem proj_unit : ∀ a c, proj (unit square a c) = 1 := by
  intro a c
  have ha : a = a0 := by
    apply Fin.ext
    have := a.2
    simp only [square, List.length_cons, List.length_nil] at this
    simp only [a0]; omega
  subst ha
  have hc : c = c0 := by
    apply Fin.ext
    have : c.val < 1 := c.2
    simp only [c0]; omega
  subst hc
  simp [proj_apply, unit]

/-- The map `x²` -/
noncomputable def sqF : Pt square → Nat → ℝ := fun p _ => proj p * proj p

/-- Its differential -/
noncomputable def sqD : Nat → Pt square → Pt square →L[ℝ] ℝ := fun _ p => proj p • proj + proj p • proj

/-- The motion `x(t) = t` -/
def sqQ : ℝ → Pt square := fun s => fun _ _ => s

theorem sq_diff : Differential square sqF sqD := fun _ _ _ => proj.hasFDerivAt.mul proj.hasFDerivAt

theorem sq_vel : ∀ s, HasDerivAt sqQ (fun _ _ => 1) s := fun s => hasDerivAt_pi.2 fun _ => hasDerivAt_pi.2 fun _ => hasDerivAt_id s

theorem sq_motion : Motion (f := square) sqQ (fun _ => fun _ _ => 1) (fun _ _ => 0) 1 := ⟨sq_vel, hasDerivAt_const _ _⟩

theorem sq_jac : GivesJacobian square sqD (sqQ 1) := by
  intro i _ a c
  have : proj (sqQ 1) = 1 := rfl
  simp only [sqD, add_apply, smul_apply, proj_unit, this]
  change (2 : ℝ) = 1 • 1 + 1 • 1
  norm_num

theorem sq_drift : GivesDrift square sqD sqQ (fun _ => fun _ _ => 1) 1 := by
  intro i _
  refine ⟨fun _ _ => 2, fun a c => ?_, ?_⟩
  · have : (fun s : ℝ => sqD i (sqQ s) (unit square a c)) = fun s => 2 * s := by
      funext s
      have : proj (sqQ s) = s := rfl
      simp only [sqD, add_apply, smul_apply, proj_unit, this, smul_eq_mul]
      ring
    rw [this]
    simpa using (hasDerivAt_id (1 : ℝ)).const_mul 2
  · have : ∀ a : Fin square.vars.length, (∑ _c : Fin (square.dim (square.vars.get a).base), (2 : ℝ) * 1) = 2 := by
      intro a
      change (∑ _c : Fin 1, (2 : ℝ) * 1) = 2
      simp
    simp only [this]
    change (2 : ℝ) = ∑ _a : Fin 1, 2
    simp

theorem sq_deriv (s : ℝ) : deriv (fun s => sqF (sqQ s) 0) s = 2 * s := by
  have : (fun s : ℝ => sqF (sqQ s) 0) = fun s => s * s := rfl
  rw [this]
  have : HasDerivAt (fun s : ℝ => s * s) (1 * s + s * 1) s := (hasDerivAt_id s).mul (hasDerivAt_id s)
  rw [this.deriv]
  ring

theorem sq_nodup : square.vars.Nodup := by simp [square]

/-- The task `x² = 0` with a proportional derivative dynamics, along the motion `x(t) = t`: all the hypotheses of `C48_pd` are met at the time 1, and the constraint does not
hold there (the acceleration is 2, the dynamics asks for -8). -/
example : ∃ T c, makeTask square .equal (.pd (.scalar 4) (.scalar 2)) ⟨1, fun _ => 0⟩ = some T ∧ makeLTC square T = some c ∧
    ∃ r y, c.update square = .ok () r ∧ c.value square (fun _ _ => 0) = .ok () y ∧ ¬ Holds 1 y r := by
  refine ⟨⟨.equal, ⟨.pd (.scalar 4) (.scalar 2), .equal, ⟨1, fun _ => 0⟩⟩, none⟩,
    ⟨.equal, ⟨.pd (.scalar 4) (.scalar 2), .equal, ⟨1, fun _ => 0⟩⟩, none, [⟨0, 2⟩]⟩, ?_, ?_, ?_⟩
  · simp [makeTask, Dyn.impl, Dyn.accepts, implAccepts, gainFits, square]
  · simp [makeLTC, Dyn.order, square, addVar, VId.dot]
  · obtain ⟨r, y, hr, hy, h⟩ := C48_pd square sq_nodup 4 2 ⟨1, fun _ => 0⟩ ⟨.equal, ⟨.pd (.scalar 4) (.scalar 2), .equal, ⟨1, fun _ => 0⟩⟩, none⟩
      (by simp [makeTask, Dyn.impl, Dyn.accepts, implAccepts, gainFits, square])
      ⟨.equal, ⟨.pd (.scalar 4) (.scalar 2), .equal, ⟨1, fun _ => 0⟩⟩, none, [⟨0, 2⟩]⟩ (by simp [makeLTC, Dyn.order, square, addVar, VId.dot])
      sqF sqD sq_diff sqQ (fun _ => fun _ _ => 1) (fun _ _ => 0) 1 sq_motion (fun i _ => (mul_one (1 : ℝ)).symm)
      (fun i _ => by change (2 : ℝ) = deriv (fun s => sqF (sqQ s) 0) 1; rw [sq_deriv]; norm_num) sq_jac sq_drift (fun _ _ => 0) (fun _ _ => rfl)
    refine ⟨r, y, hr, hy, fun hH => ?_⟩
    have := h.1 hH 0 (by simp [square])
    have hd : deriv (fun s => sqF (sqQ s) 0) = fun s => 2 * s := funext sq_deriv
    rw [hd] at this
    have h2 : deriv (fun s : ℝ => 2 * s) 1 = 2 := by simp
    rw [h2] at this
    simp only [sqF, sqQ, proj_apply] at this
    norm_num at this

/-- The same task, in the theorem for the second order -/
example := C48_second_order square sq_nodup ⟨.equal, ⟨.pd (.scalar 4) (.scalar 2), .equal, ⟨1, fun _ => 0⟩⟩, none⟩
  ⟨.equal, ⟨.pd (.scalar 4) (.scalar 2), .equal, ⟨1, fun _ => 0⟩⟩, none, [⟨0, 2⟩]⟩ (by simp [makeLTC, Dyn.order, square, addVar, VId.dot]) rfl
  sqF sqD sq_diff sqQ (fun _ => fun _ _ => 1) (fun _ _ => 0) 1 sq_motion sq_jac sq_drift
  (fun i => -(2 * square.velocity i) - 4 * (square.value i - 0)) 0
  ⟨⟨⟨1, _⟩, by simp [Dyn.value, pdValue, Gain.mul, square], rfl, rfl⟩, fun h => by simp at h⟩ (fun _ _ => 0) (fun _ _ => rfl)

/-- A double-sided task `-3 ≤ x² ≤ 5` with the gain 1, of the first order: at the time 1, the velocity 2 is between -4 and 4. -/
example : ∃ r y, (⟨.doubleSided, ⟨.proportional (.scalar 1), .greaterThan, ⟨1, fun _ => -3⟩⟩, some ⟨.proportional (.scalar 1), .lowerThan, ⟨1, fun _ => 5⟩⟩, [⟨0, 1⟩]⟩
      : LTC ℝ).update square = .ok () r ∧
    (⟨.doubleSided, ⟨.proportional (.scalar 1), .greaterThan, ⟨1, fun _ => -3⟩⟩, some ⟨.proportional (.scalar 1), .lowerThan, ⟨1, fun _ => 5⟩⟩, [⟨0, 1⟩]⟩
      : LTC ℝ).value square (fun _ _ => 1) = .ok () y ∧ Holds 1 y r := by
  obtain ⟨r, y, hr, hy, h⟩ := C48_proportional_double square sq_nodup 1 ⟨1, fun _ => -3⟩ ⟨1, fun _ => 5⟩
    ⟨.doubleSided, ⟨.proportional (.scalar 1), .greaterThan, ⟨1, fun _ => -3⟩⟩, some ⟨.proportional (.scalar 1), .lowerThan, ⟨1, fun _ => 5⟩⟩⟩
    (by simp [makeTask2, Dyn.impl, Dyn.accepts, implAccepts, propAccepts, square])
    ⟨.doubleSided, ⟨.proportional (.scalar 1), .greaterThan, ⟨1, fun _ => -3⟩⟩, some ⟨.proportional (.scalar 1), .lowerThan, ⟨1, fun _ => 5⟩⟩, [⟨0, 1⟩]⟩
    (by simp [makeLTC, Dyn.order, square, addVar, VId.dot]) sqF sqD sq_diff sqQ (fun _ => fun _ _ => 1) sq_vel 1
    (fun i _ => (mul_one (1 : ℝ)).symm) sq_jac (fun _ _ => 1) (fun _ _ => rfl)
  refine ⟨r, y, hr, hy, h.2 fun i hi => ?_⟩
  have hi0 : i = 0 := by simp only [square] at hi; omega
  subst hi0
  rw [sq_deriv]
  simp only [sqF, sqQ, proj_apply]
  norm_num

/-- A reference of the first order for `x²`, in the theorem for the first order -/
example := C48_first_order square sq_nodup ⟨.lowerThan, ⟨.reference .one ⟨1, fun _ => 7⟩, .lowerThan, ⟨1, fun _ => 0⟩⟩, none⟩
  ⟨.lowerThan, ⟨.reference .one ⟨1, fun _ => 7⟩, .lowerThan, ⟨1, fun _ => 0⟩⟩, none, [⟨0, 1⟩]⟩ (by simp [makeLTC, Dyn.order, square, addVar, VId.dot]) rfl
  sqF sqD sq_diff sqQ (fun _ => fun _ _ => 1) sq_vel 1 sq_jac (fun _ => 7) 0 ⟨⟨_, rfl, rfl, rfl⟩, fun h => by simp at h⟩ (fun _ _ => 1) (fun _ _ => rfl)

/-- The projection on the only component of the variable of `x + 1` -/
noncomputable def shProj : Pt shifted →L[ℝ] ℝ := proj

theorem sh_jac (p : Pt shifted) : GivesJacobian shifted (fun _ _ => shProj) p := fun _ _ a c => (proj_unit a c).symm

/-- The affine map `x + 1` at `x = 4`: `x + 1 ≤ 5` holds, without dynamics. -/
example : ∃ r y, (⟨.lowerThan, ⟨.none, .lowerThan, ⟨1, fun _ => 5⟩⟩, none, [⟨0, 0⟩]⟩ : LTC ℝ).update shifted = .ok () r ∧
    (⟨.lowerThan, ⟨.none, .lowerThan, ⟨1, fun _ => 5⟩⟩, none, [⟨0, 0⟩]⟩ : LTC ℝ).value shifted (fun _ _ => 4) = .ok () y ∧ Holds 1 y r := by
  obtain ⟨r, y, hr, hy, h⟩ := C48_none shifted (by simp [shifted]) .lowerThan ⟨1, fun _ => 5⟩ ⟨.lowerThan, ⟨.none, .lowerThan, ⟨1, fun _ => 5⟩⟩, none⟩
    (by simp [makeTask, Dyn.impl, Dyn.accepts, implAccepts, shifted]) ⟨.lowerThan, ⟨.none, .lowerThan, ⟨1, fun _ => 5⟩⟩, none, [⟨0, 0⟩]⟩
    (by simp [makeLTC, Dyn.order, shifted, addVar]) (fun p _ => shProj p + 1) (fun _ => shProj) (fun _ => 1) rfl (fun _ _ _ => rfl)
    (fun _ _ => 4) (sh_jac _) (fun _ _ => 4) (fun _ _ => rfl)
  refine ⟨r, y, hr, hy, h.2 fun i _ => ?_⟩
  have : shProj (fun _ _ => (4 : ℝ)) = 4 := rfl
  simp only [this, Related]
  norm_num

example := C48_none_double shifted (by simp [shifted]) ⟨1, fun _ => 0⟩ ⟨1, fun _ => 5⟩
  ⟨.doubleSided, ⟨.none, .greaterThan, ⟨1, fun _ => 0⟩⟩, some ⟨.none, .lowerThan, ⟨1, fun _ => 5⟩⟩⟩
  (by simp [makeTask2, Dyn.impl, Dyn.accepts, implAccepts, shifted])
  ⟨.doubleSided, ⟨.none, .greaterThan, ⟨1, fun _ => 0⟩⟩, some ⟨.none, .lowerThan, ⟨1, fun _ => 5⟩⟩, [⟨0, 0⟩]⟩
  (by simp [makeLTC, Dyn.order, shifted, addVar]) (fun p _ => shProj p + 1) (fun _ => shProj) (fun _ => 1) rfl (fun _ _ _ => rfl)
  (fun _ _ => 4) (sh_jac _) (fun _ _ => 4) (fun _ _ => rfl)

example := C48_order_zero_partial shifted (by simp [shifted]) ⟨.equal, ⟨.constant, .equal, ⟨1, fun _ => 5⟩⟩, none⟩
  ⟨.equal, ⟨.constant, .equal, ⟨1, fun _ => 5⟩⟩, none, [⟨0, 0⟩]⟩
  (by simp [makeLTC, Dyn.order, shifted, addVar]) rfl (fun p _ => shProj p + 1) (fun _ => shProj) (fun _ _ p => by simp)
  (fun _ _ => 4) (sh_jac _) (fun _ => 5) 0 ⟨⟨_, rfl, rfl, rfl⟩, fun h => by simp at h⟩ (fun _ _ => 4) (fun _ _ => rfl)

/-- `x²` is not linear: no constraint of order zero is made. -/
example : makeLTC square ⟨.equal, ⟨.constant, .equal, ⟨1, fun _ => 5⟩⟩, none⟩ = none := C48_not_linear square _ rfl ⟨0, 0⟩ (by simp [square]) rfl

/-- Clamping around a proportional dynamics: refused when the bounds are not around zero, or when the inner dynamics is refused. -/
example : (makeTask square .equal (.clamped (.proportional (.scalar 1)) ⟨1, fun _ => -1⟩ ⟨1, fun _ => 2⟩) ⟨1, fun _ => 0⟩).isSome = true :=
  (C48_sides square .equal _ _ ⟨1, fun _ => 0⟩ ⟨1, fun _ => 0⟩).1.2
    ⟨by decide, ⟨⟨rfl, rfl⟩, trivial⟩, rfl, rfl, fun _ _ => ⟨by norm_num, by norm_num⟩⟩
example : (makeTask square .equal (.clamped (.proportional (.scalar 1)) ⟨1, fun _ => -1⟩ ⟨1, fun _ => 2⟩) ⟨2, fun _ => 0⟩).isSome ≠ true :=
  fun h => by simpa [square] using ((C48_sides square .equal _ _ ⟨1, fun _ => 0⟩ ⟨1, fun _ => 0⟩).1.1 h).2.1.1.1
example : (makeTask square .equal (.clamped (.proportional (.scalar 1)) ⟨1, fun _ => 1⟩ ⟨1, fun _ => 2⟩) ⟨1, fun _ => 0⟩).isSome ≠ true :=
  fun h => by
    have := (((C48_sides square .equal _ _ ⟨1, fun _ => 0⟩ ⟨1, fun _ => 0⟩).1.1 h).2.2.2.2 0 (by simp [square])).1
    norm_num at this

end Verif.C48
