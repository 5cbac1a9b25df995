import Verif.Model.CheckFunction
import Mathlib.Algebra.Order.BigOperators.Group.Finset
import Mathlib.Algebra.BigOperators.Ring.Finset
import Mathlib.Tactic.Ring
import Mathlib.Tactic.NormNum
import Mathlib.Tactic.Linarith
/-!
# C78 - what the checks of a function tell
-/
set_option autoImplicit false
set_option linter.unusedSectionVars false

namespace Verif.C78
open Verif Verif.Chk Finset

variable {K : Type} [Field K] [LinearOrder K] [IsStrictOrderedRing K]

/-- Square of the distance between the column `i` of the jacobian and of the finite differences -/
def gap (f : Fn K) (h : K) (v : Nat → K) (i : Nat) : K :=
  ∑ r ∈ range f.m, (f.ffd h v i r - f.jac v r i) * (f.ffd h v i r - f.jac v r i)

/-- The scale of the two matrices (comment of line 118): the greatest of the squared norms of the columns, taking the smaller of the two matrices -/
def IsScale (f : Fn K) (h : K) (v : Nat → K) (s : K) : Prop :=
  (∀ i < f.n, min (sq f.m (f.ffd h v i)) (sq f.m (fun r => f.jac v r i)) ≤ s) ∧
    (f.n = 0 ∧ s = 0 ∨ ∃ i < f.n, s = min (sq f.m (f.ffd h v i)) (sq f.m (fun r => f.jac v r i)))

/-- The columns agree up to the precision -/
def ColOk (f : Fn K) (h prec : K) (v : Nat → K) (i : Nat) : Prop := ∀ s, IsScale f h v s → gap f h v i ≤ prec * prec * s

theorem sq_nonneg' (m : Nat) (u : Nat → K) : 0 ≤ sq m u := Finset.sum_nonneg (fun _ _ => mul_self_nonneg _)

theorem sq_zero (m : Nat) (u : Nat → K) : sq m u = 0 ↔ ∀ r < m, u r = 0 := by
  unfold Chk.sq
  rw [Finset.sum_eq_zero_iff_of_nonneg (fun _ _ => mul_self_nonneg _)]
  simp

theorem fold_max (g : Nat → K) : ∀ (l : List Nat) (a : K),
    a ≤ l.foldl (fun a i => max a (g i)) a ∧ (∀ i ∈ l, g i ≤ l.foldl (fun a i => max a (g i)) a) ∧
      (l.foldl (fun a i => max a (g i)) a = a ∨ ∃ i ∈ l, l.foldl (fun a i => max a (g i)) a = g i) := by
  intro l
  induction l with
  | nil => intro a; exact ⟨le_refl _, by simp, Or.inl rfl⟩
  | cons x l ih =>
    intro a
    obtain ⟨h1, h2, h3⟩ := ih (max a (g x))
    simp only [List.foldl_cons]
    refine ⟨le_trans (le_max_left _ _) h1, ?_, ?_⟩
    · intro i hi
      rcases List.mem_cons.1 hi with rfl | hi
      · exact le_trans (le_max_right _ _) h1
      · exact h2 i hi
    · rcases h3 with h3 | ⟨i, hi, h3⟩
      · rcases max_choice a (g x) with h | h
        · exact Or.inl (h3.trans h)
        · exact Or.inr ⟨x, by simp, h3.trans h⟩
      · exact Or.inr ⟨i, by simp [hi], h3⟩

theorem norm2_scale (f : Fn K) (h : K) (v : Nat → K) : IsScale f h v (f.norm2 h v) := by
  obtain ⟨h1, h2, h3⟩ := fold_max (fun i => min (sq f.m (f.ffd h v i)) (sq f.m (fun r => f.jac v r i))) (List.range f.n) 0
  refine ⟨fun i hi => h2 i (List.mem_range.2 hi), ?_⟩
  rcases h3 with h3 | ⟨i, hi, h3⟩
  · by_cases hn : f.n = 0
    · exact Or.inl ⟨hn, h3⟩
    · refine Or.inr ⟨0, by omega, ?_⟩
      have := h2 0 (List.mem_range.2 (by omega))
      rw [h3] at this
      have h0 : (0 : K) ≤ min (sq f.m (f.ffd h v 0)) (sq f.m (fun r => f.jac v r 0)) := le_min (sq_nonneg' _ _) (sq_nonneg' _ _)
      exact h3.trans (le_antisymm h0 this)
  · exact Or.inr ⟨i, List.mem_range.1 hi, h3⟩

theorem scale_unique (f : Fn K) (h : K) (v : Nat → K) (s t : K) (hs : IsScale f h v s) (ht : IsScale f h v t) : s = t := by
  rcases hs.2 with ⟨h0, e⟩ | ⟨i, hi, e⟩ <;> rcases ht.2 with ⟨h0', e'⟩ | ⟨j, hj, e'⟩
  · rw [e, e']
  · omega
  · omega
  · exact le_antisymm (by rw [e]; exact ht.1 i hi) (by rw [e']; exact hs.1 j hj)

theorem bad_iff (f : Fn K) (h prec : K) (v : Nat → K) (i : Nat) : f.bad h prec v i = false ↔ ColOk f h prec v i := by
  unfold Fn.bad ColOk
  rw [decide_eq_false_iff_not, not_lt]
  constructor
  · intro hg s hs
    rw [scale_unique f h v s _ hs (norm2_scale f h v)]
    exact hg
  · exact fun hg => hg _ (norm2_scale f h v)

theorem inner_eq (f : Fn K) (h prec : K) (v : Nat → K) (k : Nat) : ∀ p : Nat × Bool,
    f.inner h prec v k p = (p.1, p.2 && (k == 0 || !f.bad h prec v p.1)) := by
  induction k with
  | zero => intro p; simp [Fn.inner]
  | succ k ih =>
    intro p
    rw [Fn.inner, ih]
    cases f.bad h prec v p.1 <;> cases p.2 <;> simp

theorem compare_eq (f : Fn K) (h prec : K) (v : Nat → K) : f.compare h prec v = (f.n == 0 || !f.bad h prec v 0) := by
  unfold Fn.compare Fn.n
  have : ∀ (l : List Nat) (b : Bool), (l.foldl (fun p k => f.inner h prec v k p) (0, b)) = (0, b && (l.sum == 0 || !f.bad h prec v 0)) := by
    intro l
    induction l with
    | nil => intro b; simp
    | cons k l ih =>
      intro b
      rw [List.foldl_cons, inner_eq, ih]
      by_cases h1 : k = 0 <;> by_cases h2 : l.sum = 0 <;> cases f.bad h prec v 0 <;> cases b <;> simp [h1, h2]
      have : ¬ (k + l.sum = 0) := by omega
      rw [beq_eq_false_iff_ne.2 h1, beq_eq_false_iff_ne.2 this]; rfl
  rw [this, Bool.true_and]

/-- What the check does: it accepts the configuration iff the *first* column of the jacobian agrees with the finite differences (or there is no column): the loop of lines 121-135
does not increment `i`. Missing for the claim: the other columns, which are not compared. -/
theorem C78_jacobian_partial (f : Fn K) (h prec : K) (v : Nat → K) : f.compare h prec v = true ↔ (0 < f.n → ColOk f h prec v 0) := by
  rw [compare_eq, ← bad_iff]
  by_cases hn : f.n = 0
  · simp [hn]
  · have : 0 < f.n := by omega
    cases f.bad h prec v 0 <;> simp [hn, this]

/-- The sum of two variables, with a jacobian that is wrong for the second one -/
def wrong : Fn K := ⟨[1, 1], 1, fun v _ => v 0 + v 1, fun _ _ c => if c = 0 then 1 else 0, fun _ w _ => w 0, fun _ _ _ => 0⟩

/-- The claim is false: the jacobian of `wrong` is accepted whatever the options and the numbers drawn, though its second column is wrong at every configuration. -/
theorem C78_jacobian_false : ∀ (o : Options K) (rnd : Nat → Nat → K), o.step ≠ 0 →
    (wrong (K := K)).checkJacobian o rnd = true ∧ ∀ (prec : K) (v : Nat → K), 0 ≤ prec → prec < 1 → ¬ ColOk wrong o.step prec v 1 := by
  intro o rnd hs
  have f0 : ∀ (v : Nat → K) (r : Nat), (wrong (K := K)).ffd o.step v 0 r = 1 := by
    intro v r
    show ((if (0 : Nat) = 0 then v 0 + o.step else v 0) + (if (1 : Nat) = 0 then v 1 + o.step else v 1) - (v 0 + v 1)) / o.step = 1
    rw [if_pos rfl, if_neg (by omega)]
    rw [show v 0 + o.step + v 1 - (v 0 + v 1) = o.step by ring, div_self hs]
  have f1 : ∀ (v : Nat → K) (r : Nat), (wrong (K := K)).ffd o.step v 1 r = 1 := by
    intro v r
    show ((if (0 : Nat) = 1 then v 0 + o.step else v 0) + (if (1 : Nat) = 1 then v 1 + o.step else v 1) - (v 0 + v 1)) / o.step = 1
    rw [if_pos rfl, if_neg (by omega)]
    rw [show v 0 + (v 1 + o.step) - (v 0 + v 1) = o.step by ring, div_self hs]
  constructor
  · have hd : o.default.step = o.step := by unfold Options.default; split <;> rfl
    unfold Fn.checkJacobian Fn.failures
    rw [beq_iff_eq, List.sum_eq_zero_iff_forall_eq_nat]
    intro x hx
    obtain ⟨v, _, rfl⟩ := List.mem_map.1 hx
    rw [if_pos]
    rw [C78_jacobian_partial]
    intro _ s hsc
    have h0 : gap (wrong (K := K)) o.default.step v 0 = 0 := by
      unfold gap
      rw [hd]
      apply Finset.sum_eq_zero
      intro r _
      rw [f0]
      show ((1 : K) - (if (0 : Nat) = 0 then 1 else 0)) * _ = 0
      simp
    rw [h0]
    have : 0 ≤ s := by
      rcases hsc.2 with ⟨_, e⟩ | ⟨i, _, e⟩
      · rw [e]
      · rw [e]; exact le_min (sq_nonneg' _ _) (sq_nonneg' _ _)
    exact mul_nonneg (mul_self_nonneg _) this
  · intro prec v h0 h1 hc
    have e := hc 1 ?_
    · have : gap (wrong (K := K)) o.step v 1 = 1 := by
        unfold gap
        show ∑ r ∈ range 1, _ = (1 : K)
        rw [Finset.sum_range_one, f1]
        show ((1 : K) - (if (1 : Nat) = 0 then 1 else 0)) * ((1 : K) - (if (1 : Nat) = 0 then 1 else 0)) = 1
        simp
      rw [this] at e
      nlinarith
    · constructor
      · intro i hi
        have hi' : i = 0 ∨ i = 1 := by
          have : (wrong (K := K)).n = 2 := rfl
          omega
        refine le_trans (min_le_left _ _) ?_
        have : sq (wrong (K := K)).m ((wrong (K := K)).ffd o.step v i) = 1 := by
          show ∑ r ∈ range 1, _ = (1 : K)
          rw [Finset.sum_range_one]
          rcases hi' with rfl | rfl
          · rw [f0]; ring
          · rw [f1]; ring
        rw [this]
      · refine Or.inr ⟨0, by show 0 < 2; omega, ?_⟩
        have a1 : sq (wrong (K := K)).m ((wrong (K := K)).ffd o.step v 0) = 1 := by
          show ∑ r ∈ range 1, _ = (1 : K)
          rw [Finset.sum_range_one, f0]; ring
        have a2 : sq (wrong (K := K)).m (fun r => (wrong (K := K)).jac v r 0) = 1 := by
          show ∑ r ∈ range 1, ((if (0 : Nat) = 0 then 1 else 0 : K) * (if (0 : Nat) = 0 then 1 else 0)) = (1 : K)
          simp
        rw [a1, a2, min_self]

theorem points_default (o : Options K) (n : Nat) (rnd : Nat → Nat → K) : o.default.points n rnd = [] ↔
    o.samples = 0 ∧ o.configs ≠ [] ∧ ∀ c ∈ o.configs, ∀ v, c.value = some v → v.1 ≠ n := by
  have hf : ∀ l : List (Config K), l.filterMap (Config.keep n) = [] ↔
      ∀ c ∈ l, ∀ v, c.value = some v → v.1 ≠ n := by
    intro l
    rw [List.filterMap_eq_nil_iff]
    refine forall_congr' fun c => forall_congr' fun _ => ?_
    unfold Config.keep
    cases hc : c.value with
    | none => simp
    | some v => by_cases hv : v.1 = n <;> simp [hv]
  unfold Options.default Options.points
  by_cases h : o.configs = [] ∧ o.samples = 0
  · rw [if_pos h]; simp [h.1]
  · rw [if_neg h, List.append_eq_nil_iff, hf]
    simp only [List.map_eq_nil_iff, List.range_eq_nil]
    constructor
    · rintro ⟨h1, h2⟩; exact ⟨h1, fun h3 => h ⟨h3, h1⟩, h2⟩
    · rintro ⟨h1, _, h2⟩; exact ⟨h1, h2⟩

/-- `checkJacobian` accepts iff it accepts at every configuration it goes through. -/
theorem C78_all (f : Fn K) (o : Options K) (rnd : Nat → Nat → K) : f.checkJacobian o rnd = true ↔
    ∀ v ∈ o.default.points f.n rnd, 0 < f.n → ColOk f o.step o.prec v 0 := by
  have hd : o.default.step = o.step ∧ o.default.prec = o.prec := by unfold Options.default; split <;> exact ⟨rfl, rfl⟩
  unfold Fn.checkJacobian Fn.failures
  rw [beq_iff_eq, List.sum_eq_zero_iff_forall_eq_nat]
  constructor
  · intro h v hv
    have := h _ (List.mem_map.2 ⟨v, hv, rfl⟩)
    by_cases hc : f.compare o.default.step o.default.prec v = true
    · rw [C78_jacobian_partial, hd.1, hd.2] at hc; exact hc
    · simp [hc] at this
  · intro h x hx
    obtain ⟨v, hv, rfl⟩ := List.mem_map.1 hx
    rw [if_pos]
    rw [C78_jacobian_partial, hd.1, hd.2]
    exact h v hv

/-- The configurations it goes through: the random ones (one if nothing is asked), and those of the caller that have a value of the size of the variables. -/
theorem C78_points (o : Options K) (n : Nat) (rnd : Nat → Nat → K) (v : Nat → K) : v ∈ o.default.points n rnd ↔
    (∃ i, (i < o.samples ∨ (o.samples = 0 ∧ o.configs = [] ∧ i = 0)) ∧ v = rnd i) ∨ ∃ c ∈ o.configs, c.value = some (n, v) := by
  have hf : ∀ l : List (Config K), v ∈ l.filterMap (Config.keep n) ↔
      ∃ c ∈ l, c.value = some (n, v) := by
    intro l
    rw [List.mem_filterMap]
    constructor
    · rintro ⟨c, hc, h⟩
      refine ⟨c, hc, ?_⟩
      cases hv : c.value with
      | none => simp [Config.keep, hv] at h
      | some w =>
        by_cases hw : w.1 = n
        · simp [Config.keep, hv, hw] at h; rw [← hw, ← h]
        · simp [Config.keep, hv, hw] at h
    · rintro ⟨c, hc, h⟩
      exact ⟨c, hc, by simp [Config.keep, h]⟩
  unfold Options.default Options.points
  by_cases h : o.configs = [] ∧ o.samples = 0
  · rw [if_pos h]
    simp only [List.mem_append, hf, List.mem_map, List.mem_range, h.1, h.2]
    constructor
    · rintro (⟨i, hi, rfl⟩ | h')
      · exact Or.inl ⟨i, Or.inr ⟨trivial, trivial, by omega⟩, rfl⟩
      · exact Or.inr h'
    · rintro (⟨i, hi | ⟨_, _, hi⟩, rfl⟩ | h')
      · omega
      · exact Or.inl ⟨i, by omega, rfl⟩
      · exact Or.inr h'
  · rw [if_neg h]
    simp only [List.mem_append, hf, List.mem_map, List.mem_range]
    constructor
    · rintro (⟨i, hi, rfl⟩ | h')
      · exact Or.inl ⟨i, Or.inl hi, rfl⟩
      · exact Or.inr h'
    · rintro (⟨i, hi | ⟨h1, h2, _⟩, rfl⟩ | h')
      · exact Or.inl ⟨i, hi, rfl⟩
      · exact absurd ⟨h2, h1⟩ h
      · exact Or.inr h'

/-- It may go through none, and then accepts every function: when the caller gives only configurations without a value or with a value of another size, and asks for no
random one. -/
theorem C78_vacuous (f : Fn K) (o : Options K) (rnd : Nat → Nat → K) (h0 : o.samples = 0) (h1 : o.configs ≠ [])
    (h2 : ∀ c ∈ o.configs, ∀ v, c.value = some v → v.1 ≠ f.n) : f.checkJacobian o rnd = true := by
  rw [C78_all, (points_default o f.n rnd).2 ⟨h0, h1, h2⟩]
  simp

/-! ## Functions that are right -/

/-- An affine function with its outputs: `A x + b`, `A`, `A x'`, `0` -/
structure IsAffine (f : Fn K) (A : Nat → Nat → K) (b : Nat → K) : Prop where
  fval : ∀ v r, f.value v r = ∑ c ∈ range f.n, A r c * v c + b r
  fjac : ∀ v r c, f.jac v r c = A r c
  fvel : ∀ v w r, f.vel v w r = ∑ c ∈ range f.n, A r c * w c
  fnacc : ∀ v w r, f.nacc v w r = 0

theorem affine_ffd (f : Fn K) (A : Nat → Nat → K) (b : Nat → K) (hf : IsAffine f A b) (h : K) (hs : h ≠ 0) (v : Nat → K) (i : Nat) (hi : i < f.n) (r : Nat) :
    f.ffd h v i r = A r i := by
  unfold Fn.ffd
  rw [hf.fval, hf.fval]
  have : ∀ c, A r c * (if c = i then v c + h else v c) = A r c * v c + (if c = i then A r i * h else 0) := by
    intro c
    by_cases hc : c = i
    · rw [if_pos hc, if_pos hc, hc]; ring
    · rw [if_neg hc, if_neg hc]; ring
  simp only [this]
  rw [Finset.sum_add_distrib, Finset.sum_ite_eq' (range f.n) i, if_pos (Finset.mem_range.2 hi)]
  rw [show ∑ c ∈ range f.n, A r c * v c + A r i * h + b r - (∑ c ∈ range f.n, A r c * v c + b r) = A r i * h by ring, mul_div_cancel_right₀ _ hs]

/-- The checks accept every affine function whose outputs are right, whatever the options and the numbers drawn. -/
theorem C78_affine (f : Fn K) (A : Nat → Nat → K) (b : Nat → K) (hf : IsAffine f A b) (o : Options K) (rnd : Nat → Nat → K) (hs : o.step ≠ 0) :
    f.checkJacobian o rnd = true ∧ (∀ val vel, f.checkVelocityAt o.prec val vel = true) ∧ ∀ val vel acc, f.checkNormalAt o.step o.prec val vel acc = true := by
  have ap : ∀ (m : Nat) (p : K) (a c : Nat → K), (∀ r, a r = c r) → isApprox m p a c = true := by
    intro m p a c h
    unfold isApprox
    rw [decide_eq_true_eq]
    have : sq m (fun r => a r - c r) = 0 := (sq_zero m _).2 (fun r _ => by rw [h]; ring)
    rw [this]
    exact mul_nonneg (mul_self_nonneg _) (le_min (sq_nonneg' _ _) (sq_nonneg' _ _))
  refine ⟨?_, ?_, ?_⟩
  · rw [C78_all]
    intro v _ hn s hsc
    have h0 : gap f o.step v 0 = 0 := by
      unfold gap
      apply Finset.sum_eq_zero
      intro r _
      rw [affine_ffd f A b hf o.step hs v 0 hn, hf.fjac]; ring
    rw [h0]
    have : 0 ≤ s := by
      rcases hsc.2 with ⟨_, e⟩ | ⟨i, _, e⟩
      · rw [e]
      · rw [e]; exact le_min (sq_nonneg' _ _) (sq_nonneg' _ _)
    exact mul_nonneg (mul_self_nonneg _) this
  · intro val vel
    apply ap
    intro r
    rw [hf.fvel]
    exact Finset.sum_congr rfl (fun c _ => by rw [hf.fjac])
  · intro val vel acc
    apply ap
    intro r
    rw [hf.fnacc, hf.fvel, hf.fvel]
    have : ∑ c ∈ range f.n, A r c * (vel c + acc c * o.step) = ∑ c ∈ range f.n, A r c * vel c + (∑ c ∈ range f.n, A r c * acc c) * o.step := by
      rw [Finset.sum_mul, ← Finset.sum_add_distrib]
      exact Finset.sum_congr rfl (fun c _ => by ring)
    rw [this, show ∀ a b : K, (a + b * o.step - a) = b * o.step from fun a b => by ring, mul_div_cancel_right₀ _ hs]
    simp only [hf.fjac]
    ring

/-- The velocity that is accepted is within the precision of `J x'`, and with the precision 0 it is `J x'`. -/
theorem C78_velocity (f : Fn K) (prec : K) (val vel : Nat → K) :
    (f.checkVelocityAt prec val vel = true →
      ∑ r ∈ range f.m, (∑ c ∈ range f.n, f.jac val r c * vel c - f.vel val vel r) * (∑ c ∈ range f.n, f.jac val r c * vel c - f.vel val vel r) ≤
        prec * prec * ∑ r ∈ range f.m, f.vel val vel r * f.vel val vel r) ∧
    (f.checkVelocityAt 0 val vel = true ↔ ∀ r < f.m, f.vel val vel r = ∑ c ∈ range f.n, f.jac val r c * vel c) := by
  constructor
  · intro h
    unfold Fn.checkVelocityAt isApprox at h
    rw [decide_eq_true_eq] at h
    exact le_trans h (mul_le_mul_of_nonneg_left (min_le_right _ _) (mul_self_nonneg _))
  · unfold Fn.checkVelocityAt isApprox
    rw [decide_eq_true_eq]
    have hz : ∀ a : K, (0 : K) * 0 * a = 0 := fun a => by ring
    rw [hz]
    constructor
    · intro h r hr
      have := (sq_zero f.m _).1 (le_antisymm h (sq_nonneg' _ _)) r hr
      exact (sub_eq_zero.1 this).symm
    · intro h
      exact le_of_eq ((sq_zero f.m _).2 (fun r hr => by rw [h r hr]; ring))

/-- The documentation (checkFunction.h, lines 74-79) takes the acceleration of the variables constant over the step. The values that are used are on that trajectory iff each acceleration
is 0 or 1: line 352 squares the acceleration. -/
theorem C78_trajectory_false (dt : K) (val0 vel0 acc : Nat → K) (c : Nat) (h : dt ≠ 0) :
    nextVal dt val0 vel0 acc c = val0 c + vel0 c * dt + 1 / 2 * acc c * dt * dt ↔ acc c = 0 ∨ acc c = 1 := by
  unfold nextVal
  constructor
  · intro e
    have h2 : 1 / 2 * (acc c * acc c) * dt * dt = 1 / 2 * acc c * dt * dt := by linarith
    have h3 := mul_right_cancel₀ h (mul_right_cancel₀ h h2)
    have h4 : acc c * (acc c - 1) = 0 := by linarith
    rcases mul_eq_zero.1 h4 with h5 | h5
    · exact Or.inl h5
    · exact Or.inr (by linarith)
  · rintro (e | e) <;> rw [e] <;> ring

/-- The square of one variable, with outputs that are right: `x²`, `2 x`, `2 x x'`, `2 x'²` -/
def square : Fn K := ⟨[1], 1, fun v _ => v 0 * v 0, fun v _ _ => 2 * v 0, fun v w _ => 2 * v 0 * w 0, fun _ w _ => 2 * (w 0 * w 0)⟩

/-- A function whose outputs are right may be refused whatever the step and the precision: the square, at rest with an acceleration. -/
theorem C78_right_refused (dt prec a : K) (hd : dt ≠ 0) (ha : a ≠ 0) :
    (square (K := K)).checkNormalAt dt prec (fun _ => 0) (fun _ => 0) (fun _ => a) = false := by
  unfold Fn.checkNormalAt isApprox
  rw [decide_eq_false_iff_not, not_le]
  have e1 : sq (square (K := K)).m ((square (K := K)).nacc (fun _ => 0) (fun _ => 0)) = 0 := by
    rw [sq_zero]; intro r _; show (2 : K) * (0 * 0) = 0; ring
  simp only
  rw [e1]
  have hn : (square (K := K)).n = 1 := rfl
  rw [min_eq_left (sq_nonneg' _ _)]
  rw [mul_zero]
  show 0 < ∑ r ∈ range 1, _
  rw [Finset.sum_range_one]
  apply mul_self_pos.2
  simp only [hn, Finset.sum_range_one]
  show (2 : K) * (0 * 0) - ((2 * nextVal dt (fun _ => 0) (fun _ => 0) (fun _ => a) 0 * (0 + a * dt) - 2 * 0 * 0) / dt - 2 * 0 * a) ≠ 0
  unfold nextVal
  have : (2 * (0 + 0 * dt + 1 / 2 * (a * a) * dt * dt) * (0 + a * dt) - 2 * 0 * 0) = (a * a * a * dt * dt) * dt := by ring
  rw [this, mul_div_cancel_right₀ _ hd]
  have h1 : a * a * a * dt * dt ≠ 0 := mul_ne_zero (mul_ne_zero (mul_ne_zero (mul_ne_zero ha ha) ha) hd) hd
  intro h
  apply h1
  linarith

/-- Two variables and two rows: an affine function meets the hypotheses of `C78_affine` -/
example : ∃ f : Fn ℚ, IsAffine f (fun r c => if r = c then 2 else 1) (fun _ => 3) ∧ f.n = 2 ∧ f.m = 2 :=
  ⟨⟨[1, 1], 2, fun v r => ∑ c ∈ range 2, (if r = c then 2 else 1) * v c + 3, fun _ r c => if r = c then 2 else 1,
    fun _ w r => ∑ c ∈ range 2, (if r = c then 2 else 1) * w c, fun _ _ _ => 0⟩, ⟨fun _ _ => rfl, fun _ _ _ => rfl, fun _ _ _ => rfl, fun _ _ _ => rfl⟩, rfl, rfl⟩

/-- A configuration with a velocity only: nothing is checked -/
example (f : Fn ℚ) (rnd : Nat → Nat → ℚ) : f.checkJacobian ⟨1, 1, 0, [⟨none, some (1, fun _ => 0), 1⟩]⟩ rnd = true :=
  C78_vacuous f _ rnd rfl (by simp) (by simp)

end Verif.C78
