import Verif.Model.Plane
import Verif.Lemmas.V3Deriv
import Mathlib.Tactic.Ring
import Mathlib.Tactic.NormNum
import Mathlib.Tactic.Linarith
import Mathlib.Tactic.LinearCombination
/-!
# C80 - distances of the centre of mass to planes
-/
set_option autoImplicit false
set_option linter.unusedSectionVars false

namespace Verif.C80
open Verif Verif.Sva Verif.Pln Finset

variable {K : Type} [CommRing K]

/-! ## Specification -/

/-- `x` is on the plane (Plane.h, line 19) -/
def On (q : Plane K) (x : V3 K) : Prop := q.normal.dot x + q.offset = 0

/-- The point of the plane is on it (Plane.h, line 22) -/
def PointOn (q : Plane K) : Prop := On q q.point

/-- The calls on a plane made with a point: each change of position gives a point -/
inductive Moving : Plane K → Prop where
  | init (n p : V3 K) : Moving (ofPoint n p)
  | pos (q : Plane K) (n p : V3 K) : Moving q → Moving (q.posPoint n p)
  | vel (q : Plane K) (n s : V3 K) : Moving q → Moving (q.vel n s)
  | acc (q : Plane K) (n a : V3 K) : Moving q → Moving (q.acc n a)

/-- The calls on a plane made with an offset: each change of position gives an offset, and no velocity is given -/
inductive Static : Plane K → Prop where
  | init (n : V3 K) (o : K) : Static (ofOffset n o)
  | pos (q : Plane K) (n : V3 K) (o : K) : Static q → Static (q.posOffset n o)

/-- All the calls -/
inductive Any : Plane K → Prop where
  | initOffset (n : V3 K) (o : K) : Any (ofOffset n o)
  | initPoint (n p : V3 K) : Any (ofPoint n p)
  | posOffset (q : Plane K) (n : V3 K) (o : K) : Any q → Any (q.posOffset n o)
  | posPoint (q : Plane K) (n p : V3 K) : Any q → Any (q.posPoint n p)
  | vel (q : Plane K) (n s : V3 K) : Any q → Any (q.vel n s)
  | acc (q : Plane K) (n a : V3 K) : Any q → Any (q.acc n a)

/-! ## Planes -/

/-- The point of a plane whose positions are given by points is on the plane. -/
theorem C80_moving_point (q : Plane K) (h : Moving q) : PointOn q := by
  unfold PointOn On
  induction h with
  | init n p => simp only [ofPoint]; ring
  | pos q n p _ _ => simp only [Plane.posPoint]; ring
  | vel q n s _ ih => exact ih
  | acc q n a _ ih => exact ih

/-- It is not so in general: `position(normal, offset)` keeps the former point. -/
theorem C80_point_false : ∃ q : Plane ℚ, Any q ∧ ¬ PointOn q := by
  refine ⟨(ofPoint ⟨1, 0, 0⟩ ⟨1, 0, 0⟩).posOffset ⟨1, 0, 0⟩ 0, .posOffset _ _ _ (.initPoint _ _), ?_⟩
  norm_num [PointOn, On, ofPoint, Plane.posOffset, V3.dot]

/-- A plane given by offsets does not move. -/
theorem C80_static_still (q : Plane K) (h : Static q) : q.normalDot = 0 ∧ q.speed = 0 ∧ q.normalDotDot = 0 ∧ q.accel = 0 := by
  induction h with
  | init n o => exact ⟨rfl, rfl, rfl, rfl⟩
  | pos q n o _ ih => exact ih

/-- A call on a plane -/
inductive Call (K : Type) where
  | posOffset (n : V3 K) (o : K)
  | posPoint (n p : V3 K)
  | vel (n s : V3 K)
  | acc (n a : V3 K)

/-- The plane after calls -/
def calls (q : Plane K) (cs : List (Call K)) : Plane K := cs.foldl (fun q c => match c with
  | .posOffset n o => q.posOffset n o
  | .posPoint n p => q.posPoint n p
  | .vel n s => q.vel n s
  | .acc n a => q.acc n a) q

/-- The call gives a position, a velocity, an acceleration. -/
def Call.Position : Call K → Prop
  | .posOffset _ _ => True
  | .posPoint _ _ => True
  | _ => False
@[inherit_doc Call.Position]
def Call.Velocity : Call K → Prop
  | .vel _ _ => True
  | _ => False
@[inherit_doc Call.Position]
def Call.Acceleration : Call K → Prop
  | .acc _ _ => True
  | _ => False

/-- Each call leaves alone what it is not about. -/
theorem calls_keep (cs : List (Call K)) (q : Plane K) :
    ((∀ c ∈ cs, ¬ c.Position) → (calls q cs).normal = q.normal ∧ (calls q cs).offset = q.offset ∧ (calls q cs).point = q.point) ∧
    ((∀ c ∈ cs, ¬ c.Velocity) → (calls q cs).normalDot = q.normalDot ∧ (calls q cs).speed = q.speed) ∧
    ((∀ c ∈ cs, ¬ c.Acceleration) → (calls q cs).normalDotDot = q.normalDotDot ∧ (calls q cs).accel = q.accel) := by
  induction cs generalizing q with
  | nil => exact ⟨fun _ => ⟨rfl, rfl, rfl⟩, fun _ => ⟨rfl, rfl⟩, fun _ => ⟨rfl, rfl⟩⟩
  | cons c cs ih =>
    have k : ∀ {P : Call K → Prop}, (∀ d ∈ c :: cs, ¬ P d) → ¬ P c ∧ ∀ d ∈ cs, ¬ P d := fun h => ⟨h c (by simp), fun d hd => h d (by simp [hd])⟩
    cases c with
    | posOffset n o => exact ⟨fun h => absurd trivial (k h).1, fun h => (ih (q.posOffset n o)).2.1 (k h).2, fun h => (ih (q.posOffset n o)).2.2 (k h).2⟩
    | posPoint n p => exact ⟨fun h => absurd trivial (k h).1, fun h => (ih (q.posPoint n p)).2.1 (k h).2, fun h => (ih (q.posPoint n p)).2.2 (k h).2⟩
    | vel n s => exact ⟨fun h => (ih (q.vel n s)).1 (k h).2, fun h => absurd trivial (k h).1, fun h => (ih (q.vel n s)).2.2 (k h).2⟩
    | acc n a => exact ⟨fun h => (ih (q.acc n a)).1 (k h).2, fun h => (ih (q.acc n a)).2.1 (k h).2, fun h => absurd trivial (k h).1⟩

/-- A plane has the normal, the velocity and the acceleration that were given last, whatever the calls before and the other calls after. -/
theorem C80_last (q : Plane K) (before after : List (Call K)) (n x : V3 K) (o : K) :
    ((∀ c ∈ after, ¬ c.Position) → ((calls q (before ++ .posOffset n o :: after)).normal = n ∧ (calls q (before ++ .posOffset n o :: after)).offset = o) ∧
      (calls q (before ++ .posPoint n x :: after)).normal = n ∧ (calls q (before ++ .posPoint n x :: after)).point = x ∧ On (calls q (before ++ .posPoint n x :: after)) x) ∧
    ((∀ c ∈ after, ¬ c.Velocity) → (calls q (before ++ .vel n x :: after)).normalDot = n ∧ (calls q (before ++ .vel n x :: after)).speed = x) ∧
    ((∀ c ∈ after, ¬ c.Acceleration) → (calls q (before ++ .acc n x :: after)).normalDotDot = n ∧ (calls q (before ++ .acc n x :: after)).accel = x) := by
  have e : ∀ c, calls q (before ++ c :: after) = calls (calls q (before ++ [c])) after := fun c => by simp [calls]
  have e' : ∀ c, calls q (before ++ [c]) = calls (calls q before) [c] := fun c => by simp [calls]
  refine ⟨fun h => ⟨?_, ?_⟩, fun h => ?_, fun h => ?_⟩
  · obtain ⟨h1, h2, -⟩ := (calls_keep after (calls q (before ++ [.posOffset n o]))).1 h
    rw [e, h1, h2, e']
    exact ⟨rfl, rfl⟩
  · obtain ⟨h1, h2, h3⟩ := (calls_keep after (calls q (before ++ [.posPoint n x]))).1 h
    unfold On
    rw [e, h1, h2, h3, e']
    refine ⟨rfl, rfl, ?_⟩
    show n.dot x + -(n.dot x) = 0
    ring
  · obtain ⟨h1, h2⟩ := (calls_keep after (calls q (before ++ [.vel n x]))).2.1 h
    rw [e, h1, h2, e']
    exact ⟨rfl, rfl⟩
  · obtain ⟨h1, h2⟩ := (calls_keep after (calls q (before ++ [.acc n x]))).2.2 h
    rw [e, h1, h2, e']
    exact ⟨rfl, rfl⟩

/-- A velocity that is given after the acceleration leaves it. -/
example : (calls (ofPoint ⟨1, 0, 0⟩ ⟨2, 0, 0⟩ : Plane ℚ) [.acc ⟨0, 1, 0⟩ ⟨3, 0, 0⟩, .vel ⟨0, 0, 1⟩ ⟨4, 0, 0⟩]).accel = ⟨3, 0, 0⟩ :=
  ((C80_last _ [] [.vel ⟨0, 0, 1⟩ ⟨4, 0, 0⟩] ⟨0, 1, 0⟩ ⟨3, 0, 0⟩ 0).2.2 (by simp [Call.Acceleration])).2

/-! ## The function -/

/-- The rows are those of the planes added since the last reset, in the order of the calls. -/
theorem C80_planes {P : Type} (ops : List (Op P)) (adds : List P) :
    planes (adds.map Op.add) = adds ∧ planes (ops ++ [Op.reset] ++ adds.map Op.add) = adds := by
  have h : ∀ (adds l : List P), (adds.map Op.add).foldl Op.run l = l ++ adds := by
    intro adds
    induction adds with
    | nil => intro l; simp
    | cons a t ih => intro l; simp [Op.run, ih]
  constructor
  · unfold planes; rw [h]; simp
  · unfold planes; rw [List.foldl_append, List.foldl_append, h]; rfl

/-- The value is the signed distance to the plane, for a normal of norm 1: the centre of mass less the value along the normal is on the plane, and no point of the plane is closer. -/
theorem C80_distance (c : Com ℝ) (l : List (Plane ℝ)) (i : Nat) (q : Plane ℝ) (hi : l[i]? = some q) (hn : q.normal.dot q.normal = 1) :
    ∃ v, (value c l)[i]? = some v ∧ On q (c.com - v • q.normal) ∧ ∀ x, On q x → v * v ≤ (c.com - x).dot (c.com - x) := by
  refine ⟨c.com.dot q.normal + q.offset, by simp [value, hi], ?_, ?_⟩
  · unfold On
    simp only [V3.dot, sub_x, sub_y, sub_z, smul_x, smul_y, smul_z] at hn ⊢
    linear_combination -(c.com.x * q.normal.x + c.com.y * q.normal.y + c.com.z * q.normal.z + q.offset) * hn
  · intro x hx
    unfold On at hx
    have e : c.com.dot q.normal + q.offset = (c.com - x).dot q.normal := by
      simp only [V3.dot, sub_x, sub_y, sub_z] at hx ⊢
      linear_combination hx
    rw [e]
    generalize c.com - x = u
    obtain ⟨a, b, d⟩ := u
    obtain ⟨⟨n1, n2, n3⟩, o, p, _⟩ := q
    simp only [V3.dot] at hn ⊢
    have h : (a * a + b * b + d * d) * (n1 * n1 + n2 * n2 + n3 * n3) - (a * n1 + b * n2 + d * n3) * (a * n1 + b * n2 + d * n3) =
        (a * n2 - b * n1) ^ 2 + (a * n3 - d * n1) ^ 2 + (b * n3 - d * n2) ^ 2 := by ring
    rw [hn] at h
    nlinarith [sq_nonneg (a * n2 - b * n1), sq_nonneg (a * n3 - d * n1), sq_nonneg (b * n3 - d * n2)]

/-- The sum of the products of the two blocks of the jacobian by velocities of the free-flyer and of the joints is the component along the normal of the velocity of the centre of mass. -/
theorem C80_jacobian (c : Com K) (nff nj : Nat) (l : List (Plane K)) (i : Nat) (q : Plane K) (hi : l[i]? = some q) (a : Nat → K) :
    ∃ F J, (jacFF c l)[i]? = some F ∧ (jacJ c nff l)[i]? = some J ∧
      ∑ k ∈ range nff, F k * a k + ∑ k ∈ range nj, J k * a (nff + k) =
        q.normal.dot ⟨∑ k ∈ range (nff + nj), (c.jac k).x * a k, ∑ k ∈ range (nff + nj), (c.jac k).y * a k, ∑ k ∈ range (nff + nj), (c.jac k).z * a k⟩ := by
  refine ⟨_, _, by simp [jacFF, hi]; rfl, by simp [jacJ, hi]; rfl, ?_⟩
  rw [← Finset.sum_range_add (fun k => q.normal.dot (c.jac k) * a k)]
  simp only [V3.dot]
  rw [Finset.mul_sum, Finset.mul_sum, Finset.mul_sum, ← Finset.sum_add_distrib, ← Finset.sum_add_distrib]
  exact Finset.sum_congr rfl (fun k _ => by ring)

/-- The motion of a plane is what its members say: the normal and the point move with their velocities and accelerations, and the point is on the plane. -/
structure PlaneMoves (q : ℝ → Plane ℝ) (t : ℝ) : Prop where
  point : ∀ s, PointOn (q s)
  n1 : HasD (fun s => (q s).normal) (q t).normalDot t
  n2 : HasD (fun s => (q s).normalDot) (q t).normalDotDot t
  p1 : HasD (fun s => (q s).point) (q t).speed t
  p2 : HasD (fun s => (q s).speed) (q t).accel t

/-- The plane does not move and has no velocity; its point may be anywhere. -/
def PlaneStill (q : ℝ → Plane ℝ) : Prop := ∃ q₀ : Plane ℝ, q₀.normalDot = 0 ∧ q₀.speed = 0 ∧ q₀.normalDotDot = 0 ∧ q₀.accel = 0 ∧ ∀ s, q s = q₀

/-- `J a` for the centre of mass -/
def comJ (n : Nat) (c : Com ℝ) (a : Nat → ℝ) : V3 ℝ := ⟨∑ k ∈ range n, (c.jac k).x * a k, ∑ k ∈ range n, (c.jac k).y * a k, ∑ k ∈ range n, (c.jac k).z * a k⟩

/-- The centre of mass moves with its velocity, and its acceleration is the jacobian times the accelerations of the joints plus the normal acceleration. -/
structure ComMoves (n : Nat) (c : ℝ → Com ℝ) (a : Nat → ℝ) (t : ℝ) : Prop where
  d1 : HasD (fun s => (c s).com) (c t).speed t
  d2 : HasD (fun s => (c s).speed) (comJ n (c t) a + (c t).nacc) t

/-- The velocity is the derivative of the value, and the derivative of the velocity is the jacobian times the accelerations plus the normal acceleration, for the planes that move as they
say and for those that do not move. -/
theorem C80_derivatives_partial (n : Nat) (c : ℝ → Com ℝ) (a : Nat → ℝ) (l : List (ℝ → Plane ℝ)) (t : ℝ) (hc : ComMoves n c a t) (i : Nat) (q : ℝ → Plane ℝ) (hi : l[i]? = some q)
    (hq : PlaneMoves q t ∨ PlaneStill q) :
    HasDerivAt (fun s => (value (c s) (l.map (fun q => q s))).getD i 0) ((velocity (c t) (l.map (fun q => q t))).getD i 0) t ∧
    HasDerivAt (fun s => (velocity (c s) (l.map (fun q => q s))).getD i 0)
      ((q t).normal.dot (comJ n (c t) a) + (normalAcceleration (c t) (l.map (fun q => q t))).getD i 0) t := by
  have ev : ∀ s, (value (c s) (l.map (fun q => q s))).getD i 0 = (c s).com.dot (q s).normal + (q s).offset := by
    intro s; simp [value, hi]
  have ew : ∀ s, (velocity (c s) (l.map (fun q => q s))).getD i 0 =
      (q s).normal.dot ((c s).speed - (q s).speed) + (q s).normalDot.dot ((c s).com - (q s).point) := by
    intro s; simp [velocity, hi]
  have en : (normalAcceleration (c t) (l.map (fun q => q t))).getD i 0 =
      (q t).normal.dot ((c t).nacc - (q t).accel) + 2 * (q t).normalDot.dot ((c t).speed - (q t).speed) + (q t).normalDotDot.dot ((c t).com - (q t).point) := by
    simp [normalAcceleration, hi]
  simp only [ev, ew, en]
  rcases hq with hq | ⟨q₀, h1, h2, h3, h4, h5⟩
  · constructor
    · have e : (fun s => (c s).com.dot (q s).normal + (q s).offset) = fun s => (q s).normal.dot ((c s).com - (q s).point) := by
        funext s
        have := hq.point s
        simp only [PointOn, On, V3.dot, sub_x, sub_y, sub_z] at this ⊢
        linear_combination this
      rw [e]
      refine (hq.n1.dot (hc.d1.sub hq.p1)).congr_deriv ?_
      ring
    · refine ((hq.n1.dot (hc.d2.sub hq.p2)).add (hq.n2.dot (hc.d1.sub hq.p1))).congr_deriv ?_
      simp only [V3.dot, sub_x, sub_y, sub_z, add_x, add_y, add_z]
      ring
  · simp only [h5, h1, h2, h3, h4]
    constructor
    · refine ((hc.d1.dot (HasD.const q₀.normal t)).add (hasDerivAt_const t q₀.offset)).congr_deriv ?_
      simp only [V3.dot, sub_x, sub_y, sub_z, zero_x, zero_y, zero_z]
      ring
    · refine (((HasD.const q₀.normal t).dot (hc.d2.sub (HasD.const 0 t))).add ((HasD.const 0 t).dot (hc.d1.sub (HasD.const q₀.point t)))).congr_deriv ?_
      simp only [V3.dot, sub_x, sub_y, sub_z, add_x, add_y, add_z, zero_x, zero_y, zero_z]
      ring

/-- The velocity is wrong for a plane positioned by an offset that turns: its point is not on the plane. Here the plane turns about the axis `z`, at the distance 1 of the origin, which is the
centre of mass; the value stays 1 while the velocity is not null. -/
theorem C80_velocity_false : ∃ (q : ℝ → Plane ℝ) (c : Com ℝ), (∀ s, Any (q s)) ∧ HasD (fun s => (q s).normal) (q 0).normalDot 0 ∧ HasD (fun s => (q s).point) (q 0).speed 0 ∧
    (∀ s, value c [q s] = [1]) ∧ velocity c [q 0] ≠ [0] := by
  refine ⟨fun s => (((ofPoint ⟨1, 0, 0⟩ ⟨0, 1, 0⟩).posOffset ⟨1, s, 0⟩ 1).vel ⟨0, 1, 0⟩ 0), ⟨0, 0, fun _ => 0, 0⟩, ?_, ?_, ?_, ?_, ?_⟩
  · exact fun s => .vel _ _ _ (.posOffset _ _ _ (.initPoint _ _))
  · exact ⟨hasDerivAt_const _ _, hasDerivAt_id _, hasDerivAt_const _ _⟩
  · exact HasD.const _ _
  · intro s
    simp [value, ofPoint, Plane.posOffset, Plane.vel, V3.dot]
  · simp [velocity, ofPoint, Plane.posOffset, Plane.vel, V3.dot]

/-- A plane that slides along its normal meets `PlaneMoves`. -/
example : PlaneMoves (fun s => (ofPoint ⟨1, 0, 0⟩ ⟨s, 0, 0⟩).vel 0 ⟨1, 0, 0⟩) 2 :=
  ⟨fun _ => C80_moving_point _ (.vel _ _ _ (.init _ _)), HasD.const _ _, HasD.const _ _,
    ⟨hasDerivAt_id _, hasDerivAt_const _ _, hasDerivAt_const _ _⟩, HasD.const _ _⟩

/-- A plane given by an offset meets `PlaneStill`. -/
example : PlaneStill (fun _ => (ofOffset ⟨1, 0, 0⟩ 3 : Plane ℝ)) := ⟨_, rfl, rfl, rfl, rfl, fun _ => rfl⟩

/-- A centre of mass pushed by one joint meets `ComMoves`. -/
example : ComMoves 1 (fun s => ⟨⟨s, 0, 0⟩, ⟨1, 0, 0⟩, fun _ => ⟨1, 0, 0⟩, 0⟩) (fun _ => 0) 5 := by
  refine ⟨⟨hasDerivAt_id _, hasDerivAt_const _ _, hasDerivAt_const _ _⟩, ?_⟩
  have : comJ 1 ⟨⟨5, 0, 0⟩, ⟨1, 0, 0⟩, fun _ => ⟨1, 0, 0⟩, 0⟩ (fun _ => 0) + (0 : V3 ℝ) = 0 := by
    ext <;> simp [comJ]
  simp only [this]
  exact HasD.const _ _

example : (⟨0, 0, 1⟩ : V3 ℝ).dot ⟨0, 0, 1⟩ = 1 := by simp [V3.dot]

end Verif.C80
