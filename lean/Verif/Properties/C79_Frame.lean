import Verif.Model.Frame
import Verif.Lemmas.V3Deriv
import Mathlib.Algebra.BigOperators.Ring.Finset
import Mathlib.Tactic.Ring
import Mathlib.Tactic.NormNum
import Mathlib.Tactic.LinearCombination
/-!
# C79 - position, velocity and jacobian of a frame
-/
set_option autoImplicit false
set_option linter.unusedSectionVars false

namespace Verif.C79
open Verif Verif.Sva Verif.Fr Finset

variable {K : Type} [CommRing K]

/-! ## Specification -/

/-- The point of the world (or of the parent) with the coordinates `p` in the frame placed by `X` -/
def place (X : PT K) (p : V3 K) : V3 K := X.r + X.E.tr.mulVec p

/-- The motion, in the coordinates of the world, of a point at `d` from the origin of a body that moves with `m` -/
def moved (d : V3 K) (m : MV K) : MV K := ⟨m.w, m.v + m.w.cross d⟩

/-- The vector from the origin of the body to the origin of the frame, in the coordinates of the world -/
def arm (xbf : PT K) (b : Body K) : V3 K := b.pos.E.tr.mulVec xbf.r

/-- Product of the jacobian by velocities of the joints -/
def times (n : Nat) (J : Nat → MV K) (a : Nat → K) : MV K :=
  ⟨⟨∑ c ∈ range n, (J c).w.x * a c, ∑ c ∈ range n, (J c).w.y * a c, ∑ c ∈ range n, (J c).w.z * a c⟩,
   ⟨∑ c ∈ range n, (J c).v.x * a c, ∑ c ∈ range n, (J c).v.y * a c, ∑ c ∈ range n, (J c).v.z * a c⟩⟩

/-- What is asked of the velocity and of the jacobian of a frame (Frame.h, lines 24-27: in world coordinates) -/
def VelocityRight (xbf : PT K) (b : Body K) : Prop := velocity xbf b = moved (arm xbf b) b.vel

def JacobianRight (n : Nat) (xbf : PT K) (b : Body K) : Prop := ∀ c < n, jacobian xbf b c = moved (arm xbf b) (b.jac c)

/-! ## Position -/

/-- The position of the frame composes the position of the body and the transformation from the body: a point of the frame is at the same place through the body. -/
theorem C79_position (xbf : PT K) (b : Body K) (p : V3 K) : place (position xbf b) p = place b.pos (place xbf p) := by
  obtain ⟨⟨⟨⟨a1, a2, a3⟩, ⟨a4, a5, a6⟩, ⟨a7, a8, a9⟩⟩, ⟨r1, r2, r3⟩⟩, v, j⟩ := b
  obtain ⟨⟨⟨b1, b2, b3⟩, ⟨b4, b5, b6⟩, ⟨b7, b8, b9⟩⟩, ⟨s1, s2, s3⟩⟩ := xbf
  obtain ⟨p1, p2, p3⟩ := p
  ext <;> simp only [place, position, PT.mul, M3.mul, M3.tr, M3.mulVec, V3.dot, add_x, add_y, add_z] <;> ring

/-! ## The specification of the velocity is the derivative of the position -/

/-- The body moves with the motion `m`: its origin has the linear velocity, and the axes of the body (the rows of the rotation) turn with the angular velocity -/
structure Moves (X : ℝ → PT ℝ) (m : MV ℝ) (t : ℝ) : Prop where
  origin : HasD (fun s => (X s).r) m.v t
  xaxis : HasD (fun s => (X s).E.a) (m.w.cross (X t).E.a) t
  yaxis : HasD (fun s => (X s).E.b) (m.w.cross (X t).E.b) t
  zaxis : HasD (fun s => (X s).E.c) (m.w.cross (X t).E.c) t

/-- When the body moves with `m`, the frame moves with `moved`: the specification is the motion of the position that is computed. -/
theorem C79_moves (xbf : PT ℝ) (X : ℝ → PT ℝ) (m : MV ℝ) (j : Nat → MV ℝ) (t : ℝ) (h : Moves X m t) :
    Moves (fun s => position xbf ⟨X s, m, j⟩) (moved (arm xbf ⟨X t, m, j⟩) m) t := by
  obtain ⟨⟨o1, o2, o3⟩, ⟨x1, x2, x3⟩, ⟨y1, y2, y3⟩, ⟨z1, z2, z3⟩⟩ := h
  have comb : ∀ (p q r : ℝ) (f g h : ℝ → ℝ) (f' g' h' : ℝ), HasDerivAt f f' t → HasDerivAt g g' t → HasDerivAt h h' t →
      HasDerivAt (fun s => f s * p + g s * q + h s * r) (f' * p + g' * q + h' * r) t :=
    fun p q r f g h f' g' h' hf hg hh => ((hf.mul_const p).add (hg.mul_const q)).add (hh.mul_const r)
  have comb' : ∀ (p q r : ℝ) (f g h : ℝ → ℝ) (f' g' h' : ℝ), HasDerivAt f f' t → HasDerivAt g g' t → HasDerivAt h h' t →
      HasDerivAt (fun s => p * f s + q * g s + r * h s) (p * f' + q * g' + r * h') t :=
    fun p q r f g h f' g' h' hf hg hh => ((hf.const_mul p).add (hg.const_mul q)).add (hh.const_mul r)
  have row : ∀ (u : V3 ℝ), HasD (fun s => (⟨u.dot (X s).E.tr.a, u.dot (X s).E.tr.b, u.dot (X s).E.tr.c⟩ : V3 ℝ))
      (m.w.cross ⟨u.dot (X t).E.tr.a, u.dot (X t).E.tr.b, u.dot (X t).E.tr.c⟩) t := by
    intro u
    refine ⟨?_, ?_, ?_⟩
    · have := comb' u.x u.y u.z _ _ _ _ _ _ x1 y1 z1
      refine this.congr_deriv ?_
      simp only [V3.cross, V3.dot, M3.tr]; ring
    · have := comb' u.x u.y u.z _ _ _ _ _ _ x2 y2 z2
      refine this.congr_deriv ?_
      simp only [V3.cross, V3.dot, M3.tr]; ring
    · have := comb' u.x u.y u.z _ _ _ _ _ _ x3 y3 z3
      refine this.congr_deriv ?_
      simp only [V3.cross, V3.dot, M3.tr]; ring
  refine ⟨⟨?_, ?_, ?_⟩, row xbf.E.a, row xbf.E.b, row xbf.E.c⟩
  · have := o1.add (comb xbf.r.x xbf.r.y xbf.r.z _ _ _ _ _ _ x1 y1 z1)
    refine this.congr_deriv ?_
    simp only [moved, arm, M3.mulVec, V3.cross, V3.dot, M3.tr, add_x]; ring
  · have := o2.add (comb xbf.r.x xbf.r.y xbf.r.z _ _ _ _ _ _ x2 y2 z2)
    refine this.congr_deriv ?_
    simp only [moved, arm, M3.mulVec, V3.cross, V3.dot, M3.tr, add_y]; ring
  · have := o3.add (comb xbf.r.x xbf.r.y xbf.r.z _ _ _ _ _ _ x3 y3 z3)
    refine this.congr_deriv ?_
    simp only [moved, arm, M3.mulVec, V3.cross, V3.dot, M3.tr, add_z]; ring

/-- When both are right, the velocity is the product of the jacobian by the velocities of the joints (if it is so for the body). -/
theorem C79_consistent (n : Nat) (xbf : PT K) (b : Body K) (a : Nat → K) (hb : b.vel = times n b.jac a) (hv : VelocityRight xbf b) (hj : JacobianRight n xbf b) :
    velocity xbf b = times n (jacobian xbf b) a := by
  rw [hv, hb]
  have hs : ∀ (f g : Nat → K), (∀ c < n, f c = g c) → ∑ c ∈ range n, f c = ∑ c ∈ range n, g c :=
    fun f g h => Finset.sum_congr rfl (fun c hc => h c (Finset.mem_range.1 hc))
  unfold times moved
  ext
  · exact hs _ _ (fun c hc => by rw [hj c hc]; rfl)
  · exact hs _ _ (fun c hc => by rw [hj c hc]; rfl)
  · exact hs _ _ (fun c hc => by rw [hj c hc]; rfl)
  all_goals
    simp only [V3.cross, add_x, add_y, add_z]
    rw [Finset.sum_mul, Finset.sum_mul, ← Finset.sum_sub_distrib, ← Finset.sum_add_distrib]
    refine hs _ _ (fun c hc => ?_)
    rw [hj c hc]
    simp only [moved, V3.cross, add_x, add_y, add_z]
    ring

/-! ## What the code computes -/

/-- The jacobian is right iff, for each column, the arm has the same vector product with the linear part as with the angular part: line 64 takes the last three rows
of the jacobian instead of the first three. It is right for the frames at the origin of the body. -/
theorem C79_jacobian_partial (n : Nat) (xbf : PT K) (b : Body K) :
    (JacobianRight n xbf b ↔ ∀ c < n, (arm xbf b).cross (b.jac c).v = (arm xbf b).cross (b.jac c).w) ∧ (xbf.r = 0 → JacobianRight n xbf b) := by
  have e : ∀ c, jacobian xbf b c = ⟨(b.jac c).w, (b.jac c).v - (arm xbf b).cross (b.jac c).v⟩ := by
    intro c
    unfold jacobian arm
    ext <;> simp only [negM, hat, M3.mulVec, V3.dot, V3.cross, neg_x, neg_y, neg_z, add_x, add_y, add_z, sub_x, sub_y, sub_z] <;> ring
  have e' : ∀ c, moved (arm xbf b) (b.jac c) = ⟨(b.jac c).w, (b.jac c).v - (arm xbf b).cross (b.jac c).w⟩ := by
    intro c
    unfold moved
    ext <;> simp only [V3.cross, add_x, add_y, add_z, sub_x, sub_y, sub_z] <;> ring
  have key : JacobianRight n xbf b ↔ ∀ c < n, (arm xbf b).cross (b.jac c).v = (arm xbf b).cross (b.jac c).w := by
    refine forall_congr' fun c => forall_congr' fun _ => ?_
    rw [e, e', MV.mk.injEq]
    constructor
    · rintro ⟨_, h⟩
      have hx := congrArg V3.x h; have hy := congrArg V3.y h; have hz := congrArg V3.z h
      simp only [sub_x, sub_y, sub_z] at hx hy hz
      ext
      · exact sub_right_injective hx
      · exact sub_right_injective hy
      · exact sub_right_injective hz
    · intro h; rw [h]; exact ⟨rfl, rfl⟩
  refine ⟨key, fun h => key.2 fun c _ => ?_⟩
  have : arm xbf b = 0 := by
    unfold arm; rw [h]
    ext <;> simp [M3.mulVec, V3.dot]
  rw [this]
  ext <;> simp [V3.cross]

/-- The velocity is right when the frame is the body. In general it is that of the frame neither in the world nor in the frame: line 68 applies the transformation from the
body, which is in the coordinates of the body, to a velocity in the coordinates of the world. -/
theorem C79_velocity_partial (xbf : PT K) (b : Body K) (h : xbf = PT.one) : VelocityRight xbf b := by
  unfold VelocityRight
  subst h
  obtain ⟨p, ⟨⟨w1, w2, w3⟩, ⟨v1, v2, v3⟩⟩, j⟩ := b
  ext <;> simp [velocity, moved, arm, PT.mulMV, PT.one, M3.one, M3.mulVec, V3.dot, V3.cross, M3.tr]

/-- For a frame with the orientation of the body: the velocity is right iff the arm may be taken in the coordinates of the body. -/
theorem C79_velocity_iff_partial (r : V3 K) (b : Body K) : VelocityRight ⟨M3.one, r⟩ b ↔ r.cross b.vel.w = (b.pos.E.tr.mulVec r).cross b.vel.w := by
  have e : velocity ⟨M3.one, r⟩ b = ⟨b.vel.w, b.vel.v - r.cross b.vel.w⟩ := by
    obtain ⟨p, ⟨⟨w1, w2, w3⟩, ⟨v1, v2, v3⟩⟩, j⟩ := b
    ext <;> simp [velocity, PT.mulMV, M3.one, M3.mulVec, V3.dot]
  have e' : moved (arm ⟨M3.one, r⟩ b) b.vel = ⟨b.vel.w, b.vel.v - (b.pos.E.tr.mulVec r).cross b.vel.w⟩ := by
    unfold moved arm
    ext <;> simp only [V3.cross, add_x, add_y, add_z, sub_x, sub_y, sub_z] <;> ring
  unfold VelocityRight
  rw [e, e', MV.mk.injEq]
  constructor
  · rintro ⟨_, h⟩
    have hx := congrArg V3.x h; have hy := congrArg V3.y h; have hz := congrArg V3.z h
    simp only [sub_x, sub_y, sub_z] at hx hy hz
    ext
    · exact sub_right_injective hx
    · exact sub_right_injective hy
    · exact sub_right_injective hz
  · intro h; rw [h]; exact ⟨rfl, rfl⟩

/-- A body that slides along `y`, with a frame ahead of it along `x` and turned by a quarter -/
def quarter : M3 ℚ := ⟨⟨0, 1, 0⟩, ⟨-1, 0, 0⟩, ⟨0, 0, 1⟩⟩
def slide : Body ℚ := ⟨PT.one, ⟨0, ⟨0, 1, 0⟩⟩, fun _ => ⟨0, ⟨0, 1, 0⟩⟩⟩

/-- The claims are false: for a body that slides along one axis, neither the velocity nor the jacobian of a frame ahead of the body is right, nor do they agree. -/
theorem C79_false : ∃ (xbf : PT ℚ) (b : Body ℚ), xbf.E.Ortho ∧ b.pos.E.Ortho ∧ b.vel = times 1 b.jac (fun _ => 1) ∧
    ¬ VelocityRight xbf b ∧ ¬ JacobianRight 1 xbf b ∧ velocity xbf b ≠ times 1 (jacobian xbf b) (fun _ => 1) := by
  refine ⟨⟨quarter, ⟨1, 0, 0⟩⟩, slide, ?_, ?_, ?_, ?_, ?_, ?_⟩
  · constructor <;> (ext <;> norm_num [quarter, M3.mul, M3.tr, M3.one, V3.dot])
  · constructor <;> (ext <;> norm_num [slide, PT.one, M3.mul, M3.tr, M3.one, V3.dot])
  · ext <;> simp [slide, times]
  · intro h
    have := congrArg (fun m => m.v.y) h
    norm_num [velocity, slide, PT.mulMV, moved, arm, quarter, M3.mulVec, V3.dot, V3.cross] at this
  · intro h
    have := congrArg (fun m => m.v.z) (h 0 (by omega))
    norm_num [jacobian, slide, moved, arm, M3.mulVec, V3.dot, V3.cross, M3.tr, PT.one, M3.one, negM, hat] at this
  · intro h
    have := congrArg (fun m => m.v.z) h
    norm_num [velocity, jacobian, slide, times, PT.mulMV, quarter, M3.mulVec, V3.dot, V3.cross, M3.tr, PT.one, M3.one, negM, hat] at this

/-! ## The normal acceleration -/

/-- The acceleration, in the coordinates of the world, of a point at `d` from the origin of a body that moves with `m` and accelerates with `a` -/
def accelerated (d : V3 K) (m a : MV K) : MV K := ⟨a.w, a.v + a.w.cross d + m.w.cross (m.w.cross d)⟩

/-- What is asked of the normal acceleration of a frame, `na` being the one of the body -/
def NormalRight (xbf : PT K) (b : Body K) (na : MV K) : Prop := normalAcceleration xbf na = accelerated (arm xbf b) b.vel na

/-- The specification is the derivative of the specification of the velocity. -/
theorem C79_accelerates (xbf : PT ℝ) (X : ℝ → PT ℝ) (m : ℝ → MV ℝ) (a : MV ℝ) (j : Nat → MV ℝ) (t : ℝ) (h : Moves X (m t) t)
    (hw : HasD (fun s => (m s).w) a.w t) (hv : HasD (fun s => (m s).v) a.v t) :
    HasD (fun s => (moved (arm xbf ⟨X s, m s, j⟩) (m s)).w) (accelerated (arm xbf ⟨X t, m t, j⟩) (m t) a).w t ∧
    HasD (fun s => (moved (arm xbf ⟨X s, m s, j⟩) (m s)).v) (accelerated (arm xbf ⟨X t, m t, j⟩) (m t) a).v t := by
  obtain ⟨_, ⟨x1, x2, x3⟩, ⟨y1, y2, y3⟩, ⟨z1, z2, z3⟩⟩ := h
  obtain ⟨w1, w2, w3⟩ := hw
  obtain ⟨v1, v2, v3⟩ := hv
  have comb : ∀ (p q r : ℝ) (f g h : ℝ → ℝ) (f' g' h' : ℝ), HasDerivAt f f' t → HasDerivAt g g' t → HasDerivAt h h' t →
      HasDerivAt (fun s => f s * p + g s * q + h s * r) (f' * p + g' * q + h' * r) t :=
    fun p q r f g h f' g' h' hf hg hh => ((hf.mul_const p).add (hg.mul_const q)).add (hh.mul_const r)
  have d1 := comb xbf.r.x xbf.r.y xbf.r.z _ _ _ _ _ _ x1 y1 z1
  have d2 := comb xbf.r.x xbf.r.y xbf.r.z _ _ _ _ _ _ x2 y2 z2
  have d3 := comb xbf.r.x xbf.r.y xbf.r.z _ _ _ _ _ _ x3 y3 z3
  refine ⟨⟨w1, w2, w3⟩, ⟨?_, ?_, ?_⟩⟩
  · refine (v1.add ((w2.mul d3).sub (w3.mul d2))).congr_deriv ?_
    simp only [accelerated, arm, M3.mulVec, V3.cross, V3.dot, M3.tr, add_x]; ring
  · refine (v2.add ((w3.mul d1).sub (w1.mul d3))).congr_deriv ?_
    simp only [accelerated, arm, M3.mulVec, V3.cross, V3.dot, M3.tr, add_y]; ring
  · refine (v3.add ((w1.mul d2).sub (w2.mul d1))).congr_deriv ?_
    simp only [accelerated, arm, M3.mulVec, V3.cross, V3.dot, M3.tr, add_z]; ring

/-- The sum of two motion vectors -/
def plus (a b : MV K) : MV K := ⟨a.w + b.w, a.v + b.v⟩

/-- The specification of the normal acceleration is what the acceleration has besides the product of the jacobian by the accelerations of the joints. -/
theorem C79_acceleration (n : Nat) (d : V3 K) (m a na : MV K) (J : Nat → MV K) (ddq : Nat → K) (h : a = plus (times n J ddq) na) :
    accelerated d m a = plus (times n (fun c => moved d (J c)) ddq) (accelerated d m na) := by
  subst h
  have hs : ∀ (f g : Nat → K) (p q : K), ∑ c ∈ range n, (f c * p - g c * q) * ddq c = (∑ c ∈ range n, f c * ddq c) * p - (∑ c ∈ range n, g c * ddq c) * q := by
    intro f g p q
    rw [Finset.sum_mul, Finset.sum_mul, ← Finset.sum_sub_distrib]
    exact Finset.sum_congr rfl fun c _ => by ring
  unfold accelerated plus times moved
  ext <;> simp only [add_x, add_y, add_z, V3.cross, add_mul, Finset.sum_add_distrib, hs]
  all_goals ring

/-- The normal acceleration is right when the frame is the body. -/
theorem C79_normal_partial (xbf : PT K) (b : Body K) (na : MV K) (h : xbf = PT.one) : NormalRight xbf b na := by
  unfold NormalRight
  subst h
  obtain ⟨p, ⟨⟨w1, w2, w3⟩, ⟨v1, v2, v3⟩⟩, j⟩ := b
  ext <;> simp [normalAcceleration, accelerated, arm, PT.mulMV, PT.one, M3.one, M3.mulVec, V3.dot, V3.cross, M3.tr]

/-- For a frame and a body with the orientation of the world, where the coordinates are not in question, the normal acceleration is right iff the centripetal acceleration
of the frame around the origin of the body is null: line 71 leaves it out. -/
theorem C79_normal_iff_partial (r : V3 K) (b : Body K) (na : MV K) (hb : b.pos.E = M3.one) :
    NormalRight ⟨M3.one, r⟩ b na ↔ b.vel.w.cross (b.vel.w.cross r) = 0 := by
  have ha : arm ⟨M3.one, r⟩ b = r := by
    unfold arm
    rw [hb]
    ext <;> simp [M3.mulVec, M3.tr, M3.one, V3.dot]
  have e : normalAcceleration ⟨M3.one, r⟩ na = ⟨na.w, na.v + na.w.cross r⟩ := by
    ext <;> simp only [normalAcceleration, PT.mulMV, M3.one, M3.mulVec, V3.dot, V3.cross, add_x, add_y, add_z, sub_x, sub_y, sub_z] <;> ring
  unfold NormalRight
  rw [e, ha]
  unfold accelerated
  rw [MV.mk.injEq]
  constructor
  · rintro ⟨_, h⟩
    have hx := congrArg V3.x h; have hy := congrArg V3.y h; have hz := congrArg V3.z h
    simp only [add_x, add_y, add_z] at hx hy hz
    ext
    · exact left_eq_add.mp hx
    · exact left_eq_add.mp hy
    · exact left_eq_add.mp hz
  · intro h
    rw [h]
    refine ⟨rfl, ?_⟩
    ext <;> simp

/-- The claim is false: a body that turns around one axis at a constant rate, with a frame away from the axis. -/
theorem C79_normal_false : ∃ (xbf : PT ℚ) (b : Body ℚ), xbf.E.Ortho ∧ b.pos.E.Ortho ∧ ¬NormalRight xbf b ⟨0, 0⟩ := by
  refine ⟨⟨M3.one, ⟨1, 0, 0⟩⟩, ⟨PT.one, ⟨⟨0, 0, 1⟩, 0⟩, fun _ => ⟨⟨0, 0, 1⟩, 0⟩⟩, ?_, ?_, fun h => ?_⟩
  · constructor <;> (ext <;> norm_num [M3.mul, M3.tr, M3.one, V3.dot])
  · constructor <;> (ext <;> norm_num [PT.one, M3.mul, M3.tr, M3.one, V3.dot])
  · have := congrArg V3.x ((C79_normal_iff_partial _ _ _ rfl).mp h)
    norm_num [V3.cross] at this

/-- The hypothesis of `C79_normal_iff_partial` holds for a body that turns around an axis through the frame. -/
example : NormalRight (K := ℚ) ⟨M3.one, ⟨0, 0, 2⟩⟩ ⟨PT.one, ⟨⟨0, 0, 1⟩, 0⟩, fun _ => ⟨⟨0, 0, 1⟩, 0⟩⟩ ⟨0, ⟨1, 0, 0⟩⟩ :=
  (C79_normal_iff_partial _ _ _ rfl).mpr (by ext <;> simp [V3.cross])

/-- The hypothesis of `C79_acceleration` -/
example : (⟨⟨0, 0, 2⟩, ⟨1, 0, 0⟩⟩ : MV ℚ) = plus (times 1 (fun _ => ⟨⟨0, 0, 1⟩, 0⟩) (fun _ => 2)) ⟨0, ⟨1, 0, 0⟩⟩ := by
  ext <;> norm_num [plus, times]

/-- The hypotheses of `C79_consistent` hold for the frame that is the body. -/
example : VelocityRight PT.one slide ∧ JacobianRight 1 PT.one slide ∧ slide.vel = times 1 slide.jac (fun _ => 1) :=
  ⟨C79_velocity_partial _ _ rfl, (C79_jacobian_partial 1 _ _).2 rfl, by ext <;> simp [slide, times]⟩

/-- A body that slides: the hypothesis of `C79_moves` -/
example : Moves (fun s => ⟨M3.one, ⟨0, s, 0⟩⟩) ⟨0, ⟨0, 1, 0⟩⟩ 3 := by
  refine ⟨⟨hasDerivAt_const _ _, hasDerivAt_id _, hasDerivAt_const _ _⟩, ?_, ?_, ?_⟩ <;>
    refine ⟨?_, ?_, ?_⟩ <;> (simp only [V3.cross, M3.one, zero_x, zero_y, zero_z]; refine (hasDerivAt_const _ _).congr_deriv ?_; ring)

end Verif.C79
