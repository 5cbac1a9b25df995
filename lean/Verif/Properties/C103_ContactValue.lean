import Verif.Model.ContactValue
import Verif.Properties.C102_OrientationFunction
/-!
# C103 - the value of a geometric contact
-/
set_option autoImplicit false
set_option linter.unusedSectionVars false

namespace Verif.C103
open Verif Verif.Sva Verif.RF Verif.CV Filter Topology

variable {K : Type} [CommRing K]

/-! ## Specification -/

/-- The values given by successive updates -/
def values (terr : PT K → PT K → MV K) (D : Nat → Nat → K) : State K → List (PT K × PT K) → List (Nat → K)
  | _, [] => []
  | s, p :: l => (s.updateValue terr D p.1 p.2).2 :: values terr D (s.updateValue terr D p.1 p.2).1 l

/-- The rotations (without the reflections) -/
def Rot (E : M3 K) : Prop := E.Ortho ∧ E.a.cross E.b = E.c

/-- What `sva::transformError(X_a_b, X_a_c)` is documented to be: the rotation and the translation from `b` to `c`, in the coordinates of `a` -/
def documented (err : M3 ℝ → M3 ℝ → V3 ℝ) (X Y : PT ℝ) : MV ℝ := ⟨err X.E Y.E, Y.r - X.r⟩

/-- The robot of a frame has no degree of freedom: the frame is fixed -/
def FixedOk (s : Side) (m : MV ℝ) : Prop := s.dof = 0 → m = ⟨0, 0⟩

/-! ## The value -/

/-- What is placed by the second frame is placed by the first one from where the relative position places it. -/
theorem C103_relative (p1 p2 : PT K) (h : p1.E.Ortho) (x : V3 K) : C79.place p2 x = C79.place p1 (C79.place (rel p1 p2) x) := by
  have h2 := h.2
  obtain ⟨⟨⟨a1, a2, a3⟩, ⟨a4, a5, a6⟩, ⟨a7, a8, a9⟩⟩, ⟨r1, r2, r3⟩⟩ := p1
  obtain ⟨⟨⟨b1, b2, b3⟩, ⟨b4, b5, b6⟩, ⟨b7, b8, b9⟩⟩, ⟨s1, s2, s3⟩⟩ := p2
  obtain ⟨x1, x2, x3⟩ := x
  simp only [M3.mul, M3.tr, M3.one, V3.dot, M3.mk.injEq, V3.mk.injEq] at h2
  obtain ⟨⟨h11, h12, h13⟩, ⟨h21, h22, h23⟩, ⟨h31, h32, h33⟩⟩ := h2
  ext <;> simp only [C79.place, rel, PT.mul, PT.inv, M3.mul, M3.tr, M3.mulVec, V3.dot, add_x, add_y, add_z, neg_x, neg_y, neg_z]
  · linear_combination -(s1 + b1 * x1 + b4 * x2 + b7 * x3 - r1) * h11 - (s2 + b2 * x1 + b5 * x2 + b8 * x3 - r2) * h12 - (s3 + b3 * x1 + b6 * x2 + b9 * x3 - r3) * h13
  · linear_combination -(s1 + b1 * x1 + b4 * x2 + b7 * x3 - r1) * h21 - (s2 + b2 * x1 + b5 * x2 + b8 * x3 - r2) * h22 - (s3 + b3 * x1 + b6 * x2 + b9 * x3 - r3) * h23
  · linear_combination -(s1 + b1 * x1 + b4 * x2 + b7 * x3 - r1) * h31 - (s2 + b2 * x1 + b5 * x2 + b8 * x3 - r2) * h32 - (s3 + b3 * x1 + b6 * x2 + b9 * x3 - r3) * h33

/-- All the values are the difference, through the matrix of the degrees of freedom, between the current relative position and the one of the first update, whatever was in
memory before; the first one is null. -/
theorem C103_value (terr : PT K → PT K → MV K) (D : Nat → Nat → K) (x : PT K) (p : PT K × PT K) (l : List (PT K × PT K)) :
    values terr D (make x) (p :: l) = (p :: l).map (fun q i => ∑ k ∈ Finset.range 6, D i k * vec6 (terr (rel q.1 q.2) (rel p.1 p.2)) k) ∧
    ((∀ X, terr X X = ⟨0, 0⟩) → ∀ v, (values terr D (make x) (p :: l)).head? = some v → ∀ i, v i = 0) := by
  have next : ∀ (l : List (PT K × PT K)), values terr D ⟨false, rel p.1 p.2⟩ l = l.map (fun q i => ∑ k ∈ Finset.range 6, D i k * vec6 (terr (rel q.1 q.2) (rel p.1 p.2)) k) := by
    intro l
    induction l with
    | nil => rfl
    | cons q l ih => rw [List.map_cons, ← ih]; rfl
  have all : values terr D (make x) (p :: l) = (p :: l).map (fun q i => ∑ k ∈ Finset.range 6, D i k * vec6 (terr (rel q.1 q.2) (rel p.1 p.2)) k) := by
    rw [List.map_cons, ← next]; rfl
  refine ⟨all, fun h v hv i => ?_⟩
  rw [all, List.map_cons, List.head?_cons] at hv
  cases hv
  refine Finset.sum_eq_zero fun k _ => ?_
  rw [h]
  have : vec6 (⟨0, 0⟩ : MV K) k = 0 := by unfold vec6; split <;> rfl
  rw [this, mul_zero]

theorem mul_assoc' (L M N : M3 K) : (L.mul M).mul N = L.mul (M.mul N) := by
  ext <;> simp only [M3.mul, M3.tr, V3.dot] <;> ring

theorem mulVec_mul (L M : M3 K) (u : V3 K) : (L.mul M).mulVec u = L.mulVec (M.mulVec u) := by
  ext <;> simp only [M3.mul, M3.tr, M3.mulVec, V3.dot] <;> ring

theorem tr_mul (M N : M3 K) : (M.mul N).tr = N.tr.mul M.tr := by
  ext <;> simp only [M3.mul, M3.tr, V3.dot] <;> ring

theorem one_mul' (M : M3 K) : M3.one.mul M = M := by
  ext <;> simp [M3.mul, M3.tr, M3.one, V3.dot]

theorem one_mulVec (u : V3 K) : M3.one.mulVec u = u := by
  ext <;> simp [M3.mulVec, M3.one, V3.dot]

theorem rel_r (p1 p2 : PT K) : (rel p1 p2).r = p1.E.mulVec (p2.r - p1.r) := by
  ext <;> simp only [rel, PT.mul, PT.inv, M3.mulVec, M3.tr, V3.dot, add_x, add_y, add_z, neg_x, neg_y, neg_z, sub_x, sub_y, sub_z] <;> ring

/-- The value does not depend on the placement of the world. -/
theorem C103_world (p1 p2 W : PT K) (h : W.E.Ortho) : rel (p1.mul W) (p2.mul W) = rel p1 p2 := by
  have e : (rel (p1.mul W) (p2.mul W)).E = (rel p1 p2).E := by
    show (p2.E.mul W.E).mul (p1.E.mul W.E).tr = p2.E.mul p1.E.tr
    rw [tr_mul, mul_assoc', ← mul_assoc' W.E, h.1, one_mul']
  have r : (rel (p1.mul W) (p2.mul W)).r = (rel p1 p2).r := by
    rw [rel_r, rel_r]
    show (p1.E.mul W.E).mulVec ((W.r + W.E.tr.mulVec p2.r) - (W.r + W.E.tr.mulVec p1.r)) = _
    have k : (W.r + W.E.tr.mulVec p2.r) - (W.r + W.E.tr.mulVec p1.r) = W.E.tr.mulVec (p2.r - p1.r) := by
      ext <;> simp only [M3.mulVec, V3.dot, add_x, add_y, add_z, sub_x, sub_y, sub_z] <;> ring
    rw [k, mulVec_mul, ← mulVec_mul W.E, h.1, one_mulVec]
  calc rel (p1.mul W) (p2.mul W) = ⟨(rel (p1.mul W) (p2.mul W)).E, (rel (p1.mul W) (p2.mul W)).r⟩ := rfl
    _ = rel p1 p2 := by rw [e, r]

/-! ## The derivative of the value -/

theorem mulVec_deriv {E : ℝ → M3 ℝ} {u : ℝ → V3 ℝ} {w u' : V3 ℝ} {t : ℝ} (ha : HasD (fun s => (E s).a) (w.cross (E t).a) t) (hb : HasD (fun s => (E s).b) (w.cross (E t).b) t)
    (hc : HasD (fun s => (E s).c) (w.cross (E t).c) t) (hu : HasD u u' t) : HasD (fun s => (E s).mulVec (u s)) ((E t).mulVec (u' - w.cross (u t))) t := by
  refine ⟨(ha.dot hu).congr_deriv ?_, (hb.dot hu).congr_deriv ?_, (hc.dot hu).congr_deriv ?_⟩ <;>
    simp only [M3.mulVec, V3.dot, V3.cross, sub_x, sub_y, sub_z] <;> ring

theorem rot_cross (E : M3 ℝ) (h : Rot E) (u v : V3 ℝ) : E.mulVec (u.cross v) = (E.mulVec u).cross (E.mulVec v) := by
  obtain ⟨⟨h1, h2⟩, h3⟩ := h
  obtain ⟨⟨a1, a2, a3⟩, ⟨b1, b2, b3⟩, ⟨c1, c2, c3⟩⟩ := E
  simp only [M3.mul, M3.tr, M3.one, V3.dot, M3.mk.injEq, V3.mk.injEq] at h1 h2
  obtain ⟨⟨g11, g12, g13⟩, ⟨g21, g22, g23⟩, ⟨g31, g32, g33⟩⟩ := h1
  simp only [V3.cross, V3.mk.injEq] at h3
  obtain ⟨k1, k2, k3⟩ := h3
  subst k1 k2 k3
  ext <;> simp only [M3.mulVec, V3.dot, V3.cross]
  · linear_combination -(a1 * (u.y * v.z - u.z * v.y) + a2 * (u.z * v.x - u.x * v.z) + a3 * (u.x * v.y - u.y * v.x)) * g22 +
      (b1 * (u.y * v.z - u.z * v.y) + b2 * (u.z * v.x - u.x * v.z) + b3 * (u.x * v.y - u.y * v.x)) * g12
  · linear_combination -(b1 * (u.y * v.z - u.z * v.y) + b2 * (u.z * v.x - u.x * v.z) + b3 * (u.x * v.y - u.y * v.x)) * g11 +
      (a1 * (u.y * v.z - u.z * v.y) + a2 * (u.z * v.x - u.x * v.z) + a3 * (u.x * v.y - u.y * v.x)) * g12
  · ring

/-- The motion of the second frame relatively to the first one -/
def relMotion (p1 p2 : PT ℝ) (m1 m2 : MV ℝ) : MV ℝ := ⟨p1.E.mulVec (m2.w - m1.w), p1.E.mulVec (m2.v - m1.v - m1.w.cross (p2.r - p1.r))⟩

theorem rel_moves (p1 p2 : ℝ → PT ℝ) (m1 m2 : MV ℝ) (t : ℝ) (h1 : C79.Moves p1 m1 t) (h2 : C79.Moves p2 m2 t) (hr : Rot (p1 t).E) :
    C79.Moves (fun s => rel (p1 s) (p2 s)) (relMotion (p1 t) (p2 t) m1 m2) t := by
  have hE : ∀ e : ℝ → V3 ℝ, HasD e (m2.w.cross (e t)) t → HasD (fun s => (p1 s).E.mulVec (e s)) (((p1 t).E.mulVec (m2.w - m1.w)).cross ((p1 t).E.mulVec (e t))) t := by
    intro e he
    have := mulVec_deriv h1.xaxis h1.yaxis h1.zaxis he
    rw [← rot_cross _ hr]
    have k : m2.w.cross (e t) - m1.w.cross (e t) = (m2.w - m1.w).cross (e t) := by
      ext <;> simp only [V3.cross, sub_x, sub_y, sub_z] <;> ring
    rw [← k]; exact this
  have row : ∀ e : V3 ℝ, ∀ M : M3 ℝ, (⟨e.dot M.tr.tr.a, e.dot M.tr.tr.b, e.dot M.tr.tr.c⟩ : V3 ℝ) = M.mulVec e := by
    intro e M
    ext <;> simp only [M3.mulVec, M3.tr, V3.dot] <;> ring
  have ra : ∀ s, (rel (p1 s) (p2 s)).E.a = (p1 s).E.mulVec (p2 s).E.a := fun s => row _ _
  have rb : ∀ s, (rel (p1 s) (p2 s)).E.b = (p1 s).E.mulVec (p2 s).E.b := fun s => row _ _
  have rc : ∀ s, (rel (p1 s) (p2 s)).E.c = (p1 s).E.mulVec (p2 s).E.c := fun s => row _ _
  refine ⟨?_, ?_, ?_, ?_⟩
  · simp only [rel_r]
    exact mulVec_deriv h1.xaxis h1.yaxis h1.zaxis (h2.origin.sub h1.origin)
  · simp only [ra]; exact hE _ h2.xaxis
  · simp only [rb]; exact hE _ h2.yaxis
  · simp only [rc]; exact hE _ h2.zaxis

theorem turned_back (v : V3 ℝ) (T : M3 ℝ) : C102.turned (-v) (C102.turned v T) = T := by
  rw [C102.turned_mul (-v), C102.turned_mul v T, C102.mul_assoc', ← C102.turned_tr, (C102.turned_one v).1, C102.mul_one']

theorem HasD.neg' {v : ℝ → V3 ℝ} {d : V3 ℝ} {t : ℝ} (h : HasD v d t) : HasD (fun s => -v s) (-d) t := ⟨h.1.neg, h.2.1.neg, h.2.2.neg⟩

/-- The derivative of the error, when the orientation is the initial one: the relative motion in the coordinates of the first frame, where the motion of the origin of the
second frame is relative to the point of the first body that is there. -/
theorem C103_derivative (err : M3 ℝ → M3 ℝ → V3 ℝ) (he : C102.IsError err) (X : PT ℝ) (hX : X.E.Ortho) (p1 p2 : ℝ → PT ℝ) (m1 m2 : MV ℝ) (t : ℝ)
    (h1 : C79.Moves p1 m1 t) (h2 : C79.Moves p2 m2 t) (hr : Rot (p1 t).E) (hn : ∀ᶠ s in 𝓝 t, (rel (p1 s) (p2 s)).E.Ortho ∧ C102.Near (rel (p1 s) (p2 s)).E X.E)
    (h0 : (rel (p1 t) (p2 t)).E = X.E) (d : V3 ℝ) (hd : HasD (fun s => err (rel (p1 s) (p2 s)).E X.E) d t) :
    d = (p1 t).E.mulVec (m1.w - m2.w) ∧ HasD (fun s => X.r - (rel (p1 s) (p2 s)).r) ((p1 t).E.mulVec (m1.v - m2.v + m1.w.cross ((p2 t).r - (p1 t).r))) t := by
  have hm := rel_moves p1 p2 m1 m2 t h1 h2 hr
  constructor
  · have key : ∀ᶠ s in 𝓝 t, (rel (p1 s) (p2 s)).E = C102.turned (-(err (rel (p1 s) (p2 s)).E X.E)) X.E := by
      refine hn.mono fun s hs => ?_
      obtain ⟨ho, v, hv, e⟩ := hs
      have : err (rel (p1 s) (p2 s)).E X.E = v := by
        have := he _ ho v hv
        rw [← e] at this; exact this
      rw [this]
      conv_rhs => rw [e]
      rw [turned_back]
    have k := C102.spin_of_moves X.E hX _ _ _ _ t hm (HasD.neg' hd) key
    have z : err (rel (p1 t) (p2 t)).E X.E = 0 := by
      have := he X.E hX 0 (by rw [C102.len_zero]; exact Real.pi_pos)
      have e0 : C102.turned 0 X.E = X.E := by simp only [C102.turned, C102.turn_zero]
      rw [h0]; rw [e0] at this; exact this
    have z' : -(err (rel (p1 t) (p2 t)).E X.E) = 0 := by rw [z]; ext <;> simp
    rw [z', C102.spin_zero] at k
    have k1 := congrArg V3.x k
    have k2 := congrArg V3.y k
    have k3 := congrArg V3.z k
    simp only [relMotion, M3.mulVec, V3.dot, sub_x, sub_y, sub_z, neg_x, neg_y, neg_z] at k1 k2 k3
    ext <;> simp only [M3.mulVec, V3.dot, sub_x, sub_y, sub_z] <;> linarith
  · obtain ⟨o1, o2, o3⟩ := hm.origin
    refine ⟨(o1.const_sub X.r.x).congr_deriv ?_, (o2.const_sub X.r.y).congr_deriv ?_, (o3.const_sub X.r.z).congr_deriv ?_⟩ <;>
      simp only [relMotion, M3.mulVec, V3.dot, V3.cross, sub_x, sub_y, sub_z, add_x, add_y, add_z] <;> ring

theorem contact_eq (D : Nat → Nat → ℝ) (s1 s2 : Side) (m1 m2 : MV ℝ) (f1 : FixedOk s1 m1) (f2 : FixedOk s2 m2) (i : Nat) :
    contactVelocity D s1 s2 (vec6 m1) (vec6 m2) i = ∑ k ∈ Finset.range 6, D i k * (vec6 m1 k - vec6 m2 k) := by
  have z : ∀ k, vec6 (⟨0, 0⟩ : MV ℝ) k = 0 := by intro k; unfold vec6; split <;> rfl
  have e : ∀ (s : Side) (m : MV ℝ), FixedOk s m → (if s.dof > 0 then mulVec6 D (vec6 m) i else 0) = mulVec6 D (vec6 m) i := by
    intro s m h
    split
    · rfl
    · rw [h (by omega)]; symm; exact Finset.sum_eq_zero fun k _ => by rw [z, mul_zero]
  have e1 := e s1 m1 f1
  have e2 := e s2 m2 f2
  have : contactVelocity D s1 s2 (vec6 m1) (vec6 m2) i = (if s1.dof > 0 then mulVec6 D (vec6 m1) i else 0) - (if s2.dof > 0 then mulVec6 D (vec6 m2) i else 0) := by
    unfold contactVelocity
    simp only
    split <;> split <;> simp
  rw [this, e1, e2]
  unfold mulVec6
  rw [← Finset.sum_sub_distrib]
  exact Finset.sum_congr rfl fun k _ => by ring

theorem sum6 (f : Nat → ℝ) : ∑ k ∈ Finset.range 6, f k = f 0 + f 1 + f 2 + f 3 + f 4 + f 5 := by
  simp only [Finset.sum_range_succ, Finset.sum_range_zero, zero_add]

/-- The velocity is the derivative of the value, for all matrices of the degrees of freedom, when the orientation is the initial one, the first frame is aligned with the world and does not turn
around another point than the origin of the second. -/
theorem C103_partial (err : M3 ℝ → M3 ℝ → V3 ℝ) (he : C102.IsError err) (D : Nat → Nat → ℝ) (X : PT ℝ) (hX : X.E.Ortho) (s1 s2 : Side) (p1 p2 : ℝ → PT ℝ) (m1 m2 : MV ℝ) (t : ℝ)
    (f1 : FixedOk s1 m1) (f2 : FixedOk s2 m2)
    (h1 : C79.Moves p1 m1 t) (h2 : C79.Moves p2 m2 t) (hn : ∀ᶠ s in 𝓝 t, (rel (p1 s) (p2 s)).E.Ortho ∧ C102.Near (rel (p1 s) (p2 s)).E X.E)
    (h0 : (rel (p1 t) (p2 t)).E = X.E) (d : V3 ℝ) (hd : HasD (fun s => err (rel (p1 s) (p2 s)).E X.E) d t)
    (hw : (p1 t).E = M3.one) (hc : m1.w.cross ((p2 t).r - (p1 t).r) = 0) (i : Nat) :
    HasDerivAt (fun s => ((State.mk false X).updateValue (documented err) D (p1 s) (p2 s)).2 i) (contactVelocity D s1 s2 (vec6 m1) (vec6 m2) i) t := by
  have hr : Rot (p1 t).E := by
    rw [hw]
    exact ⟨C102.one_ortho, by ext <;> simp [M3.one, V3.cross]⟩
  obtain ⟨k1, k2⟩ := C103_derivative err he X hX p1 p2 m1 m2 t h1 h2 hr hn h0 d hd
  have one : ∀ u : V3 ℝ, (p1 t).E.mulVec u = u := by
    intro u; rw [hw]; ext <;> simp [M3.one, M3.mulVec, V3.dot]
  rw [one] at k1 k2
  rw [hc] at k2
  rw [k1] at hd
  obtain ⟨a0, a1, a2⟩ := hd
  obtain ⟨b0, b1, b2⟩ := k2
  rw [contact_eq D s1 s2 m1 m2 f1 f2, sum6]
  show HasDerivAt (fun s => ∑ k ∈ Finset.range 6, D i k * vec6 ⟨err (rel (p1 s) (p2 s)).E X.E, X.r - (rel (p1 s) (p2 s)).r⟩ k) _ t
  simp only [sum6]
  refine ((((((a0.const_mul (D i 0)).add (a1.const_mul (D i 1))).add (a2.const_mul (D i 2))).add (b0.const_mul (D i 3))).add (b1.const_mul (D i 4))).add (b2.const_mul (D i 5))).congr_deriv ?_
  simp [vec6]

/-! ## What does not hold -/

def ident (i j : Nat) : ℝ := if i = j then 1 else 0

/-- The quarter turn about `z` -/
def quarter : M3 ℝ := ⟨⟨0, 1, 0⟩, ⟨-1, 0, 0⟩, ⟨0, 0, 1⟩⟩

theorem quarter_rot : Rot quarter := by
  refine ⟨⟨?_, ?_⟩, ?_⟩ <;> ext <;> simp [quarter, M3.mul, M3.tr, M3.one, V3.dot, V3.cross]

/-- A frame with the orientation `E` that goes in the direction of its axis `x` -/
def sliding (E : M3 ℝ) (s : ℝ) : PT ℝ := ⟨E, s • E.a⟩

theorem sliding_moves (E : M3 ℝ) (t : ℝ) : C79.Moves (sliding E) ⟨0, E.a⟩ t := by
  have z : ∀ u : V3 ℝ, (0 : V3 ℝ).cross u = 0 := by intro u; ext <;> simp [V3.cross]
  refine ⟨⟨?_, ?_, ?_⟩, ?_, ?_, ?_⟩
  · exact ((hasDerivAt_id t).mul_const E.a.x).congr_deriv (by simp)
  · exact ((hasDerivAt_id t).mul_const E.a.y).congr_deriv (by simp)
  · exact ((hasDerivAt_id t).mul_const E.a.z).congr_deriv (by simp)
  · rw [z]; exact HasD.const E.a t
  · rw [z]; exact HasD.const E.b t
  · rw [z]; exact HasD.const E.c t

theorem fixed_moves (p : PT ℝ) (t : ℝ) : C79.Moves (fun _ => p) ⟨0, 0⟩ t := by
  have z : ∀ u : V3 ℝ, (0 : V3 ℝ).cross u = 0 := by intro u; ext <;> simp [V3.cross]
  refine ⟨HasD.const _ _, ?_, ?_, ?_⟩ <;> (simp only [z]; exact HasD.const _ _)

/-- Whatever `sva::transformError` computes, the velocity is not the derivative of the value for all motions: the value depends on the relative position only, and the
velocity is in the coordinates of the world. A frame slides along its own axis `x`, the other one is fixed; in the first placement the axis is the one of the world, in the
second one it is the axis `y` of the world. -/
theorem C103_velocity_false (terr : PT ℝ → PT ℝ → MV ℝ) (X : PT ℝ) :
    ∃ E : M3 ℝ, Rot E ∧ C79.Moves (sliding E) ⟨0, E.a⟩ 0 ∧ C79.Moves (fun _ => ⟨E, 0⟩) ⟨0, 0⟩ 0 ∧
      ¬ ∀ i < 6, HasDerivAt (fun s => ((State.mk false X).updateValue terr ident (sliding E s) ⟨E, 0⟩).2 i) (contactVelocity ident ⟨6, [0]⟩ ⟨0, []⟩ (vec6 ⟨0, E.a⟩) (vec6 ⟨0, 0⟩) i) 0 := by
  by_contra hcon
  have all : ∀ E : M3 ℝ, Rot E → ∀ i < 6, HasDerivAt (fun s => ((State.mk false X).updateValue terr ident (sliding E s) ⟨E, 0⟩).2 i) (vec6 ⟨0, E.a⟩ i) 0 := by
    intro E hE
    by_contra h
    refine hcon ⟨E, hE, sliding_moves E 0, fixed_moves _ 0, fun h' => h fun i hi => ?_⟩
    have := h' i hi
    rw [contact_eq _ _ _ _ _ (fun h => by simp at h) (fun _ => rfl)] at this
    refine this.congr_deriv ?_
    rw [sum6]
    have : i = 0 ∨ i = 1 ∨ i = 2 ∨ i = 3 ∨ i = 4 ∨ i = 5 := by omega
    rcases this with h | h | h | h | h | h <;> subst h <;> simp [ident, vec6]
  have id_rot : Rot (M3.one : M3 ℝ) := ⟨C102.one_ortho, by ext <;> simp [M3.one, V3.cross]⟩
  have same : ∀ s, rel (sliding quarter s) ⟨quarter, 0⟩ = rel (sliding M3.one s) ⟨M3.one, 0⟩ := by
    intro s
    ext <;> simp [rel, sliding, PT.mul, PT.inv, M3.mul, M3.mulVec, M3.tr, M3.one, quarter, V3.dot]
  have a := all M3.one id_rot 3 (by omega)
  have b := all quarter quarter_rot 3 (by omega)
  have e : (fun s => ((State.mk false X).updateValue terr ident (sliding quarter s) ⟨quarter, 0⟩).2 3) = fun s => ((State.mk false X).updateValue terr ident (sliding M3.one s) ⟨M3.one, 0⟩).2 3 := by
    funext s
    show mulVec6 ident (vec6 (terr (rel (sliding quarter s) ⟨quarter, 0⟩) X)) 3 = mulVec6 ident (vec6 (terr (rel (sliding M3.one s) ⟨M3.one, 0⟩) X)) 3
    rw [same]
  rw [e] at b
  have := a.unique b
  simp [vec6, M3.one, quarter] at this

/-- With the documented error, when a single direction is kept (the translations along `x`) and the first frame is turned by a quarter from the world: the frame slides in the direction, the value
changes and the velocity is null. -/
theorem C103_dof_false (err : M3 ℝ → M3 ℝ → V3 ℝ) :
    (∀ t, HasDerivAt (fun s => ((State.mk false PT.one).updateValue (documented err) (fun i j => if i = 3 ∧ j = 3 then 1 else 0) (sliding quarter s) ⟨quarter, 0⟩).2 3) 1 t) ∧
    ∀ i, contactVelocity (fun i j => if i = 3 ∧ j = 3 then (1 : ℝ) else 0) ⟨6, [0]⟩ ⟨0, []⟩ (vec6 ⟨0, quarter.a⟩) (vec6 ⟨0, 0⟩) i = 0 := by
  constructor
  · intro t
    have e : (fun s => ((State.mk false PT.one).updateValue (documented err) (fun i j => if i = 3 ∧ j = 3 then 1 else 0) (sliding quarter s) ⟨quarter, 0⟩).2 3) = fun s => s := by
      funext s
      simp [State.updateValue, documented, mulVec6, vec6, rel, sliding, PT.mul, PT.inv, PT.one, M3.mul, M3.mulVec, M3.tr, M3.one, quarter, V3.dot]
    rw [e]
    exact hasDerivAt_id t
  · intro i
    rw [contact_eq _ _ _ _ _ (fun h => by simp at h) (fun _ => rfl), sum6]
    simp [vec6, quarter]

/-! ## Concrete cases -/

/-- The hypotheses of `C103_partial` are met by a frame that slides -/
example (err : M3 ℝ → M3 ℝ → V3 ℝ) (he : C102.IsError err) (D : Nat → Nat → ℝ) (i : Nat) :
    HasDerivAt (fun s => ((State.mk false PT.one).updateValue (documented err) D (sliding M3.one s) ⟨M3.one, 0⟩).2 i)
      (contactVelocity D ⟨6, [0]⟩ ⟨0, []⟩ (vec6 ⟨0, ⟨1, 0, 0⟩⟩) (vec6 ⟨0, 0⟩) i) 0 := by
  have e : ∀ s, (rel (sliding M3.one s) ⟨M3.one, 0⟩).E = (M3.one : M3 ℝ) := fun s => C102.mul_one' _
  refine C103_partial err he D PT.one C102.one_ortho _ _ (sliding M3.one) (fun _ => ⟨M3.one, 0⟩) _ _ 0 (fun h => by simp at h) (fun _ => rfl) (sliding_moves M3.one 0) (fixed_moves _ 0)
    (Eventually.of_forall fun s => ?_) (e 0) 0 ?_ rfl (by ext <;> simp [V3.cross]) i
  · rw [e]
    exact ⟨C102.one_ortho, 0, by rw [C102.len_zero]; exact Real.pi_pos, by simp only [C102.turned, C102.turn_zero]; rfl⟩
  · simp only [e]
    exact HasD.const _ _

end Verif.C103
