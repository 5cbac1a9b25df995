import Verif.Model.RobotFunctions
import Verif.Properties.C83_FirstOrderProvider
import Verif.Properties.C79_Frame
import Mathlib.Tactic.Ring
import Mathlib.Tactic.Abel
/-!
# C87 - the functions of the state of a robot
-/
set_option autoImplicit false
set_option linter.unusedSectionVars false

namespace Verif.C87
open Verif Verif.Prov Verif.Sva Verif.RF

variable {K : Type} [CommRing K]

/-! ## Contacts -/

/-- The size of the tangent space of a variable -/
abbrev sz (tr : Nat → Range) (v : Nat) : Nat := (tr v).dim.toNat

/-- The product of the jacobians of a provider by velocities of the variables `l`; `none` if there is no jacobian for one of them -/
def product (tr : Nat → Range) (m : VMap (Mat K)) (dq : Nat → Nat → K) (i : Nat) : List Nat → Option K
  | [] => some 0
  | v :: l =>
    match find m v, product tr m dq i l with
    | some M, some s => some (∑ c ∈ Finset.range (sz tr v), M.at_ i c * dq v c + s)
    | _, _ => none

/-- The product of a whole jacobian by the velocities of the variables of a robot -/
def whole (tr : Nat → Range) (J : Mat K) (dq : Nat → Nat → K) (q : List Nat) (i : Nat) : K :=
  ∑ c ∈ Finset.range (C83.total (sz tr) q), J.at_ i c * C83.concat (sz tr) dq q c

theorem splitLoop_ok (tr : Nat → Range) (tn : ∀ v, 0 ≤ (tr v).dim) (J : Mat K) : ∀ (l : List Nat) (s : Nat) (j : VMap (Mat K)), s + C83.total (sz tr) l ≤ J.cols → ∃ j', splitLoop tr J s l j = some j' := by
  intro l
  induction l with
  | nil => intro s j _; exact ⟨j, rfl⟩
  | cons v l ih =>
    intro s j h
    have h' : s + (sz tr v + C83.total (sz tr) l) ≤ J.cols := by
      have : C83.total (sz tr) (v :: l) = sz tr v + C83.total (sz tr) l := by simp [C83.total]
      omega
    have hv := tn v
    unfold splitLoop Mat.middle
    rw [if_pos ⟨by simp, hv, by show ((s : Int) + (tr v).dim ≤ _); unfold sz at h'; omega⟩]
    exact ih _ _ (by unfold sz at h' ⊢; omega)

theorem split_ok (tr : Nat → Range) (tn : ∀ v, 0 ≤ (tr v).dim) (P : Provider K) (J : Mat K) (l : List Nat) (h : J.cols = C83.total (sz tr) l) : ∃ P', P.split tr J l = .ok P' () := by
  obtain ⟨j, e⟩ := splitLoop_ok tr tn J l 0 P.jac (by omega)
  unfold Provider.split
  rw [e]
  exact ⟨_, rfl⟩

theorem product_of (tr : Nat → Range) (m : VMap (Mat K)) (dq : Nat → Nat → K) (i : Nat) (jac : Nat → Mat K) : ∀ (l : List Nat), (∀ v ∈ l, find m v = some (jac v)) →
    product tr m dq i l = some ((l.map (fun v => ∑ c ∈ Finset.range (sz tr v), (jac v).at_ i c * dq v c)).sum) := by
  intro l
  induction l with
  | nil => intro _; rfl
  | cons v l ih =>
    intro h
    unfold product
    rw [h v List.mem_cons_self, ih fun w hw => h w (List.mem_cons_of_mem _ hw)]
    simp

theorem product_congr (tr : Nat → Range) (m m' : VMap (Mat K)) (dq : Nat → Nat → K) (i : Nat) : ∀ (l : List Nat), (∀ v ∈ l, find m' v = find m v) → product tr m' dq i l = product tr m dq i l := by
  intro l
  induction l with
  | nil => intro _; rfl
  | cons v l ih =>
    intro h
    unfold product
    rw [h v List.mem_cons_self, ih fun w hw => h w (List.mem_cons_of_mem _ hw)]

/-- Splitting a jacobian over the variables of a robot keeps the product, and the jacobians of the other variables. -/
theorem split_product (tr : Nat → Range) (tn : ∀ v, 0 ≤ (tr v).dim) (P : Provider K) (J : Mat K) (l : List Nat) (hn : l.Nodup) (h : J.cols = C83.total (sz tr) l) :
    ∃ P', P.split tr J l = .ok P' () ∧ (∀ w, w ∉ l → find P'.jac w = find P.jac w) ∧ ∀ (dq : Nat → Nat → K) (i : Nat), product tr P'.jac dq i l = some (whole tr J dq l i) := by
  obtain ⟨P', e⟩ := split_ok tr tn P J l h
  obtain ⟨h1, jac, h2, h3⟩ := C83.C83_split tr tn P P' J l hn e
  refine ⟨P', e, h1, fun dq i => ?_⟩
  rw [product_of tr P'.jac dq i jac l fun v hv => (h2 v hv).1, h3 dq i]
  rfl

theorem product_append (tr : Nat → Range) (m : VMap (Mat K)) (dq : Nat → Nat → K) (i : Nat) (a b : K) : ∀ (l l' : List Nat), product tr m dq i l = some a → product tr m dq i l' = some b →
    product tr m dq i (l ++ l') = some (a + b) := by
  intro l
  induction l generalizing a with
  | nil => intro l' h h'; rw [← Option.some.inj h, List.nil_append, h', zero_add]
  | cons v l ih =>
    intro l' h h'
    rw [List.cons_append]
    unfold product at h ⊢
    cases hf : find m v with
    | none => simp [hf] at h
    | some M =>
      cases hp : product tr m dq i l with
      | none => simp [hf, hp] at h
      | some s =>
        simp only [hf, hp] at h
        rw [ih s l' hp h']
        simp only
        rw [← Option.some.inj h, add_assoc]

theorem whole_mul (tr : Nat → Range) (D : Nat → Nat → K) (J : Mat K) (dq : Nat → Nat → K) (q : List Nat) (i : Nat) : whole tr (mulMat D J) dq q i = mulVec6 D (whole tr J dq q) i := by
  unfold whole mulMat mulVec6
  simp only [Finset.sum_mul, Finset.mul_sum]
  rw [Finset.sum_comm]
  apply Finset.sum_congr rfl
  intro k _
  apply Finset.sum_congr rfl
  intro c _
  rw [mul_assoc]

theorem whole_neg (tr : Nat → Range) (J : Mat K) (dq : Nat → Nat → K) (q : List Nat) (i : Nat) : whole tr (negMat J) dq q i = -whole tr J dq q i := by
  unfold whole negMat
  simp only [neg_mul, Finset.sum_neg_distrib]

/-- The variables of the contact: those of the robots that can move -/
def used (s1 s2 : Side) : List Nat := (if s1.dof > 0 then s1.q else []) ++ (if s2.dof > 0 then s2.q else [])

/-- For frames on different robots, the product of the jacobians by the velocities of the robots is the velocity of the function, when the velocities of the frames are the products of
their jacobians. -/
theorem C87_contact_partial (tr : Nat → Range) (tn : ∀ v, 0 ≤ (tr v).dim) (D : Nat → Nat → K) (s1 s2 : Side) (J1 J2 : Mat K) (P : Provider K) (n1 : s1.q.Nodup) (n2 : s2.q.Nodup)
    (hd : ∀ v ∈ s1.q, v ∉ s2.q) (c1 : J1.cols = C83.total (sz tr) s1.q) (c2 : J2.cols = C83.total (sz tr) s2.q) :
    ∃ P', contactJacobian tr D s1 s2 J1 J2 P = .ok P' () ∧ ∀ (dq : Nat → Nat → K) (i : Nat),
      product tr P'.jac dq i (used s1 s2) = some (contactVelocity D s1 s2 (whole tr J1 dq s1.q) (whole tr J2 dq s2.q) i) := by
  have first : ∃ P1, (if s1.dof > 0 then P.split tr (mulMat D J1) s1.q else .ok P ()) = .ok P1 () ∧ ∀ (dq : Nat → Nat → K) (i : Nat),
      product tr P1.jac dq i (if s1.dof > 0 then s1.q else []) = some (if s1.dof > 0 then 0 + mulVec6 D (whole tr J1 dq s1.q) i else 0) := by
    by_cases h : s1.dof > 0
    · obtain ⟨P1, e, _, h2⟩ := split_product tr tn P (mulMat D J1) s1.q n1 c1
      refine ⟨P1, by rw [if_pos h]; exact e, fun dq i => ?_⟩
      rw [if_pos h, if_pos h, h2, whole_mul, zero_add]
    · exact ⟨P, by rw [if_neg h], fun dq i => by rw [if_neg h, if_neg h]; rfl⟩
  obtain ⟨P1, e1, p1⟩ := first
  unfold contactJacobian
  rw [e1]
  simp only
  by_cases h : s2.dof > 0
  · obtain ⟨P2, e, hk, h2⟩ := split_product tr tn P1 (negMat (mulMat D J2)) s2.q n2 c2
    refine ⟨P2, by rw [if_pos h]; exact e, fun dq i => ?_⟩
    unfold used contactVelocity
    simp only
    rw [if_pos h, if_pos h, sub_eq_add_neg]
    refine product_append tr P2.jac dq i _ _ _ _ ?_ ?_
    · rw [product_congr tr P1.jac P2.jac dq i _ ?_]
      · exact p1 dq i
      · intro v hv
        apply hk
        by_cases h1 : s1.dof > 0
        · rw [if_pos h1] at hv; exact hd v hv
        · rw [if_neg h1] at hv; cases hv
    · rw [h2, whole_neg, whole_mul]
  · refine ⟨P1, by rw [if_neg h], fun dq i => ?_⟩
    unfold used contactVelocity
    simp only
    rw [if_neg h, if_neg h, List.append_nil]
    exact p1 dq i

/-- Both frames on the same robot: the second split replaces the jacobians of the first. Here both frames move together, the velocity is null, and the jacobian is not. -/
theorem C87_contact_false : ∃ P' : Provider Int, contactJacobian (fun _ => ⟨0, 1⟩) (fun _ _ => 1) ⟨1, [0]⟩ ⟨1, [0]⟩ ⟨6, 1, fun _ _ => 1⟩ ⟨6, 1, fun _ _ => 1⟩ (Prov.make 6) = .ok P' () ∧
    product (fun _ => ⟨0, 1⟩) P'.jac (fun _ _ => 1) 0 [0] = some (-6) ∧
    contactVelocity (fun _ _ => 1) ⟨1, [0]⟩ ⟨1, [0]⟩ (whole (fun _ => ⟨0, 1⟩) (⟨6, 1, fun _ _ => 1⟩ : Mat Int) (fun _ _ => 1) [0])
      (whole (fun _ => ⟨0, 1⟩) (⟨6, 1, fun _ _ => 1⟩ : Mat Int) (fun _ _ => 1) [0]) 0 = 0 := by
  exact ⟨_, rfl, by decide, by decide⟩

/-- A contact between two robots with different variables -/
example : ∃ (s1 s2 : Side), s1.q.Nodup ∧ s2.q.Nodup ∧ (∀ v ∈ s1.q, v ∉ s2.q) ∧ s1.dof > 0 ∧ s2.dof > 0 ∧ C83.total (sz (fun v => ⟨0, v⟩)) s1.q = 7 :=
  ⟨⟨7, [6, 1]⟩, ⟨3, [0, 3]⟩, by decide, by decide, by decide, by decide, by decide, by decide⟩

/-! ## Centre of mass -/

/-- The value is zero right after a reset, and otherwise tells the distance to the target. -/
theorem C87_com_value (f : CoM K) (com com' : V3 K) : (f.reset com).value com = 0 ∧ (f.reset com).value com' = com' - com := by
  constructor
  · ext <;> simp [CoM.reset, CoM.value]
  · rfl

/-- After the update of the jacobians, their product by velocities is the one of the jacobian of RBDyn. -/
theorem C87_com_jacobian (tr : Nat → Range) (tn : ∀ v, 0 ≤ (tr v).dim) (f : CoM K) (J : Mat K) (q : List Nat) (hn : q.Nodup) (h : J.cols = C83.total (sz tr) q) :
    ∃ f', f.updateJacobian tr J q = .ok f' () ∧ f'.target = f.target ∧ ∀ (dq : Nat → Nat → K) (i : Nat), product tr f'.P.jac dq i q = some (whole tr J dq q i) := by
  obtain ⟨P', e, _, h2⟩ := split_product tr tn f.P J q hn h
  unfold CoM.updateJacobian
  rw [e]
  exact ⟨_, rfl, rfl, h2⟩

/-- The update of the derivative of the jacobians replaces the jacobians and does not change the derivative. -/
theorem C87_jdot_false (tr : Nat → Range) (tn : ∀ v, 0 ≤ (tr v).dim) (f : CoM K) (JD : Mat K) (q : List Nat) (hn : q.Nodup) (h : JD.cols = C83.total (sz tr) q) :
    ∃ f', f.updateJDot tr JD q = .ok f' () ∧ f'.jdot = f.jdot ∧ ∀ (dq : Nat → Nat → K) (i : Nat), product tr f'.P.jac dq i q = some (whole tr JD dq q i) := by
  obtain ⟨P', e, _, h2⟩ := split_product tr tn f.P JD q hn h
  unfold CoM.updateJDot
  rw [e]
  exact ⟨_, rfl, rfl, h2⟩

/-- In a case: the jacobian was 1, after both updates it is the derivative 5. -/
example : ∃ f1 f2 : CoM Int, CoM.updateJacobian (fun _ => ⟨0, 1⟩) ⟨0, Prov.make 3, []⟩ ⟨3, 1, fun _ _ => 1⟩ [0] = .ok f1 () ∧
    CoM.updateJDot (fun _ => ⟨0, 1⟩) f1 ⟨3, 1, fun _ _ => 5⟩ [0] = .ok f2 () ∧ product (fun _ => ⟨0, 1⟩) f1.P.jac (fun _ _ => 1) 0 [0] = some 1 ∧
    product (fun _ => ⟨0, 1⟩) f2.P.jac (fun _ _ => 1) 0 [0] = some 5 := ⟨_, _, rfl, rfl, by decide, by decide⟩

/-! ## Position -/

/-- For the frame of the body, the velocity is the derivative of the value, whatever the target. -/
theorem C87_position_partial (target : V3 ℝ) (X : ℝ → PT ℝ) (m : MV ℝ) (j : Nat → MV ℝ) (t : ℝ) (h : C79.Moves X m t) :
    HasD (fun s => positionValue target PT.one ⟨X s, m, j⟩) (positionVelocity PT.one ⟨X t, m, j⟩) t := by
  have hv : positionVelocity PT.one (⟨X t, m, j⟩ : Fr.Body ℝ) = m.v - 0 := by
    ext <;> simp [positionVelocity, Fr.velocity, PT.one, PT.mulMV, M3.one, M3.mulVec, V3.dot, V3.cross]
  have hp : (fun s => positionValue target PT.one (⟨X s, m, j⟩ : Fr.Body ℝ)) = fun s => (X s).r - target := by
    funext s
    ext <;> simp [positionValue, Fr.position, PT.one, PT.mul, M3.tr, M3.mulVec, V3.dot]
  rw [hv, hp]
  exact h.origin.sub (HasD.const target t)

/-- The velocity is the product of the jacobian by the velocities, for the frame of the body. -/
theorem C87_position_jacobian (n : Nat) (b : Fr.Body K) (a : Nat → K) (h : b.vel = C79.times n b.jac a) :
    positionVelocity PT.one b = (C79.times n (fun c => ⟨0, positionJacobian PT.one b c⟩) a).v := by
  have hv : positionVelocity PT.one b = b.vel.v := by
    ext <;> simp [positionVelocity, Fr.velocity, PT.one, PT.mulMV, M3.one, M3.mulVec, V3.dot, V3.cross]
  have hj : ∀ c, positionJacobian PT.one b c = (b.jac c).v := by
    intro c
    ext <;> simp [positionJacobian, Fr.jacobian, Fr.negM, Fr.hat, PT.one, M3.mulVec, M3.tr, V3.dot]
  rw [hv, h]
  simp only [hj]
  rfl

/-- For a frame at the distance 1 of the origin of a body that turns, the position changes but its jacobian is null. -/
theorem C87_position_false : let b : Fr.Body Int := ⟨PT.one, ⟨⟨0, 0, 1⟩, 0⟩, fun _ => ⟨⟨0, 0, 1⟩, 0⟩⟩
    b.vel = C79.times 1 b.jac (fun _ => 1) ∧ positionVelocity ⟨M3.one, ⟨1, 0, 0⟩⟩ b = ⟨0, 1, 0⟩ ∧ positionJacobian ⟨M3.one, ⟨1, 0, 0⟩⟩ b 0 = 0 := by
  decide

/-! ## Posture -/

/-- The vectors of a joint have the sizes of the joint, which has at most one degree of freedom. -/
def Simple (j : PJoint K) : Prop := j.dof ≤ 1 ∧ j.q.length = j.dof ∧ j.alpha.length = j.dof ∧ j.target.length = j.dof

/-- The vectors of all the joints one after the other, as in the variables of the robot -/
def flat (f : PJoint K → List K) (js : List (PJoint K)) : List K := (js.map f).flatten

/-- `v'` is `v` with the list written from `pos` -/
def Written (v v' : Rob.EVec K) (pos : Nat) (l : List K) : Prop :=
  v'.size = v.size ∧ ∀ n, v'.v n = if h : pos ≤ n ∧ n - pos < l.length then l[n - pos]'h.2 else v.v n

theorem written_nil (v : Rob.EVec K) (pos : Nat) : Written v v pos [] := ⟨rfl, fun n => by simp⟩

theorem written_cons (v v1 v2 : Rob.EVec K) (pos : Nat) (a : K) (l : List K) (h : RF.set v pos a = some v1) (h2 : Written v1 v2 (pos + 1) l) : Written v v2 pos (a :: l) := by
  unfold RF.set Rob.EVec.set at h
  by_cases hc : 0 ≤ (pos : Int) ∧ (pos : Int) < v.size
  · rw [if_pos hc] at h
    obtain ⟨s2, w2⟩ := h2
    rw [← Option.some.inj h] at s2 w2
    refine ⟨s2, fun n => ?_⟩
    rw [w2 n]
    by_cases hn : pos + 1 ≤ n ∧ n - (pos + 1) < l.length
    · rw [dif_pos hn, dif_pos ⟨by omega, by rw [List.length_cons]; omega⟩]
      have : n - pos = (n - (pos + 1)) + 1 := by omega
      simp only [this, List.getElem_cons_succ]
    · rw [dif_neg hn]
      by_cases he : n = pos
      · subst he; simp
      · rw [dif_neg (by rw [List.length_cons]; omega)]
        show (if (n : Int) = pos then a else v.v n) = _
        rw [if_neg (by omega)]
  · rw [if_neg hc] at h; cases h

theorem set_ok (v : Rob.EVec K) (pos : Nat) (a : K) (h : pos < v.size) : ∃ v1, RF.set v pos a = some v1 ∧ v1.size = v.size := by
  unfold RF.set Rob.EVec.set
  rw [if_pos ⟨by omega, by omega⟩]
  exact ⟨_, rfl, rfl⟩

theorem written_append (v v1 v2 : Rob.EVec K) (pos : Nat) (l l' : List K) (h : Written v v1 pos l) (h2 : Written v1 v2 (pos + l.length) l') : Written v v2 pos (l ++ l') := by
  obtain ⟨s1, w1⟩ := h
  obtain ⟨s2, w2⟩ := h2
  refine ⟨s2.trans s1, fun n => ?_⟩
  rw [w2 n]
  by_cases hn : pos + l.length ≤ n ∧ n - (pos + l.length) < l'.length
  · rw [dif_pos hn, dif_pos ⟨by omega, by rw [List.length_append]; omega⟩]
    rw [List.getElem_append_right (by omega)]
    congr 1; omega
  · rw [dif_neg hn, w1 n]
    by_cases hm : pos ≤ n ∧ n - pos < l.length
    · rw [dif_pos hm, dif_pos ⟨hm.1, by rw [List.length_append]; omega⟩, List.getElem_append_left hm.2]
    · rw [dif_neg hm, dif_neg (by rw [List.length_append]; omega)]

theorem writeAll_spec : ∀ (l : List K) (pos : Nat) (v : Rob.EVec K), pos + l.length ≤ v.size → ∃ v', writeAll pos l v = some v' ∧ Written v v' pos l := by
  intro l
  induction l with
  | nil => intro pos v _; exact ⟨v, rfl, written_nil v pos⟩
  | cons a l ih =>
    intro pos v h
    rw [List.length_cons] at h
    obtain ⟨v1, e1, s1⟩ := set_ok v pos a (by omega)
    obtain ⟨v2, e2, w2⟩ := ih (pos + 1) v1 (by rw [s1]; omega)
    refine ⟨v2, ?_, written_cons v v1 v2 pos a l e1 w2⟩
    unfold writeAll
    rw [e1]
    exact e2

/-- The velocity is made of the velocities of all the joints, one after the other. -/
theorem C87_posture_velocity (js : List (PJoint K)) (v : Rob.EVec K) (h : (flat PJoint.alpha js).length ≤ v.size) :
    ∃ v', postureVelocity 0 js v = some v' ∧ v'.size = v.size ∧ ∀ (n : Nat) (hn : n < (flat PJoint.alpha js).length), v'.v n = (flat PJoint.alpha js)[n] := by
  have key : ∀ (js : List (PJoint K)) (pos : Nat) (v : Rob.EVec K), pos + (flat PJoint.alpha js).length ≤ v.size →
      ∃ v', postureVelocity pos js v = some v' ∧ Written v v' pos (flat PJoint.alpha js) := by
    intro js
    induction js with
    | nil => intro pos v _; exact ⟨v, rfl, written_nil v pos⟩
    | cons j l ih =>
      intro pos v hs
      have hf : flat PJoint.alpha (j :: l) = j.alpha ++ flat PJoint.alpha l := by simp [flat]
      rw [hf, List.length_append] at hs
      obtain ⟨v1, e1, w1⟩ := writeAll_spec j.alpha pos v (by omega)
      obtain ⟨v2, e2, w2⟩ := ih (pos + j.alpha.length) v1 (by rw [w1.1]; omega)
      refine ⟨v2, ?_, by rw [hf]; exact written_append v v1 v2 pos _ _ w1 w2⟩
      unfold postureVelocity
      rw [e1]
      exact e2
  obtain ⟨v', e, s, w⟩ := key js 0 v (by omega)
  exact ⟨v', e, s, fun n hn => by rw [w n, dif_pos ⟨Nat.zero_le n, by simpa using hn⟩]; simp⟩

/-- For joints with at most one degree of freedom, the value is the difference between the configuration of the joints and the target: its derivative is the velocity of
`C87_posture_velocity`, and the jacobian is the identity. -/
theorem C87_posture_partial (js : List (PJoint K)) (v : Rob.EVec K) (hj : ∀ j ∈ js, Simple j) (h : (flat PJoint.q js).length ≤ v.size) :
    (flat PJoint.target js).length = (flat PJoint.q js).length ∧ (flat PJoint.alpha js).length = (flat PJoint.q js).length ∧
    ∃ v', postureValue 0 js v = some v' ∧ v'.size = v.size ∧
      ∀ (n : Nat) (hn : n < (flat PJoint.q js).length) (hn' : n < (flat PJoint.target js).length), v'.v n = (flat PJoint.q js)[n] - (flat PJoint.target js)[n] := by
  have lens : ∀ (js : List (PJoint K)), (∀ j ∈ js, Simple j) → (flat PJoint.target js).length = (flat PJoint.q js).length ∧ (flat PJoint.alpha js).length = (flat PJoint.q js).length := by
    intro js
    induction js with
    | nil => intro _; exact ⟨rfl, rfl⟩
    | cons j l ih =>
      intro hj
      obtain ⟨a, b⟩ := ih fun k hk => hj k (List.mem_cons_of_mem _ hk)
      obtain ⟨_, h1, h2, h3⟩ := hj j List.mem_cons_self
      simp only [flat, List.map_cons, List.flatten_cons, List.length_append] at a b ⊢
      omega
  have key : ∀ (js : List (PJoint K)) (pos : Nat) (v : Rob.EVec K), (∀ j ∈ js, Simple j) → pos + (flat PJoint.q js).length ≤ v.size →
      ∃ v', postureValue pos js v = some v' ∧ Written v v' pos (List.zipWith (fun a b => a - b) (flat PJoint.q js) (flat PJoint.target js)) := by
    intro js
    induction js with
    | nil => intro pos v _ _; exact ⟨v, rfl, written_nil v pos⟩
    | cons j l ih =>
      intro pos v hj hs
      have hf : flat PJoint.q (j :: l) = j.q ++ flat PJoint.q l := by simp [flat]
      have hft : flat PJoint.target (j :: l) = j.target ++ flat PJoint.target l := by simp [flat]
      obtain ⟨h0, h1, h2, h3⟩ := hj j List.mem_cons_self
      have hj' : ∀ k ∈ l, Simple k := fun k hk => hj k (List.mem_cons_of_mem _ hk)
      rw [hf, List.length_append] at hs
      rw [hf, hft]
      by_cases hd : j.dof = 1
      · rw [hd] at h1 h3
        obtain ⟨a, ea⟩ := List.length_eq_one_iff.1 h1
        obtain ⟨b, eb⟩ := List.length_eq_one_iff.1 h3
        obtain ⟨v1, e1, s1⟩ := set_ok v pos (a - b) (by omega)
        obtain ⟨v2, e2, w2⟩ := ih (pos + 1) v1 hj' (by rw [s1]; omega)
        refine ⟨v2, ?_, ?_⟩
        · unfold postureValue
          rw [if_pos hd, ea, eb]
          simp only [List.getElem?_cons_zero]
          rw [e1]
          exact e2
        · rw [ea, eb]
          simp only [List.cons_append, List.nil_append, List.zipWith_cons_cons]
          exact written_cons v v1 v2 pos _ _ e1 w2
      · have hz : j.dof = 0 := by omega
        rw [hz] at h1 h3
        have ea := List.length_eq_zero_iff.1 h1
        have eb := List.length_eq_zero_iff.1 h3
        obtain ⟨v2, e2, w2⟩ := ih pos v hj' (by omega)
        refine ⟨v2, ?_, by rw [ea, eb]; exact w2⟩
        unfold postureValue
        rw [if_neg hd, if_neg (by omega)]
        exact e2
  obtain ⟨l1, l2⟩ := lens js hj
  refine ⟨l1, l2, ?_⟩
  obtain ⟨v', e, s, w⟩ := key js 0 v hj (by omega)
  refine ⟨v', e, s, fun n hn hn' => ?_⟩
  rw [w n, dif_pos ⟨Nat.zero_le n, by simp; omega⟩]
  simp

/-- For joints with at most one degree of freedom, the jacobian times the velocities of the joints is the velocity of the function, and between two configurations with the same target the
jacobian times the displacement is the change of value. -/
theorem C87_posture_jacobian (js js' : List (PJoint K)) (w v v' : Rob.EVec K) (hj : ∀ j ∈ js, Simple j) (hj' : ∀ j ∈ js', Simple j)
    (ht : flat PJoint.target js' = flat PJoint.target js) (hl : (flat PJoint.q js').length = (flat PJoint.q js).length) (h : (flat PJoint.q js).length ≤ w.size)
    (e : postureValue 0 js w = some v) (e' : postureValue 0 js' w = some v') (n : Nat) (hn : n < (flat PJoint.q js).length) :
    (∃ x, postureVelocity 0 js w = some x ∧
      x.v n = ∑ c ∈ Finset.range (flat PJoint.q js).length, (postureJacobian (flat PJoint.q js).length : Mat K).at_ n c * (flat PJoint.alpha js).getD c 0) ∧
    v'.v n - v.v n = ∑ c ∈ Finset.range (flat PJoint.q js).length,
      (postureJacobian (flat PJoint.q js).length : Mat K).at_ n c * ((flat PJoint.q js').getD c 0 - (flat PJoint.q js).getD c 0) := by
  have row : ∀ f : Nat → K, ∑ c ∈ Finset.range (flat PJoint.q js).length, (postureJacobian (flat PJoint.q js).length : Mat K).at_ n c * f c = f n := by
    intro f
    rw [Finset.sum_eq_single n]
    · simp [postureJacobian]
    · intro c _ hc
      simp [postureJacobian, Ne.symm hc]
    · intro hc
      exact absurd (Finset.mem_range.2 hn) hc
  obtain ⟨lt, la, u, eu, _, hu⟩ := C87_posture_partial js w hj h
  obtain ⟨lt', _, u', eu', _, hu'⟩ := C87_posture_partial js' w hj' (by rw [hl]; exact h)
  obtain rfl : u = v := Option.some.inj (eu.symm.trans e)
  obtain rfl : u' = v' := Option.some.inj (eu'.symm.trans e')
  obtain ⟨x, ex, _, hx⟩ := C87_posture_velocity js w (by rw [la]; exact h)
  refine ⟨⟨x, ex, ?_⟩, ?_⟩
  · rw [row, hx n (by rw [la]; exact hn)]
    have : n < (flat PJoint.alpha js).length := by rw [la]; exact hn
    simp [this]
  · have hn' : n < (flat PJoint.q js').length := by rw [hl]; exact hn
    rw [row, hu n hn (by rw [lt]; exact hn), hu' n hn' (by rw [lt']; exact hn'), show (flat PJoint.q js').getD n 0 = (flat PJoint.q js')[n] by simp [hn'],
      show (flat PJoint.q js).getD n 0 = (flat PJoint.q js)[n] by simp [hn]]
    simp only [ht]
    ring

/-- After a reset the value is null for such joints. -/
theorem C87_posture_reset (js : List (PJoint K)) (v : Rob.EVec K) (hj : ∀ j ∈ js, Simple j) (h : (flat PJoint.q js).length ≤ v.size) :
    ∃ v', postureValue 0 (postureReset js) v = some v' ∧ ∀ n < (flat PJoint.q js).length, v'.v n = 0 := by
  have hq : flat PJoint.q (postureReset js) = flat PJoint.q js := by simp [flat, postureReset, Function.comp_def]
  have ht : flat PJoint.target (postureReset js) = flat PJoint.q js := by simp [flat, postureReset, Function.comp_def]
  obtain ⟨_, _, v', e, _, w⟩ := C87_posture_partial (postureReset js) v (by
    intro j hjm
    obtain ⟨k, hk, rfl⟩ := List.mem_map.1 hjm
    obtain ⟨a, b, c, d⟩ := hj k hk
    exact ⟨a, b, c, b⟩) (by rw [hq]; exact h)
  refine ⟨v', e, fun n hn => ?_⟩
  rw [w n (by rw [hq]; exact hn) (by rw [ht]; exact hn)]
  simp [hq, ht]

/-- Setting a whole posture: accepted exactly for the sizes of the joints, and then it is the target. -/
theorem C87_posture_set (js : List (PJoint K)) (p : List (List K)) :
    ((∃ js', postureSet js p = some js') ↔ js.map (fun j => j.target.length) = p.map List.length) ∧
    ∀ js', postureSet js p = some js' → js'.map PJoint.target = p ∧ js'.map PJoint.q = js.map PJoint.q ∧ js'.map PJoint.dof = js.map PJoint.dof ∧ js'.map PJoint.alpha = js.map PJoint.alpha := by
  unfold postureSet
  by_cases h : js.map (fun j => j.target.length) = p.map List.length
  · rw [if_pos h]
    refine ⟨⟨fun _ => h, fun _ => ⟨_, rfl⟩⟩, fun js' e => ?_⟩
    rw [← Option.some.inj e]
    have hl : js.length = p.length := by simpa using congrArg List.length h
    clear h e
    induction js generalizing p js' with
    | nil =>
      cases p with
      | nil => exact ⟨rfl, rfl, rfl, rfl⟩
      | cons => simp at hl
    | cons j l ih =>
      cases p with
      | nil => simp at hl
      | cons t p =>
        obtain ⟨a, b, c, d⟩ := ih p (List.zipWith (fun j t => { j with target := t }) l p) (by simpa using hl)
        simp only [List.zipWith_cons_cons, List.map_cons]
        exact ⟨by rw [a], by rw [b], by rw [c], by rw [d]⟩
  · rw [if_neg h]
    exact ⟨⟨fun ⟨_, e⟩ => (by cases e), fun e => absurd e h⟩, fun js' e => (by cases e)⟩

/-- Two revolute joints around a fixed one -/
example : ∀ j ∈ ([⟨1, [2], [3], [5], 0⟩, ⟨0, [], [], [], 0⟩, ⟨1, [7], [11], [13], 0⟩] : List (PJoint Int)), Simple j := by
  intro j hj
  simp only [List.mem_cons, List.not_mem_nil, or_false] at hj
  rcases hj with rfl | rfl | rfl <;> simp [Simple]

/-- With a spherical joint (3 degrees of freedom, 4 parameters) before a revolute joint: the error of the spherical joint is not in the value, the one of the revolute joint is in the first
row, and its velocity in the fourth. -/
theorem C87_posture_false : let js : List (PJoint Int) := [⟨3, [1, 0, 0, 0], [0, 0, 0], [0, 1, 0, 0], ⟨3, 0, 0⟩⟩, ⟨1, [7], [11], [5], 0⟩]
    ∃ v v', postureValue 0 js ⟨4, fun _ => 0⟩ = some v ∧ postureVelocity 0 js ⟨4, fun _ => 0⟩ = some v' ∧ v.v 0 = 2 ∧ v.v 3 = 0 ∧ v'.v 0 = 0 ∧ v'.v 3 = 11 := by
  exact ⟨_, _, rfl, rfl, by decide, by decide, by decide, by decide⟩

end Verif.C87
