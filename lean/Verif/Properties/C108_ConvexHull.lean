import Verif.Model.ConvexHull
import Verif.Properties.C79_Frame
/-!
# C108: the place of a convex hull
-/
set_option autoImplicit false

namespace Verif.C108
open Verif.Sva Verif.Fr Verif.CH Verif.C79

/-! ## Specification -/

section
variable {K : Type} [CommRing K]

/-- Every point of the object of the hull is where the frame of the hull, placed by `X`, says. -/
def Placed (w : World K) (h : Hull K) (X : PT K) : Prop := ∀ p, at_ (w.mat h.obj) p = place X (place h.xfo p)

/-- The square of the distance of two points -/
def dist2 (p q : V3 K) : K := (p.x - q.x) ^ 2 + (p.y - q.y) ^ 2 + (p.z - q.z) ^ 2

/-! ## Theorems -/

/-- After its update, each point of the hull is where its frame says, whatever the object was before. -/
theorem C108_place (m : Nat → Nat → K) (w : World K) (h : Hull K) : Placed (w.update m h) h (w.pos h.frame) := by
  intro p
  obtain ⟨o, f, ⟨⟨⟨b1, b2, b3⟩, ⟨b4, b5, b6⟩, ⟨b7, b8, b9⟩⟩, ⟨s1, s2, s3⟩⟩⟩ := h
  simp only [World.update, if_true]
  generalize w.pos f = X
  obtain ⟨⟨⟨a1, a2, a3⟩, ⟨a4, a5, a6⟩, ⟨a7, a8, a9⟩⟩, ⟨r1, r2, r3⟩⟩ := X
  obtain ⟨p1, p2, p3⟩ := p
  ext <;> simp [at_, transform, entry, coord, place, PT.mul, M3.mul, M3.tr, M3.mulVec, V3.dot] <;> ring

/-- The update of the hulls of a list, in any order, places them all when no two have the same object; the others are not moved. -/
theorem C108_all (m : Nat → Nat → K) (w : World K) (l : List (Hull K)) (hn : (l.map Hull.obj).Nodup) :
    (∀ h ∈ l, Placed (l.foldl (World.update m) w) h (w.pos h.frame)) ∧
    ∀ h : Hull K, h.obj ∉ l.map Hull.obj → ∀ X, Placed w h X → Placed (l.foldl (World.update m) w) h X := by
  induction l generalizing w with
  | nil => exact ⟨by simp, fun h _ X hp => hp⟩
  | cons a l ih =>
    simp only [List.map_cons, List.nodup_cons] at hn
    obtain ⟨i1, i2⟩ := ih (w.update m a) hn.2
    refine ⟨fun h hh => ?_, fun h hh X hp => ?_⟩
    · rcases List.mem_cons.1 hh with rfl | hh
      · exact i2 _ hn.1 _ (C108_place m w _)
      · exact i1 h hh
    · simp only [List.map_cons, List.mem_cons, not_or] at hh
      refine i2 h hh.2 X (fun p => ?_)
      rw [← hp p]
      simp only [World.update, if_neg hh.1]

/-- The points of the hull keep their distances: the hull is placed without deformation. -/
theorem C108_rigid (w : World K) (h : Hull K) (X : PT K) (hp : Placed w h X) (hX : X.E.Ortho) (ho : h.xfo.E.Ortho) (p q : V3 K) :
    dist2 (at_ (w.mat h.obj) p) (at_ (w.mat h.obj) q) = dist2 p q := by
  have key : ∀ (Y : PT K), Y.E.Ortho → ∀ p q, dist2 (place Y p) (place Y q) = dist2 p q := by
    rintro ⟨⟨⟨a1, a2, a3⟩, ⟨a4, a5, a6⟩, ⟨a7, a8, a9⟩⟩, ⟨r1, r2, r3⟩⟩ ⟨h, -⟩ ⟨p1, p2, p3⟩ ⟨q1, q2, q3⟩
    simp only [M3.mul, M3.tr, M3.one, V3.dot, M3.mk.injEq, V3.mk.injEq] at h
    obtain ⟨⟨h1, h2, h3⟩, ⟨h4, h5, h6⟩, h7, h8, h9⟩ := h
    simp only [dist2, place, M3.tr, M3.mulVec, V3.dot, add_x, add_y, add_z]
    linear_combination (p1 - q1) ^ 2 * h1 + (p2 - q2) ^ 2 * h5 + (p3 - q3) ^ 2 * h9 + 2 * (p1 - q1) * (p2 - q2) * h2 + 2 * (p1 - q1) * (p3 - q3) * h3 + 2 * (p2 - q2) * (p3 - q3) * h6
  rw [hp p, hp q, key X hX, key h.xfo ho]

/-- When the frame has moved and the hull is not updated, the hull is still where the frame was. -/
theorem C108_stale (w : World K) (h : Hull K) (X Y : PT K) (hp : Placed w h X) : Placed (w.move h.frame Y) h X := hp

end

/-- The points of a hull attached to a frame that moves have the velocity of a point fixed to this frame. -/
theorem C108_moves (m0 : Nat → Nat → ℝ) (w : World ℝ) (h : Hull ℝ) (X : ℝ → PT ℝ) (m : MV ℝ) (t : ℝ) (hm : Moves X m t) (p : V3 ℝ) :
    HasD (fun s => at_ (((w.move h.frame (X s)).update m0 h).mat h.obj) p) (m.v + m.w.cross (place (X t) (place h.xfo p) - (X t).r)) t := by
  have e : (fun s => at_ (((w.move h.frame (X s)).update m0 h).mat h.obj) p) = fun s => place (X s) (place h.xfo p) := by
    funext s
    rw [C108_place m0 (w.move h.frame (X s)) h p]
    simp [World.move]
  rw [e]
  generalize place h.xfo p = q
  obtain ⟨⟨o1, o2, o3⟩, ⟨x1, x2, x3⟩, ⟨y1, y2, y3⟩, ⟨z1, z2, z3⟩⟩ := hm
  have comb : ∀ (f0 f g h : ℝ → ℝ) (f0' f' g' h' : ℝ), HasDerivAt f0 f0' t → HasDerivAt f f' t → HasDerivAt g g' t → HasDerivAt h h' t →
      HasDerivAt (fun s => f0 s + (f s * q.x + g s * q.y + h s * q.z)) (f0' + (f' * q.x + g' * q.y + h' * q.z)) t :=
    fun f0 f g h f0' f' g' h' hf0 hf hg hh => hf0.add (((hf.mul_const _).add (hg.mul_const _)).add (hh.mul_const _))
  refine ⟨?_, ?_, ?_⟩
  · exact (comb _ _ _ _ _ _ _ _ o1 x1 y1 z1).congr_deriv (by simp only [place, M3.tr, M3.mulVec, V3.dot, V3.cross, add_x, add_y, add_z, sub_x, sub_y, sub_z]; ring)
  · exact (comb _ _ _ _ _ _ _ _ o2 x2 y2 z2).congr_deriv (by simp only [place, M3.tr, M3.mulVec, V3.dot, V3.cross, add_x, add_y, add_z, sub_x, sub_y, sub_z]; ring)
  · exact (comb _ _ _ _ _ _ _ _ o3 x3 y3 z3).congr_deriv (by simp only [place, M3.tr, M3.mulVec, V3.dot, V3.cross, add_x, add_y, add_z, sub_x, sub_y, sub_z]; ring)

/-- Two hulls made with the same object of sch, on frames at different places: after the update of both, the first is where the second is. -/
theorem C108_shared_false : ∃ (w : World ℚ) (h h' : Hull ℚ), h.xfo = PT.one ∧ h'.xfo = PT.one ∧ h.obj = h'.obj ∧
    ∀ m, ¬ Placed ((w.update m h).update m h') h (w.pos h.frame) := by
  refine ⟨⟨fun f => ⟨M3.one, ⟨f, 0, 0⟩⟩, fun _ _ _ => 0⟩, ⟨0, 0, PT.one⟩, ⟨0, 1, PT.one⟩, rfl, rfl, rfl, fun m hp => ?_⟩
  have := congrArg V3.x (hp 0)
  norm_num [World.update, at_, transform, entry, coord, place, PT.mul, PT.one, M3.mul, M3.one, M3.tr, M3.mulVec, V3.dot] at this

/-! ## The hypotheses can be met -/

/-- A hull with a quarter turn on a frame with another one, and a hull with another object -/
example : ∃ (w : World ℚ) (h h' : Hull ℚ), ([h, h'].map Hull.obj).Nodup ∧ h.xfo.E.Ortho ∧ h.xfo.E ≠ M3.one ∧ (w.pos h.frame).E.Ortho ∧
    Placed ([h, h'].foldl (World.update fun _ _ => 7) w) h (w.pos h.frame) := by
  refine ⟨⟨fun _ => ⟨quarter, ⟨1, 2, 3⟩⟩, fun _ _ _ => 0⟩, ⟨0, 0, ⟨quarter, ⟨0, 0, 1⟩⟩⟩, ⟨1, 0, PT.one⟩, by decide, ?_, ?_, ?_, ?_⟩
  · constructor <;> (ext <;> norm_num [quarter, M3.mul, M3.tr, M3.one, V3.dot])
  · intro h
    have := congrArg (fun M => M.a.x) h
    norm_num [quarter, M3.one] at this
  · constructor <;> (ext <;> norm_num [quarter, M3.mul, M3.tr, M3.one, V3.dot])
  · exact (C108_all _ _ _ (by decide)).1 _ (by simp)

/-- A frame that slides -/
example : Moves (fun s => ⟨M3.one, ⟨s, 0, 0⟩⟩) ⟨0, ⟨1, 0, 0⟩⟩ 3 := by
  refine ⟨⟨hasDerivAt_id _, hasDerivAt_const _ _, hasDerivAt_const _ _⟩, ?_, ?_, ?_⟩ <;>
    (refine ⟨?_, ?_, ?_⟩ <;> exact (hasDerivAt_const _ _).congr_deriv (by simp [V3.cross, M3.one]))

end Verif.C108
