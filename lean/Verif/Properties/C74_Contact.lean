import Verif.Model.Contact
import Mathlib.Order.Defs.LinearOrder
import Mathlib.Tactic.NormNum
import Mathlib.Data.Rat.Defs
/-!
# C74 - the ids of the contacts as keys, C75 - the points of a contact are the same seen from its two frames
-/
set_option autoImplicit false
set_option linter.unusedSectionVars false

namespace Verif.C74
open Verif Verif.Contact

variable {S : Type} [LinearOrder S]

/-- What `std::map` and `std::set` ask of the comparison of the keys, the keys that it does not tell apart being equal ones -/
structure IsKeyOrder (T : Type) (lt : T → T → Prop) : Prop where
  irrefl : ∀ a, ¬ lt a a
  asymm : ∀ a b, lt a b → ¬ lt b a
  trans : ∀ a b c, lt a b → lt b c → lt a c
  tri : ∀ a b, ¬ lt a b → ¬ lt b a → a = b

/-- `Id::operator==` is the equality of all the members -/
theorem C74_eq (a b : CId S) : a.eq b = true ↔ a = b := by
  cases a; cases b
  simp [CId.eq, and_assoc]

/-- The comparison of the code, as a proposition -/
theorem lt_iff (a b : CId S) : a.lt b = true ↔
    a.r1 < b.r1 ∨ (a.r1 = b.r1 ∧ a.f1 < b.f1) ∨ (a.r1 = b.r1 ∧ a.f1 = b.f1 ∧ a.r2 < b.r2) ∨
    (a.r1 = b.r1 ∧ a.f1 = b.f1 ∧ a.r2 = b.r2 ∧ a.f2 < b.f2) ∨
    (a.r1 = b.r1 ∧ a.f1 = b.f1 ∧ a.r2 = b.f2 ∧ a.f2 = b.f2 ∧ a.amb < b.amb) := by
  simp [CId.lt, and_assoc, or_assoc]

/-- The claim of Contact.h, line 43 (*Comparison to use Id in map/set*) is false: two contacts between the same frames (robots 0 and 1, frames 2 and 3) that differ by
their `ambiguityId` are not told apart, so that a map or a set keeps one of them only. -/
theorem C74_not_told_apart : ∃ a b : CId Nat, a ≠ b ∧ a.lt b = false ∧ b.lt a = false ∧ a.amb < b.amb :=
  ⟨⟨0, 2, 1, 3, 0⟩, ⟨0, 2, 1, 3, 1⟩, by decide, by decide, by decide, by decide⟩

/-- Worse, when a robot has the name of a frame two contacts may each come before the other. -/
theorem C74_not_asymmetric : ∃ a b : CId Nat, a.lt b = true ∧ b.lt a = true :=
  ⟨⟨0, 0, 2, 2, 0⟩, ⟨0, 0, 1, 2, 1⟩, by decide, by decide⟩

theorem C74_false : ¬ ∀ (S : Type) [LinearOrder S], IsKeyOrder (CId S) (fun a b => a.lt b = true) := by
  intro h
  obtain ⟨a, b, h1, h2⟩ := C74_not_asymmetric
  exact (h Nat).asymm a b h1 h2

/-- The members on which the comparison is right -/
def key (a : CId S) : S × S × S × S := (a.r1, a.f1, a.r2, a.f2)

/-- Lexicographic order of the four names, by its usual recursive definition -/
def lex4 (p q : S × S × S × S) : Prop :=
  p.1 < q.1 ∨ (p.1 = q.1 ∧ (p.2.1 < q.2.1 ∨ (p.2.1 = q.2.1 ∧ (p.2.2.1 < q.2.2.1 ∨ (p.2.2.1 = q.2.2.1 ∧ p.2.2.2 < q.2.2.2)))))

/-- No second robot of an id of `T` has the name of a second frame of an id of `T` -/
def Apart (T : CId S → Prop) : Prop := ∀ a b, T a → T b → a.r2 ≠ b.f2

/-- Among contacts whose second robots and second frames are named apart, the comparison is the lexicographic order of the names: a strict weak order, for which two ids
are equivalent iff they differ at most by `ambiguityId`. Missing for the claim: telling apart the ids that differ by `ambiguityId`. -/
theorem C74_partial (T : CId S → Prop) (h : Apart T) (a b c : CId S) (ha : T a) (hb : T b) (hc : T c) :
    (a.lt b = true ↔ lex4 (key a) (key b)) ∧
    a.lt a = false ∧ (a.lt b = true → b.lt a = false) ∧ (a.lt b = true → b.lt c = true → a.lt c = true) ∧
    (a.lt b = false ∧ b.lt a = false ↔ key a = key b) := by
  have e : ∀ a b, T a → T b → (a.lt b = true ↔ lex4 (key a) (key b)) := by
    intro a b ha hb
    have := h a b ha hb
    rw [lt_iff]; unfold lex4 key; simp only
    constructor
    · rintro (h1 | ⟨h1, h2⟩ | ⟨h1, h2, h3⟩ | ⟨h1, h2, h3, h4⟩ | ⟨h1, h2, h3, h4, h5⟩)
      · exact Or.inl h1
      · exact Or.inr ⟨h1, Or.inl h2⟩
      · exact Or.inr ⟨h1, Or.inr ⟨h2, Or.inl h3⟩⟩
      · exact Or.inr ⟨h1, Or.inr ⟨h2, Or.inr ⟨h3, h4⟩⟩⟩
      · exact absurd h3 this
    · rintro (h1 | ⟨h1, h2 | ⟨h2, h3 | ⟨h3, h4⟩⟩⟩)
      · exact Or.inl h1
      · exact Or.inr (Or.inl ⟨h1, h2⟩)
      · exact Or.inr (Or.inr (Or.inl ⟨h1, h2, h3⟩))
      · exact Or.inr (Or.inr (Or.inr (Or.inl ⟨h1, h2, h3, h4⟩)))
  have f : ∀ a b, T a → T b → (a.lt b = false ↔ ¬ lex4 (key a) (key b)) := by
    intro a b ha hb
    rw [← e a b ha hb]; simp
  refine ⟨e a b ha hb, ?_, ?_, ?_, ?_⟩
  · rw [f a a ha ha]; unfold lex4; grind
  · rw [e a b ha hb, f b a hb ha]; unfold lex4; grind
  · rw [e a b ha hb, e b c hb hc, e a c ha hc]; unfold lex4; grind
  · rw [f a b ha hb, f b a hb ha]
    unfold lex4
    constructor
    · intro ⟨h1, h2⟩
      apply Prod.ext
      · grind
      apply Prod.ext
      · grind
      apply Prod.ext
      · grind
      · grind
    · intro h; rw [h]; grind

/-- Robots 0 and 1, frames 2, 3, 4 -/
example : Apart (fun a : CId Nat => a.r2 < 2 ∧ 2 ≤ a.f2) ∧ (⟨0, 2, 1, 3, 0⟩ : CId Nat).lt ⟨0, 2, 1, 4, 0⟩ = true :=
  ⟨fun a b h1 h2 h => by omega, by decide⟩

end Verif.C74

namespace Verif.C75
open Verif Verif.Contact Verif.Sva

variable {K : Type} [CommRing K]

/-! ## The transformations form a group -/

theorem mulM_assoc (A B C : M3 K) : (A.mul B).mul C = A.mul (B.mul C) := by
  ext <;> simp only [M3.mul, M3.tr, V3.dot] <;> ring

theorem tr_mul (A B : M3 K) : (A.mul B).tr = B.tr.mul A.tr := by
  ext <;> simp only [M3.mul, M3.tr, V3.dot] <;> ring

theorem mulVec_mul (A B : M3 K) (v : V3 K) : (A.mul B).mulVec v = A.mulVec (B.mulVec v) := by
  ext <;> simp only [M3.mul, M3.tr, M3.mulVec, V3.dot] <;> ring

theorem mulVec_add (A : M3 K) (u v : V3 K) : A.mulVec (u + v) = A.mulVec u + A.mulVec v := by
  ext <;> simp [M3.mulVec, V3.dot] <;> ring

theorem mulVec_neg (A : M3 K) (u : V3 K) : A.mulVec (-u) = -A.mulVec u := by
  ext <;> simp [M3.mulVec, V3.dot] <;> ring

theorem one_mulVec (u : V3 K) : (M3.one : M3 K).mulVec u = u := by
  ext <;> simp [M3.mulVec, V3.dot, M3.one]

theorem mul_one' (A : M3 K) : A.mul M3.one = A := by
  ext <;> simp [M3.mul, M3.tr, V3.dot, M3.one]

theorem one_mul' (A : M3 K) : M3.one.mul A = A := by
  ext <;> simp [M3.mul, M3.tr, V3.dot, M3.one]

theorem tr_tr (A : M3 K) : A.tr.tr = A := rfl

theorem mul_assoc' (X Y Z : PT K) : (X.mul Y).mul Z = X.mul (Y.mul Z) := by
  apply PT.ext
  · exact mulM_assoc _ _ _
  · show Z.r + Z.E.tr.mulVec (Y.r + Y.E.tr.mulVec X.r) = (Z.r + Z.E.tr.mulVec Y.r) + (Y.E.mul Z.E).tr.mulVec X.r
    rw [tr_mul, mulVec_mul, mulVec_add]
    ext <;> simp <;> ring

theorem mul_PTone (X : PT K) : X.mul PT.one = X := by
  apply PT.ext
  · exact mul_one' _
  · show (0 : V3 K) + (M3.one : M3 K).tr.mulVec X.r = X.r
    have : (M3.one : M3 K).tr = M3.one := rfl
    rw [this, one_mulVec]
    ext <;> simp

theorem PTone_mul (X : PT K) : PT.one.mul X = X := by
  apply PT.ext
  · exact one_mul' _
  · show X.r + X.E.tr.mulVec 0 = X.r
    ext <;> simp [M3.mulVec, V3.dot]

theorem mul_inv (X : PT K) (h : X.E.Ortho) : X.mul X.inv = PT.one := by
  apply PT.ext
  · exact h.1
  · show -(X.E.mulVec X.r) + X.E.tr.tr.mulVec X.r = 0
    rw [tr_tr]
    ext <;> simp

theorem inv_mul (X : PT K) (h : X.E.Ortho) : X.inv.mul X = PT.one := by
  apply PT.ext
  · exact h.2
  · show X.r + X.E.tr.mulVec (-(X.E.mulVec X.r)) = 0
    rw [mulVec_neg, ← mulVec_mul, h.2, one_mulVec]
    ext <;> simp

theorem ortho_mul (A B : M3 K) (hA : A.Ortho) (hB : B.Ortho) : (A.mul B).Ortho := by
  constructor
  · rw [tr_mul, mulM_assoc, ← mulM_assoc B, hB.1, one_mul', hA.1]
  · rw [tr_mul, mulM_assoc, ← mulM_assoc A.tr, hA.2, one_mul', hB.2]

theorem ortho_tr (A : M3 K) (hA : A.Ortho) : A.tr.Ortho := ⟨hA.2, hA.1⟩

/-! ## The points -/

/-- The position in the world of what is at `X_f_p` in a frame at `X_0_f` (`X_0_p = X_f_p X_0_f`) -/
def world (p f : PT K) : PT K := p.mul f

/-- The points of the contact are at the same place in the world seen from its two frames -/
def SamePlaces (p1 p2 : PT K) (c : Pts K) : Prop :=
  c.f1Points.map (fun p => world p p1) = c.f2Points.map (fun p => world p p2)

/-- The transformation between the frames is right, and the points of the first frame are the given ones. -/
theorem C75_frames (p1 p2 : PT K) (pts : List (PT K)) (h1 : p1.E.Ortho) (h2 : p2.E.Ortho) :
    (make p1 p2 pts).x12.mul p1 = p2 ∧ (make p1 p2 pts).x21.mul p2 = p1 ∧ (make p1 p2 pts).f1Points = pts ∧
      (make p1 p2 pts).f2Points.length = pts.length := by
  have e1 : (p2.mul p1.inv).mul p1 = p2 := by rw [mul_assoc', inv_mul p1 h1, mul_PTone]
  refine ⟨e1, ?_, rfl, by simp [make]⟩
  have ho : (p2.mul p1.inv).E.Ortho := ortho_mul _ _ h2 (ortho_tr _ h1)
  show (p2.mul p1.inv).inv.mul p2 = p1
  have e2 : (p2.mul p1.inv).inv.mul p2 = (p2.mul p1.inv).inv.mul ((p2.mul p1.inv).mul p1) := by rw [e1]
  rw [e2, ← mul_assoc', inv_mul _ ho, PTone_mul]

/-- A quarter of turn about the third axis -/
def quarter : M3 ℚ := ⟨⟨0, 1, 0⟩, ⟨-1, 0, 0⟩, ⟨0, 0, 1⟩⟩

theorem ortho_one : (M3.one : M3 K).Ortho := ⟨mul_one' _, one_mul' _⟩

theorem ortho_quarter : quarter.Ortho := by
  constructor <;> (ext <;> simp [quarter, M3.mul, M3.tr, M3.one, V3.dot])

/-- False in general: the constructor composes in the wrong order (Contact.cpp, line 22). First frame at the origin of the world, second one turned by a quarter and at the
same place, point at one unit along the first axis. -/
theorem C75_false : ∃ (p1 p2 : PT ℚ) (pts : List (PT ℚ)), p1.E.Ortho ∧ p2.E.Ortho ∧ (∀ p ∈ pts, p.E.Ortho) ∧
    ¬ SamePlaces p1 p2 (make p1 p2 pts) := by
  refine ⟨PT.one, ⟨quarter, 0⟩, [⟨M3.one, ⟨1, 0, 0⟩⟩], ?_, ?_, ?_, ?_⟩
  · exact ortho_one
  · exact ortho_quarter
  · intro p hp
    simp only [List.mem_singleton] at hp
    subst hp
    exact ortho_one
  · intro h
    have := congrArg (fun l => l.head?.map (fun p => p.r.y)) h
    simp [make, world, quarter, PT.one, PT.mul, PT.inv, M3.mul, M3.tr, M3.one, V3.dot, M3.mulVec] at this

/-- The points are at the same place iff each of them commutes with the transformation between the frames (which is so when none of them turns). Missing for the claim: the
other cases, in which it is false. -/
theorem C75_partial (p1 p2 : PT K) (pts : List (PT K)) (h1 : p1.E.Ortho) (h2 : p2.E.Ortho) :
    SamePlaces p1 p2 (make p1 p2 pts) ↔
      ∀ p ∈ pts, p.mul (p1.mul p2.inv) = (p1.mul p2.inv).mul p := by
  have e : (make p1 p2 pts).x21 = p1.mul p2.inv := by
    have := (C75_frames p1 p2 pts h1 h2).2.1
    have h := congrArg (fun X => X.mul p2.inv) this
    rwa [mul_assoc', mul_inv p2 h2, mul_PTone] at h
  have g : (make p1 p2 pts).f2Points = pts.map (fun p => (p1.mul p2.inv).mul p) := by rw [← e]; rfl
  unfold SamePlaces world
  rw [g]
  show pts.map _ = (pts.map _).map _ ↔ _
  rw [List.map_map, List.map_inj_left]
  refine forall_congr' fun p => forall_congr' fun _ => ?_
  show p.mul p1 = ((p1.mul p2.inv).mul p).mul p2 ↔ _
  constructor
  · intro h
    have h := congrArg (fun X => X.mul p2.inv) h
    rw [mul_assoc' _ p2, mul_inv p2 h2, mul_PTone, mul_assoc'] at h
    exact h
  · intro h
    rw [← h, mul_assoc', mul_assoc', inv_mul p2 h2, mul_PTone]

/-- In particular when neither the frames nor the points turn -/
theorem C75_translations_partial (a b : V3 K) (pts : List (V3 K)) :
    SamePlaces ⟨M3.one, a⟩ ⟨M3.one, b⟩ (make ⟨M3.one, a⟩ ⟨M3.one, b⟩ (pts.map (fun v => ⟨M3.one, v⟩))) := by
  have ho : (M3.one : M3 K).Ortho := ortho_one
  rw [C75_partial _ _ _ ho ho]
  intro p hp
  obtain ⟨v, _, rfl⟩ := List.mem_map.1 hp
  apply PT.ext
  · ext <;> simp [PT.mul, PT.inv, M3.mul, M3.tr, M3.one, V3.dot]
  · ext <;> simp [PT.mul, PT.inv, M3.mul, M3.tr, M3.one, V3.dot, M3.mulVec] <;> ring

/-- Two frames turned by a quarter about the same axis as the point: the hypotheses hold, and the points are at the same place though the frames are turned -/
example : quarter.Ortho ∧ SamePlaces PT.one ⟨quarter, 0⟩ (make PT.one ⟨quarter, 0⟩ [⟨quarter, ⟨0, 0, 5⟩⟩]) := by
  refine ⟨ortho_quarter, ?_⟩
  simp [SamePlaces, make, world, quarter, PT.one, PT.mul, PT.inv, M3.mul, M3.tr, M3.one, V3.dot, M3.mulVec]

end Verif.C75
