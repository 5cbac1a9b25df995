import Verif.Model.DynamicFunction
import Verif.Properties.C81_FrictionCone
import Mathlib.Algebra.BigOperators.Group.List.Basic
import Mathlib.Data.List.GetD
import Mathlib.Tactic.Ring
import Mathlib.Tactic.NormNum
import Mathlib.Tactic.LinearCombination
/-!
# C82 - contacts in the equation of motion
-/
set_option autoImplicit false
set_option linter.unusedSectionVars false

namespace Verif.C82
open Verif Verif.Sva Verif.Contact Verif.Dyn Finset

variable {K : Type} [CommRing K] {S : Type} [LinearOrder S]

/-! ## Specification -/

/-- The calls of the user on the function of the robot `robot` -/
inductive Reach (cone : Cone K) (robot : S) : DF S K → Prop where
  | init : Reach cone robot ⟨[], [], 0⟩
  | add (D : DF S K) (c : Ct S K) (lin : Bool) (mu : K) (nrGen : Nat) : Reach cone robot D → Reach cone robot (D.addContact cone robot c lin mu nrGen).1
  | remove (D : DF S K) (id : CId S) : Reach cone robot D → Reach cone robot (D.removeContact id)

/-- Velocity of the point at `r` of a body that moves with `m` -/
def pointVel (r : V3 K) (m : MV K) : V3 K := m.v + m.w.cross r

/-- Power of a couple and a force on a motion -/
def power (F : FV K) (m : MV K) : K := F.n.dot m.w + F.f.dot m.v

/-- The part of the value of the function due to a contact, at the degree of freedom `d` -/
def term (c : FC S K) (body : Nat → MV K) (σ : Vals K) (d : Nat) : K :=
  ∑ i ∈ range c.forces.length, ∑ j ∈ range (if c.lin then c.nrGen else 3), c.matrix body i d j * σ (c.forces.getD i 0) j

/-- The variables that are in the equation through a contact -/
def used (D : DF S K) : List Nat := D.contacts.flatMap (fun c => c.forces)

/-- The sizes of the variables -/
def Sized (D : DF S K) (size : Nat → Nat) : Prop := ∀ c ∈ D.contacts, ∀ v ∈ c.forces, size v = if c.lin then c.nrGen else 3

/-! ## Histories -/

theorem eq_iff (a b : CId S) : a.eq b = true ↔ a = b := by
  cases a; cases b
  simp [CId.eq, and_assoc]

theorem fresh_mem (n k v : Nat) : v ∈ fresh n k ↔ n ≤ v ∧ v < n + k := by
  unfold fresh
  rw [List.mem_map]
  constructor
  · rintro ⟨i, hi, rfl⟩; have := List.mem_range.1 hi; omega
  · rintro ⟨h1, h2⟩; exact ⟨v - n, List.mem_range.2 (by omega), by omega⟩

theorem fresh_nodup (n k : Nat) : (fresh n k).Nodup := by
  unfold fresh
  exact List.Nodup.map (fun a b h => by simpa using h) List.nodup_range

/-- What holds after any calls -/
structure Inv (D : DF S K) : Prop where
  nodup : D.vars.Nodup
  lt : ∀ v ∈ D.vars, v < D.next
  unodup : (used D).Nodup
  sub : ∀ v ∈ used D, v ∈ D.vars

theorem inv_addView (cone : Cone K) (D : DF S K) (id : CId S) (pts : List (PT K)) (lin : Bool) (mu : K) (nrGen : Nat) (dir : K) (h : Inv D) :
    Inv (D.addView cone id pts lin mu nrGen dir) := by
  have hu : used (D.addView cone id pts lin mu nrGen dir) = used D ++ fresh D.next pts.length := by
    simp [used, DF.addView, mkFC]
  refine ⟨?_, ?_, ?_, ?_⟩
  · refine List.nodup_append.2 ⟨h.nodup, fresh_nodup _ _, ?_⟩
    intro a ha b hb e
    have := h.lt a ha; have := (fresh_mem _ _ _).1 hb; omega
  · intro v hv
    rcases List.mem_append.1 hv with hv | hv
    · have := h.lt v hv
      show v < D.next + pts.length
      omega
    · exact ((fresh_mem _ _ _).1 hv).2
  · rw [hu]
    refine List.nodup_append.2 ⟨h.unodup, fresh_nodup _ _, ?_⟩
    intro a ha b hb e
    have := h.lt a (h.sub a ha); have := (fresh_mem _ _ _).1 hb; omega
  · intro v hv
    rw [hu] at hv
    rcases List.mem_append.1 hv with hv | hv
    · exact List.mem_append.2 (Or.inl (h.sub v hv))
    · exact List.mem_append.2 (Or.inr hv)

theorem inv_remove (D : DF S K) (id : CId S) (h : Inv D) : Inv (D.removeContact id) := by
  have hs : List.Sublist (used (D.removeContact id)) (used D) := by
    unfold used DF.removeContact
    generalize D.contacts = l
    induction l with
    | nil => exact List.Sublist.refl _
    | cons c l ih =>
      rw [List.eraseP_cons]
      by_cases hc : c.id.eq id = true
      · rw [hc]
        simp only [List.flatMap_cons, cond_true]
        exact List.sublist_append_right _ _
      · rw [Bool.eq_false_iff.2 hc]
        simp only [List.flatMap_cons, cond_false]
        exact List.Sublist.append (List.Sublist.refl _) ih
  exact ⟨h.nodup, h.lt, h.unodup.sublist hs, fun v hv => h.sub v (hs.subset hv)⟩

theorem Reach.inv {cone : Cone K} {robot : S} {D : DF S K} (h : Reach cone robot D) : Inv D := by
  induction h with
  | init => exact ⟨List.nodup_nil, by simp, List.nodup_nil, by simp [used]⟩
  | add D c lin mu nrGen _ ih =>
    unfold DF.addContact
    by_cases hg : (D.get c.id).isSome = true
    · rw [if_pos hg]; exact ih
    · rw [if_neg hg]
      simp only
      by_cases h1 : c.id.r1 = robot <;> by_cases h2 : c.id.r2 = robot <;> simp only [h1, h2, if_true, if_false]
      · exact inv_addView _ _ _ _ _ _ _ _ (inv_addView _ _ _ _ _ _ _ _ ih)
      · exact inv_addView _ _ _ _ _ _ _ _ ih
      · exact inv_addView _ _ _ _ _ _ _ _ ih
      · exact ih
  | remove D id _ ih => exact inv_remove D id ih

/-! ## Adding -/

theorem get_isSome (D : DF S K) (id : CId S) : (D.get id).isSome = true ↔ ∃ c ∈ D.contacts, c.id = id := by
  unfold DF.get
  rw [List.find?_isSome]
  exact exists_congr fun c => and_congr_right fun _ => eq_iff _ _

/-- A contact is added iff it is new and concerns the robot; nothing changes otherwise. What is added is one contact for each of the two frames that is of the robot, with a new
variable for each of its points. -/
theorem C82_add (cone : Cone K) (robot : S) (D : DF S K) (c : Ct S K) (lin : Bool) (mu : K) (nrGen : Nat) :
    ((D.addContact cone robot c lin mu nrGen).2 = true ↔ (∀ x ∈ D.contacts, x.id ≠ c.id) ∧ (c.id.r1 = robot ∨ c.id.r2 = robot)) ∧
    ((D.addContact cone robot c lin mu nrGen).2 = false → (D.addContact cone robot c lin mu nrGen).1 = D) ∧
    ((D.addContact cone robot c lin mu nrGen).2 = true →
      ∃ f1 f2 : List Nat, (D.addContact cone robot c lin mu nrGen).1.vars = D.vars ++ f1 ++ f2 ∧
        (D.addContact cone robot c lin mu nrGen).1.contacts = D.contacts ++
          (if c.id.r1 = robot then [mkFC cone c.id f1 c.pts1 lin mu nrGen 1] else []) ++ (if c.id.r2 = robot then [mkFC cone c.id f2 c.pts2 lin mu nrGen (-1)] else []) ∧
        f1.length = (if c.id.r1 = robot then c.pts1.length else 0) ∧ f2.length = (if c.id.r2 = robot then c.pts2.length else 0) ∧
        (f1 ++ f2).Nodup ∧ ∀ v ∈ f1 ++ f2, D.next ≤ v) := by
  have hl : ∀ n k, (fresh n k).length = k := by intro n k; simp [fresh]
  unfold DF.addContact
  by_cases hg : (D.get c.id).isSome = true
  · rw [if_pos hg]
    refine ⟨?_, fun _ => rfl, fun h => by simp at h⟩
    obtain ⟨x, hx, e⟩ := (get_isSome D c.id).1 hg
    constructor
    · intro h; simp at h
    · rintro ⟨h, _⟩; exact absurd e (h x hx)
  · rw [if_neg hg]
    have hn : ∀ x ∈ D.contacts, x.id ≠ c.id := fun x hx e => hg ((get_isSome D c.id).2 ⟨x, hx, e⟩)
    refine ⟨?_, ?_, ?_⟩
    · simp only [Bool.or_eq_true, decide_eq_true_eq]
      exact ⟨fun h => ⟨hn, h⟩, fun h => h.2⟩
    · intro h
      simp only [Bool.or_eq_false_iff, decide_eq_false_iff_not] at h
      simp only [h.1, h.2, if_false]
    · intro _
      by_cases h1 : c.id.r1 = robot <;> by_cases h2 : c.id.r2 = robot <;> simp only [h1, h2, if_true, if_false]
      · refine ⟨fresh D.next c.pts1.length, fresh (D.next + c.pts1.length) c.pts2.length, rfl, rfl, hl _ _, hl _ _, ?_, ?_⟩
        · refine List.nodup_append.2 ⟨fresh_nodup _ _, fresh_nodup _ _, ?_⟩
          intro a ha b hb e
          have := (fresh_mem _ _ _).1 ha; have := (fresh_mem _ _ _).1 hb; omega
        · intro v hv
          rcases List.mem_append.1 hv with hv | hv <;> have := (fresh_mem _ _ _).1 hv <;> omega
      · refine ⟨fresh D.next c.pts1.length, [], by simp [DF.addView], by simp [DF.addView], hl _ _, rfl, ?_, ?_⟩
        · simpa using fresh_nodup _ _
        · intro v hv
          have := (fresh_mem D.next c.pts1.length v).1 (by simpa using hv); omega
      · refine ⟨[], fresh D.next c.pts2.length, by simp [DF.addView], by simp [DF.addView], rfl, hl _ _, ?_, ?_⟩
        · simpa using fresh_nodup _ _
        · intro v hv
          have := (fresh_mem D.next c.pts2.length v).1 (by simpa using hv); omega
      · exact ⟨[], [], by simp, by simp, rfl, rfl, by simp, by simp⟩

/-! ## Removing -/

/-- Number of the contacts with an identifier -/
def count (D : DF S K) (id : CId S) : Nat := D.contacts.countP (fun c => c.id.eq id)

theorem Reach.count {cone : Cone K} {robot : S} {D : DF S K} (h : Reach cone robot D) (id : CId S) :
    C82.count D id ≤ (if id.r1 = robot then 1 else 0) + (if id.r2 = robot then 1 else 0) := by
  induction h with
  | init => simp [C82.count]
  | add D c lin mu nrGen _ ih =>
    obtain ⟨h1, h2, h3⟩ := C82_add cone robot D c lin mu nrGen
    cases hb : (D.addContact cone robot c lin mu nrGen).2 with
    | false => rw [h2 hb]; exact ih
    | true =>
      obtain ⟨f1, f2, _, hc, _⟩ := h3 hb
      obtain ⟨hn, _⟩ := h1.1 hb
      unfold C82.count
      rw [hc, List.countP_append, List.countP_append]
      by_cases hid : c.id = id
      · have h0 : D.contacts.countP (fun c => c.id.eq id) = 0 := by
          rw [List.countP_eq_zero]
          intro x hx
          rw [eq_iff, ← hid]
          exact hn x hx
        rw [h0, ← hid]
        have : c.id.eq c.id = true := (eq_iff _ _).2 rfl
        by_cases a1 : c.id.r1 = robot <;> by_cases a2 : c.id.r2 = robot <;> simp [a1, a2, mkFC, this]
      · have hf : c.id.eq id = false := by rw [← Bool.not_eq_true, eq_iff]; exact hid
        have z1 : ∀ (b : Prop) [Decidable b] (f : List Nat) (p : List (PT K)) (k : K),
            (if b then [mkFC cone c.id f p lin mu nrGen k] else []).countP (fun c => c.id.eq id) = 0 := by
          intro b _ f p k
          by_cases hb : b <;> simp [hb, mkFC, hf]
        rw [z1, z1]
        exact ih
  | remove D id' _ ih =>
    refine le_trans ?_ ih
    exact (List.eraseP_sublist).countP_le

/-- Removing a contact that has one frame of the robot: there is none any more with this identifier, and the others are kept. -/
theorem C82_remove_partial (cone : Cone K) (robot : S) (D : DF S K) (h : Reach cone robot D) (id : CId S) (hr : id.r1 ≠ robot ∨ id.r2 ≠ robot) :
    (D.removeContact id).contacts = D.contacts.filter (fun c => decide (c.id ≠ id)) := by
  have hc : C82.count D id ≤ 1 := by
    refine le_trans (h.count id) ?_
    rcases hr with hr | hr
    · rw [if_neg hr]; by_cases h2 : id.r2 = robot <;> simp [h2]
    · rw [if_neg hr]; by_cases h2 : id.r1 = robot <;> simp [h2]
  unfold C82.count at hc
  unfold DF.removeContact
  simp only
  revert hc
  generalize D.contacts = l
  intro hc
  induction l with
  | nil => rfl
  | cons c l ih =>
    rw [List.eraseP_cons]
    by_cases he : c.id.eq id = true
    · have e := (eq_iff _ _).1 he
      rw [List.countP_cons_of_pos (p := fun c : FC S K => c.id.eq id) he] at hc
      have h0 : l.countP (fun c => c.id.eq id) = 0 := by omega
      rw [List.countP_eq_zero] at h0
      rw [he, List.filter_cons_of_neg (by simp [e])]
      simp only [cond_true]
      refine (List.filter_eq_self.2 fun x hx => ?_).symm
      have := h0 x hx
      rw [eq_iff] at this
      simpa using this
    · have e : c.id ≠ id := fun e => he ((eq_iff _ _).2 e)
      rw [List.countP_cons_of_neg (p := fun c : FC S K => c.id.eq id) he] at hc
      rw [Bool.eq_false_iff.2 he, List.filter_cons_of_pos (by simpa using e)]
      simp only [cond_false]
      rw [ih hc]

/-- A contact between two frames of the robot, of one point each -/
def self₀ : Ct Nat ℚ := ⟨⟨0, 1, 0, 2, 0⟩, [PT.one], [PT.one]⟩
def noCone : Cone ℚ := fun _ _ _ _ => []
def one₀ : Ct Nat ℚ := ⟨⟨0, 1, 5, 2, 0⟩, [PT.one], [PT.one]⟩

/-- It is not so of a contact between two frames of the robot: a contact with the identifier is left, and the contact cannot be added again. -/
theorem C82_remove_false : ∃ D : DF Nat ℚ, Reach noCone 0 D ∧ (∃ c ∈ (D.removeContact self₀.id).contacts, c.id = self₀.id) ∧
    ((D.removeContact self₀.id).addContact noCone 0 self₀ false 0 0).2 = false := by
  refine ⟨((⟨[], [], 0⟩ : DF Nat ℚ).addContact noCone 0 self₀ false 0 0).1, .add _ _ _ _ _ .init, ?_, ?_⟩
  · exact ⟨mkFC noCone self₀.id [1] [PT.one] false 0 0 (-1), by simp [DF.addContact, DF.removeContact, DF.get, DF.addView, self₀, fresh, mkFC, CId.eq], rfl⟩
  · simp [DF.addContact, DF.removeContact, DF.get, DF.addView, self₀, fresh, mkFC, CId.eq]

/-! ## The equation -/

theorem FC.update_eq (c : FC S K) (body : Nat → MV K) (J : Jacs K) (hn : c.forces.Nodup) (v : Nat) :
    (v ∉ c.forces → c.update body J v = J v) ∧ ∀ i, c.forces[i]? = some v → c.update body J v = c.matrix body i := by
  have key : ∀ n ≤ c.forces.length, ∀ v, ((∀ i < n, c.forces[i]? ≠ some v) → ((List.range n).foldl (fun J i => Function.update J (c.forces.getD i 0) (c.matrix body i)) J) v = J v) ∧
      ∀ i < n, c.forces[i]? = some v → ((List.range n).foldl (fun J i => Function.update J (c.forces.getD i 0) (c.matrix body i)) J) v = c.matrix body i := by
    intro n
    induction n with
    | zero => intro _ v; exact ⟨fun _ => rfl, fun i hi => by omega⟩
    | succ n ih =>
      intro hle v
      obtain ⟨h1, h2⟩ := ih (by omega) v
      have hv : c.forces[n]? = some (c.forces.getD n 0) := by
        rw [List.getD_eq_getElem?_getD]
        have : n < c.forces.length := by omega
        simp [this]
      rw [List.range_succ, List.foldl_append]
      simp only [List.foldl_cons, List.foldl_nil]
      constructor
      · intro h
        have : v ≠ c.forces.getD n 0 := by
          intro e; apply h n (by omega); rw [hv, e]
        rw [Function.update_of_ne this]
        exact h1 (fun i hi => h i (by omega))
      · intro i hi he
        by_cases hin : i = n
        · subst hin
          have : v = c.forces.getD i 0 := by rw [hv] at he; exact (Option.some.inj he).symm
          rw [this, Function.update_self]
        · have : v ≠ c.forces.getD n 0 := by
            intro e
            rw [← e] at hv
            have hlt : i < c.forces.length := by omega
            have := (List.nodup_iff_getElem?_ne_getElem?.1 hn) i n (by omega) (by omega)
            exact this (he.trans hv.symm)
          rw [Function.update_of_ne this]
          exact h2 i (by omega) he
  unfold FC.update
  obtain ⟨h1, h2⟩ := key c.forces.length (le_refl _) v
  refine ⟨fun h => h1 (fun i _ e => h (List.mem_of_getElem? e)), fun i hi => h2 i ?_ hi⟩
  exact (List.getElem?_eq_some_iff.1 hi).1

theorem DF.update_eq (l : List (FC S K)) (body : FC S K → Nat → MV K) : ∀ (J : Jacs K), (l.flatMap (fun c => c.forces)).Nodup →
    (∀ v, v ∉ l.flatMap (fun c => c.forces) → l.foldl (fun J c => c.update (body c) J) J v = J v) ∧
    ∀ c ∈ l, ∀ i v, c.forces[i]? = some v → l.foldl (fun J c => c.update (body c) J) J v = c.matrix (body c) i := by
  induction l with
  | nil => intro J _; exact ⟨fun _ _ => rfl, by simp⟩
  | cons a l ih =>
    intro J hn
    rw [List.flatMap_cons, List.nodup_append] at hn
    obtain ⟨n1, n2, n3⟩ := hn
    obtain ⟨i1, i2⟩ := ih (a.update (body a) J) n2
    simp only [List.foldl_cons, List.flatMap_cons]
    constructor
    · intro v hv
      rw [List.mem_append, not_or] at hv
      rw [i1 v hv.2]
      exact (FC.update_eq a (body a) J n1 v).1 hv.1
    · intro c hc i v hi
      rcases List.mem_cons.1 hc with rfl | hc
      · have hv : v ∈ c.forces := List.mem_of_getElem? hi
        rw [i1 v (fun h => n3 v hv v h rfl)]
        exact (FC.update_eq c (body c) J n1 v).2 i hi
      · exact i2 c hc i v hi

theorem sum_range_getD (l : List Nat) (g : Nat → K) : (l.map g).sum = ∑ i ∈ range l.length, g (l.getD i 0) := by
  induction l with
  | nil => simp
  | cons a l ih =>
    rw [List.map_cons, List.sum_cons, List.length_cons, Finset.sum_range_succ', ih, add_comm]
    rfl

/-- After an update, the forces in the value of the function are: what the present contacts say, and, for the variables of the contacts that have been removed, what was there
before. -/
theorem C82_equation (cone : Cone K) (robot : S) (D : DF S K) (h : Reach cone robot D) (size : Nat → Nat) (hs : Sized D size) (body : FC S K → Nat → MV K) (J : Jacs K) (σ : Vals K) (d : Nat) :
    D.forceTerm size (D.update body J) σ d =
      (D.contacts.map (fun c => term c (body c) σ d)).sum + ((D.vars.filter (fun v => v ∉ used D)).map (fun v => ∑ j ∈ range (size v), J v d j * σ v j)).sum := by
  have hi := h.inv
  obtain ⟨u1, u2⟩ := DF.update_eq D.contacts body J hi.unodup
  change ∀ v, v ∉ used D → D.update body J v = J v at u1
  change ∀ c ∈ D.contacts, ∀ i v, c.forces[i]? = some v → D.update body J v = c.matrix (body c) i at u2
  generalize hJ : D.update body J = J' at *
  unfold DF.forceTerm
  have p1 : List.Perm D.vars (used D ++ D.vars.filter (fun v => v ∉ used D)) := by
    refine (List.perm_ext_iff_of_nodup hi.nodup ?_).2 fun v => ?_
    · refine List.nodup_append.2 ⟨hi.unodup, hi.nodup.filter _, ?_⟩
      intro a ha b hb e
      have := (List.mem_filter.1 hb).2
      simp only [decide_eq_true_eq] at this
      exact this (e ▸ ha)
    · rw [List.mem_append, List.mem_filter]
      constructor
      · intro hv
        by_cases hu : v ∈ used D
        · exact Or.inl hu
        · exact Or.inr ⟨hv, by simpa using hu⟩
      · rintro (hu | ⟨hv, _⟩)
        · exact hi.sub v hu
        · exact hv
  rw [(p1.map _).sum_eq, List.map_append, List.sum_append]
  congr 1
  · have : ∀ (l : List (FC S K)), (∀ c ∈ l, c ∈ D.contacts) →
        ((l.flatMap (fun c => c.forces)).map (fun v => ∑ j ∈ range (size v), J' v d j * σ v j)).sum = (l.map (fun c => term c (body c) σ d)).sum := by
      intro l
      induction l with
      | nil => intro _; rfl
      | cons c l ih =>
        intro hl
        rw [List.flatMap_cons, List.map_append, List.sum_append, List.map_cons, List.sum_cons, ih (fun x hx => hl x (by simp [hx]))]
        congr 1
        rw [sum_range_getD]
        unfold term
        refine Finset.sum_congr rfl (fun i hir => ?_)
        have hlt := Finset.mem_range.1 hir
        have hget : c.forces[i]? = some (c.forces.getD i 0) := by
          rw [List.getD_eq_getElem?_getD]; simp [hlt]
        rw [u2 c (hl c (by simp)) i _ hget, hs c (hl c (by simp)) _ (List.mem_of_getElem? hget)]
    exact this D.contacts (fun _ h => h)
  · congr 1
    refine List.map_congr_left fun v hv => ?_
    have := (List.mem_filter.1 hv).2
    simp only [decide_eq_true_eq] at this
    rw [u1 v this]

theorem translate_eq (r : V3 K) (m : MV K) : (translateCol r m).v = pointVel r m := by
  ext <;> simp only [translateCol, pointVel, V3.cross, sub_x, sub_y, sub_z, add_x, add_y, add_z] <;> ring

/-- The force that the lambdas of the `i`-th point make with the generators of its cone -/
def coneForce (cone : Cone K) (p : PT K) (mu : K) (nrGen : Nat) (dir : K) (lam : Nat → K) : V3 K :=
  ⟨∑ j ∈ range nrGen, lam j * ((cone (scale dir p.E) nrGen mu dir).getD j 0).x, ∑ j ∈ range nrGen, lam j * ((cone (scale dir p.E) nrGen mu dir).getD j 0).y,
   ∑ j ∈ range nrGen, lam j * ((cone (scale dir p.E) nrGen mu dir).getD j 0).z⟩

theorem genCols_get (cone : Cone K) (mu : K) (nrGen : Nat) (dir : K) (hc : ∀ M, (cone M nrGen mu dir).length = nrGen) : ∀ (pts : List (PT K)) (i j : Nat), i < pts.length → j < nrGen →
    (genCols cone pts mu nrGen dir).getD (nrGen * i + j) 0 = -((cone (scale dir (pts.getD i PT.one).E) nrGen mu dir).getD j 0) := by
  intro pts
  induction pts with
  | nil => intro i j hi; simp at hi
  | cons p l ih =>
    intro i j hi hj
    unfold genCols
    rw [List.flatMap_cons]
    have hlen : ((cone (scale dir p.E) nrGen mu dir).map (fun g => -g)).length = nrGen := by rw [List.length_map, hc]
    cases i with
    | zero =>
      rw [List.getD_append _ _ _ _ (by rw [hlen]; simpa using hj)]
      rw [Nat.mul_zero, Nat.zero_add]
      rw [List.getD_eq_getElem?_getD, List.getElem?_map]
      have : j < (cone (scale dir p.E) nrGen mu dir).length := by rw [hc]; exact hj
      simp [this]
    | succ i =>
      rw [List.getD_append_right _ _ _ _ (by rw [hlen, Nat.mul_succ]; omega)]
      rw [hlen, show nrGen * (i + 1) + j - nrGen = nrGen * i + j by rw [Nat.mul_succ]; omega]
      exact ih i j (by simpa using hi) hj

/-- A linearized contact puts in the equation `- J_p^T f_p` for each of its points, where `J_p` is the jacobian of the point and `f_p` the force made of the generators: the equation
reads `H q'' + C = tau + sum J_p^T f_p`. -/
theorem C82_linearized (cone : Cone K) (id : CId S) (fs : List Nat) (pts : List (PT K)) (mu : K) (nrGen : Nat) (dir : K) (body : Nat → MV K) (σ : Vals K) (d : Nat)
    (hc : ∀ M, (cone M nrGen mu dir).length = nrGen) (hf : fs.length = pts.length) :
    term (mkFC cone id fs pts true mu nrGen dir) body σ d =
      -∑ i ∈ range pts.length, (coneForce cone (pts.getD i PT.one) mu nrGen dir (σ (fs.getD i 0))).dot (pointVel (pts.getD i PT.one).r (body d)) := by
  unfold term
  rw [← Finset.sum_neg_distrib]
  show ∑ i ∈ range fs.length, _ = _
  rw [hf]
  refine Finset.sum_congr rfl (fun i hi => ?_)
  have hi' := Finset.mem_range.1 hi
  have e : ∀ j ∈ range nrGen, (mkFC cone id fs pts true mu nrGen dir).matrix body i d j * σ (fs.getD i 0) j =
      -(σ (fs.getD i 0) j * ((cone (scale dir (pts.getD i PT.one).E) nrGen mu dir).getD j 0).dot (pointVel (pts.getD i PT.one).r (body d))) := by
    intro j hj
    unfold FC.matrix mkFC
    simp only [if_true]
    rw [genCols_get cone mu nrGen dir hc pts i j hi' (Finset.mem_range.1 hj), translate_eq]
    simp only [V3.dot, neg_x, neg_y, neg_z]; ring
  show ∑ j ∈ range nrGen, (mkFC cone id fs pts true mu nrGen dir).matrix body i d j * σ (fs.getD i 0) j = _
  rw [Finset.sum_congr rfl e, Finset.sum_neg_distrib]
  congr 1
  unfold coneForce
  simp only [V3.dot]
  rw [Finset.sum_mul, Finset.sum_mul, Finset.sum_mul, ← Finset.sum_add_distrib, ← Finset.sum_add_distrib]
  exact Finset.sum_congr rfl (fun j _ => by ring)

/-- With the friction cones of the code and positive lambdas, each of these forces is in the friction cone of its point: about the third axis of the point for the first frame of the
contact, about its opposite for the second one. -/
theorem C82_no_slip (p : PT ℝ) (hp : p.E.Ortho) (mu : ℝ) (nrGen : Nat) (dir : ℝ) (hd : dir = 1 ∨ dir = -1) (lam : Nat → ℝ) (hl : ∀ j < nrGen, 0 ≤ lam j) :
    C81.InCone mu (dir • p.E.c) (coneForce Fric.generators p mu nrGen dir lam) := by
  have ho : (scale dir p.E).Ortho := by
    have hdd : dir * dir = 1 := by rcases hd with rfl | rfl <;> norm_num
    obtain ⟨h1, h2⟩ := hp
    have e := fun (q : M3 ℝ → ℝ) => congrArg q h1
    have e' := fun (q : M3 ℝ → ℝ) => congrArg q h2
    simp only [M3.mul, M3.tr, M3.one, V3.dot] at e e'
    have a1 := e (fun m => m.a.x); have a2 := e (fun m => m.a.y); have a3 := e (fun m => m.a.z); have a4 := e (fun m => m.b.x)
    have a5 := e (fun m => m.b.y); have a6 := e (fun m => m.b.z); have a7 := e (fun m => m.c.x); have a8 := e (fun m => m.c.y); have a9 := e (fun m => m.c.z)
    have b1 := e' (fun m => m.a.x); have b2 := e' (fun m => m.a.y); have b3 := e' (fun m => m.a.z); have b4 := e' (fun m => m.b.x)
    have b5 := e' (fun m => m.b.y); have b6 := e' (fun m => m.b.z); have b7 := e' (fun m => m.c.x); have b8 := e' (fun m => m.c.y); have b9 := e' (fun m => m.c.z)
    simp only at a1 a2 a3 a4 a5 a6 a7 a8 a9 b1 b2 b3 b4 b5 b6 b7 b8 b9
    constructor <;> (ext <;> simp only [scale, M3.mul, M3.tr, M3.one, V3.dot, smul_x, smul_y, smul_z])
    · linear_combination dir * dir * a1 + hdd
    · linear_combination dir * dir * a2
    · linear_combination dir * dir * a3
    · linear_combination dir * dir * a4
    · linear_combination dir * dir * a5 + hdd
    · linear_combination dir * dir * a6
    · linear_combination dir * dir * a7
    · linear_combination dir * dir * a8
    · linear_combination dir * dir * a9 + hdd
    · linear_combination dir * dir * b1 + hdd
    · linear_combination dir * dir * b2
    · linear_combination dir * dir * b3
    · linear_combination dir * dir * b4
    · linear_combination dir * dir * b5 + hdd
    · linear_combination dir * dir * b6
    · linear_combination dir * dir * b7
    · linear_combination dir * dir * b8
    · linear_combination dir * dir * b9 + hdd
  have := C81.C81_inside (scale dir p.E) ho nrGen mu dir hd lam hl
  have e : coneForce Fric.generators p mu nrGen dir lam = C81.combine (Fric.generators (scale dir p.E) nrGen mu dir) lam := by
    unfold coneForce C81.combine
    rw [C81.C81_count]
  rw [e]; exact this

/-- A contact by forces puts in the equation `dir J_p^T f_p`: for the first frame of a contact the equation reads `H q'' + C = tau - sum J_p^T f_p`. -/
theorem C82_free (cone : Cone K) (id : CId S) (fs : List Nat) (pts : List (PT K)) (mu : K) (nrGen : Nat) (dir : K) (body : Nat → MV K) (σ : Vals K) (d : Nat) (hf : fs.length = pts.length) :
    term (mkFC cone id fs pts false mu nrGen dir) body σ d =
      dir * ∑ i ∈ range pts.length, (vec (σ (fs.getD i 0))).dot (pointVel (pts.getD i PT.one).r (body d)) := by
  unfold term
  rw [Finset.mul_sum]
  show ∑ i ∈ range fs.length, _ = _
  rw [hf]
  refine Finset.sum_congr rfl (fun i hi => ?_)
  show ∑ j ∈ range 3, _ = _
  rw [Finset.sum_range_succ, Finset.sum_range_succ, Finset.sum_range_one]
  unfold FC.matrix mkFC
  simp only [Bool.false_eq_true, if_false]
  rw [translate_eq]
  simp only [V3.dot, vec, comp]; ring

/-- A contact that has been removed is still in the equation: its variables stay, with the matrices of the last update. -/
theorem C82_removed_false : ∃ (D : DF Nat ℚ) (J : Jacs ℚ) (σ : Vals ℚ), Reach noCone 0 D ∧ D.contacts = [] ∧
    ∀ body, D.forceTerm (fun _ => 3) (D.update body J) σ 0 ≠ 0 ∧
      ∃ D' body' J', Reach noCone 0 D' ∧ D = D'.removeContact one₀.id ∧ J = D'.update body' J' := by
  refine ⟨(((⟨[], [], 0⟩ : DF Nat ℚ).addContact noCone 0 one₀ false 0 0).1).removeContact one₀.id,
    ((⟨[], [], 0⟩ : DF Nat ℚ).addContact noCone 0 one₀ false 0 0).1.update (fun _ _ => ⟨0, ⟨1, 0, 0⟩⟩) (fun _ _ _ => 0), fun _ _ => 1, .remove _ _ (.add _ _ _ _ _ .init), ?_, ?_⟩
  · simp [DF.addContact, DF.removeContact, DF.get, DF.addView, one₀, fresh, mkFC, CId.eq]
  · intro body
    refine ⟨?_, _, _, _, .add _ one₀ false 0 0 .init, rfl, rfl⟩
    simp [DF.addContact, DF.removeContact, DF.get, DF.addView, one₀, fresh, mkFC, CId.eq, DF.forceTerm, DF.update, FC.update, FC.matrix, translateCol, comp, PT.one, V3.cross,
      Finset.sum_range_succ]

/-! ## The force that is reported -/

theorem power_add (a b : FV K) (m : MV K) : power (a + b) m = power a m + power b m := by
  show (a.n + b.n).dot m.w + (a.f + b.f).dot m.v = _
  simp only [power, V3.dot, add_x, add_y, add_z]; ring

theorem power_zero (m : MV K) : power (0 : FV K) m = 0 := by
  show (0 : V3 K).dot m.w + (0 : V3 K).dot m.v = 0
  simp [V3.dot]

theorem power_transMul (p : PT K) (f : V3 K) (m : MV K) : power (transMul p ⟨0, f⟩) m = (p.E.tr.mulVec f).dot (pointVel p.r m) := by
  unfold transMul power
  simp only
  generalize p.E.tr.mulVec f = g
  have h0 : p.E.tr.mulVec 0 = 0 := by ext <;> simp [M3.mulVec, V3.dot]
  rw [h0]
  simp only [pointVel, V3.dot, V3.cross, add_x, add_y, add_z, zero_x, zero_y, zero_z]; ring

theorem power_fold (g : Nat → FV K) (m : MV K) (n : Nat) : power ((List.range n).foldl (fun a i => a + g i) 0) m = ∑ i ∈ range n, power (g i) m := by
  induction n with
  | zero => exact power_zero m
  | succ n ih => rw [List.range_succ, List.foldl_append, Finset.sum_range_succ]; simp only [List.foldl_cons, List.foldl_nil]; rw [power_add, ih]

/-- The force reported for lambdas is undefined iff a point has an index that, times the number of generators, is beyond the number of points: line 147 reads the variable of
index `nrGen * i` where it is that of index `i`. -/
theorem C82_reported_undefined (c : FC S K) (σ : Vals K) (hf : c.forces.length = c.pts.length) :
    c.forceLin σ = none ↔ ∃ i < c.pts.length, c.pts.length ≤ c.nrGen * i := by
  have key : ∀ n, (∀ i < n, c.nrGen * i < c.forces.length) ∧ (∃ a, (List.range n).foldlM (c.linStep σ) (0 : FV K) = some a) ∨
      (∃ i < n, c.forces.length ≤ c.nrGen * i) ∧ (List.range n).foldlM (c.linStep σ) (0 : FV K) = none := by
    intro n
    induction n with
    | zero => exact Or.inl ⟨fun i hi => by omega, 0, rfl⟩
    | succ n ih =>
      rw [List.range_succ, List.foldlM_append]
      rcases ih with ⟨h1, a, h2⟩ | ⟨⟨i, hi, hle⟩, h2⟩
      · rw [h2]
        by_cases hlt : c.nrGen * n < c.forces.length
        · refine Or.inl ⟨fun i hi => ?_, ?_⟩
          · by_cases h : i = n
            · rw [h]; exact hlt
            · exact h1 i (by omega)
          · have : c.linStep σ a n = some (a + transMul (c.pts.getD n PT.one) ⟨0, -(lincomb c.gens c.nrGen n (σ c.forces[c.nrGen * n]))⟩) := by
              unfold FC.linStep; rw [List.getElem?_eq_getElem hlt]
            exact ⟨_, by simp [this]; rfl⟩
        · refine Or.inr ⟨⟨n, by omega, by omega⟩, ?_⟩
          have : c.linStep σ a n = none := by
            unfold FC.linStep; rw [List.getElem?_eq_none (by omega)]
          simp [this]
      · refine Or.inr ⟨⟨i, by omega, hle⟩, ?_⟩
        rw [h2]; rfl
  unfold FC.forceLin
  rcases key c.pts.length with ⟨h1, a, h2⟩ | ⟨⟨i, hi, hle⟩, h2⟩
  · rw [hf] at h1
    rw [h2]
    constructor
    · intro h; cases h
    · rintro ⟨i, hi, hle⟩; have := h1 i hi; omega
  · rw [hf] at hle
    rw [h2]
    exact ⟨fun _ => ⟨i, hi, hle⟩, fun _ => rfl⟩

/-- In particular for any contact of two points or more with two generators or more. -/
theorem C82_reported_undefined_common (c : FC S K) (σ : Vals K) (hf : c.forces.length = c.pts.length) (hp : 2 ≤ c.pts.length) (hg : 2 ≤ c.nrGen) : c.forceLin σ = none := by
  rw [C82_reported_undefined c σ hf]
  refine ⟨c.pts.length - 1, by omega, ?_⟩
  have := Nat.mul_le_mul_right (c.pts.length - 1) hg
  omega

/-- The power of the reported force is that of the forces rotated by the transformation of the points. -/
theorem C82_reported_free (c : FC S K) (σ : Vals K) (hf : c.forces.length = c.pts.length) (m : MV K) :
    power (c.forceFree σ) m = ∑ i ∈ range c.pts.length, ((c.pts.getD i PT.one).E.tr.mulVec (vec (σ (c.forces.getD i 0)))).dot (pointVel (c.pts.getD i PT.one).r m) := by
  unfold FC.forceFree
  rw [power_fold, hf]
  exact Finset.sum_congr rfl (fun i _ => power_transMul _ _ _)

/-- The force that is reported is the one that acts in the equation, for the second frame of a contact by forces whose points have the axes of the frame. The claim for all contacts is false. -/
theorem C82_reported_partial (cone : Cone K) (id : CId S) (fs : List Nat) (pts : List (PT K)) (mu : K) (nrGen : Nat) (body : Nat → MV K) (σ : Vals K) (d : Nat)
    (hf : fs.length = pts.length) (hE : ∀ p ∈ pts, p.E = M3.one) :
    term (mkFC cone id fs pts false mu nrGen (-1)) body σ d = -power ((mkFC cone id fs pts false mu nrGen (-1)).forceFree σ) (body d) := by
  rw [C82_free cone id fs pts mu nrGen (-1) body σ d hf, C82_reported_free _ σ hf]
  rw [neg_one_mul]
  congr 1
  refine Finset.sum_congr rfl (fun i hi => ?_)
  have hi' : i < pts.length := Finset.mem_range.1 hi
  have : (pts.getD i PT.one).E = M3.one := by
    rw [List.getD_eq_getElem?_getD, List.getElem?_eq_getElem hi']
    exact hE _ (List.getElem_mem hi')
  show _ = ((pts.getD i PT.one).E.tr.mulVec (vec (σ (fs.getD i 0)))).dot (pointVel (pts.getD i PT.one).r (body d))
  rw [this]
  congr 1
  ext <;> simp [M3.mulVec, M3.tr, M3.one, V3.dot]

/-- The same for lambdas, for a contact of one point that has the axes of the frame. -/
theorem C82_reported_lin_partial (cone : Cone K) (id : CId S) (v : Nat) (r : V3 K) (mu : K) (nrGen : Nat) (dir : K) (body : Nat → MV K) (σ : Vals K) (d : Nat)
    (hc : ∀ M, (cone M nrGen mu dir).length = nrGen) : ∃ F, (mkFC cone id [v] [⟨M3.one, r⟩] true mu nrGen dir).forceLin σ = some F ∧
    term (mkFC cone id [v] [⟨M3.one, r⟩] true mu nrGen dir) body σ d = -power F (body d) := by
  refine ⟨0 + transMul ⟨M3.one, r⟩ ⟨0, -(lincomb (genCols cone [⟨M3.one, r⟩] mu nrGen dir) nrGen 0 (σ v))⟩, ?_, ?_⟩
  · simp [FC.forceLin, FC.linStep, mkFC]
  · rw [C82_linearized cone id [v] [⟨M3.one, r⟩] mu nrGen dir body σ d hc rfl]
    rw [power_add, power_zero, zero_add, power_transMul]
    congr 1
    show ∑ i ∈ range 1, _ = _
    rw [Finset.sum_range_one]
    congr 1
    have hl : -(lincomb (genCols cone [⟨M3.one, r⟩] mu nrGen dir) nrGen 0 (σ v)) = coneForce cone ⟨M3.one, r⟩ mu nrGen dir (σ v) := by
      have e := fun j (hj : j ∈ range nrGen) => genCols_get cone mu nrGen dir hc [⟨M3.one, r⟩] 0 j (by simp) (Finset.mem_range.1 hj)
      unfold lincomb coneForce
      ext <;> simp only [neg_x, neg_y, neg_z] <;> rw [← Finset.sum_neg_distrib] <;> refine Finset.sum_congr rfl (fun j hj => ?_) <;> rw [e j hj]
      · simp only [neg_x, List.getD_cons_zero]; ring
      · simp only [neg_y, List.getD_cons_zero]; ring
      · simp only [neg_z, List.getD_cons_zero]; ring
    rw [hl]
    show coneForce cone ⟨M3.one, r⟩ mu nrGen dir (σ v) = _
    ext <;> simp [M3.mulVec, M3.tr, M3.one, V3.dot]

/-- For the first frame of a contact by forces the force that is reported is the opposite of the one that acts; and the points that do not have the axes of the frame have it rotated. -/
theorem C82_reported_false :
    (∃ (σ : Vals ℚ) (body : Nat → MV ℚ), let c := mkFC noCone one₀.id [0] [PT.one] false 0 0 1
      term c body σ 0 = power (c.forceFree σ) (body 0) ∧ power (c.forceFree σ) (body 0) ≠ 0) ∧
    (∃ (σ : Vals ℚ) (body : Nat → MV ℚ), let c := mkFC noCone one₀.id [0] [⟨⟨⟨0, 1, 0⟩, ⟨-1, 0, 0⟩, ⟨0, 0, 1⟩⟩, 0⟩] false 0 0 (-1)
      power (c.forceFree σ) (body 0) = 0 ∧ term c body σ 0 ≠ 0) := by
  constructor
  · refine ⟨fun _ j => if j = 0 then 1 else 0, fun _ => ⟨0, ⟨1, 0, 0⟩⟩, ?_⟩
    simp only
    rw [C82_free _ _ _ _ _ _ _ _ _ _ rfl, C82_reported_free _ _ rfl]
    simp [mkFC, vec, V3.dot, pointVel, V3.cross, PT.one, M3.mulVec, M3.tr, M3.one]
  · refine ⟨fun _ j => if j = 0 then 1 else 0, fun _ => ⟨0, ⟨1, 0, 0⟩⟩, ?_⟩
    simp only
    rw [C82_free _ _ _ _ _ _ _ _ _ _ rfl, C82_reported_free _ _ rfl]
    simp [mkFC, vec, V3.dot, pointVel, V3.cross, M3.mulVec, M3.tr]

/-- `contactForce` is zero for a contact that is not in the equation, and otherwise the force of the first one that has the identifier; with frames of different robots it is the only one. -/
theorem C82_contactForce (cone : Cone K) (robot : S) (D : DF S K) (h : Reach cone robot D) (id : CId S) (σ : Vals K) :
    ((∀ c ∈ D.contacts, c.id ≠ id) → D.contactForce id σ = some 0) ∧
    (∀ (a : List (FC S K)) (c : FC S K) (b : List (FC S K)), D.contacts = a ++ c :: b → (∀ x ∈ a, x.id ≠ id) → c.id = id →
      D.contactForce id σ = if c.lin then c.forceLin σ else some (c.forceFree σ)) ∧
    ∀ c ∈ D.contacts, c.id = id → (id.r1 ≠ robot ∨ id.r2 ≠ robot) → D.contactForce id σ = if c.lin then c.forceLin σ else some (c.forceFree σ) := by
  have k2 : ∀ (a : List (FC S K)) (c : FC S K) (b : List (FC S K)), D.contacts = a ++ c :: b → (∀ x ∈ a, x.id ≠ id) → c.id = id →
      D.contactForce id σ = if c.lin then c.forceLin σ else some (c.forceFree σ) := by
    intro a c b e ha hc
    have hg : D.get id = some c := by
      unfold DF.get
      rw [e, List.find?_append, List.find?_eq_none.2 (fun x hx hxe => ha x hx ((eq_iff _ _).1 hxe)), Option.none_or, List.find?_cons_of_pos (p := fun c : FC S K => c.id.eq id) ((eq_iff _ _).2 hc)]
    unfold DF.contactForce
    rw [hg]
  refine ⟨fun hn => ?_, k2, fun c hc hid hr => ?_⟩
  · have hg : D.get id = none := by
      unfold DF.get
      exact List.find?_eq_none.2 (fun x hx hxe => hn x hx ((eq_iff _ _).1 hxe))
    unfold DF.contactForce
    rw [hg]
  · have hcount : C82.count D id ≤ 1 := by
      refine le_trans (h.count id) ?_
      rcases hr with hr | hr
      · rw [if_neg hr]; by_cases h2 : id.r2 = robot <;> simp [h2]
      · rw [if_neg hr]; by_cases h2 : id.r1 = robot <;> simp [h2]
    obtain ⟨a, b, e⟩ := List.append_of_mem hc
    refine k2 a c b e (fun x hx hxe => ?_) hid
    unfold C82.count at hcount
    rw [e, List.countP_append, List.countP_cons_of_pos (p := fun c : FC S K => c.id.eq id) ((eq_iff _ _).2 hid)] at hcount
    have : 0 < a.countP (fun c => c.id.eq id) := List.countP_pos_iff.2 ⟨x, hx, (eq_iff _ _).2 hxe⟩
    omega

/-! ## The constraints of friction -/

/-- The constraints that are added are on the variables of the linearized contacts only: a contact by forces gets no constraint of friction. -/
theorem C82_positive (cone : Cone K) (robot : S) (D : DF S K) (h : Reach cone robot D) (c : FC S K) (hc : c ∈ D.contacts) (v : Nat) (hv : v ∈ c.forces) :
    v ∈ D.positive ↔ c.lin = true := by
  have hn := h.inv.unodup
  unfold DF.positive
  rw [List.mem_flatMap]
  constructor
  · rintro ⟨c', hc', hv'⟩
    obtain ⟨hm, hl⟩ := List.mem_filter.1 hc'
    -- a variable is of one contact only
    have : c = c' := by
      unfold used at hn
      revert hn hc hm
      generalize D.contacts = l
      induction l with
      | nil => intro hc; simp at hc
      | cons a l ih =>
        intro hc hn hm
        rw [List.flatMap_cons, List.nodup_append] at hn
        obtain ⟨n1, n2, n3⟩ := hn
        rcases List.mem_cons.1 hc with e1 | e1 <;> rcases List.mem_cons.1 hm with e2 | e2
        · rw [e1, e2]
        · exact absurd rfl (n3 v (e1 ▸ hv) v (List.mem_flatMap.2 ⟨c', e2, hv'⟩))
        · exact absurd rfl (n3 v (e2 ▸ hv') v (List.mem_flatMap.2 ⟨c, e1, hv⟩))
        · exact ih e1 n2 e2
    rw [this]; exact hl
  · intro hl
    exact ⟨c, List.mem_filter.2 ⟨hc, hl⟩, hv⟩

/-! ## Examples -/

/-- Two contacts, of which one by lambdas, and the removal of the first -/
def two₀ : DF Nat ℚ :=
  (((⟨[], [], 0⟩ : DF Nat ℚ).addContact (fun _ n _ _ => List.replicate n ⟨0, 0, 1⟩) 0 one₀ false 0 0).1.addContact (fun _ n _ _ => List.replicate n ⟨0, 0, 1⟩) 0
    ⟨⟨7, 1, 0, 2, 0⟩, [], [PT.one, PT.one]⟩ true 1 4).1

example : Reach (fun _ n _ _ => List.replicate n ⟨0, 0, 1⟩) 0 two₀ ∧ two₀.contacts.length = 2 ∧ two₀.vars = [0, 1, 2] ∧ Sized two₀ (fun v => if v = 0 then 3 else 4) ∧
    Reach (fun _ n _ _ => List.replicate n ⟨0, 0, 1⟩) 0 (two₀.removeContact one₀.id) ∧ (two₀.removeContact one₀.id).contacts.length = 1 ∧ used (two₀.removeContact one₀.id) = [1, 2] ∧
    two₀.positive = [1, 2] := by
  have r : Reach (fun _ n _ _ => List.replicate n ⟨0, 0, 1⟩) 0 two₀ := .add _ _ _ _ _ (.add _ _ _ _ _ .init)
  refine ⟨r, ?_, ?_, ?_, .remove _ _ r, ?_, ?_, ?_⟩
  · simp [two₀, DF.addContact, DF.get, DF.addView, one₀, fresh, mkFC, CId.eq]
  · simp [two₀, DF.addContact, DF.get, DF.addView, one₀, fresh, mkFC, CId.eq, List.range_succ]
  · simp [Sized, two₀, DF.addContact, DF.get, DF.addView, one₀, fresh, mkFC, CId.eq, List.range_succ]
  · simp [two₀, DF.removeContact, DF.addContact, DF.get, DF.addView, one₀, fresh, mkFC, CId.eq]
  · simp [used, two₀, DF.removeContact, DF.addContact, DF.get, DF.addView, one₀, fresh, mkFC, CId.eq, List.range_succ]
  · simp [DF.positive, two₀, DF.addContact, DF.get, DF.addView, one₀, fresh, mkFC, CId.eq, List.range_succ]

/-- The cones of the code have the length that `C82_linearized` asks for. -/
example (mu dir : ℝ) (n : Nat) : ∀ M, (Fric.generators M n mu dir).length = n := fun M => C81.C81_count M n mu dir

/-- A turned frame is orthogonal (`C82_no_slip`). -/
example : (⟨⟨0, 1, 0⟩, ⟨-1, 0, 0⟩, ⟨0, 0, 1⟩⟩ : M3 ℝ).Ortho := by
  constructor <;> (ext <;> simp [M3.mul, M3.tr, M3.one, V3.dot])

/-- A contact between two robots, in the equation: its force is the one of its variable -/
example : ∃ (D : DF Nat ℚ) (c : FC Nat ℚ), Reach noCone 0 D ∧ c ∈ D.contacts ∧ c.id = one₀.id ∧ (one₀.id.r1 ≠ 0 ∨ one₀.id.r2 ≠ 0) ∧ c.lin = false :=
  ⟨((⟨[], [], 0⟩ : DF Nat ℚ).addContact noCone 0 one₀ false 0 0).1, mkFC noCone one₀.id [0] [PT.one] false 0 0 1, .add _ _ _ _ _ .init,
    by simp [DF.addContact, DF.get, DF.addView, one₀, fresh, mkFC], rfl, .inr (by decide), rfl⟩

end Verif.C82
