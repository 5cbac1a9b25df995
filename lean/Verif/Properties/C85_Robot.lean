import Verif.Model.Robot
import Mathlib.Algebra.BigOperators.Group.List.Basic
import Mathlib.Algebra.Order.Ring.Nat
import Mathlib.Tactic.Abel
/-!
# C85 - the bounds, the integration and the normal accelerations of a robot
-/
set_option autoImplicit false
set_option linter.unusedSectionVars false

namespace Verif.C85
open Verif Verif.Rob

variable {K : Type}

/-! ## Bounds -/

/-- What the limits say of the `i`th number of a joint named `n`, if they speak of it -/
def limitOf (lim : List (Nat × List K)) (n i : Nat) : Option K := (lim.find? (fun q => decide (q.1 = n))).bind (fun q => q.2[i]?)

theorem pos_succ (f : Joint → Nat) (js : List Joint) (j : Nat) (h : j < js.length) : pos f js (j + 1) = pos f js j + f js[j] := by
  unfold pos
  rw [List.take_succ_eq_append_getElem h, List.map_append, List.sum_append]
  simp

theorem pos_mono (f : Joint → Nat) (js : List Joint) (j k : Nat) (h : j ≤ k) : pos f js j ≤ pos f js k := by
  induction k with
  | zero => have : j = 0 := by omega
            rw [this]
  | succ k ih =>
    by_cases hk : j = k + 1
    · rw [hk]
    · have := ih (by omega)
      by_cases hl : k < js.length
      · rw [pos_succ f js k hl]; omega
      · unfold pos at *
        rw [List.take_of_length_le (by omega : js.length ≤ k + 1)]
        rw [List.take_of_length_le (by omega : js.length ≤ k)] at this
        exact this

theorem pos_total (f : Joint → Nat) (js : List Joint) : pos f js js.length = total f js := by
  unfold pos total; rw [List.take_length]

/-- The range of a joint is inside, and the ranges of two joints have nothing in common. -/
theorem pos_le (f : Joint → Nat) (js : List Joint) (j : Nat) (h : j < js.length) : pos f js j + f js[j] ≤ total f js := by
  rw [← pos_succ f js j h, ← pos_total]; exact pos_mono f js _ _ h

theorem pos_disj (f : Joint → Nat) (js : List Joint) (j k i i' : Nat) (hj : j < js.length) (hk : k < js.length) (hi : i < f js[j]) (hi' : i' < f js[k])
    (e : pos f js j + i = pos f js k + i') : j = k := by
  rcases lt_trichotomy j k with h | h | h
  · have := pos_mono f js (j + 1) k h
    rw [pos_succ f js j hj] at this; omega
  · exact h
  · have := pos_mono f js (k + 1) j h
    rw [pos_succ f js k hk] at this; omega

theorem index_some (js : List Joint) (n j : Nat) (h : index js n = some j) : ∃ hj : j < js.length, (js[j]).name = n := by
  unfold index at h
  rw [List.findIdx?_eq_some_iff_getElem] at h
  obtain ⟨hj, h1, _⟩ := h
  exact ⟨hj, by simpa using h1⟩

theorem index_of (js : List Joint) (hn : (js.map Joint.name).Nodup) (j : Nat) (hj : j < js.length) : index js (js[j]).name = some j := by
  unfold index
  rw [List.findIdx?_eq_some_iff_getElem]
  refine ⟨hj, by simp, ?_⟩
  intro k hk
  simp only [decide_eq_true_eq]
  intro e
  have h2 := (List.pairwise_iff_getElem.1 hn) k j (by simp; omega) (by simp; omega) hk
  simp at h2
  exact h2 e

theorem writeVals_spec [Mul K] (mul : K) : ∀ (vals : List K) (p : Nat) (out : EVec K), p + vals.length ≤ out.size →
    ∃ out', writeVals mul p vals out = some out' ∧ out'.size = out.size ∧ ∀ n, out'.v n = if h : p ≤ n ∧ n - p < vals.length then mul * vals[n - p]'h.2 else out.v n := by
  intro vals
  induction vals with
  | nil => intro p out _; exact ⟨out, rfl, rfl, fun n => by simp⟩
  | cons a l ih =>
    intro p out h
    rw [List.length_cons] at h
    unfold writeVals EVec.set
    rw [if_pos ⟨by omega, by omega⟩]
    obtain ⟨out', h1, h2, h3⟩ := ih (p + 1) ⟨out.size, fun n => if (n : Int) = p then mul * a else out.v n⟩ (by simp only; omega)
    refine ⟨out', by simpa using h1, h2, fun n => ?_⟩
    rw [h3 n]
    by_cases hn : p + 1 ≤ n ∧ n - (p + 1) < l.length
    · rw [dif_pos hn, dif_pos ⟨by omega, by rw [List.length_cons]; omega⟩]
      congr 1
      have : n - p = (n - (p + 1)) + 1 := by omega
      simp only [this, List.getElem_cons_succ]
    · rw [dif_neg hn]
      by_cases he : n = p
      · subst he
        simp
      · rw [dif_neg (by rw [List.length_cons]; omega)]
        show (if (n : Int) = p then mul * a else out.v n) = _
        rw [if_neg (by omega)]

/-- The limits speak of joints after the offset, with as many numbers as the joint has. -/
def LimOk (js : List Joint) (f : Joint → Nat) (off : Nat) (lim : List (Nat × List K)) : Prop :=
  (lim.map Prod.fst).Nodup ∧ ∀ q ∈ lim, ∀ (j : Nat) (hj : j < js.length), (js[j]).name = q.1 → q.2.length = f js[j] ∧ off ≤ pos f js j

theorem map2bound_spec [Mul K] (js : List Joint) (hn : (js.map Joint.name).Nodup) (f : Joint → Nat) (mul : K) (off : Nat) : ∀ (lim : List (Nat × List K)) (out : EVec K), LimOk js f off lim →
    total f js ≤ out.size + off →
    ∃ out', map2bound js f mul off lim out = some out' ∧ out'.size = out.size ∧
      (∀ (j : Nat) (hj : j < js.length) (i : Nat), i < f js[j] → off ≤ pos f js j → out'.v (pos f js j - off + i) =
        match limitOf lim (js[j]).name i with
        | some a => mul * a
        | none => out.v (pos f js j - off + i)) ∧
      ∀ n, (∀ (j : Nat) (hj : j < js.length) (i : Nat), i < f js[j] → off ≤ pos f js j → n ≠ pos f js j - off + i) → out'.v n = out.v n := by
  intro lim
  induction lim with
  | nil => intro out _ _; exact ⟨out, rfl, rfl, fun j hj i _ _ => by simp [limitOf], fun _ _ => rfl⟩
  | cons q l ih =>
    intro out hok hs
    obtain ⟨hnd, hq⟩ := hok
    rw [List.map_cons] at hnd
    obtain ⟨hq1, hnd'⟩ := List.nodup_cons.1 hnd
    have hok' : LimOk js f off l := ⟨hnd', fun q' h => hq q' (List.mem_cons_of_mem _ h)⟩
    unfold map2bound
    cases hi : index js q.1 with
    | none =>
      simp only
      obtain ⟨out', h1, h2, h3, h4⟩ := ih out hok' hs
      refine ⟨out', h1, h2, fun j hj i hii ho => ?_, h4⟩
      rw [h3 j hj i hii ho]
      have hne : q.1 ≠ (js[j]).name := by
        intro e
        rw [e, index_of js hn j hj] at hi; cases hi
      have : limitOf (q :: l) (js[j]).name i = limitOf l (js[j]).name i := by
        unfold limitOf
        rw [List.find?_cons_of_neg (by simpa using hne)]
      rw [this]
    | some j0 =>
      simp only
      obtain ⟨hj0, hname⟩ := index_some js q.1 j0 hi
      obtain ⟨hlen, hoff⟩ := hq q List.mem_cons_self j0 hj0 hname
      have hle := pos_le f js j0 hj0
      have hcast : ((pos f js j0 : Int) - off) = ((pos f js j0 - off : Nat) : Int) := by omega
      rw [hcast]
      obtain ⟨o1, w1, w2, w3⟩ := writeVals_spec mul q.2 (pos f js j0 - off) out (by rw [hlen]; omega)
      rw [w1]
      simp only
      obtain ⟨out', h1, h2, h3, h4⟩ := ih o1 hok' (by rw [w2]; exact hs)
      refine ⟨out', h1, h2.trans w2, fun j hj i hii ho => ?_, fun n hnn => ?_⟩
      · rw [h3 j hj i hii ho]
        by_cases hjj : j = j0
        · subst hjj
          have hl0 : limitOf l (js[j]).name i = none := by
            unfold limitOf
            have : l.find? (fun q' => decide (q'.1 = (js[j]).name)) = none := by
              rw [List.find?_eq_none]
              intro q' hq' he
              exact hq1 (by rw [← hname, ← (by simpa using he : q'.1 = (js[j]).name)]; exact List.mem_map_of_mem hq')
            rw [this]; rfl
          have hl1 : limitOf (q :: l) (js[j]).name i = some (q.2[i]'(by rw [hlen]; exact hii)) := by
            unfold limitOf
            rw [List.find?_cons_of_pos (by simp [hname])]
            simp [hlen, hii]
          rw [hl0, hl1]
          simp only
          rw [w3, dif_pos ⟨by omega, by rw [hlen]; omega⟩]
          congr 1
          simp
        · have : limitOf (q :: l) (js[j]).name i = limitOf l (js[j]).name i := by
            unfold limitOf
            rw [List.find?_cons_of_neg]
            intro he
            have he' : q.1 = (js[j]).name := by simpa using he
            rw [he', index_of js hn j hj] at hi
            exact hjj (Option.some.inj hi)
          rw [this]
          have : o1.v (pos f js j - off + i) = out.v (pos f js j - off + i) := by
            rw [w3, dif_neg]
            rintro ⟨c1, c2⟩
            rw [hlen] at c2
            exact hjj (pos_disj f js j j0 i (pos f js j - off + i - (pos f js j0 - off)) hj hj0 hii c2 (by omega))
          rw [this]
      · rw [h4 n hnn, w3, dif_neg]
        rintro ⟨c1, c2⟩
        rw [hlen] at c2
        exact hnn j0 hj0 (n - (pos f js j0 - off)) c2 hoff (by omega)

/-- The first joint of a floating base has 7 parameters and 6 degrees of freedom. -/
def TreeOk (free : Bool) (js : List Joint) : Prop :=
  (js.map Joint.name).Nodup ∧ (∀ j ∈ js, j.dof ≤ j.params) ∧ (free = true → ∀ h : 0 < js.length, (js[0]).params = 7 ∧ (js[0]).dof = 6)

/-- The position of a joint, other than the free flyer, among the joints of the robot -/
def jpos (f : Joint → Nat) (off : Nat) (js : List Joint) (j : Nat) : Nat := pos f js j - off

theorem total_le (js : List Joint) (h : ∀ j ∈ js, j.dof ≤ j.params) : total Joint.dof js ≤ total Joint.params js := by
  unfold total
  induction js with
  | nil => simp
  | cons a l ih =>
    have h1 := ih fun j hj => h j (List.mem_cons_of_mem _ hj)
    have h2 := h a List.mem_cons_self
    simp only [List.map_cons, List.sum_cons]
    omega

theorem ff_le (free : Bool) (js : List Joint) (h : TreeOk free js) : ffSize free js ≤ total Joint.params js ∧ ffT free js ≤ total Joint.dof js ∧
    total Joint.dof js + ffSize free js ≤ total Joint.params js + ffT free js := by
  obtain ⟨_, h2, h3⟩ := h
  unfold ffSize ffT floating
  cases js with
  | nil => simp [total]
  | cons a l =>
    cases free with
    | false => simp; exact total_le _ h2
    | true =>
      obtain ⟨e1, e2⟩ := h3 rfl (by simp)
      simp only [List.getElem_cons_zero] at e1 e2
      have := total_le l fun j hj => h2 j (List.mem_cons_of_mem _ hj)
      unfold total at *
      simp only [List.map_cons, List.sum_cons, e1, e2]
      simp
      omega

/-- The numbers that stand for the limits of the joints, at the position of the joint in the variable -/
structure BoundsOk [Ring K] (big : K) (free : Bool) (js : List Joint) (lim : Limits K) (b : Bounds K) : Prop where
  sizeQ : b.lQ.size = jointsSize free js ∧ b.uQ.size = jointsSize free js
  q : ∀ (j : Nat) (hj : j < js.length) (i : Nat), i < (js[j]).params → ffSize free js ≤ pos Joint.params js j →
    b.lQ.v (jpos Joint.params (ffSize free js) js j + i) = (limitOf lim.lower (js[j]).name i).getD (-big) ∧
    b.uQ.v (jpos Joint.params (ffSize free js) js j + i) = (limitOf lim.upper (js[j]).name i).getD big
  vel : ∀ (j : Nat) (hj : j < js.length) (i : Nat), i < (js[j]).dof → ffT free js ≤ pos Joint.dof js j →
    b.lV.v (jpos Joint.dof (ffT free js) js j + i) = -(limitOf lim.velocity (js[j]).name i).getD big ∧
    b.uV.v (jpos Joint.dof (ffT free js) js j + i) = (limitOf lim.velocity (js[j]).name i).getD big
  tau : ∀ (j : Nat) (hj : j < js.length) (i : Nat), i < (js[j]).dof →
    b.lT.v (pos Joint.dof js j + i) = -(limitOf lim.torque (js[j]).name i).getD (if pos Joint.dof js j + i < ffT free js then 0 else big) ∧
    b.uT.v (pos Joint.dof js j + i) = (limitOf lim.torque (js[j]).name i).getD (if pos Joint.dof js j + i < ffT free js then 0 else big)

/-- For limits that have the sizes of the joints (and do not speak of the free flyer for positions and velocities), the bounds are those of the joints, at their place in the variables; the
joints without limits have large bounds, and there is no torque on the free flyer. -/
theorem C85_bounds [Ring K] (big : K) (free : Bool) (js : List Joint) (ht : TreeOk free js) (lim : Limits K) (h1 : LimOk js Joint.params (ffSize free js) lim.lower)
    (h2 : LimOk js Joint.params (ffSize free js) lim.upper) (h3 : LimOk js Joint.dof (ffT free js) lim.velocity) (h4 : LimOk js Joint.dof 0 lim.torque) :
    ∃ b, bounds big free js lim = some b ∧ BoundsOk big free js lim b := by
  obtain ⟨f1, f2, f3⟩ := ff_le free js ht
  have hn := ht.1
  unfold bounds
  simp only
  obtain ⟨a1, e1, s1, v1, _⟩ := map2bound_spec js hn Joint.params (1 : K) (ffSize free js) lim.lower ⟨jointsSize free js, fun _ => -big⟩ h1 (by unfold jointsSize; simp only; omega)
  obtain ⟨a2, e2, s2, v2, _⟩ := map2bound_spec js hn Joint.params (1 : K) (ffSize free js) lim.upper ⟨jointsSize free js, fun _ => - -big⟩ h2 (by unfold jointsSize; simp only; omega)
  obtain ⟨a3, e3, s3, v3, _⟩ := map2bound_spec js hn Joint.dof (-1 : K) (ffT free js) lim.velocity ⟨jointsSize free js, fun _ => -big⟩ h3 (by unfold jointsSize; simp only; omega)
  obtain ⟨a4, e4, s4, v4, _⟩ := map2bound_spec js hn Joint.dof (1 : K) (ffT free js) lim.velocity ⟨jointsSize free js, fun _ => - -big⟩ h3 (by unfold jointsSize; simp only; omega)
  obtain ⟨a5, e5, s5, v5, _⟩ := map2bound_spec js hn Joint.dof (-1 : K) 0 lim.torque ⟨jointsSize free js + ffT free js, fun k => if k < ffT free js then 0 else -big⟩ h4
    (by unfold jointsSize; simp only; omega)
  obtain ⟨a6, e6, s6, v6, _⟩ := map2bound_spec js hn Joint.dof (1 : K) 0 lim.torque ⟨jointsSize free js + ffT free js, fun k => -(if k < ffT free js then 0 else -big)⟩ h4
    (by unfold jointsSize; simp only; omega)
  simp only [e1, e2, e3, e4, e5, e6]
  refine ⟨_, rfl, ⟨s1, s2⟩, ?_, ?_, ?_⟩
  · intro j hj i hi ho
    refine ⟨?_, ?_⟩
    · show a1.v (pos Joint.params js j - ffSize free js + i) = _
      rw [v1 j hj i hi ho]
      cases limitOf lim.lower (js[j]).name i <;> simp
    · show a2.v (pos Joint.params js j - ffSize free js + i) = _
      rw [v2 j hj i hi ho]
      cases limitOf lim.upper (js[j]).name i <;> simp
  · intro j hj i hi ho
    refine ⟨?_, ?_⟩
    · show a3.v (pos Joint.dof js j - ffT free js + i) = _
      rw [v3 j hj i hi ho]
      cases limitOf lim.velocity (js[j]).name i <;> simp
    · show a4.v (pos Joint.dof js j - ffT free js + i) = _
      rw [v4 j hj i hi ho]
      cases limitOf lim.velocity (js[j]).name i <;> simp
  · intro j hj i hi
    refine ⟨?_, ?_⟩
    · show a5.v (pos Joint.dof js j + i) = _
      have := v5 j hj i hi (Nat.zero_le _)
      rw [Nat.sub_zero] at this
      rw [this]
      cases limitOf lim.torque (js[j]).name i
      · simp only [Option.getD_none]
        by_cases hc : pos Joint.dof js j + i < ffT free js
        · rw [if_pos hc, if_pos hc]; simp
        · rw [if_neg hc, if_neg hc]
      · simp
    · show a6.v (pos Joint.dof js j + i) = _
      have := v6 j hj i hi (Nat.zero_le _)
      rw [Nat.sub_zero] at this
      rw [this]
      cases limitOf lim.torque (js[j]).name i
      · simp only [Option.getD_none]
        by_cases hc : pos Joint.dof js j + i < ffT free js
        · rw [if_pos hc, if_pos hc]; simp
        · rw [if_neg hc, if_neg hc]; simp
      · simp

/-- The size of the bounds is the one given by the number of parameters. -/
theorem bounds_sizes [Ring K] (big : K) (free : Bool) (js : List Joint) (ht : TreeOk free js) (lim : Limits K) (h1 : LimOk js Joint.params (ffSize free js) lim.lower)
    (h2 : LimOk js Joint.params (ffSize free js) lim.upper) (h3 : LimOk js Joint.dof (ffT free js) lim.velocity) (h4 : LimOk js Joint.dof 0 lim.torque) (b : Bounds K)
    (hb : bounds big free js lim = some b) : b.lV.size = jointsSize free js ∧ b.uV.size = jointsSize free js ∧ b.lT.size = jointsSize free js + ffT free js ∧ b.uT.size = jointsSize free js + ffT free js := by
  obtain ⟨f1, f2, f3⟩ := ff_le free js ht
  have hn := ht.1
  unfold bounds at hb
  simp only at hb
  obtain ⟨a1, e1, s1, _⟩ := map2bound_spec js hn Joint.params (1 : K) (ffSize free js) lim.lower ⟨jointsSize free js, fun _ => -big⟩ h1 (by unfold jointsSize; simp only; omega)
  obtain ⟨a2, e2, s2, _⟩ := map2bound_spec js hn Joint.params (1 : K) (ffSize free js) lim.upper ⟨jointsSize free js, fun _ => - -big⟩ h2 (by unfold jointsSize; simp only; omega)
  obtain ⟨a3, e3, s3, _⟩ := map2bound_spec js hn Joint.dof (-1 : K) (ffT free js) lim.velocity ⟨jointsSize free js, fun _ => -big⟩ h3 (by unfold jointsSize; simp only; omega)
  obtain ⟨a4, e4, s4, _⟩ := map2bound_spec js hn Joint.dof (1 : K) (ffT free js) lim.velocity ⟨jointsSize free js, fun _ => - -big⟩ h3 (by unfold jointsSize; simp only; omega)
  obtain ⟨a5, e5, s5, _⟩ := map2bound_spec js hn Joint.dof (-1 : K) 0 lim.torque ⟨jointsSize free js + ffT free js, fun k => if k < ffT free js then 0 else -big⟩ h4
    (by unfold jointsSize; simp only; omega)
  obtain ⟨a6, e6, s6, _⟩ := map2bound_spec js hn Joint.dof (1 : K) 0 lim.torque ⟨jointsSize free js + ffT free js, fun k => -(if k < ffT free js then 0 else -big)⟩ h4
    (by unfold jointsSize; simp only; omega)
  simp only [e1, e2, e3, e4, e5, e6] at hb
  rw [← Option.some.inj hb]
  exact ⟨s3, s4, s5, s6⟩

/-- The bounds on velocities and torques have the size of the velocities and of the torques iff all joints (but the free flyer) have as many parameters as degrees of freedom. -/
theorem C85_sizes_partial [Ring K] (big : K) (free : Bool) (js : List Joint) (ht : TreeOk free js) (lim : Limits K) (h1 : LimOk js Joint.params (ffSize free js) lim.lower)
    (h2 : LimOk js Joint.params (ffSize free js) lim.upper) (h3 : LimOk js Joint.dof (ffT free js) lim.velocity) (h4 : LimOk js Joint.dof 0 lim.torque) (b : Bounds K)
    (hb : bounds big free js lim = some b) :
    (b.lV.size = jointsT free js ∧ b.uV.size = jointsT free js ∧ b.lT.size = tauSize js ∧ b.uT.size = tauSize js) ↔
    total Joint.params js + ffT free js = total Joint.dof js + ffSize free js := by
  obtain ⟨f1, f2, f3⟩ := ff_le free js ht
  obtain ⟨s1, s2, s3, s4⟩ := bounds_sizes big free js ht lim h1 h2 h3 h4 b hb
  rw [s1, s2, s3, s4]
  unfold jointsSize jointsT tauSize
  omega

/-- With a spherical joint (4 parameters, 3 degrees of freedom), the bounds on the velocities and on the torques are too long. -/
theorem C85_sizes_false : ∃ (js : List Joint) (b : Bounds Int), TreeOk false js ∧ bounds 1000 false js ⟨[], [], [], []⟩ = some b ∧ b.lV.size = 4 ∧ jointsT false js = 3 ∧ b.lT.size = 4 ∧ tauSize js = 3 := by
  refine ⟨[⟨0, 4, 3⟩], _, ⟨by simp, by simp, by simp⟩, rfl, rfl, rfl, rfl, rfl⟩

/-- Limits that speak of the free flyer are undefined behaviour. -/
theorem C85_free_false : bounds (1000 : Int) true [⟨0, 7, 6⟩] ⟨[(0, [1])], [], [], []⟩ = none := by rfl

/-! ## Integration -/

variable {Q V : Type}

/-- What happens to a robot: the clock advances, the solver sets the acceleration, the robot is updated -/
inductive Ev (V : Type) where
  | advance
  | setDdq (a : V)
  | update

def step (euler : Q → V → V → Q × V) (s : State Q V) : Ev V → State Q V
  | .advance => s.advance
  | .setDdq a => s.setDdq a
  | .update => s.update euler

/-- After an update, the values of the variables are the configuration and the velocity of the robot, whatever happened before. -/
theorem C85_values (euler : Q → V → V → Q × V) (q : Q) (alphaD zero : V) (t : Nat) (evs : List (Ev V)) :
    let s := evs.foldl (step euler) (start t q zero alphaD zero)
    s.q = s.mq ∧ s.dq = s.malpha ∧ s.lastTick ≤ s.ticks ∧ (s.update euler).lastTick = s.ticks := by
  have key : ∀ (evs : List (Ev V)) (s : State Q V), s.q = s.mq → s.dq = s.malpha → s.lastTick ≤ s.ticks →
      (evs.foldl (step euler) s).q = (evs.foldl (step euler) s).mq ∧ (evs.foldl (step euler) s).dq = (evs.foldl (step euler) s).malpha ∧
      (evs.foldl (step euler) s).lastTick ≤ (evs.foldl (step euler) s).ticks := by
    intro evs
    induction evs with
    | nil => intro s a b c; exact ⟨a, b, c⟩
    | cons e l ih =>
      intro s a b c
      rw [List.foldl_cons]
      apply ih
      · cases e
        · exact a
        · exact a
        · show (s.update euler).q = (s.update euler).mq
          unfold State.update; by_cases h : s.lastTick ≠ s.ticks
          · rw [if_pos h]
          · rw [if_neg h]; exact a
      · cases e
        · exact b
        · exact b
        · show (s.update euler).dq = (s.update euler).malpha
          unfold State.update; by_cases h : s.lastTick ≠ s.ticks
          · rw [if_pos h]
          · rw [if_neg h]; exact b
      · cases e
        · show s.lastTick ≤ s.ticks + 1; omega
        · exact c
        · show (s.update euler).lastTick ≤ (s.update euler).ticks
          unfold State.update; by_cases h : s.lastTick ≠ s.ticks
          · rw [if_pos h]
          · rw [if_neg h]; exact c
  obtain ⟨k1, k2, k3⟩ := key evs (start t q zero alphaD zero) rfl rfl (le_refl _)
  refine ⟨k1, k2, k3, ?_⟩
  unfold State.update
  by_cases h : (evs.foldl (step euler) (start t q zero alphaD zero)).lastTick ≠ (evs.foldl (step euler) (start t q zero alphaD zero)).ticks
  · rw [if_pos h]
  · rw [if_neg h]; exact not_not.1 h

/-- Further updates in the same tick change nothing, whatever the solver sets in between. -/
theorem C85_once (euler : Q → V → V → Q × V) (s : State Q V) (a : V) : let s' := s.update euler
    s'.update euler = s' ∧ ((s'.setDdq a).update euler) = s'.setDdq a := by
  have h : (s.update euler).lastTick = (s.update euler).ticks := by
    unfold State.update
    by_cases h : s.lastTick ≠ s.ticks
    · rw [if_pos h]
    · rw [if_neg h]; exact not_not.1 h
  have still : ∀ t : State Q V, t.lastTick = t.ticks → t.update euler = t := by
    intro t ht; unfold State.update; rw [if_neg (not_not.2 ht)]
  exact ⟨still _ h, still _ h⟩

/-- One iteration of a control loop: the solver sets the acceleration, the clock advances, and the robot is updated at least once -/
def cycle (a : V) (extra : Nat) : List (Ev V) := [.setDdq a, .advance] ++ List.replicate (extra + 1) .update

/-- The steps of the integration -/
def trajectory (euler : Q → V → V → Q × V) : List V → Q × V → Q × V
  | [], x => x
  | a :: l, x => trajectory euler l (euler x.1 x.2 a)

theorem updates (euler : Q → V → V → Q × V) (n : Nat) (s : State Q V) : (List.replicate (n + 1) Ev.update).foldl (step euler) s = s.update euler := by
  induction n generalizing s with
  | zero => rfl
  | succ n ih =>
    rw [List.replicate_succ, List.foldl_cons, ih]
    exact (C85_once euler s s.ddq).1

/-- A control loop integrates the accelerations of the solver, one step for each iteration, whatever the number of updates in an iteration. -/
theorem C85_integrates (euler : Q → V → V → Q × V) (q : Q) (alpha alphaD zero : V) (t : Nat) (l : List (V × Nat)) :
    let s := ((l.map (fun c => cycle c.1 c.2)).flatten).foldl (step euler) (start t q alpha alphaD zero)
    (s.mq, s.malpha) = trajectory euler (l.map Prod.fst) (q, alpha) ∧ (l ≠ [] → (s.q, s.dq) = trajectory euler (l.map Prod.fst) (q, alpha)) := by
  have key : ∀ (l : List (V × Nat)) (s : State Q V), s.lastTick = s.ticks → let s' := ((l.map (fun c => cycle c.1 c.2)).flatten).foldl (step euler) s
      (s'.mq, s'.malpha) = trajectory euler (l.map Prod.fst) (s.mq, s.malpha) ∧ (l ≠ [] → (s'.q, s'.dq) = trajectory euler (l.map Prod.fst) (s.mq, s.malpha)) ∧
      (s.q = s.mq ∧ s.dq = s.malpha → (s'.q, s'.dq) = trajectory euler (l.map Prod.fst) (s.mq, s.malpha)) := by
    intro l
    induction l with
    | nil => intro s h; exact ⟨rfl, fun h => absurd rfl h, fun h => (by show (s.q, s.dq) = (s.mq, s.malpha); rw [h.1, h.2])⟩
    | cons c l ih =>
      intro s h
      simp only [List.map_cons, List.flatten_cons, List.foldl_append]
      have e1 : (cycle c.1 c.2).foldl (step euler) s = ((s.setDdq c.1).advance).update euler := by
        unfold cycle
        rw [List.foldl_append, updates]
        rfl
      rw [e1]
      have e2 : ((s.setDdq c.1).advance).update euler = (⟨s.ticks + 1, s.ticks + 1, (euler s.mq s.malpha c.1).1, (euler s.mq s.malpha c.1).2, c.1, (euler s.mq s.malpha c.1).1, (euler s.mq s.malpha c.1).2, c.1⟩ : State Q V) := by
        unfold State.update
        rw [if_pos (by show s.lastTick ≠ s.ticks + 1; omega)]
        rfl
      rw [e2]
      obtain ⟨k1, k2, k3⟩ := ih (⟨s.ticks + 1, s.ticks + 1, (euler s.mq s.malpha c.1).1, (euler s.mq s.malpha c.1).2, c.1, (euler s.mq s.malpha c.1).1, (euler s.mq s.malpha c.1).2, c.1⟩ : State Q V) rfl
      exact ⟨k1, fun _ => k3 ⟨rfl, rfl⟩, fun _ => k3 ⟨rfl, rfl⟩⟩
  obtain ⟨k1, k2, _⟩ := key l (start t q alpha alphaD zero) rfl
  exact ⟨k1, k2⟩

/-- When the clock advances twice before an update, only one step is made: time is lost. -/
theorem C85_skip_false : let euler : Int → Int → Int → Int × Int := fun q v a => (q + v, v + a)
    let s := [Ev.setDdq 1, .advance, .advance, .update].foldl (step euler) (start 0 0 0 0 0)
    s.ticks = 2 ∧ s.lastTick = 2 ∧ (s.mq, s.malpha) = trajectory euler [1] (0, 0) ∧ (s.mq, s.malpha) ≠ trajectory euler [1, 1] (0, 0) := by
  refine ⟨rfl, rfl, rfl, by decide⟩

/-- A robot built with a velocity: the value of the variable is zero until the first step. -/
theorem C85_velocity_false : (start 0 (0 : Int) (1 : Int) 0 0).dq ≠ (start 0 (0 : Int) (1 : Int) 0 0).malpha := by decide

/-! ## Normal accelerations -/

variable {M : Type} [AddCommGroup M]

/-- The equations of the accelerations of the bodies, with `aj i` the acceleration of the joint `i` (those of `rbd::forwardAcceleration`) -/
def IsAcc (n : Nat) (pred : Nat → Option Nat) (succ : Nat → Nat) (X : Nat → M →+ M) (cross : M → M → M) (vb vj aj : Nat → M) (a : Nat → M) : Prop :=
  ∀ i < n, a (succ i) = (match pred i with | some p => X i (a p) | none => 0) + aj i + cross (vb i) (vj i)

/-- The equations of the velocities of the bodies, with `vj i` the velocity of the joint (those of `rbd::forwardVelocity`): they are linear, and give the jacobians -/
def IsVel (n : Nat) (pred : Nat → Option Nat) (succ : Nat → Nat) (X : Nat → M →+ M) (vj : Nat → M) (v : Nat → M) : Prop :=
  ∀ i < n, v (succ i) = (match pred i with | some p => X i (v p) | none => 0) + vj i

/-- The joints are in the order of a tree: the body before a joint is the one of a joint before, and the bodies are distinct. -/
def Tree (n : Nat) (pred : Nat → Option Nat) (succ : Nat → Nat) : Prop :=
  (∀ i < n, ∀ p, pred i = some p → ∃ k < i, succ k = p) ∧ ∀ i < n, ∀ k < n, succ i = succ k → i = k

theorem fold_spec (n : Nat) (pred : Nat → Option Nat) (succ : Nat → Nat) (ht : Tree n pred succ) (X : Nat → M →+ M) (cross : M → M → M) (vb vj : Nat → M) (acc : Nat → M) :
    ∀ m ≤ n, ∀ i < m, ((List.range m).foldl (normalStep pred succ X cross vb vj) acc) (succ i) =
      (match pred i with | some p => X i (((List.range m).foldl (normalStep pred succ X cross vb vj) acc) p) | none => 0) + cross (vb i) (vj i) := by
  intro m
  induction m with
  | zero => intro _ i hi; omega
  | succ m ih =>
    intro hm i hi
    rw [List.range_succ, List.foldl_append]
    simp only [List.foldl_cons, List.foldl_nil]
    have keep : ∀ k < m, ∀ F : Nat → M, normalStep pred succ X cross vb vj F m (succ k) = F (succ k) := by
      intro k hk F
      unfold normalStep
      rw [if_neg]
      intro e
      have := ht.2 k (by omega) m (by omega) e
      omega
    have hp : ∀ p, pred i = some p → ∀ F : Nat → M, normalStep pred succ X cross vb vj F m p = F p := by
      intro p hp F
      obtain ⟨k, hk, rfl⟩ := ht.1 i (by omega) p hp
      exact keep k (by omega) F
    by_cases him : i = m
    · subst him
      cases hpr : pred i with
      | none => simp only [normalStep, if_pos, hpr]; simp
      | some p =>
        simp only
        rw [hp p hpr]
        simp only [normalStep, if_pos, hpr]
    · rw [keep i (by omega)]
      rw [ih (by omega) i (by omega)]
      cases hpr : pred i with
      | none => rfl
      | some p => simp only; rw [hp p hpr]

/-- The accelerations of the bodies are the jacobians times the accelerations of the joints plus the normal accelerations: for all accelerations of the joints, the solution of the equations
of the accelerations is the solution of those of the velocities for these accelerations plus what is computed. -/
theorem C85_normal (nrDof n : Nat) (hd : 0 < nrDof) (pred : Nat → Option Nat) (succ : Nat → Nat) (ht : Tree n pred succ) (X : Nat → M →+ M) (cross : M → M → M) (vb vj : Nat → M) (mem : Nat → M)
    (aj : Nat → M) (v a : Nat → M) (hv : IsVel n pred succ X aj v) : (IsAcc n pred succ X cross vb vj aj a ↔ ∀ i < n, a (succ i) = v (succ i) + normalAcc nrDof n pred succ X cross vb vj mem (succ i)) := by
  unfold normalAcc
  rw [if_pos hd]
  have hN := fold_spec n pred succ ht X cross vb vj mem n (le_refl _)
  generalize (List.range n).foldl (normalStep pred succ X cross vb vj) mem = N at hN
  constructor
  · intro ha i
    induction i using Nat.strong_induction_on with
    | _ i ih =>
      intro hi
      rw [ha i hi, hv i hi, hN i hi]
      cases hpr : pred i with
      | none => simp only; abel
      | some p =>
        simp only
        obtain ⟨k, hk, rfl⟩ := ht.1 i hi p hpr
        rw [ih k hk (by omega), map_add]; abel
  · intro ha i hi
    rw [ha i hi, hv i hi, hN i hi]
    cases hpr : pred i with
    | none => simp only; abel
    | some p =>
      simp only
      obtain ⟨k, hk, rfl⟩ := ht.1 i hi p hpr
      rw [ha k (by omega), map_add]; abel

/-- A robot that has no degree of freedom has no velocity: its normal accelerations are zero, as they are at the beginning. -/
theorem C85_normal_fixed (n : Nat) (pred : Nat → Option Nat) (succ : Nat → Nat) (X : Nat → M →+ M) (cross : M → M → M) (vb vj : Nat → M) (hc : ∀ x, cross x 0 = 0) (hj : ∀ i < n, vj i = 0) :
    IsAcc n pred succ X cross vb vj (fun _ => 0) (normalAcc 0 n pred succ X cross vb vj (fun _ => 0)) := by
  intro i hi
  unfold normalAcc
  rw [if_neg (by omega), hj i hi, hc]
  cases pred i <;> simp

/-! ## Examples -/

/-- A floating base with two joints, one of them with limits -/
example : TreeOk true [⟨0, 7, 6⟩, ⟨1, 1, 1⟩, ⟨2, 1, 1⟩] ∧ LimOk (K := Int) [⟨0, 7, 6⟩, ⟨1, 1, 1⟩, ⟨2, 1, 1⟩] Joint.params 7 [(2, [5])] ∧
    (bounds (1000 : Int) true [⟨0, 7, 6⟩, ⟨1, 1, 1⟩, ⟨2, 1, 1⟩] ⟨[(2, [5])], [], [], [(1, [3])]⟩).map (fun b => (b.lQ.v 0, b.lQ.v 1, b.lT.v 5, b.lT.v 6, b.uT.v 6)) = some (-1000, 5, 0, -3, 3) := by
  refine ⟨⟨by simp, by simp, by simp⟩, ⟨by simp, ?_⟩, rfl⟩
  intro q hq j hj hn
  simp only [List.mem_singleton] at hq
  subst hq
  match j, hj with
  | 0, _ => simp at hn
  | 1, _ => simp at hn
  | 2, _ => exact ⟨rfl, by decide⟩

/-- A chain of two joints -/
example : Tree 2 (fun i => if i = 0 then none else some (i - 1)) id := by
  refine ⟨?_, fun i _ k _ h => h⟩
  intro i hi p hp
  by_cases h : i = 0
  · simp [h] at hp
  · simp [h] at hp; exact ⟨p, by omega, rfl⟩

end Verif.C85
