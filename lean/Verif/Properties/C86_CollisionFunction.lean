import Verif.Model.CollisionFunction
import Verif.Lemmas.V3Deriv
import Mathlib.Algebra.BigOperators.Ring.Finset
import Mathlib.Tactic.Ring
import Mathlib.Tactic.FieldSimp
import Mathlib.Tactic.NormNum
import Mathlib.Tactic.LinearCombination
/-!
# C86 - the distances between convex hulls, their velocity and their jacobian
-/
set_option autoImplicit false
set_option linter.unusedSectionVars false

namespace Verif.C86
open Verif Verif.Sva Verif.Fr Verif.Coll

variable {K : Type} [Field K]

/-! ## Specification -/

/-- The velocity of the point of a body that is at `p`, in the world -/
def pointVel (b : Body K) (p : V3 K) : V3 K := b.vel.v + b.vel.w.cross (p - b.pos.r)

/-- The velocity of the point of a hull at `p`: a robot without degrees of freedom does not move. -/
def hullVel (st : Nat → Body K) (h : Hull K) (p : V3 K) : V3 K := if h.dof = 0 then 0 else pointVel (st h.body) p

/-- The coordinates in the body of the point at `p` in the world -/
def inBody (b : Body K) (p : V3 K) : V3 K := b.pos.E.mulVec (p - b.pos.r)

/-- The hulls in the order of the code: first the one of the robot with most degrees of freedom -/
def ordered (h1 h2 : Hull K) : Hull K × Hull K := if h2.dof > h1.dof then (h2, h1) else (h1, h2)

/-- The states that can be reached from the construction; the list is the one of the pairs added since the last reset -/
inductive Reach : Fn K → List (Hull K × Hull K) → Prop
  | init (t : Nat) : Reach ⟨[], [], t⟩ []
  | add {f : Fn K} {ps : List (Hull K × Hull K)} (h : Reach f ps) (h1 h2 : Hull K) : Reach (f.add h1 h2) (ps ++ [ordered h1 h2])
  | reset {f : Fn K} {ps : List (Hull K × Hull K)} (h : Reach f ps) : Reach f.reset []
  | value {f f' : Fn K} {ps : List (Hull K × Hull K)} (h : Reach f ps) (st : Nat → Body K) (qs : List (Query K)) (hq : qs.length = f.cols.length)
      (e : f.updateValue st qs = some f') : Reach f' ps
  | time {f : Fn K} {ps : List (Hull K × Hull K)} (h : Reach f ps) (dt : K) (t : Nat) : Reach (f.updateTime dt t) ps

/-! ## The value -/

/-- On real numbers, the value has the sign of the (signed) square of the distance, and its square; when the hulls touch it is the tiny positive number. -/
theorem C86_value (tiny d2 : ℝ) (ht : 0 < tiny) :
    (0 < d2 → 0 < signedRoot tiny d2 ∧ signedRoot tiny d2 ^ 2 = d2) ∧ (d2 < 0 → signedRoot tiny d2 < 0 ∧ signedRoot tiny d2 ^ 2 = -d2) ∧ signedRoot tiny 0 = tiny ∧
    signedRoot tiny d2 ≠ 0 := by
  unfold signedRoot
  simp only
  refine ⟨fun h => ?_, fun h => ?_, by simp, ?_⟩
  · have := Real.sqrt_pos.2 h
    rw [if_pos h.le, if_neg this.ne']
    exact ⟨this, Real.sq_sqrt h.le⟩
  · have h' : 0 < -d2 := by linarith
    have := Real.sqrt_pos.2 h'
    rw [if_neg (not_le.2 h), if_neg (by linarith)]
    exact ⟨by linarith, by rw [neg_sq]; exact Real.sq_sqrt h'.le⟩
  · by_cases hc : (if 0 ≤ d2 then √d2 else -√(-d2)) = 0
    · rw [if_pos hc]; exact ht.ne'
    · rw [if_neg hc]; exact hc

/-! ## The collisions -/

/-- What is always true of a collision -/
structure Inv (c : Col K) : Prop where
  order : c.ch1.dof ≤ c.ch0.dof
  objs : c.objs.map Obj.hull = [c.ch0, c.ch1].filter (fun h => decide (0 < h.dof))

theorem inv_mk (h1 h2 : Hull K) (h : h2.dof ≤ h1.dof) : Inv (mkCol h1 h2) := ⟨h, by
  show List.map Obj.hull (List.map _ _) = _
  rw [List.map_map]
  exact List.map_id _⟩

theorem updateObjs_hull (st : Nat → Body K) (c : Col K) (q : Query K) (i : Nat) : ∀ (os : List (Obj K)) (j : Nat) (os' : List (Obj K)), updateObjs st c q i j os = some os' →
    os'.map Obj.hull = os.map Obj.hull := by
  intro os
  induction os with
  | nil => intro j os' h; rw [← Option.some.inj h]
  | cons o l ih =>
    intro j os' h
    unfold updateObjs at h
    cases hc : q.closest i with
    | none => simp [hc] at h
    | some p =>
      cases hu : updateObjs st c q i (j + 1) l with
      | none => simp [hc, hu] at h
      | some l' =>
        simp only [hc, hu] at h
        rw [← Option.some.inj h, List.map_cons, List.map_cons, ih _ _ hu]

/-- What the update of the values does to a collision -/
theorem updateCols_get (st : Nat → Body K) : ∀ (cs : List (Col K)) (qs : List (Query K)) (i : Nat) (cs' : List (Col K)), qs.length = cs.length → updateCols st i cs qs = some cs' →
    cs'.length = cs.length ∧ ∀ (k : Nat) (c : Col K) (q : Query K), cs[k]? = some c → qs[k]? = some q →
      ∃ os, updateObjs st c q (i + k) 0 c.objs = some os ∧ cs'[k]? = some ⟨c.ch0, c.ch1, os, q.dist⁻¹ • (q.p0 - q.p1), c.prev, c.speed⟩ := by
  intro cs
  induction cs with
  | nil =>
    intro qs i cs' _ h
    unfold updateCols at h
    rw [← Option.some.inj h]
    exact ⟨rfl, fun k c q hk => by simp at hk⟩
  | cons c l ih =>
    intro qs i cs' hl h
    cases qs with
    | nil => simp at hl
    | cons q qs =>
      unfold updateCols at h
      cases ho : updateObjs st c q i 0 c.objs with
      | none => simp [ho] at h
      | some os =>
        cases hu : updateCols st (i + 1) l qs with
        | none => simp [ho, hu] at h
        | some l' =>
          simp only [ho, hu] at h
          rw [← Option.some.inj h]
          obtain ⟨h1, h2⟩ := ih qs (i + 1) l' (by simpa using hl) hu
          refine ⟨by simp [h1], fun k c' q' hk hq => ?_⟩
          cases k with
          | zero =>
            simp only [List.getElem?_cons_zero, Option.some.injEq] at hk hq
            subst hk; subst hq
            exact ⟨os, ho, by simp⟩
          | succ k =>
            simp only [List.getElem?_cons_succ] at hk hq
            obtain ⟨os', e1, e2⟩ := h2 k c' q' hk hq
            refine ⟨os', ?_, by simpa using e2⟩
            rw [show i + (k + 1) = i + 1 + k by omega]; exact e1

/-- The collisions are those added, in order, each with its objects. -/
theorem Reach.inv {f : Fn K} {ps : List (Hull K × Hull K)} (h : Reach f ps) : f.cols.map (fun c => (c.ch0, c.ch1)) = ps ∧ ∀ c ∈ f.cols, Inv c := by
  induction h with
  | init t => exact ⟨rfl, fun c hc => by cases hc⟩
  | @add f ps h h1 h2 ih =>
    obtain ⟨i1, i2⟩ := ih
    unfold Fn.add ordered
    by_cases hd : h2.dof > h1.dof
    · rw [if_pos hd, if_pos hd]
      refine ⟨by simp [i1, mkCol], fun c hc => ?_⟩
      rcases List.mem_append.1 hc with hc | hc
      · exact i2 c hc
      · rw [List.mem_singleton.1 hc]; exact inv_mk _ _ (by omega)
    · rw [if_neg hd, if_neg hd]
      refine ⟨by simp [i1, mkCol], fun c hc => ?_⟩
      rcases List.mem_append.1 hc with hc | hc
      · exact i2 c hc
      · rw [List.mem_singleton.1 hc]; exact inv_mk _ _ (by omega)
  | reset h ih => exact ⟨rfl, fun c hc => by cases hc⟩
  | @value f f' ps h st qs hq e ih =>
    obtain ⟨i1, i2⟩ := ih
    unfold Fn.updateValue at e
    cases hu : updateCols st 0 f.cols qs with
    | none => simp [hu] at e
    | some cs =>
      simp only [hu] at e
      rw [← Option.some.inj e]
      obtain ⟨l1, l2⟩ := updateCols_get st _ _ _ _ hq hu
      have hk : ∀ (k : Nat) (hk : k < f.cols.length), ∃ (os : List (Obj K)) (n : V3 K), cs[k]? = some ⟨(f.cols[k]).ch0, (f.cols[k]).ch1, os, n, (f.cols[k]).prev, (f.cols[k]).speed⟩ ∧
          os.map Obj.hull = (f.cols[k]).objs.map Obj.hull := by
        intro k hk
        obtain ⟨os, e1, e2⟩ := l2 k f.cols[k] (qs[k]'(by omega)) (by simp) (by simp)
        exact ⟨os, _, e2, updateObjs_hull st _ _ _ _ _ _ e1⟩
      refine ⟨?_, fun c hc => ?_⟩
      · rw [← i1]
        apply List.ext_getElem
        · simp [l1]
        · intro k h1 h2
          simp only [List.length_map] at h1 h2
          obtain ⟨os, n, e1, e2⟩ := hk k (by omega)
          rw [List.getElem?_eq_getElem h1] at e1
          have := Option.some.inj e1
          simp [this]
      · obtain ⟨k, h1, rfl⟩ := List.getElem_of_mem hc
        obtain ⟨os, n, e1, e2⟩ := hk k (by simp only at h1; omega)
        rw [List.getElem?_eq_getElem h1] at e1
        rw [Option.some.inj e1]
        have := i2 (f.cols[k]'(by simp only at h1; omega)) (by simp)
        exact ⟨this.order, by rw [e2]; exact this.objs⟩
  | @time f ps h dt t ih =>
    obtain ⟨i1, i2⟩ := ih
    unfold Fn.updateTime
    by_cases ht : t = f.lastTick
    · rw [if_pos ht]; exact ⟨i1, i2⟩
    · rw [if_neg ht]
      refine ⟨?_, fun c hc => ?_⟩
      · rw [List.map_map]; exact i1
      · obtain ⟨c', h1, rfl⟩ := List.mem_map.1 hc
        exact ⟨(i2 c' h1).order, (i2 c' h1).objs⟩

/-- One row per pair of hulls given, in the order in which they were given -/
theorem C86_rows {f : Fn K} {ps : List (Hull K × Hull K)} (h : Reach f ps) : f.cols.map (fun c => (c.ch0, c.ch1)) = ps := h.inv.1

/-- The objects are for the hulls with the same index. -/
theorem inv_objs {c : Col K} (h : Inv c) : (c.ch0.dof = 0 ∧ c.ch1.dof = 0 ∧ c.objs = []) ∨ (0 < c.ch0.dof ∧ c.ch1.dof = 0 ∧ ∃ p0, c.objs = [⟨c.ch0, p0⟩]) ∨
    (0 < c.ch0.dof ∧ 0 < c.ch1.dof ∧ ∃ p0 p1, c.objs = [⟨c.ch0, p0⟩, ⟨c.ch1, p1⟩]) := by
  obtain ⟨ho, hm⟩ := h
  by_cases h0 : 0 < c.ch0.dof
  · by_cases h1 : 0 < c.ch1.dof
    · refine Or.inr (Or.inr ⟨h0, h1, ?_⟩)
      rw [List.filter_cons_of_pos (by simpa using h0), List.filter_cons_of_pos (by simpa using h1), List.filter_nil] at hm
      match hos : c.objs, hm with
      | [o0, o1], hm =>
        simp only [List.map_cons, List.map_nil, List.cons.injEq, and_true] at hm
        exact ⟨o0.pt, o1.pt, by rw [← hm.1, ← hm.2]⟩
      | [], hm => simp at hm
      | [_], hm => simp at hm
      | _ :: _ :: _ :: _, hm => simp at hm
    · refine Or.inr (Or.inl ⟨h0, by omega, ?_⟩)
      rw [List.filter_cons_of_pos (by simpa using h0), List.filter_cons_of_neg (by simpa using h1), List.filter_nil] at hm
      match hos : c.objs, hm with
      | [o0], hm =>
        simp only [List.map_cons, List.map_nil, List.cons.injEq, and_true] at hm
        exact ⟨o0.pt, by rw [← hm]⟩
      | [], hm => simp at hm
      | _ :: _ :: _, hm => simp at hm
  · refine Or.inl ⟨by omega, by omega, ?_⟩
    rw [List.filter_cons_of_neg (by simpa using h0), List.filter_cons_of_neg (by simp; omega), List.filter_nil] at hm
    exact List.map_eq_nil_iff.1 hm

/-! ## When the value is defined -/

theorem updateObjs_none (st : Nat → Body K) (c : Col K) (q : Query K) (i : Nat) : ∀ (os : List (Obj K)) (j : Nat), updateObjs st c q i j os = none ↔ 2 ≤ i ∧ os ≠ [] := by
  intro os
  induction os with
  | nil => intro j; simp [updateObjs]
  | cons o l ih =>
    intro j
    unfold updateObjs
    by_cases h0 : i = 0
    · have : q.closest i = some q.p0 := by unfold Query.closest; rw [if_pos h0]
      rw [this]
      have := ih (j + 1)
      cases hu : updateObjs st c q i (j + 1) l with
      | none => rw [hu] at this; have := this.1 rfl; omega
      | some l' => simp; omega
    · by_cases h1 : i = 1
      · have : q.closest i = some q.p1 := by unfold Query.closest; rw [if_neg h0, if_pos h1]
        rw [this]
        have := ih (j + 1)
        cases hu : updateObjs st c q i (j + 1) l with
        | none => rw [hu] at this; have := this.1 rfl; omega
        | some l' => simp; omega
      · have : q.closest i = none := by unfold Query.closest; rw [if_neg h0, if_neg h1]
        rw [this]
        simp; omega

theorem updateCols_none (st : Nat → Body K) : ∀ (cs : List (Col K)) (qs : List (Query K)) (i : Nat), qs.length = cs.length →
    (updateCols st i cs qs = none ↔ ∃ (k : Nat) (c : Col K), cs[k]? = some c ∧ 2 ≤ i + k ∧ c.objs ≠ []) := by
  intro cs
  induction cs with
  | nil => intro qs i _; simp [updateCols]
  | cons c l ih =>
    intro qs i hl
    cases qs with
    | nil => simp at hl
    | cons q qs =>
      unfold updateCols
      have ho := updateObjs_none st c q i c.objs 0
      have hr := ih qs (i + 1) (by simpa using hl)
      cases hu : updateObjs st c q i 0 c.objs with
      | none =>
        have := ho.1 hu
        simp only [true_iff]
        exact ⟨0, c, by simp, by omega, this.2⟩
      | some os =>
        have hno : ¬(2 ≤ i ∧ c.objs ≠ []) := fun h => by rw [ho.2 h] at hu; cases hu
        have step : (∃ (k : Nat) (c' : Col K), (c :: l)[k]? = some c' ∧ 2 ≤ i + k ∧ c'.objs ≠ []) ↔ ∃ (k : Nat) (c : Col K), l[k]? = some c ∧ 2 ≤ i + 1 + k ∧ c.objs ≠ [] := by
          constructor
          · rintro ⟨k, c', h1, h2, h3⟩
            cases k with
            | zero =>
              simp only [List.getElem?_cons_zero, Option.some.injEq] at h1
              subst h1
              exact absurd ⟨by omega, h3⟩ hno
            | succ k => exact ⟨k, c', by simpa using h1, by omega, h3⟩
          · rintro ⟨k, c', h1, h2, h3⟩
            exact ⟨k + 1, c', by simpa using h1, by omega, h3⟩
        rw [step, ← hr]
        cases updateCols st (i + 1) l qs <;> simp

/-- The update of the values is undefined exactly when one of the collisions after the first two has a hull that can move. -/
theorem C86_defined {f : Fn K} {ps : List (Hull K × Hull K)} (h : Reach f ps) (st : Nat → Body K) (qs : List (Query K)) (hq : qs.length = ps.length) :
    f.updateValue st qs = none ↔ ∃ (k : Nat) (p : Hull K × Hull K), ps[k]? = some p ∧ 2 ≤ k ∧ (0 < p.1.dof ∨ 0 < p.2.dof) := by
  obtain ⟨i1, i2⟩ := h.inv
  have hl : qs.length = f.cols.length := by rw [hq, ← i1, List.length_map]
  have := updateCols_none st f.cols qs 0 hl
  have e : f.updateValue st qs = none ↔ updateCols st 0 f.cols qs = none := by
    unfold Fn.updateValue
    cases updateCols st 0 f.cols qs <;> simp
  rw [e, this]
  have hobj : ∀ c ∈ f.cols, c.objs ≠ [] ↔ (0 < c.ch0.dof ∨ 0 < c.ch1.dof) := by
    intro c hc
    rcases inv_objs (i2 c hc) with ⟨a, b, e⟩ | ⟨a, b, p, e⟩ | ⟨a, b, p, p', e⟩ <;> rw [e] <;> simp <;> omega
  constructor
  · rintro ⟨k, c, h1, h2, h3⟩
    refine ⟨k, (c.ch0, c.ch1), by rw [← i1, List.getElem?_map, h1]; rfl, by omega, (hobj c (List.mem_of_getElem? h1)).1 h3⟩
  · rintro ⟨k, p, h1, h2, h3⟩
    rw [← i1, List.getElem?_map] at h1
    cases hc : f.cols[k]? with
    | none => simp [hc] at h1
    | some c =>
      rw [hc] at h1
      simp only [Option.map_some, Option.some.injEq] at h1
      subst h1
      exact ⟨k, c, hc, by omega, (hobj c (List.mem_of_getElem? hc)).2 h3⟩

/-! ## The normal vector and the nearest points -/

/-- After the update of the values, the row `k` has the distance of its query, and the collision `k` the normalised difference of the closest points. -/
theorem C86_normal {f f' : Fn K} {ps : List (Hull K × Hull K)} (h : Reach f ps) (st : Nat → Body K) (qs : List (Query K)) (hq : qs.length = ps.length)
    (e : f.updateValue st qs = some f') : f'.value = qs.map Query.dist ∧ f'.cols.length = ps.length ∧
    ∀ (k : Nat) (c : Col K) (q : Query K), f'.cols[k]? = some c → qs[k]? = some q → c.n = q.dist⁻¹ • (q.p0 - q.p1) := by
  obtain ⟨i1, i2⟩ := h.inv
  have hl : f.cols.length = ps.length := by rw [← i1, List.length_map]
  unfold Fn.updateValue at e
  cases hu : updateCols st 0 f.cols qs with
  | none => simp [hu] at e
  | some cs =>
    simp only [hu] at e
    rw [← Option.some.inj e]
    obtain ⟨l1, l2⟩ := updateCols_get st _ _ _ _ (hq.trans hl.symm) hu
    refine ⟨rfl, l1.trans hl, fun k c q hc hqk => ?_⟩
    simp only at hc
    have hk : k < f.cols.length := by rw [← l1]; exact (List.getElem?_eq_some_iff.1 hc).1
    obtain ⟨os, _, e2⟩ := l2 k f.cols[k] q (by simp) hqk
    rw [hc] at e2
    rw [Option.some.inj e2]

/-- The points given to the jacobians of a collision: the closest point with the index of the collision, in the coordinates of the frames. -/
theorem points {f f' : Fn K} {ps : List (Hull K × Hull K)} (h : Reach f ps) (st : Nat → Body K) (qs : List (Query K)) (hq : qs.length = ps.length)
    (e : f.updateValue st qs = some f') (k : Nat) (c : Col K) (q : Query K) (hc : f'.cols[k]? = some c) (hqk : qs[k]? = some q) :
    (c.ch0.dof = 0 ∧ c.ch1.dof = 0 ∧ c.objs = []) ∨
    (0 < c.ch0.dof ∧ c.ch1.dof = 0 ∧ ∃ p, q.closest k = some p ∧ c.objs = [⟨c.ch0, nearest (position c.ch0.xbf (st c.ch0.body)) p⟩]) ∨
    (0 < c.ch0.dof ∧ 0 < c.ch1.dof ∧ ∃ p, q.closest k = some p ∧
      c.objs = [⟨c.ch0, nearest (position c.ch0.xbf (st c.ch0.body)) p⟩, ⟨c.ch1, nearest (position c.ch1.xbf (st c.ch1.body)) p⟩]) := by
  obtain ⟨i1, i2⟩ := h.inv
  have hl : f.cols.length = ps.length := by rw [← i1, List.length_map]
  unfold Fn.updateValue at e
  cases hu : updateCols st 0 f.cols qs with
  | none => simp [hu] at e
  | some cs =>
    simp only [hu] at e
    rw [← Option.some.inj e] at hc
    simp only at hc
    obtain ⟨l1, l2⟩ := updateCols_get st _ _ _ _ (hq.trans hl.symm) hu
    have hk : k < f.cols.length := by rw [← l1]; exact (List.getElem?_eq_some_iff.1 hc).1
    obtain ⟨os, e1, e2⟩ := l2 k f.cols[k] q (by simp) hqk
    rw [hc] at e2
    have e3 := Option.some.inj e2
    have hin := i2 f.cols[k] (by simp)
    rw [e3]
    simp only
    rw [Nat.zero_add] at e1
    rcases inv_objs hin with ⟨a, b, eo⟩ | ⟨a, b, p, eo⟩ | ⟨a, b, p, p', eo⟩
    · refine Or.inl ⟨a, b, ?_⟩
      rw [eo] at e1
      exact (Option.some.inj e1).symm
    · refine Or.inr (Or.inl ⟨a, b, ?_⟩)
      rw [eo] at e1
      cases hcl : q.closest k with
      | none => simp [updateObjs, hcl] at e1
      | some p =>
        refine ⟨p, rfl, ?_⟩
        simp only [updateObjs, hcl, Option.some.injEq] at e1
        rw [← e1]
        rfl
    · refine Or.inr (Or.inr ⟨a, b, ?_⟩)
      rw [eo] at e1
      cases hcl : q.closest k with
      | none => simp [updateObjs, hcl] at e1
      | some p =>
        refine ⟨p, rfl, ?_⟩
        simp only [updateObjs, hcl, Option.some.injEq] at e1
        rw [← e1]
        rfl

/-! ## The velocity -/

theorem tr_nearest (b : Body K) (hb : b.pos.E.Ortho) (p : V3 K) : b.pos.E.tr.mulVec (nearest (position PT.one b) p) = p - b.pos.r := by
  obtain ⟨⟨⟨⟨a1, a2, a3⟩, ⟨a4, a5, a6⟩, ⟨a7, a8, a9⟩⟩, ⟨r1, r2, r3⟩⟩, v, j⟩ := b
  obtain ⟨p1, p2, p3⟩ := p
  obtain ⟨_, h⟩ := hb
  simp only [M3.mul, M3.tr, M3.one, V3.dot, M3.mk.injEq, V3.mk.injEq] at h
  obtain ⟨⟨x1, x2, x3⟩, ⟨y1, y2, y3⟩, z1, z2, z3⟩ := h
  ext <;> simp only [nearest, position, PT.one, PT.mul, PT.inv, M3.mul, M3.tr, M3.one, M3.mulVec, V3.dot, add_x, add_y, add_z, sub_x, sub_y, sub_z, neg_x, neg_y, neg_z, zero_x, zero_y, zero_z]
  · linear_combination (p1 - r1) * x1 + (p2 - r2) * x2 + (p3 - r3) * x3
  · linear_combination (p1 - r1) * y1 + (p2 - r2) * y2 + (p3 - r3) * y3
  · linear_combination (p1 - r1) * z1 + (p2 - r2) * z2 + (p3 - r3) * z3

theorem nearest_inBody (b : Body K) (p : V3 K) : nearest (position PT.one b) p = inBody b p := by
  obtain ⟨⟨⟨⟨a1, a2, a3⟩, ⟨a4, a5, a6⟩, ⟨a7, a8, a9⟩⟩, ⟨r1, r2, r3⟩⟩, v, j⟩ := b
  obtain ⟨p1, p2, p3⟩ := p
  ext <;> simp only [inBody, nearest, position, PT.one, PT.mul, PT.inv, M3.mul, M3.tr, M3.one, M3.mulVec, V3.dot, add_x, add_y, add_z, sub_x, sub_y, sub_z, neg_x, neg_y, neg_z, zero_x, zero_y, zero_z] <;>
    ring

/-- The hull is at the body: the frame is the one of the body (or the body does not turn), and the rotation of the body is a rotation. -/
def AtBody (st : Nat → Body K) (h : Hull K) : Prop := (st h.body).pos.E.Ortho ∧ (h.xbf = PT.one ∨ (st h.body).vel.w = 0)

theorem cross_zero (u : V3 K) : (0 : V3 K).cross u = 0 := by ext <;> simp [V3.cross]

theorem ptMotion_right (st : Nat → Body K) (h : Hull K) (hb : AtBody st h) (p : V3 K) :
    ptMotion (st h.body) (st h.body).vel (nearest (position h.xbf (st h.body)) p) = pointVel (st h.body) p := by
  obtain ⟨h1, h2 | h2⟩ := hb
  · rw [h2]
    unfold ptMotion pointVel
    rw [tr_nearest _ h1]
  · unfold ptMotion pointVel
    rw [h2, cross_zero, cross_zero]

/-- The velocity of the point at the wrong end of the segment gives the same velocity of the distance. -/
theorem either_end (b : Body K) (k : K) (p p' : V3 K) : (pointVel b p).dot (k • (p - p')) = (pointVel b p').dot (k • (p - p')) := by
  simp only [pointVel, V3.dot, V3.cross, add_x, add_y, add_z, sub_x, sub_y, sub_z, smul_x, smul_y, smul_z]
  ring

/-- The velocity of the row `k` is the component along the normal vector of the difference of the velocities of the closest points, when the frames of the hulls are those of the bodies. -/
theorem C86_velocity_partial {f f' : Fn K} {ps : List (Hull K × Hull K)} (h : Reach f ps) (st : Nat → Body K) (qs : List (Query K)) (hq : qs.length = ps.length)
    (e : f.updateValue st qs = some f') (k : Nat) (c : Col K) (q : Query K) (hc : f'.cols[k]? = some c) (hqk : qs[k]? = some q)
    (h0 : 0 < c.ch0.dof → AtBody st c.ch0) (h1 : 0 < c.ch1.dof → AtBody st c.ch1) :
    c.velocity st = (hullVel st c.ch0 q.p0 - hullVel st c.ch1 q.p1).dot (q.dist⁻¹ • (q.p0 - q.p1)) := by
  have hn := (C86_normal h st qs hq e).2.2 k c q hc hqk
  have hcl : ∀ p, q.closest k = some p → p = q.p0 ∨ p = q.p1 := by
    intro p hp
    unfold Query.closest at hp
    by_cases hk : k = 0
    · rw [if_pos hk] at hp; exact Or.inl (Option.some.inj hp).symm
    · rw [if_neg hk] at hp
      by_cases hk : k = 1
      · rw [if_pos hk] at hp; exact Or.inr (Option.some.inj hp).symm
      · rw [if_neg hk] at hp; cases hp
  have sub_dot : ∀ u v w : V3 K, (u - v).dot w = u.dot w - v.dot w := by
    intro u v w; simp only [V3.dot, sub_x, sub_y, sub_z]; ring
  have zero_dot : ∀ w : V3 K, (0 : V3 K).dot w = 0 := by intro w; simp [V3.dot]
  have end0 : ∀ p, q.closest k = some p → (pointVel (st c.ch0.body) p).dot c.n = (pointVel (st c.ch0.body) q.p0).dot c.n := by
    intro p hp
    rcases hcl p hp with e | e
    · rw [e]
    · rw [e, hn]; exact (either_end _ _ _ _).symm
  have end1 : ∀ p, q.closest k = some p → (pointVel (st c.ch1.body) p).dot c.n = (pointVel (st c.ch1.body) q.p1).dot c.n := by
    intro p hp
    rcases hcl p hp with e | e
    · rw [e, hn]; exact either_end _ _ _ _
    · rw [e]
  rw [sub_dot, ← hn]
  rcases points h st qs hq e k c q hc hqk with ⟨a, b, eo⟩ | ⟨a, b, p, hp, eo⟩ | ⟨a, b, p, hp, eo⟩
  · unfold Col.velocity hullVel
    rw [eo, if_pos a, if_pos b, zero_dot]
    simp [alt]
  · unfold Col.velocity hullVel
    rw [eo, if_neg (by omega), if_pos b, zero_dot]
    simp only [alt]
    rw [ptMotion_right st c.ch0 (h0 a), end0 p hp]
    ring
  · unfold Col.velocity hullVel
    rw [eo, if_neg (by omega), if_neg (by omega)]
    simp only [alt]
    rw [ptMotion_right st c.ch0 (h0 a), ptMotion_right st c.ch1 (h1 b), end0 p hp, end1 p hp]
    ring

/-- The specification is the derivative of the distance: along motions of the closest points, when the square of the distance is that of the difference of the points. -/
theorem C86_rate (P0 P1 : ℝ → V3 ℝ) (v0 v1 : V3 ℝ) (d : ℝ → ℝ) (d' t : ℝ) (h0 : HasD P0 v0 t) (h1 : HasD P1 v1 t) (hd : HasDerivAt d d' t)
    (hs : ∀ s, d s ^ 2 = (P0 s - P1 s).dot (P0 s - P1 s)) (hn : d t ≠ 0) : d' = (v0 - v1).dot ((d t)⁻¹ • (P0 t - P1 t)) := by
  have hu := h0.sub h1
  have hdot := HasD.dot hu hu
  have hsq : HasDerivAt (fun s => d s ^ 2) (2 * d t * d') t := by
    have h2 := HasDerivAt.mul hd hd
    have e1 : (fun s => d s ^ 2) = d * d := funext fun s => by simp [pow_two]
    rw [e1, show 2 * d t * d' = d' * d t + d t * d' by ring]
    exact h2
  have he : (fun s => d s ^ 2) = fun s => (P0 s - P1 s).dot (P0 s - P1 s) := funext hs
  rw [he] at hsq
  have hu2 := hsq.unique hdot
  have : d t * d' = (v0 - v1).dot (P0 t - P1 t) := by
    simp only [V3.dot, sub_x, sub_y, sub_z] at hu2 ⊢
    linear_combination hu2 / 2
  have h3 : (v0 - v1).dot ((d t)⁻¹ • (P0 t - P1 t)) = (d t)⁻¹ * (v0 - v1).dot (P0 t - P1 t) := by
    simp only [V3.dot, smul_x, smul_y, smul_z]; ring
  rw [h3, ← this, ← mul_assoc, inv_mul_cancel₀ hn, one_mul]

/-! ## The jacobian -/

/-- The motion of the body is the product of its jacobian by the velocities of the joints. -/
def Moves (n : Nat) (b : Body K) (a : Nat → K) : Prop :=
  b.vel.w.x = ∑ k ∈ Finset.range n, (b.jac k).w.x * a k ∧ b.vel.w.y = ∑ k ∈ Finset.range n, (b.jac k).w.y * a k ∧ b.vel.w.z = ∑ k ∈ Finset.range n, (b.jac k).w.z * a k ∧
  b.vel.v.x = ∑ k ∈ Finset.range n, (b.jac k).v.x * a k ∧ b.vel.v.y = ∑ k ∈ Finset.range n, (b.jac k).v.y * a k ∧ b.vel.v.z = ∑ k ∈ Finset.range n, (b.jac k).v.z * a k

theorem ptMotion_sum (n : Nat) (b : Body K) (a : Nat → K) (h : Moves n b a) (p u : V3 K) :
    ∑ k ∈ Finset.range n, u.dot (ptMotion b (b.jac k) p) * a k = (ptMotion b b.vel p).dot u := by
  obtain ⟨h1, h2, h3, h4, h5, h6⟩ := h
  simp only [ptMotion, V3.dot, V3.cross, add_x, add_y, add_z, h1, h2, h3, h4, h5, h6]
  simp only [add_mul, sub_mul, mul_add, mul_sub, Finset.sum_mul, ← Finset.sum_add_distrib, ← Finset.sum_sub_distrib]
  apply Finset.sum_congr rfl
  intro k _
  ring

/-- The product of the jacobians by the velocities of the robots is the velocity of the distance, also when both hulls are on the same robot and whatever the frames. -/
theorem C86_jacobian {f : Fn K} {ps : List (Hull K × Hull K)} (h : Reach f ps) (c : Col K) (hc : c ∈ f.cols) (st : Nat → Body K) (R : Finset Nat) (nd : Nat → Nat) (dq : Nat → Nat → K)
    (r0 : c.ch0.robot ∈ R) (r1 : c.ch1.robot ∈ R) (m0 : Moves (nd c.ch0.robot) (st c.ch0.body) (dq c.ch0.robot)) (m1 : Moves (nd c.ch1.robot) (st c.ch1.body) (dq c.ch1.robot)) :
    ∑ r ∈ R, ∑ k ∈ Finset.range (nd r), c.jacobian st r k * dq r k = c.velocity st := by
  have key : ∀ (hl : Hull K) (p : V3 K), hl.robot ∈ R → Moves (nd hl.robot) (st hl.body) (dq hl.robot) →
      ∑ r ∈ R, ∑ k ∈ Finset.range (nd r), (if hl.robot = r then c.n.dot (ptMotion (st hl.body) ((st hl.body).jac k) p) else 0) * dq r k =
        (ptMotion (st hl.body) (st hl.body).vel p).dot c.n := by
    intro hl p hr hm
    rw [Finset.sum_eq_single hl.robot]
    · rw [← ptMotion_sum _ _ _ hm p c.n]
      simp
    · intro r _ hne
      rw [Finset.sum_eq_zero]
      intro k _
      rw [if_neg (Ne.symm hne), zero_mul]
    · intro h; exact absurd hr h
  rcases inv_objs (h.inv.2 c hc) with ⟨a, b, eo⟩ | ⟨a, b, p, eo⟩ | ⟨a, b, p, p', eo⟩
  · unfold Col.jacobian Col.velocity
    rw [eo]
    simp [alt]
  · unfold Col.jacobian Col.velocity
    rw [eo]
    simp only [alt, Col.ch, if_true, one_mul, add_zero]
    exact key c.ch0 p r0 m0
  · unfold Col.jacobian Col.velocity
    rw [eo]
    simp only [alt, Col.ch, if_true, one_mul, add_zero]
    simp only [Nat.zero_add, Nat.one_ne_zero, if_false, add_mul, Finset.sum_add_distrib]
    rw [key c.ch0 p r0 m0]
    have h1 := key c.ch1 p' r1 m1
    rw [← h1]
    congr 1
    simp only [Finset.mul_sum]
    apply Finset.sum_congr rfl
    intro r _
    apply Finset.sum_congr rfl
    intro k _
    ring

/-! ## The normal acceleration -/

/-- The update of time does nothing at the same tick; at another tick the speed of the normal vector is its difference with the one of the previous tick, over the time step. -/
theorem C86_time (f f1 f2 : Fn K) (st st' : Nat → Body K) (qs qs' : List (Query K)) (dt : K) (t1 t2 : Nat) {ps : List (Hull K × Hull K)} (h : Reach f ps) (hq : qs.length = ps.length)
    (hq' : qs'.length = ps.length) (ht1 : t1 ≠ f.lastTick) (ht2 : t2 ≠ t1) (e1 : f.updateValue st qs = some f1) (e2 : (f1.updateTime dt t1).updateValue st' qs' = some f2) :
    (f2.updateTime dt t2).updateTime dt t2 = f2.updateTime dt t2 ∧
    ∀ (k : Nat) (c : Col K) (q q' : Query K), (f2.updateTime dt t2).cols[k]? = some c → qs[k]? = some q → qs'[k]? = some q' →
      c.n = q'.dist⁻¹ • (q'.p0 - q'.p1) ∧ c.speed = dt⁻¹ • (q'.dist⁻¹ • (q'.p0 - q'.p1) - q.dist⁻¹ • (q.p0 - q.p1)) := by
  have same : ∀ g : Fn K, (g.updateTime dt t2).updateTime dt t2 = g.updateTime dt t2 := by
    intro g
    by_cases hg : t2 = g.lastTick
    · have : g.updateTime dt t2 = g := by unfold Fn.updateTime; rw [if_pos hg]
      rw [this, this]
    · have : (g.updateTime dt t2).lastTick = t2 := by unfold Fn.updateTime; rw [if_neg hg]
      have stay : ∀ g' : Fn K, g'.lastTick = t2 → g'.updateTime dt t2 = g' := by
        intro g' hg'
        unfold Fn.updateTime
        rw [if_pos hg'.symm]
      exact stay _ this
  refine ⟨same f2, ?_⟩
  intro k c q q' hc hqk hqk'
  have r1 := Reach.value h st qs (by rw [hq, ← h.inv.1, List.length_map]) e1
  have r2 := Reach.time r1 dt t1
  have n1 := C86_normal h st qs hq e1
  have n2 := C86_normal r2 st' qs' hq' e2
  have l1 : f1.lastTick = f.lastTick := by
    unfold Fn.updateValue at e1
    cases hu : updateCols st 0 f.cols qs with
    | none => simp [hu] at e1
    | some cs => simp only [hu] at e1; rw [← Option.some.inj e1]
  have hs1 : f1.updateTime dt t1 = ⟨f1.cols.map (fun c => ⟨c.ch0, c.ch1, c.objs, c.n, c.n, dt⁻¹ • (c.n - c.prev)⟩), f1.value, t1⟩ := by
    unfold Fn.updateTime; rw [if_neg (by rw [l1]; exact ht1)]
  have l2 : f2.lastTick = t1 := by
    rw [hs1] at e2
    unfold Fn.updateValue at e2
    simp only at e2
    cases hu : updateCols st' 0 (f1.cols.map (fun c => ⟨c.ch0, c.ch1, c.objs, c.n, c.n, dt⁻¹ • (c.n - c.prev)⟩)) qs' with
    | none => simp [hu] at e2
    | some cs => simp only [hu] at e2; rw [← Option.some.inj e2]
  have hs2 : f2.updateTime dt t2 = ⟨f2.cols.map (fun c => ⟨c.ch0, c.ch1, c.objs, c.n, c.n, dt⁻¹ • (c.n - c.prev)⟩), f2.value, t2⟩ := by
    unfold Fn.updateTime; rw [if_neg (by rw [l2]; exact ht2)]
  rw [hs2] at hc
  simp only [List.getElem?_map] at hc
  cases hk2 : f2.cols[k]? with
  | none => simp [hk2] at hc
  | some c2 =>
    rw [hk2] at hc
    simp only [Option.map_some, Option.some.injEq] at hc
    have hn2 := n2.2.2 k c2 q' hk2 hqk'
    have hprev : c2.prev = q.dist⁻¹ • (q.p0 - q.p1) := by
      rw [hs1] at e2
      unfold Fn.updateValue at e2
      simp only at e2
      cases hu : updateCols st' 0 (f1.cols.map (fun c => ⟨c.ch0, c.ch1, c.objs, c.n, c.n, dt⁻¹ • (c.n - c.prev)⟩)) qs' with
      | none => simp [hu] at e2
      | some cs =>
        simp only [hu] at e2
        rw [← Option.some.inj e2] at hk2
        simp only at hk2
        obtain ⟨a1, a2⟩ := updateCols_get st' _ _ _ _ (by rw [List.length_map, n1.2.1, hq']) hu
        have hkl : k < f1.cols.length := by
          have := (List.getElem?_eq_some_iff.1 hk2).1
          rw [a1, List.length_map] at this; exact this
        obtain ⟨os, _, b2⟩ := a2 k _ q' (by rw [List.getElem?_map, List.getElem?_eq_getElem hkl]; rfl) hqk'
        rw [hk2] at b2
        have hn1 := n1.2.2 k f1.cols[k] q (by simp) hqk
        rw [Option.some.inj b2]
        exact hn1
    rw [← hc]
    simp only
    exact ⟨hn2, by rw [hn2, hprev]⟩

/-- The acceleration of a point of a hull; a robot without degrees of freedom does not move -/
def hullAcc (st : Nat → Body K) (acc : Nat → V3 K → V3 K) (h : Hull K) (p : V3 K) : V3 K := if h.dof = 0 then 0 else acc h.body (inBody (st h.body) p)

/-- For the first collision, between a hull that can move and one that cannot, both in the frames of the bodies: the normal acceleration is the one of the closest point along the normal
vector, and the velocity of this point along the speed of the normal vector. -/
theorem C86_acceleration_partial {f f' : Fn K} {ps : List (Hull K × Hull K)} (h : Reach f ps) (st : Nat → Body K) (qs : List (Query K)) (hq : qs.length = ps.length)
    (e : f.updateValue st qs = some f') (acc : Nat → V3 K → V3 K) (dt : K) (t : Nat) (c : Col K) (q : Query K) (hc : (f'.updateTime dt t).cols[0]? = some c) (hqk : qs[0]? = some q)
    (hf : c.ch0.xbf = PT.one ∧ (st c.ch0.body).pos.E.Ortho) (h1 : c.ch1.dof = 0) :
    c.normalAcceleration st acc = (hullAcc st acc c.ch0 q.p0 - hullAcc st acc c.ch1 q.p1).dot c.n + (hullVel st c.ch0 q.p0 - hullVel st c.ch1 q.p1).dot c.speed := by
  have hex : ∃ c', f'.cols[0]? = some c' ∧ c'.ch0 = c.ch0 ∧ c'.ch1 = c.ch1 ∧ c'.objs = c.objs := by
    unfold Fn.updateTime at hc
    by_cases ht : t = f'.lastTick
    · rw [if_pos ht] at hc; exact ⟨c, hc, rfl, rfl, rfl⟩
    · rw [if_neg ht] at hc
      simp only [List.getElem?_map] at hc
      cases hk : f'.cols[0]? with
      | none => simp [hk] at hc
      | some c' =>
        rw [hk] at hc
        simp only [Option.map_some, Option.some.injEq] at hc
        exact ⟨c', rfl, by rw [← hc], by rw [← hc], by rw [← hc]⟩
  obtain ⟨c', k1, k2, k3, k4⟩ := hex
  have hp := points h st qs hq e 0 c' q k1 hqk
  rw [k2, k3, k4] at hp
  have sub0 : ∀ u : V3 K, u - 0 = u := by intro u; ext <;> simp
  have zero_dot : ∀ w : V3 K, (0 : V3 K).dot w = 0 := by intro w; simp [V3.dot]
  rcases hp with ⟨a, b, eo⟩ | ⟨a, b, p, hp, eo⟩ | ⟨a, b, _⟩
  · unfold Col.normalAcceleration hullVel hullAcc
    rw [eo, if_pos a, if_pos b, if_pos a, if_pos b, sub0, zero_dot, zero_dot]
    simp [alt]
  · have hp0 : p = q.p0 := by
      unfold Query.closest at hp
      rw [if_pos rfl] at hp
      exact (Option.some.inj hp).symm
    unfold Col.normalAcceleration hullVel hullAcc
    rw [eo, if_neg (by omega), if_pos b, if_neg (by omega), if_pos b, sub0, sub0]
    simp only [alt]
    rw [ptMotion_right st c.ch0 ⟨hf.2, Or.inl hf.1⟩, hf.1, nearest_inBody, hp0]
    ring
  · omega

/-! ## A case, and what is false of the code -/

/-- A hull on a moving robot, another on an obstacle -/
def hA : Hull ℚ := ⟨0, 1, 0, PT.one⟩
def hB : Hull ℚ := ⟨1, 0, 1, PT.one⟩
def hC : Hull ℚ := ⟨2, 1, 2, PT.one⟩
/-- The frame of the hull is at the distance 1 of the body along x -/
def hD : Hull ℚ := ⟨0, 1, 0, ⟨M3.one, ⟨1, 0, 0⟩⟩⟩

/-- Body 0 turns around the vertical axis, body 1 does not move, body 2 turns around the vertical axis -/
def st0 (i : Nat) : Body ℚ := if i = 1 then ⟨PT.one, ⟨0, 0⟩, fun _ => ⟨0, 0⟩⟩ else ⟨PT.one, ⟨⟨0, 0, 1⟩, 0⟩, fun _ => ⟨⟨0, 0, 1⟩, 0⟩⟩

def q0 : Query ℚ := ⟨2, ⟨3, 1, 0⟩, ⟨3, -1, 0⟩⟩

def f0 : Fn ℚ := Fn.add ⟨[], [], 0⟩ hB hA

example : Reach f0 [(hA, hB)] := (Reach.init 0).add hB hA

/-- A moving hull in the frame of its body: the velocity is that of the distance, which increases. -/
example : ∃ f' c, f0.updateValue st0 [q0] = some f' ∧ f'.cols[0]? = some c ∧ (0 < c.ch0.dof → AtBody st0 c.ch0) ∧ (0 < c.ch1.dof → AtBody st0 c.ch1) ∧ c.velocity st0 = 3 ∧
    Moves 1 (st0 c.ch0.body) (fun _ => 1) ∧ c.jacobian st0 0 0 = 3 := by
  refine ⟨_, _, rfl, rfl, fun _ => ⟨by constructor <;> simp [mkCol, hA, hB, st0, M3.mul, M3.tr, M3.one, V3.dot, PT.one], Or.inl rfl⟩, fun h => by simp [mkCol, hB] at h, ?_, ?_, ?_⟩
  · norm_num [Col.velocity, alt, ptMotion, st0, mkCol, hA, hB, q0, nearest, position, PT.one, PT.mul, PT.inv, M3.mul, M3.tr, M3.one, M3.mulVec, V3.dot, V3.cross, Col.ch]
  · simp [Moves, mkCol, hA, st0, PT.one]
  · norm_num [Col.jacobian, alt, ptMotion, st0, mkCol, hA, hB, q0, nearest, position, PT.one, PT.mul, PT.inv, M3.mul, M3.tr, M3.one, M3.mulVec, V3.dot, V3.cross, Col.ch]

/-- When the frame of the hull is not that of the body, the velocity is not that of the distance: the point is given in the coordinates of the frame and used in those of the body. -/
theorem C86_frame_false : ∃ f' c, (Fn.add ⟨[], [], 0⟩ hD hB).updateValue st0 [q0] = some f' ∧ f'.cols[0]? = some c ∧ c.velocity st0 = 2 ∧
    (hullVel st0 c.ch0 q0.p0 - hullVel st0 c.ch1 q0.p1).dot (q0.dist⁻¹ • (q0.p0 - q0.p1)) = 3 := by
  refine ⟨_, _, rfl, rfl, ?_, ?_⟩
  · norm_num [Col.velocity, alt, ptMotion, st0, mkCol, hD, hB, q0, nearest, position, PT.one, PT.mul, PT.inv, M3.mul, M3.tr, M3.one, M3.mulVec, V3.dot, V3.cross, Col.ch]
  · norm_num [hullVel, pointVel, st0, mkCol, hD, hB, q0, PT.one, V3.dot, V3.cross, Col.ch, M3.one]

/-- Three collisions with a robot that can move: the third reads a closest point that does not exist. -/
theorem C86_three_false : ((((Fn.add ⟨[], [], 0⟩ hA hB).add hA hB).add hA hB).updateValue st0 [q0, q0, q0]) = none := by
  rw [C86_defined ((((Reach.init 0).add hA hB).add hA hB).add hA hB) st0 [q0, q0, q0] rfl]
  exact ⟨2, ordered hA hB, rfl, by omega, Or.inl (by simp [ordered, hA, hB])⟩

/-- The acceleration of a point of a body that turns at the speed 1 around the vertical axis through its origin: towards the axis -/
def turning (_ : Nat) (p : V3 ℚ) : V3 ℚ := ⟨-p.x, -p.y, 0⟩

/-- With two hulls that move, the normal acceleration takes the closest point of the first hull for both: here it is zero although the distance between the points accelerates. -/
theorem C86_acceleration_false : ∃ f' c, (Fn.add ⟨[], [], 0⟩ hA hC).updateValue st0 [q0] = some f' ∧ f'.cols[0]? = some c ∧ c.normalAcceleration st0 turning = 0 ∧
    (hullAcc st0 turning c.ch0 q0.p0 - hullAcc st0 turning c.ch1 q0.p1).dot c.n + (hullVel st0 c.ch0 q0.p0 - hullVel st0 c.ch1 q0.p1).dot c.speed = -2 := by
  refine ⟨_, _, rfl, rfl, ?_, ?_⟩
  · norm_num [Col.normalAcceleration, turning, alt, ptMotion, st0, mkCol, hA, hC, q0, nearest, position, PT.one, PT.mul, PT.inv, M3.mul, M3.tr, M3.one, M3.mulVec, V3.dot, V3.cross, Col.ch]
  · norm_num [hullAcc, inBody, turning, hullVel, pointVel, st0, mkCol, hA, hC, q0, PT.one, V3.dot, V3.cross, Col.ch, M3.one, M3.mulVec]

/-- At the first tick the speed of the normal vector is that vector over the time step, although nothing moved. -/
theorem C86_first_false : ∃ f' c, f0.updateValue st0 [q0] = some f' ∧ (f'.updateTime (1 / 100) 1).cols[0]? = some c ∧ c.speed = ⟨0, 100, 0⟩ := by
  refine ⟨_, _, rfl, rfl, ?_⟩
  ext <;> norm_num [mkCol, q0]

/-- The example, with the theorems: the value is the distance, the velocity is the one of the points along the normal, the Jacobian gives it. -/
example : ∃ f' c, f0.updateValue st0 [q0] = some f' ∧ f'.cols[0]? = some c ∧ f'.value = [q0].map Query.dist ∧ c.n = q0.dist⁻¹ • (q0.p0 - q0.p1) ∧
    c.velocity st0 = (hullVel st0 c.ch0 q0.p0 - hullVel st0 c.ch1 q0.p1).dot (q0.dist⁻¹ • (q0.p0 - q0.p1)) := by
  have hr : Reach f0 [(hA, hB)] := (Reach.init 0).add hB hA
  refine ⟨_, _, rfl, rfl, (C86_normal hr st0 [q0] rfl rfl).1, (C86_normal hr st0 [q0] rfl rfl).2.2 0 _ _ rfl rfl, C86_velocity_partial hr st0 [q0] rfl rfl 0 _ q0 rfl rfl ?_ ?_⟩
  · exact fun _ => ⟨by constructor <;> simp [mkCol, hA, hB, st0, M3.mul, M3.tr, M3.one, V3.dot, PT.one], Or.inl rfl⟩
  · exact fun h => by simp [mkCol, hB] at h

example : f0.updateValue st0 [q0] ≠ none := fun h => by
  obtain ⟨k, p, hk, h2, -⟩ := (C86_defined ((Reach.init 0).add hB hA) st0 [q0] rfl).1 h
  rw [List.getElem?_eq_none (by simp; omega)] at hk
  cases hk

end Verif.C86
